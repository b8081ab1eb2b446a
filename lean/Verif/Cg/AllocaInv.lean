import Verif.Cg.AllocaSpec
import Verif.Rv.Run
namespace Toycc.Cg.Alloca
open Toycc.Rv

theorem lt8 (x : W) : x.toNat < 256 ^ 8 := Nat.lt_of_lt_of_eq x.isLt (by decide)

theorem eight_toNat : (8 : W).toNat = 8 := by decide

theorem minus_eight (x : W) : x + BitVec.ofInt 64 (-8) = x - 8 := by
  rw [BitVec.sub_eq_add_neg, show BitVec.ofInt 64 (-8) = -(8 : W) from by decide]

/-- Positions relative to the lowest address. -/
def Area.p (a : Area) (x : W) : Nat := (x - a.lo).toNat

theorem p_lt (a : Area) (x : W) : a.p x < 2 ^ 64 := (x - a.lo).isLt

theorem p_sub (a : Area) (x y : W) : (x - y).toNat = (2 ^ 64 - a.p y + a.p x) % 2 ^ 64 := by
  unfold Area.p
  have := x.isLt
  have := y.isLt
  have := a.lo.isLt
  simp only [BitVec.toNat_sub]
  omega

theorem p_add (a : Area) (x : W) (k : Nat) : a.p (x + BitVec.ofNat 64 k) = (a.p x + k) % 2 ^ 64 := by
  unfold Area.p
  have := x.isLt
  have := a.lo.isLt
  simp only [BitVec.toNat_sub, BitVec.toNat_add, BitVec.toNat_ofNat]
  omega

theorem p_minus (a : Area) (x y : W) : a.p (x - y) = (a.p x + (2 ^ 64 - y.toNat)) % 2 ^ 64 := by
  unfold Area.p
  have := x.isLt
  have := y.isLt
  have := a.lo.isLt
  simp only [BitVec.toNat_sub]
  omega

theorem p_minus8 {a : Area} {x : W} (h : 8 ≤ a.p x) : a.p (x - 8) + 8 = a.p x := by
  rw [p_minus, eight_toNat]
  have := p_lt a x
  omega

theorem p_inj (a : Area) {x y : W} (h : a.p x = a.p y) : x = y := by
  unfold Area.p at h
  have := x.isLt
  have := y.isLt
  have := a.lo.isLt
  simp only [BitVec.toNat_sub] at h
  exact BitVec.eq_of_toNat_eq (by omega)

/-- The blocks, newest first, fill the `T` bytes below `top`. -/
inductive Chain (a : Area) : List (W × Nat) → Nat → Prop
  | nil : Chain a [] 0
  | cons {b n bs T} : Chain a bs T → a.p b + (T + (n + 7) / 8 * 8) = a.p a.top → Chain a ((b, n) :: bs) (T + (n + 7) / 8 * 8)

theorem chain_in {a : Area} {bs T} (h : Chain a bs T) : ∀ b ∈ bs, ∀ x, inBlock x b → a.p a.top ≤ a.p x + T ∧ a.p x < a.p a.top := by
  induction h with
  | nil => intro b hb; cases hb
  | @cons b n bs T h e ih =>
    intro c hc x hx
    rcases List.mem_cons.mp hc with rfl | hc
    · unfold inBlock at hx
      rw [p_sub a] at hx
      have := p_lt a x
      have := p_lt a b
      have := p_lt a a.top
      simp only at hx
      omega
    · have := ih c hc x hx
      omega

theorem chain_disjoint {a : Area} {bs T} (h : Chain a bs T) : bs.Pairwise fun b c => ∀ x, ¬ (inBlock x b ∧ inBlock x c) := by
  induction h with
  | nil => exact .nil
  | @cons b n bs T h e ih =>
    refine .cons ?_ ih
    intro c hc x ⟨hx, hy⟩
    have h1 := chain_in h c hc x hy
    unfold inBlock at hx
    rw [p_sub a] at hx
    have := p_lt a x
    have := p_lt a b
    have := p_lt a a.top
    simp only at hx
    omega

theorem chain_dvd {a : Area} {bs T} (h : Chain a bs T) : T % 8 = 0 := by
  induction h with
  | nil => rfl
  | cons h e ih => omega

structure Inv (a : Area) (s : St) (A : Abs) (T : Nat) : Prop where
  fp : s.r .fp = a.fp
  sp : a.p (s.r .sp) + (T + 8 * A.temps.length) = a.p a.top
  slot : ∃ bot : W, readN s.mem a.slot 8 = bot.toNat ∧ a.p bot + T = a.p a.top
  temps : ∀ i v, A.temps[i]? = some v → readN s.mem (s.r .sp + BitVec.ofNat 64 (8 * i)) 8 = v.toNat
  chain : Chain a A.blocks T
  known : ∀ x v, A.known x = some v → s.mem x = v ∧ a.p a.top ≤ a.p x + T ∧ ¬ a.inSlot x

theorem Inv.holds {a : Area} {s A T} (h : Inv a s A T) : Holds a s A where
  temps := h.temps
  known := fun x v e => (h.known x v e).1
  inside := by
    intro b hb x hx
    have h1 := chain_in h.chain b hb x hx
    have h2 := h.sp
    refine ⟨h1.2, ?_⟩
    unfold inTemps
    rw [p_sub a]
    have := p_lt a x
    have := p_lt a a.top
    omega
  disjoint := chain_disjoint h.chain
  below := by
    intro b hb x hx
    have h1 := chain_in h.chain b hb x hx
    have h2 := h.sp
    show ¬ a.p x < a.p (s.r .sp)
    omega

/-- Running straight-line code alone. -/
theorem alone_exec {env : Env} {c : List Instr} {s s1 s' : St} (h : Alone env c s s') (e : execL env c s = some s1) : s' = s1 := by
  have h1 := runs_execL (env := env) (codeAt_self c) e
  rw [Nat.zero_add] at h1
  have := Runs.det h h1 (by simp) (by simp)
  exact congrArg Prod.snd this

theorem unique_alloca {off : Int} {l1 l2 : Label} (h : l1 ≠ l2) : UniqueLabels (allocaCode off l1 l2) := by
  intro i j l hi hj
  have e : allocaCode off l1 l2 = allocaHead off ++ (allocaLoop l1 l2 ++ [.op .sub .a0 .t1 .t0, .store .d .a0 0 .t5]) := rfl
  have key : ∀ i : Nat, (allocaCode off l1 l2)[i]? = some (.label l) → (i = 10 ∧ l = l1) ∨ (i = 18 ∧ l = l2) := by
    intro i hi
    have hlt : i < 21 := (List.getElem?_eq_some_iff.mp hi).1
    have : i = 0 ∨ i = 1 ∨ i = 2 ∨ i = 3 ∨ i = 4 ∨ i = 5 ∨ i = 6 ∨ i = 7 ∨ i = 8 ∨ i = 9 ∨ i = 10 ∨ i = 11 ∨ i = 12 ∨ i = 13 ∨ i = 14 ∨ i = 15 ∨ i = 16 ∨ i = 17 ∨
      i = 18 ∨ i = 19 ∨ i = 20 := by omega
    rcases this with rfl | rfl | rfl | rfl | rfl | rfl | rfl | rfl | rfl | rfl | rfl | rfl | rfl | rfl | rfl | rfl | rfl | rfl | rfl | rfl | rfl <;>
      simp [allocaCode, allocaHead, allocaLoop] at hi <;> simp [hi]
  rcases key i hi with ⟨a, b⟩ | ⟨a, b⟩ <;> rcases key j hj with ⟨c, d⟩ | ⟨c, d⟩
  · omega
  · exact absurd (b.symm.trans d) h
  · exact absurd (d.symm.trans b) h
  · omega

theorem readN_same (a : Area) {m m' : Mem} {x : W} {n : Nat} (h : ∀ y, (y - x).toNat < n → m y = m' y) (hn : n ≤ 2 ^ 64) : readN m x n = readN m' x n := by
  refine readN_congr fun i hi => h _ ?_
  have := x.isLt
  simp only [BitVec.toNat_sub, BitVec.toNat_add, BitVec.toNat_ofNat]
  omega

theorem readN_shift {m m' : Mem} {x y : W} {n : Nat} (h : ∀ j, j < n → m' (y + BitVec.ofNat 64 j) = m (x + BitVec.ofNat 64 j)) : readN m x n = readN m' y n := by
  induction n with
  | zero => rfl
  | succ n ih => rw [readN, readN, ih (fun i hi => h i (by omega)), h n (by omega)]

theorem inv_start {a : Area} {s : St} (h1 : s.r .fp = a.fp) (h2 : s.r .sp = a.top) (h3 : readN s.mem a.slot 8 = a.top.toNat) : Inv a s ⟨[], [], fun _ => none⟩ 0 where
  fp := h1
  sp := by rw [h2]; rfl
  slot := ⟨_, h3, rfl⟩
  temps := by intro i v h; cases h
  chain := .nil
  known := by intro x v h; cases h

theorem slot_out {a : Area} (ok : a.Ok) {x : W} (h : a.inSlot x) : a.p a.top ≤ a.p x := by
  have := ok x h
  exact Nat.le_of_not_lt this

/-- What does not touch the slot nor anything from the stack pointer up keeps the invariant. -/
theorem inv_other {a : Area} (ok : a.Ok) {s s' : St} {A : Abs} {T} (h : Inv a s A T) (h1 : s'.r .sp = s.r .sp) (h2 : s'.r .fp = s.r .fp)
    (h3 : ∀ x, ¬ (x - a.lo).toNat < (s.r .sp - a.lo).toNat → s'.mem x = s.mem x) : Inv a s' A T where
  fp := by rw [h2, h.fp]
  sp := by rw [h1, h.sp]
  slot := by
    obtain ⟨b, e, r⟩ := h.slot
    refine ⟨b, ?_, r⟩
    rw [← e]
    refine readN_same a (fun y hy => h3 y ?_) (by decide)
    have := slot_out ok hy
    have := h.sp
    show ¬ a.p y < a.p (s.r .sp)
    omega
  temps := by
    intro i v e
    rw [← h.temps i v e, h1]
    have hi : i < A.temps.length := (List.getElem?_eq_some_iff.mp e).1
    refine readN_same a (fun y hy => h3 y ?_) (by decide)
    show ¬ a.p y < a.p (s.r .sp)
    rw [p_sub a, p_add] at hy
    have := h.sp
    have := p_lt a y
    have := p_lt a a.top
    omega
  chain := h.chain
  known := by
    intro x v e
    obtain ⟨k1, k2, k3⟩ := h.known x v e
    refine ⟨?_, k2, k3⟩
    rw [h3 x, k1]
    show ¬ a.p x < a.p (s.r .sp)
    have := h.sp
    omega

theorem inv_push {a : Area} (ok : a.Ok) {env : Env} {s s' : St} {A : Abs} {T} (h : Inv a s A T) (r : Reg) (hr : r ≠ .sp) (room : 8 ≤ (s.r .sp - a.lo).toNat)
    (hx : Alone env (pushI r) s s') : Inv a s' { A with temps := s.r r :: A.temps } T := by
  obtain ⟨s1, e, v1, v2, v3⟩ : ∃ s1, execL env (pushI r) s = some s1 ∧ s1.r .sp = s.r .sp - 8 ∧ s1.r .fp = s.r .fp ∧ s1.mem = writeN s.mem (s.r .sp - 8) 8 (s.r r).toNat := by
    obtain ⟨s1, e, k, v1, v3⟩ := exec_push env s r hr
    exact ⟨s1, e, v1, k .fp (by decide), v3⟩
  have := alone_exec hx e
  subst this
  have q : a.p (s.r .sp - 8) + 8 = a.p (s.r .sp) := by
    have room : 8 ≤ a.p (s.r .sp) := room
    exact p_minus8 room
  have keep : ∀ x, ¬ a.p x < a.p (s.r .sp) → s'.mem x = s.mem x := by
    intro x hx
    rw [v3, writeN, if_neg]
    rw [p_sub a]
    have := p_lt a x
    omega
  have hsp := h.sp
  have lt := p_lt a a.top
  refine ⟨by rw [v2, h.fp], ?_, ?_, ?_, h.chain, ?_⟩
  · rw [v1]
    simp only [List.length_cons]
    omega
  · obtain ⟨b, e, r⟩ := h.slot
    refine ⟨b, ?_, r⟩
    rw [← e]
    refine readN_same a (fun y hy => keep y ?_) (by decide)
    have := slot_out ok hy
    omega
  · intro i v hv
    cases i with
    | zero =>
      simp only [List.getElem?_cons_zero, Option.some.injEq] at hv
      subst hv
      have := readN_writeN s.mem (s.r .sp - 8) 8 (s.r r).toNat (by decide) 8 (by decide)
      rw [v1, v3]
      simp only [Nat.mul_zero, BitVec.add_zero]
      rw [this, Nat.mod_eq_of_lt (lt8 _)]
    | succ i =>
      simp only [List.getElem?_cons_succ] at hv
      have hi : i < A.temps.length := (List.getElem?_eq_some_iff.mp hv).1
      rw [← h.temps i v hv, v1]
      have : s.r .sp - 8 + BitVec.ofNat 64 (8 * (i + 1)) = s.r .sp + BitVec.ofNat 64 (8 * i) := by
        apply p_inj a
        rw [p_add, p_add]
        omega
      rw [this]
      refine readN_same a (fun y hy => keep y ?_) (by decide)
      rw [p_sub a, p_add] at hy
      have := p_lt a y
      omega
  · intro x v e
    obtain ⟨k1, k2, k3⟩ := h.known x v e
    refine ⟨?_, k2, k3⟩
    rw [keep x (by omega), k1]

theorem pop_value {env : Env} {s s' : St} {r : Reg} (hr : r ≠ .sp) (hf : r ≠ .fp) (hx : Alone env (popI r) s s') :
    s'.r .sp = s.r .sp + 8 ∧ s'.r .fp = s.r .fp ∧ s'.mem = s.mem ∧ (r ≠ .zero → (s'.r r).toNat = readN s.mem (s.r .sp) 8) := by
  obtain ⟨s1, e, v1, v2, v3, v4⟩ : ∃ s1, execL env (popI r) s = some s1 ∧ s1.r .sp = s.r .sp + 8 ∧ s1.r .fp = s.r .fp ∧ s1.mem = s.mem ∧
      (r ≠ .zero → s1.r r = extend false 8 (readN s.mem (s.r .sp) 8)) := by
    have e8 : BitVec.ofInt 64 8 = 8 := by decide
    have e0 : BitVec.ofInt 64 0 = 0 := by decide
    refine ⟨_, rfl, ?_, ?_, rfl, ?_⟩
    · rw [r_set_same _ _ _ (by decide), r_set_ne _ _ _ _ (Ne.symm hr), e8]
    · rw [r_set_ne _ _ _ _ (by decide), r_set_ne _ _ _ _ (Ne.symm hf)]
    · intro hz
      rw [r_set_ne _ _ _ _ hr, r_set_same _ _ _ hz, e0, add0]
      rfl
  have := alone_exec hx e
  subst this
  refine ⟨v1, v2, v3, fun hz => ?_⟩
  rw [v4 hz, extend, if_neg (by decide)]
  simp only [BitVec.signExtend_eq, BitVec.toNat_ofNat]
  exact Nat.mod_eq_of_lt (readN_lt _ _ 8)

theorem inv_pop {a : Area} {env : Env} {s s' : St} {A : Abs} {T} {v : W} {ts : List W} (h : Inv a s A T) (r : Reg) (ht : A.temps = v :: ts) (hr : r ≠ .sp) (hf : r ≠ .fp)
    (hx : Alone env (popI r) s s') : Inv a s' { A with temps := ts } T := by
  obtain ⟨v1, v2, v3, v4⟩ := pop_value hr hf hx
  have hsp := h.sp
  have lt := p_lt a a.top
  rw [ht] at hsp
  simp only [List.length_cons] at hsp
  have q : a.p (s.r .sp + 8) = a.p (s.r .sp) + 8 := by
    have := p_add a (s.r .sp) 8
    rw [show BitVec.ofNat 64 8 = (8 : W) from by decide] at this
    omega
  refine ⟨by rw [v2, h.fp], ?_, ?_, ?_, h.chain, ?_⟩
  · rw [v1, q]
    simp only
    omega
  · rw [v3]; exact h.slot
  · intro i w hw
    have := h.temps (i + 1) w (by rw [ht]; exact hw)
    rw [v1, v3, ← this]
    congr 1
    apply p_inj a
    rw [p_add, p_add, q]
    omega
  · rw [v3]; exact h.known

theorem inv_store {a : Area} {s : St} {A : Abs} {T} (h : Inv a s A T) (x : W) (v : BitVec 8)
    (hx : (∃ b ∈ A.blocks, inBlock x b) ∨ (¬ a.inStack x ∧ ¬ a.inSlot x)) (ok : a.Ok) :
    Inv a { s with mem := writeN s.mem x 1 v.toNat } { A with known := fun y => if y = x then some v else A.known y } T := by
  have hp : a.p a.top ≤ a.p x + T ∧ ¬ a.inSlot x := by
    rcases hx with ⟨b, hb, hx⟩ | ⟨h1, h2⟩
    · have := chain_in h.chain b hb x hx
      exact ⟨this.1, fun hs => by have := slot_out ok hs; omega⟩
    · exact ⟨Nat.le_add_right_of_le (Nat.le_of_not_lt h1), h2⟩
  have keep : ∀ y, y ≠ x → writeN s.mem x 1 v.toNat y = s.mem y := by
    intro y hy
    rw [writeN, if_neg]
    intro h
    exact hy (eq_of_sub0 (by omega))
  have hsp := h.sp
  have lt := p_lt a a.top
  have lx := p_lt a x
  refine ⟨h.fp, h.sp, ?_, ?_, h.chain, ?_⟩
  · obtain ⟨b, e, r⟩ := h.slot
    refine ⟨b, ?_, r⟩
    rw [← e]
    refine readN_same a (fun y hy => keep y ?_) (by decide)
    rintro rfl
    exact hp.2 hy
  · intro i w hw
    rw [← h.temps i w hw]
    have hi : i < A.temps.length := (List.getElem?_eq_some_iff.mp hw).1
    refine readN_same a (fun y hy => keep y ?_) (by decide)
    rintro rfl
    rw [p_sub a] at hy
    rw [show (({ s with mem := writeN s.mem y 1 v.toNat } : St).r .sp) = s.r .sp from rfl, p_add] at hy
    omega
  · intro y w hw
    simp only at hw
    split at hw
    · rename_i e
      subst e
      cases hw
      refine ⟨?_, hp⟩
      show writeN s.mem y 1 v.toNat y = v
      rw [writeN, if_pos (by simp)]
      simp
    · rename_i e
      obtain ⟨k1, k2, k3⟩ := h.known y w hw
      exact ⟨(keep y e).trans k1, k2, k3⟩

theorem inv_alloca {a : Area} (ok : a.Ok) {env : Env} {s s' : St} {A : Abs} {T} {l1 l2 : Label} (h : Inv a s A T) (hl : l1 ≠ l2)
    (room : ((s.r .a0).toNat + 7) / 8 * 8 ≤ (s.r .sp - a.lo).toNat) (hx : Alone env (allocaCode a.off l1 l2) s s') :
    ∃ T', Inv a s' { A with blocks := (s'.r .a0, (s.r .a0).toNat) :: A.blocks } T' := by
  obtain ⟨bot, hb, hbT⟩ := h.slot
  have hsp := h.sp
  have lt := p_lt a a.top
  have room : ((s.r .a0).toNat + 7) / 8 * 8 ≤ a.p (s.r .sp) := room
  have ls := p_lt a (s.r .sp)
  have hN := roundUp_toNat (s.r .a0) (by omega)
  obtain ⟨N, eN⟩ : ∃ N, N = roundUp (s.r .a0) := ⟨_, rfl⟩
  have hk : (bot - s.r .sp).toNat = 8 * A.temps.length := by
    rw [p_sub a]; omega
  obtain ⟨s1, r1, v1, v2, v3, v4⟩ := alloca_runs (env := env) (unique_alloca hl) (codeAt_self (allocaCode a.off l1 l2)) s bot
    (by rw [h.fp]; exact hb) (by rw [hk, hN]; omega)
  rw [Nat.zero_add] at r1
  have := congrArg Prod.snd (Runs.det hx r1 (by simp) (by simp))
  simp only at this
  subst this
  rw [← eN] at v1 v2 v3 hN
  have psp : a.p (s.r .sp - N) + N.toNat = a.p (s.r .sp) := by
    rw [p_minus]; omega
  have pb : a.p (bot - N) + N.toNat = a.p bot := by
    rw [p_minus]; omega
  rw [h.fp, hk] at v3
  have keep : ∀ x, a.p a.top ≤ a.p x + T → ¬ a.inSlot x → s'.mem x = s.mem x := by
    intro x h1 h2
    rw [v3, writeN, if_neg (show ¬ (x - (a.fp + BitVec.ofInt 64 a.off)).toNat < 8 from h2), moved, if_neg]
    rw [p_sub a]
    have := p_lt a x
    omega
  refine ⟨T + N.toNat, ?_, ?_, ?_, ?_, ?_, ?_⟩
  · rw [v4 .fp (by decide), h.fp]
  · rw [v1]
    simp only
    omega
  · refine ⟨bot - N, ?_, by omega⟩
    rw [v3]
    have := readN_writeN (moved s.mem (s.r .sp) (s.r .sp - N) (8 * A.temps.length)) (a.fp + BitVec.ofInt 64 a.off) 8 (bot - N).toNat (by decide) 8 (by decide)
    rw [Nat.mod_eq_of_lt (lt8 _)] at this
    exact this
  · intro i v hv
    have hi : i < A.temps.length := (List.getElem?_eq_some_iff.mp hv).1
    rw [← h.temps i v hv, v1]
    refine (readN_shift (m := s.mem) (m' := s'.mem) fun j hj => ?_).symm
    have e : s.r .sp - N + BitVec.ofNat 64 (8 * i) + BitVec.ofNat 64 j = (s.r .sp - N) + BitVec.ofNat 64 (8 * i + j) := by
      apply p_inj a
      simp only [p_add]
      omega
    have e' : s.r .sp + BitVec.ofNat 64 (8 * i) + BitVec.ofNat 64 j = s.r .sp + BitVec.ofNat 64 (8 * i + j) := by
      apply p_inj a
      simp only [p_add]
      omega
    have ns : ¬ a.inSlot (s.r .sp - N + BitVec.ofNat 64 (8 * i + j)) := by
      intro hs
      have := slot_out ok hs
      rw [p_add] at this
      omega
    have d : (s.r .sp - N + BitVec.ofNat 64 (8 * i + j) - (s.r .sp - N)) = BitVec.ofNat 64 (8 * i + j) := by
      rw [BitVec.add_comm, BitVec.add_sub_cancel]
    rw [e, e', v3, writeN, if_neg (show ¬ (s.r .sp - N + BitVec.ofNat 64 (8 * i + j) - (a.fp + BitVec.ofInt 64 a.off)).toNat < 8 from ns), moved, d, if_pos]
    rw [BitVec.toNat_ofNat]
    omega
  · rw [v2, hN]
    refine .cons h.chain ?_
    omega
  · intro x v e
    obtain ⟨k1, k2, k3⟩ := h.known x v e
    exact ⟨by rw [keep x k2 k3, k1], by omega, k3⟩

theorem inv_hist {a : Area} (ok : a.Ok) {env : Env} {s : St} {A : Abs} (h : Hist env a s A) : ∃ T, Inv a s A T := by
  induction h with
  | start h1 h2 h3 => exact ⟨0, inv_start h1 h2 h3⟩
  | push r _ room hr hx ih => exact ⟨_, inv_push ok ih.choose_spec r hr room hx⟩
  | pop r _ ht hr hf hx ih => exact ⟨_, inv_pop ih.choose_spec r ht hr hf hx⟩
  | alloca _ hl room hx ih => exact inv_alloca ok ih.choose_spec hl room hx
  | store x v _ hx ih => exact ⟨_, inv_store ih.choose_spec x v hx ok⟩
  | other _ h1 h2 h3 ih => exact ⟨_, inv_other ok ih.choose_spec h1 h2 h3⟩

end Toycc.Cg.Alloca
