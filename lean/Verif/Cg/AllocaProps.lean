import Verif.Cg.AllocaInv
import Verif.Fn.Model
import Verif.Cg.Labels
/-!
C64: alloca. The specification (histories and what must hold) is in `Verif.Cg.AllocaSpec`.
-/
namespace Toycc.Cg.Alloca
open Toycc.Rv Toycc.Fn

/-- C64. After any history: the saved values are on the stack in order, every byte of memory the program has stored to holds what was stored last, each block lies
in the stack below the frame, no two blocks overlap, and no block overlaps the saved values or what is below the stack pointer. -/
theorem C64_alloca_partial {a : Area} (ok : a.Ok) {env : Env} {s : St} {A : Abs} (h : Hist env a s A) : Holds a s A :=
  (inv_hist ok h).choose_spec.holds

/-- C64. What is taken back is what was saved last. -/
theorem C64_pop {a : Area} (ok : a.Ok) {env : Env} {s s' : St} {A : Abs} (h : Hist env a s A) {v : W} {ts : List W} (ht : A.temps = v :: ts) {r : Reg} (hr : r ≠ .sp)
    (hf : r ≠ .fp) (hz : r ≠ .zero) (hx : Alone env (popI r) s s') : s'.r r = v := by
  have h1 := (C64_alloca_partial ok h).temps 0 v (by rw [ht]; rfl)
  have h2 := (pop_value hr hf hx).2.2.2 hz
  apply BitVec.eq_of_toNat_eq
  rw [h2, ← h1]
  simp only [Nat.mul_zero, BitVec.add_zero]

/-- C64. alloca always returns when there is room for the size rounded up to 8: in particular the loop that moves the saved values ends. It runs wherever its code is placed,
and changes only the registers a0, t0 to t5 and sp. -/
theorem C64_returns {a : Area} (ok : a.Ok) {env : Env} {s : St} {A : Abs} (h : Hist env a s A) (room : ((s.r .a0).toNat + 7) / 8 * 8 ≤ (s.r .sp - a.lo).toNat)
    {P : Prog} (hu : UniqueLabels P) {l1 l2 : Label} {pc : Nat} (hc : CodeAt P pc (allocaCode a.off l1 l2)) :
    ∃ s', Runs P env (pc, s) (pc + (allocaCode a.off l1 l2).length, s') ∧ s'.r .fp = a.fp ∧ ∀ r, r ∉ [Reg.a0, .t0, .t1, .t2, .t3, .t4, .t5, .sp] → s'.r r = s.r r := by
  obtain ⟨T, h⟩ := inv_hist ok h
  obtain ⟨bot, hb, hbT⟩ := h.slot
  have hsp := h.sp
  have lt := p_lt a a.top
  have room : ((s.r .a0).toNat + 7) / 8 * 8 ≤ a.p (s.r .sp) := room
  have ls := p_lt a (s.r .sp)
  have hN := roundUp_toNat (s.r .a0) (by omega)
  have hk : (bot - s.r .sp).toNat = 8 * A.temps.length := by
    rw [p_sub a]; omega
  obtain ⟨s1, r1, v1, v2, v3, v4⟩ := alloca_runs (env := env) hu hc s bot
    (by rw [h.fp]; exact hb) (by rw [hk, hN]; omega)
  exact ⟨s1, r1, (v4 .fp (by decide)).trans h.fp, v4⟩

/-- C64. The blocks are aligned to 8 if the frame is. (Only to 8: not to 16, the alignment of long double.) -/
theorem C64_aligned {a : Area} (ok : a.Ok) {env : Env} {s : St} {A : Abs} (h : Hist env a s A) (hal : a.top.toNat % 8 = 0) : ∀ b ∈ A.blocks, b.1.toNat % 8 = 0 := by
  obtain ⟨T, h⟩ := inv_hist ok h
  have key : ∀ bs T, Chain a bs T → ∀ b ∈ bs, b.1.toNat % 8 = 0 := by
    intro bs T h
    induction h with
    | nil => intro b hb; cases hb
    | @cons b n bs T h e ih =>
      intro c hc
      rcases List.mem_cons.mp hc with rfl | hc
      · have h8 := chain_dvd h
        unfold Area.p at e
        have := a.top.isLt
        have := b.isLt
        have := a.lo.isLt
        simp only [BitVec.toNat_sub] at e
        show b.toNat % 8 = 0
        omega
      · exact ih c hc
  exact key _ _ h.chain

/-- C64. The end of the prologue (`Fn.prologue`) starts a history: alloca_bottom is initialised with the stack pointer. -/
theorem C64_prologue_starts (env : Env) (s : St) (off : Int) (lo : W) : ∃ s', execL env [.li .t0 off, .op .add .t0 .t0 .fp, .store .d .sp 0 .t0] s = some s' ∧
    Hist env ⟨s.r .fp, off, lo, s.r .sp⟩ s' ⟨[], [], fun _ => none⟩ := by
  obtain ⟨s1, e1⟩ : ∃ s1, s1 = (s.set .t0 (BitVec.ofInt 64 off)).set .t0 (BitVec.ofInt 64 off + s.r .fp) := ⟨_, rfl⟩
  have x1 : execL env [.li .t0 off, .op .add .t0 .t0 .fp] s = some s1 := by
    have : execL env [.li .t0 off, .op .add .t0 .t0 .fp] s = some ((s.set .t0 (BitVec.ofInt 64 off)).set .t0 (Alu.eval .add ((s.set .t0 (BitVec.ofInt 64 off)).r .t0)
      ((s.set .t0 (BitVec.ofInt 64 off)).r .fp))) := rfl
    rw [this, e1, r_set_same _ _ _ (by decide), r_set_ne _ _ _ _ (by decide)]
    rfl
  have vt : s1.r .t0 = s.r .fp + BitVec.ofInt 64 off := by rw [e1, r_set_same _ _ _ (by decide), BitVec.add_comm]
  have vs : s1.r .sp = s.r .sp := by rw [e1, r_set_ne _ _ _ _ (by decide), r_set_ne _ _ _ _ (by decide)]
  have vf : s1.r .fp = s.r .fp := by rw [e1, r_set_ne _ _ _ _ (by decide), r_set_ne _ _ _ _ (by decide)]
  have x2 : execL env [.store .d .sp 0 .t0] s1 = some { s1 with mem := writeN s1.mem (s1.r .t0 + BitVec.ofInt 64 0) 8 (s1.r .sp).toNat } := rfl
  refine ⟨({ s1 with mem := writeN s1.mem (s1.r .t0 + BitVec.ofInt 64 0) 8 (s1.r .sp).toNat } : St), ?_, .start ?_ ?_ ?_⟩
  · rw [show [Instr.li .t0 off, .op .add .t0 .t0 .fp, .store .d .sp 0 .t0] = [.li .t0 off, .op .add .t0 .t0 .fp] ++ [.store .d .sp 0 .t0] from rfl, execL_append, x1, Option.bind_some, x2]
  · rw [r_mem, vf]
  · rw [r_mem, vs]
  · show readN (writeN s1.mem (s1.r .t0 + BitVec.ofInt 64 0) 8 (s1.r .sp).toNat) (s.r .fp + BitVec.ofInt 64 off) 8 = (s.r .sp).toNat
    rw [vt, vs, show BitVec.ofInt 64 0 = 0 from by decide, add0, readN_writeN _ _ 8 _ (by decide) 8 (by decide), Nat.mod_eq_of_lt (lt8 _)]

/-! ### A history -/

/-- A stack of a megabyte. -/
def exArea : Area := ⟨0x7ff00100, -24, 0x7fe00000, 0x7ff00000⟩

theorem exArea_ok : exArea.Ok := by
  intro x h1 h2
  unfold Area.inSlot Area.slot at h1
  unfold Area.inStack at h2
  rw [show (exArea.top - exArea.lo).toNat = 0x100000 from by decide] at h2
  simp only [show exArea.fp + BitVec.ofInt 64 exArea.off = (0x7ff000e8 : W) from by decide, show exArea.lo = (0x7fe00000 : W) from rfl,
    BitVec.toNat_sub] at h1 h2
  have := x.isLt
  have e1 : (0x7ff000e8 : W).toNat = 0x7ff000e8 := by decide
  have e2 : (0x7fe00000 : W).toNat = 0x7fe00000 := by decide
  rw [e1] at h1
  rw [e2] at h2
  omega

/-- `alloca_bottom` initialised, all registers but sp and fp zero. -/
def exSt : St := ⟨fun r => if r = .sp then 0x7ff00000 else if r = .fp then 0x7ff00100 else 0, writeN (fun _ => 0) 0x7ff000e8 8 0x7ff00000⟩

theorem exStart (env : Env) : Hist env exArea exSt ⟨[], [], fun _ => none⟩ := by
  refine .start rfl rfl ?_
  rw [show exArea.slot = (0x7ff000e8 : W) from by decide]
  exact readN_writeN (fun _ => 0) (0x7ff000e8 : W) 8 0x7ff00000 (by decide) 8 (by decide)

/-- One alloca of `n` bytes from a state with room. -/
theorem exAlloca {env : Env} {a : Area} (ok : a.Ok) {s : St} {A : Abs} (h : Hist env a s A) (n : W) (room : (n.toNat + 7) / 8 * 8 ≤ (s.r .sp - a.lo).toNat) :
    ∃ s' b, Hist env a s' { A with blocks := (b, n.toNat) :: A.blocks } ∧ a.p (s'.r .sp) + (n.toNat + 7) / 8 * 8 = a.p (s.r .sp) := by
  have h' : Hist env a (s.set .a0 n) A := .other h (r_set_ne _ _ _ _ (by decide)) (r_set_ne _ _ _ _ (by decide)) (fun _ _ => rfl)
  have e1 : (s.set .a0 n).r .a0 = n := r_set_same _ _ _ (by decide)
  have e2 : (s.set .a0 n).r .sp = s.r .sp := r_set_ne _ _ _ _ (by decide)
  have room' : (((s.set .a0 n).r .a0).toNat + 7) / 8 * 8 ≤ ((s.set .a0 n).r .sp - a.lo).toNat := by rw [e1, e2]; exact room
  have hl : Label.uniq 1 ≠ .uniq 2 := by decide
  obtain ⟨s', r, _⟩ := C64_returns ok h' room' (unique_alloca (off := a.off) hl) (codeAt_self _)
  rw [Nat.zero_add] at r
  have h2 := Hist.alloca h' hl room' r
  rw [e1] at h2
  refine ⟨s', s'.r .a0, h2, ?_⟩
  obtain ⟨T, i1⟩ := inv_hist ok h'
  obtain ⟨bot, hb, hbT⟩ := i1.slot
  have hsp := i1.sp
  have lt := p_lt a a.top
  have room2 : (n.toNat + 7) / 8 * 8 ≤ a.p (s.r .sp) := room
  have ls := p_lt a (s.r .sp)
  have hN := roundUp_toNat n (by omega)
  rw [e2] at hsp
  have hk : (bot - s.r .sp).toNat = 8 * A.temps.length := by rw [p_sub a]; omega
  obtain ⟨s1, r1, v1, _⟩ := alloca_runs (env := env) (unique_alloca (off := a.off) hl) (codeAt_self (allocaCode a.off _ _)) (s.set .a0 n) bot
    (by rw [i1.fp]; exact hb) (by rw [e1, e2, hk, hN]; omega)
  rw [Nat.zero_add] at r1
  have := congrArg Prod.snd (Runs.det r r1 (by simp) (by simp))
  simp only at this
  subst this
  rw [v1, e1, e2, p_minus, hN]
  omega

example : ∃ s b c, Hist nullEnv exArea s ⟨[7], [(c, 100), (b, 5)], fun y => if y = b then some 42 else none⟩ := by
  have hp : exArea.p (exSt.r .sp) = 0x100000 := by decide
  obtain ⟨s1, b, h1, p1⟩ := exAlloca exArea_ok (exStart nullEnv) 5 (by decide)
  rw [show ((5 : W).toNat + 7) / 8 * 8 = 8 from by decide] at p1
  have h2 := h1.store b 42 (.inl ⟨(b, 5), List.mem_singleton.mpr rfl, by unfold inBlock; simp⟩)
  obtain ⟨s2, e2⟩ : ∃ s2, s2 = ({ s1 with mem := writeN s1.mem b 1 (42 : BitVec 8).toNat } : St).set .a1 7 := ⟨_, rfl⟩
  have q2 : s2.r .sp = s1.r .sp := by rw [e2]; exact r_set_ne _ _ _ _ (by decide)
  have h3 : Hist nullEnv exArea s2 _ := .other h2 (by rw [q2]; rfl) (by rw [e2]; exact r_set_ne _ _ _ _ (by decide)) (fun _ _ => by rw [e2]; rfl)
  obtain ⟨s3, x3, k3, v3, m3⟩ := exec_push nullEnv s2 .a1 (by decide)
  have r3 := runs_execL (env := nullEnv) (codeAt_self _) x3
  rw [Nat.zero_add] at r3
  have hroom : 8 ≤ exArea.p (s2.r .sp) := by rw [q2]; omega
  have h4 := h3.push .a1 hroom (by decide) r3
  have hv : s2.r .a1 = 7 := by rw [e2]; exact r_set_same _ _ _ (by decide)
  rw [hv] at h4
  have p3 := p_minus8 hroom
  rw [← v3, q2] at p3
  obtain ⟨s4, c, h5, _⟩ := exAlloca exArea_ok h4 100 (by
    rw [show ((100 : W).toNat + 7) / 8 * 8 = 104 from by decide]
    show 104 ≤ exArea.p (s3.r .sp)
    omega)
  exact ⟨s4, b, c, h5⟩

/-! ### What does not work -/

/-- Passing a structure of 24 bytes and then the size `n` for alloca: push_args, codegen.c:873-877, and push_struct. -/
def structThenSize (n : Nat) : List Instr := [Instr.mv .t1 .sp] ++ reserveStructs 3 ++ pushStruct 24 ++ [Instr.li .a0 n]

/-- push_struct without the final push. -/
def structCopy : List Instr := [.addi .t1 .t1 (-24), .load .d false .t0 0 .a0, .store .d .t0 0 .t1, .load .d false .t0 8 .a0,
    .store .d .t0 8 .t1, .load .d false .t0 16 .a0, .store .d .t0 16 .t1]

theorem minus24 (x : W) : x + BitVec.ofInt 64 (-24) = x - 24 := by rw [BitVec.sub_eq_add_neg, show BitVec.ofInt 64 (-24) = -(24 : W) from by decide]

theorem write_out {m : Mem} {x y : W} {j v : Nat} (hx : 24 ≤ (x - y).toNat) (hj : j + 8 ≤ 24) : writeN m (y + BitVec.ofNat 64 j) 8 v x = m x := by
  rw [writeN, if_neg]
  have := y.isLt
  have := x.isLt
  simp only [BitVec.toNat_sub, BitVec.toNat_add, BitVec.toNat_ofNat] at hx ⊢
  omega

theorem structCopy_runs (env : Env) (s : St) : ∃ s1, execL env structCopy s = some s1 ∧ s1.r .t1 = s.r .t1 - 24 ∧ Same [.t0, .t1] s s1 ∧
    ∀ x, 24 ≤ (x - (s.r .t1 - 24)).toNat → s1.mem x = s.mem x := by
  have c0 : BitVec.ofInt 64 0 = BitVec.ofNat 64 0 := by decide
  have c8 : BitVec.ofInt 64 8 = BitVec.ofNat 64 8 := by decide
  have c16 : BitVec.ofInt 64 16 = BitVec.ofNat 64 16 := by decide
  obtain ⟨s1, e1⟩ : ∃ s1, s1 = s.set .t1 (s.r .t1 + BitVec.ofInt 64 (-24)) := ⟨_, rfl⟩
  have t1 : s1.r .t1 = s.r .t1 - 24 := by rw [e1, r_set_same _ _ _ (by decide), minus24]
  have one : ∀ (s : St) (o : Int), ∃ s', execL env [.load .d false .t0 o .a0, .store .d .t0 o .t1] s = some s' ∧ s'.r .t1 = s.r .t1 ∧ Same [.t0] s s' ∧
      ∃ v, s'.mem = writeN s.mem (s.r .t1 + BitVec.ofInt 64 o) 8 v := by
    intro s o
    refine ⟨_, rfl, ?_, (same_set (by simp)).trans same_mem, ((s.set .t0 (extend false 8 (readN s.mem (s.r .a0 + BitVec.ofInt 64 o) 8))).r .t0).toNat, ?_⟩
    · rw [r_mem, r_set_ne _ _ _ _ (by decide)]
    · rw [mem_set, r_set_ne _ .t0 .t1 _ (by decide)]; rfl
  obtain ⟨s2, x2, a2, k2, v2, m2⟩ := one s1 0
  obtain ⟨s3, x3, a3, k3, v3, m3⟩ := one s2 8
  obtain ⟨s4, x4, a4, k4, v4, m4⟩ := one s3 16
  have hsub : ∀ x, x ∈ [Reg.t0] → x ∈ [Reg.t0, .t1] := by simp
  refine ⟨s4, ?_, by rw [a4, a3, a2, t1], ?_, ?_⟩
  · have : structCopy = [.addi .t1 .t1 (-24)] ++ ([.load .d false .t0 0 .a0, .store .d .t0 0 .t1] ++ ([.load .d false .t0 8 .a0, .store .d .t0 8 .t1] ++
      [.load .d false .t0 16 .a0, .store .d .t0 16 .t1])) := rfl
    rw [this, execL_append, show execL env [.addi .t1 .t1 (-24)] s = some s1 from by rw [e1]; rfl, Option.bind_some, execL_append, x2, Option.bind_some, execL_append, x3,
      Option.bind_some, x4]
  · have h1 : Same [.t0, .t1] s s1 := by rw [e1]; exact same_set (by simp)
    exact h1.trans ((k2.mono hsub).trans ((k3.mono hsub).trans (k4.mono hsub)))
  · intro x hx
    rw [m4, m3, m2, a3, a2, t1, c0, c8, c16, write_out hx (by decide), write_out hx (by decide), write_out hx (by decide), e1, mem_set]

theorem structThenSize_runs (env : Env) (s : St) (n : Nat) : ∃ s1, execL env (structThenSize n) s = some s1 ∧ s1.r .sp = s.r .sp - 32 ∧ s1.r .fp = s.r .fp ∧
    s1.r .a0 = BitVec.ofNat 64 n ∧ (∀ x, 32 ≤ (x - (s.r .sp - 32)).toNat → s1.mem x = s.mem x) ∧ readN s1.mem (s.r .sp - 32) 8 = (s.r .sp - 24).toNat := by
  have e : structThenSize n = [Instr.mv .t1 .sp, .addi .sp .sp (-24)] ++ (structCopy ++ (pushI .t1 ++ [.li .a0 n])) := rfl
  obtain ⟨s0, e0⟩ : ∃ s0, s0 = (s.set .t1 (s.r .sp)).set .sp (s.r .sp - 24) := ⟨_, rfl⟩
  have x0 : execL env [Instr.mv .t1 .sp, .addi .sp .sp (-24)] s = some s0 := by
    have : execL env [Instr.mv .t1 .sp, .addi .sp .sp (-24)] s = some ((s.set .t1 (s.r .sp)).set .sp ((s.set .t1 (s.r .sp)).r .sp + BitVec.ofInt 64 (-24))) := rfl
    rw [this, e0, r_set_ne _ _ _ _ (by decide), minus24]
  have t0 : s0.r .t1 = s.r .sp := by rw [e0, r_set_ne _ _ _ _ (by decide), r_set_same _ _ _ (by decide)]
  obtain ⟨s1, x1, v2, k1, v4⟩ := structCopy_runs env s0
  rw [t0] at v2 v4
  have v1 : s1.r .sp = s.r .sp - 24 := by rw [k1 .sp (by decide), e0, r_set_same _ _ _ (by decide)]
  have v3 : s1.r .fp = s.r .fp := by rw [k1 .fp (by decide), e0, r_set_ne _ _ _ _ (by decide), r_set_ne _ _ _ _ (by decide)]
  obtain ⟨s2, x2, k2, w2, m2⟩ := exec_push env s1 .t1 (by decide)
  have q : s.r .sp - 24 - 8 = s.r .sp - 32 := by
    generalize s.r .sp = y
    rw [BitVec.sub_eq_add_neg, BitVec.sub_eq_add_neg, BitVec.sub_eq_add_neg, BitVec.add_assoc, show -(24 : W) + -8 = -32 from by decide]
  rw [v1, q] at w2 m2
  rw [v2] at m2
  refine ⟨s2.set .a0 (BitVec.ofInt 64 n), ?_, ?_, ?_, ?_, ?_, ?_⟩
  · rw [e, execL_append, x0, Option.bind_some, execL_append, x1, Option.bind_some, execL_append, x2]
    rfl
  · rw [r_set_ne _ _ _ _ (by decide), w2]
  · rw [r_set_ne _ _ _ _ (by decide), k2 .fp (by decide), v3]
  · rw [r_set_same _ _ _ (by decide), BitVec.ofInt_natCast]
  · intro x hx
    rw [mem_set, m2, writeN, if_neg (by omega)]
    have e0m : s0.mem = s.mem := by rw [e0]; rfl
    rw [← e0m]
    apply v4
    rw [← q] at hx
    have := (s.r .sp - 24).isLt
    have := x.isLt
    revert hx
    generalize s.r .sp - 24 = y at *
    intro hx
    simp only [BitVec.toNat_sub, eight_toNat] at hx ⊢
    omega
  · rw [mem_set, m2, readN_writeN _ _ 8 _ (by decide) 8 (by decide), Nat.mod_eq_of_lt (lt8 _)]

/-- C64 fails for an argument passed by reference. In `f(alloca(n), s)` with `s` a structure of 24 bytes the arguments are evaluated from right to left: a copy of
`s` is placed below the stack pointer and its address is saved for f; then alloca moves the copy, and the saved address points into the block alloca has returned
(for every n from 24 on, here with no other saved values): both parameters of `f` share memory, and the second is not a copy of `s`. -/
theorem C64_violated_struct_argument {env : Env} {P : Prog} (hu : UniqueLabels P) {off : Int} {l1 l2 : Label} {pc : Nat} {n : Nat} (s : St) (hn : 24 ≤ n) (hn' : n + 40 < 2 ^ 63)
    (hc : CodeAt P pc (structThenSize n ++ allocaCode off l1 l2))
    (hbot : readN s.mem (s.r .fp + BitVec.ofInt 64 off) 8 = (s.r .sp).toNat) (hslot : (s.r .fp + BitVec.ofInt 64 off - s.r .sp).toNat < 2 ^ 62) :
    ∃ s', Runs P env (pc, s) (pc + (structThenSize n ++ allocaCode off l1 l2).length, s') ∧
      -- the address that will be passed as second argument
      readN s'.mem (s'.r .sp) 8 = (s.r .sp - 24).toNat ∧ inBlock (s.r .sp - 24) (s'.r .a0, n) := by
  obtain ⟨s1, x1, v1, v2, v3, v4, v5⟩ := structThenSize_runs env s n
  have e24 : (24 : W).toNat = 24 := by decide
  have e32 : (32 : W).toNat = 32 := by decide
  have ea : (s1.r .a0).toNat = n := by rw [v3, BitVec.toNat_ofNat]; omega
  have hN := roundUp_toNat (s1.r .a0) (by omega)
  rw [ea] at hN
  have hd : (s.r .sp - s1.r .sp).toNat = 32 := by
    rw [v1]
    have := (s.r .sp).isLt
    simp only [BitVec.toNat_sub, e32]
    omega
  have hb : readN s1.mem (s1.r .fp + BitVec.ofInt 64 off) 8 = (s.r .sp).toNat := by
    rw [v2, ← hbot]
    refine readN_same exArea (fun y hy => v4 y ?_) (by decide)
    have := (s.r .sp).isLt
    have := y.isLt
    have := (s.r .fp + BitVec.ofInt 64 off).isLt
    revert hslot hy
    generalize s.r .fp + BitVec.ofInt 64 off = z at *
    intro hslot hy
    simp only [BitVec.toNat_sub, e32] at hy hslot ⊢
    omega
  obtain ⟨s2, r2, w1, w2, w3, w4⟩ := alloca_runs (env := env) hu hc.right s1 (s.r .sp) hb (by rw [hd, hN]; omega)
  refine ⟨s2, ?_, ?_, ?_⟩
  · have := (runs_execL (env := env) hc.left x1).trans r2
    rw [List.length_append, ← Nat.add_assoc]
    exact this
  · rw [w1, w3, hd]
    have hz : ∀ j, j < 8 → writeN (moved s1.mem (s1.r .sp) (s1.r .sp - roundUp (s1.r .a0)) 32) (s1.r .fp + BitVec.ofInt 64 off) 8 (s.r .sp - roundUp (s1.r .a0)).toNat
        (s1.r .sp - roundUp (s1.r .a0) + BitVec.ofNat 64 j) = s1.mem (s1.r .sp + BitVec.ofNat 64 j) := by
      intro j hj
      rw [writeN, if_neg, moved, BitVec.add_comm _ (BitVec.ofNat 64 j), BitVec.add_sub_cancel, if_pos]
      · rw [BitVec.toNat_ofNat]; omega
      · rw [v1, v2]
        have := (s.r .sp).isLt
        have := (s.r .fp + BitVec.ofInt 64 off).isLt
        revert hslot
        generalize s.r .fp + BitVec.ofInt 64 off = z at *
        generalize roundUp (s1.r .a0) = N at *
        intro hslot
        simp only [BitVec.toNat_sub, BitVec.toNat_add, BitVec.toNat_ofNat, e32] at hslot ⊢
        omega
    rw [← readN_shift hz, v1, v5]
  · unfold inBlock
    rw [w2]
    have := (s.r .sp).isLt
    generalize roundUp (s1.r .a0) = N at *
    have := N.isLt
    simp only [BitVec.toNat_sub, e24]
    omega

/-- The hypotheses are met: the megabyte stack above. -/
example (n : Nat) : readN exSt.mem (exSt.r .fp + BitVec.ofInt 64 (-24)) 8 = (exSt.r .sp).toNat ∧ (exSt.r .fp + BitVec.ofInt 64 (-24) - exSt.r .sp).toNat < 2 ^ 62 ∧
    UniqueLabels (structThenSize n ++ allocaCode (-24) (.uniq 1) (.uniq 2)) := by
  refine ⟨?_, by decide, ?_⟩
  · rw [show exSt.r .fp + BitVec.ofInt 64 (-24) = (0x7ff000e8 : W) from by decide, show (exSt.r .sp).toNat = 0x7ff00000 from by decide]
    exact readN_writeN (fun _ => 0) (0x7ff000e8 : W) 8 0x7ff00000 (by decide) 8 (by decide)
  · exact unique_of_nodup (show [Label.uniq 1, .uniq 2].Nodup by decide)

end Toycc.Cg.Alloca
