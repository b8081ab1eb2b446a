import Verif.Vla.Spec
import Verif.Cg.AllocaProps
/-! The code of the declaration of an array of variable length, over the histories of C64. -/
namespace Toycc.Vla
open Toycc.Cg Toycc.Rv Toycc.Cg.Alloca

/-- What the program knows after storing the low `n` bytes of `v` at `x`. -/
def knowing (x : W) (n v : Nat) (A : Abs) : Abs :=
  { A with known := fun y => if (y - x).toNat < n then some (BitVec.ofNat 8 (v / 256 ^ (y - x).toNat)) else A.known y }

theorem idx_toNat (x : W) {n : Nat} (h : n < 2 ^ 64) : (x + BitVec.ofNat 64 n - x).toNat = n := by
  rw [BitVec.add_comm, BitVec.add_sub_cancel, BitVec.toNat_ofNat]; omega

theorem idx_eq {x y : W} {n : Nat} (h : (y - x).toNat = n) : y = x + BitVec.ofNat 64 n := by
  rw [← h, BitVec.ofNat_toNat, BitVec.setWidth_eq, BitVec.add_comm]; exact (BitVec.sub_add_cancel y x).symm

theorem hist_store {env : Env} {a : Area} {s : St} {A : Abs} (h : Hist env a s A) (x : W) (v : Nat) :
    ∀ n, n ≤ 8 → (∀ i, i < 8 → ¬ a.inStack (x + BitVec.ofNat 64 i) ∧ ¬ a.inSlot (x + BitVec.ofNat 64 i)) →
      Hist env a { s with mem := writeN s.mem x n v } (knowing x n v A) := by
  intro n
  induction n with
  | zero =>
    intro _ _
    have e1 : writeN s.mem x 0 v = s.mem := by funext b; simp [writeN]
    have e2 : knowing x 0 v A = A := by simp [knowing]
    rw [e1, e2]; exact h
  | succ n ih =>
    intro hn hx
    have h1 := Hist.store (x + BitVec.ofNat 64 n) (BitVec.ofNat 8 (v / 256 ^ n)) (ih (by omega) hx) (.inr (hx n (by omega)))
    have key : ∀ y : W, (y - x).toNat < n + 1 ↔ (y - x).toNat < n ∨ y = x + BitVec.ofNat 64 n := by
      intro y
      constructor
      · intro h
        rcases Nat.lt_or_ge (y - x).toNat n with h' | h'
        · exact .inl h'
        · exact .inr (idx_eq (by omega))
      · rintro (h | rfl)
        · omega
        · rw [idx_toNat x (by omega)]; omega
    have e1 : writeN (writeN s.mem x n v) (x + BitVec.ofNat 64 n) 1 (BitVec.ofNat 8 (v / 256 ^ n)).toNat = writeN s.mem x (n + 1) v := by
      funext y
      by_cases hy : y = x + BitVec.ofNat 64 n
      · subst hy
        have := idx_toNat x (n := n) (by omega)
        simp [writeN, this]
        apply BitVec.eq_of_toNat_eq
        simp
      · have h3 : ¬ (y - (x + BitVec.ofNat 64 n)).toNat < 1 := by
          intro hc
          exact hy (by have := idx_eq (x := x + BitVec.ofNat 64 n) (y := y) (n := 0) (by omega); simpa using this)
        simp only [writeN]
        rw [if_neg h3]
        by_cases h4 : (y - x).toNat < n
        · rw [if_pos h4, if_pos (by omega)]
        · rw [if_neg h4, if_neg]
          intro hc
          rcases (key y).mp hc with h5 | h5
          · exact h4 h5
          · exact hy h5
    have e2 : (⟨A.temps, A.blocks, fun y => if y = x + BitVec.ofNat 64 n then some (BitVec.ofNat 8 (v / 256 ^ n)) else (knowing x n v A).known y⟩ : Abs) = knowing x (n + 1) v A := by
      unfold knowing
      congr 1
      funext y
      by_cases hy : y = x + BitVec.ofNat 64 n
      · subst hy
        have := idx_toNat x (n := n) (by omega)
        simp [this]
      · rw [if_neg hy]
        by_cases h4 : (y - x).toNat < n
        · simp only; rw [if_pos h4, if_pos (by omega)]
        · simp only
          rw [if_neg h4, if_neg]
          intro hc
          rcases (key y).mp hc with h5 | h5
          · exact h4 h5
          · exact hy h5
    rw [← e1, ← e2]
    exact h1

theorem readN_frame {m : Mem} {x y : W} {v n k : Nat} (h : ∀ i, i < k → ¬ (y + BitVec.ofNat 64 i - x).toNat < n) : readN (writeN m x n v) y k = readN m y k :=
  readN_congr fun i hi => by
    unfold writeN
    rw [if_neg (h i hi)]

/-- The declaration runs, allocates a block of the size and keeps its address in the variable. -/
theorem decl_runs {a : Area} (ok : a.Ok) {env : Env} {s : St} {A : Abs} (h : Hist env a s A) {off size : Int} {n : Nat}
    (hn : readN s.mem (a.fp + BitVec.ofInt 64 size) 8 = n)
    (hs : ∀ i, i < 8 → ¬ a.inStack (a.fp + BitVec.ofInt 64 size + BitVec.ofNat 64 i))
    (hv : ∀ i, i < 8 → ¬ a.inStack (a.fp + BitVec.ofInt 64 off + BitVec.ofNat 64 i) ∧ ¬ a.inSlot (a.fp + BitVec.ofInt 64 off + BitVec.ofNat 64 i))
    (room : (n + 7) / 8 * 8 + 8 ≤ (s.r .sp - a.lo).toNat) {P : Prog} (hu : UniqueLabels P) {l1 l2 : Label} {pc : Nat}
    (hc : CodeAt P pc (declCode off size a.off l1 l2)) :
    ∃ s' b, Runs P env (pc, s) (pc + (declCode off size a.off l1 l2).length, s') ∧
      Hist env a s' (knowing (a.fp + BitVec.ofInt 64 off) 8 b.toNat { A with blocks := (b, n) :: A.blocks }) ∧
      readN s'.mem (a.fp + BitVec.ofInt 64 off) 8 = b.toNat := by
  obtain ⟨T, iv⟩ := inv_hist ok h
  have hfp := iv.fp
  unfold declCode at hc ⊢
  -- the address of the variable
  have c1 := hc.left.left.left.left.left.left
  have c2 := hc.left.left.left.left.left.right
  have c3 := hc.left.left.left.left.right
  have c4 := hc.left.left.left.right
  have c5 := hc.left.left.right
  have c6 := hc.left.right
  have c7 := hc.right
  obtain ⟨s1, e1, v1, f1, p1, m1⟩ : ∃ s1, execL env [.li .a0 off, .op .add .a0 .a0 .fp] s = some s1 ∧ s1.r .a0 = a.fp + BitVec.ofInt 64 off ∧ s1.r .fp = a.fp ∧ s1.r .sp = s.r .sp ∧
      s1.mem = s.mem := by
    refine ⟨_, rfl, ?_, ?_, ?_, rfl⟩
    · rw [r_set_same _ _ _ (by decide), r_set_same _ _ _ (by decide), r_set_ne _ _ _ _ (by decide), hfp]
      exact BitVec.add_comm _ _
    · rw [r_set_ne _ _ _ _ (by decide), r_set_ne _ _ _ _ (by decide), hfp]
    · rw [r_set_ne _ _ _ _ (by decide), r_set_ne _ _ _ _ (by decide)]
  have h1 : Hist env a s1 A := .other h p1 (by rw [f1, hfp]) (fun x _ => by rw [m1])
  -- saved
  obtain ⟨s2, e2, k2, p2, m2⟩ := exec_push env s1 .a0 (by decide)
  have f2 : s2.r .fp = a.fp := by rw [k2 .fp (by decide), f1]
  have h2 : Hist env a s2 { A with temps := (a.fp + BitVec.ofInt 64 off) :: A.temps } := by
    have := Hist.push .a0 h1 (by rw [p1]; omega) (by decide) (by have := runs_execL (env := env) (codeAt_self (pushI .a0)) e2; rwa [Nat.zero_add] at this)
    rwa [v1] at this
  have lt := p_lt a a.top
  have ls := p_lt a (s.r .sp)
  have hsp := iv.sp
  have hpos : a.p (s.r .sp) = (s.r .sp - a.lo).toNat := rfl
  -- the size
  have r2 : readN s2.mem (a.fp + BitVec.ofInt 64 size) 8 = n := by
    rw [m2, readN_frame, m1, hn]
    intro i hi hlt
    apply hs i hi
    unfold Area.inStack
    generalize a.fp + BitVec.ofInt 64 size + BitVec.ofNat 64 i = y at hlt ⊢
    rw [p1] at hlt
    have e8 := p_minus8 (a := a) (x := s.r .sp) (by omega)
    have hy := p_sub a y (s.r .sp - 8)
    have ly := p_lt a y
    have htop : a.p (s.r .sp) ≤ a.p a.top := by omega
    show a.p y < a.p a.top
    have := p_lt a (s.r .sp - 8)
    omega
  obtain ⟨s3, e3, k3, v3, m3⟩ := exec_addOffset env s2 .fp size (by decide)
  obtain ⟨s4, e4, v4, f4, p4, m4⟩ : ∃ s4, execL env [.load .d false .a0 0 .a0] s3 = some s4 ∧ (s4.r .a0).toNat = n ∧ s4.r .fp = a.fp ∧ s4.r .sp = s2.r .sp ∧ s4.mem = s2.mem := by
    refine ⟨_, rfl, ?_, ?_, ?_, ?_⟩
    · rw [r_set_same _ _ _ (by decide), v3, f2, show BitVec.ofInt 64 0 = 0 from by decide, add0, m3]
      show (extend false 8 (readN s2.mem (a.fp + BitVec.ofInt 64 size) 8)).toNat = n
      rw [r2, extend, if_neg (by decide)]
      show (BitVec.signExtend 64 (BitVec.ofNat 64 n)).toNat = n
      rw [BitVec.signExtend_eq, BitVec.toNat_ofNat]
      have : n < 2 ^ 64 := by omega
      omega
    · rw [r_set_ne _ _ _ _ (by decide), k3 .fp (by decide), f2]
    · rw [r_set_ne _ _ _ _ (by decide), k3 .sp (by decide)]
    · show s3.mem = _; exact m3
  have h4 : Hist env a s4 { A with temps := (a.fp + BitVec.ofInt 64 off) :: A.temps } := .other h2 p4 (by rw [f4, f2]) (fun x _ => by rw [m4])
  -- alloca
  have room4 : ((s4.r .a0).toNat + 7) / 8 * 8 ≤ (s4.r .sp - a.lo).toNat := by
    have e8 := p_minus8 (a := a) (x := s.r .sp) (by omega)
    have e9 : (s4.r .sp - a.lo).toNat = a.p (s.r .sp - 8) := by rw [p4, p2, p1]; rfl
    rw [v4, e9]
    omega
  have hl : Label.uniq 1 ≠ .uniq 2 := by decide
  obtain ⟨T4, i4⟩ := inv_hist ok h4
  obtain ⟨bot, hb, hbT⟩ := i4.slot
  have hN := roundUp_toNat (s4.r .a0) (by rw [v4]; omega)
  have hk : (bot - s4.r .sp).toNat = 8 * (A.temps.length + 1) := by
    have h5 := i4.sp
    have h6 := p_lt a (s4.r .sp)
    simp only [List.length_cons] at h5
    rw [p_sub a]; omega
  have fit : (roundUp (s4.r .a0)).toNat + (bot - s4.r .sp).toNat ≤ 2 ^ 64 := by
    have h5 := i4.sp
    have h6 := p_lt a (s4.r .sp)
    have h7 : a.p (s4.r .sp) = (s4.r .sp - a.lo).toNat := rfl
    simp only [List.length_cons] at h5
    rw [hk, hN]; omega
  obtain ⟨s5, q5, w1, w2, w3, w4⟩ := alloca_runs (env := env) hu c5 s4 bot (by rw [i4.fp]; exact hb) fit
  obtain ⟨s6, q6, x1, x2, x3, x4⟩ := alloca_runs (env := env) (unique_alloca (off := a.off) hl) (codeAt_self (allocaCode a.off _ _)) s4 bot (by rw [i4.fp]; exact hb) fit
  rw [Nat.zero_add] at q6
  have h6 := Hist.alloca h4 hl room4 q6
  have f5 : s5.r .fp = a.fp := by rw [w4 .fp (by decide), f4]
  have h5 : Hist env a s5 { temps := (a.fp + BitVec.ofInt 64 off) :: A.temps, blocks := (s5.r .a0, n) :: A.blocks, known := A.known } := by
    have := Hist.other (s' := s5) h6 (by rw [w1, x1]) (by rw [f5, x4 .fp (by decide), f4]) (fun x _ => by rw [w3, x3])
    rw [x2, ← w2, v4] at this
    exact this
  -- the address back
  obtain ⟨s7, e7, k7, p7, m7⟩ : ∃ s7, execL env (popI .a1) s5 = some s7 ∧ (∀ r, r ≠ .a1 → r ≠ .sp → s7.r r = s5.r r) ∧ s7.r .sp = s5.r .sp + 8 ∧ s7.mem = s5.mem := by
    refine ⟨_, rfl, fun r h1 h2 => ?_, ?_, rfl⟩
    · rw [r_set_ne _ _ _ _ h2, r_set_ne _ _ _ _ h1]
    · rw [r_set_same _ _ _ (by decide), r_set_ne _ _ _ _ (by decide)]; rfl
  have al7 : Alone env (popI .a1) s5 s7 := by have := runs_execL (env := env) (codeAt_self (popI .a1)) e7; rwa [Nat.zero_add] at this
  have h7 := Hist.pop .a1 h5 rfl (by decide) (by decide) al7
  have v7 : s7.r .a1 = a.fp + BitVec.ofInt 64 off := C64_pop ok h5 rfl (by decide) (by decide) (by decide) al7
  have a7 : s7.r .a0 = s5.r .a0 := k7 .a0 (by decide) (by decide)
  have e8 : execL env [.store .d .a0 0 .a1] s7 = some { s7 with mem := writeN s7.mem (a.fp + BitVec.ofInt 64 off) 8 (s5.r .a0).toNat } := by
    have : execL env [.store .d .a0 0 .a1] s7 = some { s7 with mem := writeN s7.mem (s7.r .a1 + BitVec.ofInt 64 0) 8 (s7.r .a0).toNat } := rfl
    rw [this, v7, a7, show BitVec.ofInt 64 0 = 0 from by decide, add0]
  refine ⟨_, s5.r .a0, ?_, hist_store h7 _ _ 8 (Nat.le_refl _) hv, ?_⟩
  · have r1 := runs_execL (env := env) c1 e1
    have r2 := runs_execL (env := env) c2 e2
    have r3 := runs_execL (env := env) c3 e3
    have r4 := runs_execL (env := env) c4 e4
    have r6 := runs_execL (env := env) c6 e7
    have r7 := runs_execL (env := env) c7 e8
    simp only [List.length_append, List.length_cons, List.length_nil, ← Nat.add_assoc] at r1 r2 r3 r4 q5 r6 r7 ⊢
    exact r1.trans (r2.trans (r3.trans (r4.trans (q5.trans (r6.trans r7)))))
  · show readN (writeN s7.mem _ 8 _) _ 8 = _
    rw [readN_writeN _ _ 8 _ (by decide) 8 (Nat.le_refl 8), Nat.mod_eq_of_lt (lt8 _)]

end Toycc.Vla
