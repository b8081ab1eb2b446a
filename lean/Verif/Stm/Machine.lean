import Verif.Stm.Node
import Verif.Cg.ExprCall
/-! The code generated for statement nodes executes them. -/
namespace Toycc.Stm
open Toycc.Rv Toycc.Cg

/-! ### Numbers of steps -/

/-- The machine makes at least `n` steps. -/
def Long (P : Prog) (env : Env) (n : Nat) (c : Nat × St) : Prop := ∃ k c', n ≤ k ∧ StepN P env k c c'

theorem Long.zero {P env c} : Long P env 0 c := ⟨0, c, Nat.le_refl _, .zero c⟩

theorem Long.after {P env n a b} (h : Runs P env a b) (l : Long P env n b) : Long P env n a := by
  obtain ⟨i, h⟩ := h
  obtain ⟨k, c, h1, h2⟩ := l
  exact ⟨i + k, c, by omega, h.trans h2⟩

theorem Long.step {P env n a b} (h : step P env a = some b) (l : Long P env n b) : Long P env (n + 1) a := by
  obtain ⟨k, c, h1, h2⟩ := l
  exact ⟨k + 1, c, by omega, .succ h h2⟩

theorem Long.mono {P env n k a} (h : Long P env n a) (hk : k ≤ n) : Long P env k a := by
  obtain ⟨i, c, h1, h2⟩ := h
  exact ⟨i, c, by omega, h2⟩

/-- At least one step. -/
def Runs1 (P : Prog) (env : Env) (a b : Nat × St) : Prop := ∃ k, StepN P env (k + 1) a b

theorem Runs1.runs {P env a b} (h : Runs1 P env a b) : Runs P env a b := h.imp' (· + 1) fun _ h => h

theorem Runs1.after {P env a b c} (h : Runs P env a b) (h1 : Runs1 P env b c) : Runs1 P env a c := by
  obtain ⟨i, h⟩ := h
  obtain ⟨k, h1⟩ := h1
  exact ⟨i + k, h.trans h1⟩

theorem Runs1.one {P env a b} (h : step P env a = some b) : Runs1 P env a b := ⟨0, .succ h (.zero b)⟩

theorem Long.after1 {P env n a b} (h : Runs1 P env a b) (l : Long P env n b) : Long P env (n + 1) a := by
  obtain ⟨i, h⟩ := h
  obtain ⟨k, c, h1, h2⟩ := l
  exact ⟨i + 1 + k, c, by omega, h.trans h2⟩

section
variable {E : CEnv} {B : W} {env : Env} {P : Prog} {ev : Ev} {d : Nat} {fn : String}

/-- Code of expressions does what `ev` says; the register a0 is usable for the purpose. -/
def EvGood (E : CEnv) (B : W) (env : Env) (P : Prog) (d : Nat) (ev : Ev) : Prop :=
  ∀ u e gs c gs' m v m' pc s, gen false e gs = some (c, gs') → gs.depth = d → ev u e m = some (v, m') → CodeAt P pc c →
    Match E B d m s → ∃ s', Runs P env (pc, s) (pc + c.length, s') ∧ Match E B d m' s' ∧ Keeps E B d s.mem s'.mem ∧
      (u = .test → (s'.r .a0 = 0 ↔ v = 0)) ∧ (u = .switch ∨ u = .ret → s'.r .a0 = BitVec.ofInt 64 v)

/-- What the machine does from `(pc, s)` when the statement behaves as `r`; `x` is the end of the code. -/
def Ends (E : CEnv) (B : W) (env : Env) (P : Prog) (d : Nat) (fn : String) (n : Nat) (r : Res OutR) (pc : Nat) (s : St) (x : Nat) : Prop :=
  match r with
  | .timeout => Long P env n (pc, s)
  | .stuck => True
  | .done .normal m => ∃ s', Runs P env (pc, s) (x, s') ∧ Match E B d m s' ∧ Keeps E B d s.mem s'.mem
  | .done (.jump l) m => ∀ t, P[t]? = some (.label l) → ∃ s', Runs1 P env (pc, s) (t, s') ∧ Match E B d m s' ∧ Keeps E B d s.mem s'.mem
  | .done (.ret v) m => ∀ t, P[t]? = some (.label (.ret fn)) →
      ∃ s', Runs P env (pc, s) (t, s') ∧ Match E B d m s' ∧ Keeps E B d s.mem s'.mem ∧ (∀ y, v = some y → s'.r .a0 = BitVec.ofInt 64 y)

/-- The machine is where the statement is entered. -/
def Entry (P : Prog) (s : Stmt) (en : Option Label) (pc epc : Nat) : Prop :=
  match en with
  | none => epc = pc
  | some l => s.defs l = true ∧ P[epc]? = some (.label l)

def GoodS (E : CEnv) (B : W) (env : Env) (P : Prog) (d : Nat) (fn : String) (ev : Ev) (s : Stmt) : Prop :=
  ∀ n gs c gs' m en pc epc st, gs.depth = d → genStmt fn s gs = some (c, gs') → CodeAt P pc c → Match E B d m st →
    Entry P s en pc epc → Ends E B env P d fn n (execR ev n en s m) epc st (pc + c.length)

/-- Running first to `(q, t)`. -/
theorem Ends.after {n r pc s q t x} (h : Runs P env (pc, s) (q, t)) (hk : Keeps E B d s.mem t.mem) (he : Ends E B env P d fn n r q t x) :
    Ends E B env P d fn n r pc s x := by
  cases r with
  | timeout => exact Long.after h he
  | stuck => trivial
  | done o m =>
    cases o with
    | normal =>
      obtain ⟨s', h1, h2, h3⟩ := he
      exact ⟨s', h.trans h1, h2, hk.trans h3⟩
    | jump l =>
      intro t ht
      obtain ⟨s', h1, h2, h3⟩ := he t ht
      exact ⟨s', .after h h1, h2, hk.trans h3⟩
    | ret v =>
      intro t ht
      obtain ⟨s', h1, h2, h3, h4⟩ := he t ht
      exact ⟨s', h.trans h1, h2, hk.trans h3, h4⟩

/-- Continuing after a normal end. -/
theorem Ends.seq {n r pc s x y} {f : Mem → Res OutR} (h : Ends E B env P d fn n r pc s x)
    (hf : ∀ m s', Match E B d m s' → Ends E B env P d fn n (f m) x s' y) : Ends E B env P d fn n (r.seqR f) pc s y := by
  cases r with
  | timeout => exact h
  | stuck => trivial
  | done o m =>
    cases o with
    | normal =>
      obtain ⟨s', h1, h2, h3⟩ := h
      exact (hf m s' h2).after h1 h3
    | jump l => exact h
    | ret v => exact h

/-- Moving on along straight code after a normal end. -/
theorem Ends.move {n r pc s x y} (h : Ends E B env P d fn n r pc s x) (hr : ∀ s, Runs P env (x, s) (y, s)) :
    Ends E B env P d fn n r pc s y := by
  cases r with
  | timeout => exact h
  | stuck => trivial
  | done o m =>
    cases o with
    | normal =>
      obtain ⟨s', h1, h2, h3⟩ := h
      exact ⟨s', h1.trans (hr s'), h2, h3⟩
    | jump l => exact h
    | ret v => exact h

theorem runs_label {pc s l} (h : P[pc]? = some (Instr.label l)) : Runs P env (pc, s) (pc + 1, s) :=
  Runs.one (step_exec h rfl)

theorem runs_j (hu : UniqueLabels P) {pc s l t} (h : P[pc]? = some (Instr.j l)) (ht : P[t]? = some (Instr.label l)) :
    Runs P env (pc, s) (t, s) := Runs.one (step_j h (find_eq hu ht))

theorem genList_depth : ∀ (l : List Expr) (gs : GS) (c : List Instr) (gs' : GS), genList l gs = some (c, gs') →
    gs'.depth = gs.depth ∧ gs.cnt ≤ gs'.cnt := by
  intro l
  induction l with
  | nil => intro gs c gs' h; simp only [genList, Option.some.injEq, Prod.mk.injEq] at h; rw [h.2]; exact ⟨rfl, Nat.le_refl _⟩
  | cons e r ih =>
    intro gs c gs' h
    simp only [genList, bindSome] at h
    obtain ⟨⟨c1, s1⟩, h1, ⟨c2, s2⟩, h2, h3⟩ := h
    have a1 := gen_depth e _ _ _ _ h1
    have a2 := ih _ _ _ h2
    simp only [Option.some.injEq, Prod.mk.injEq] at h3
    rw [← h3.2]; dsimp only at *; omega

theorem genCond_depth {b} {e : Option Expr} {gs : GS} {c : List Instr} {gs' : GS} (h : genCond b e gs = some (c, gs')) :
    gs'.depth = gs.depth ∧ gs.cnt ≤ gs'.cnt := by
  cases e with
  | none => simp only [genCond, Option.some.injEq, Prod.mk.injEq] at h; rw [h.2]; exact ⟨rfl, Nat.le_refl _⟩
  | some e =>
    simp only [genCond, bindSome] at h
    obtain ⟨⟨c1, s1⟩, h1, h3⟩ := h
    have a1 := gen_depth e _ _ _ _ h1
    simp only [Option.some.injEq, Prod.mk.injEq] at h3
    rw [← h3.2]; exact a1

theorem genStmt_depth : ∀ (s : Stmt) (gs : GS) (c : List Instr) (gs' : GS), genStmt fn s gs = some (c, gs') →
    gs'.depth = gs.depth ∧ gs.cnt ≤ gs'.cnt := by
  intro s
  induction s with
  | skip => intro gs c gs' h; simp only [genStmt, Option.some.injEq, Prod.mk.injEq] at h; rw [h.2]; exact ⟨rfl, Nat.le_refl _⟩
  | seq a b iha ihb =>
    intro gs c gs' h
    simp only [genStmt, bindSome] at h
    obtain ⟨⟨c1, s1⟩, h1, ⟨c2, s2⟩, h2, h3⟩ := h
    have a1 := iha _ _ _ h1
    have a2 := ihb _ _ _ h2
    simp only [Option.some.injEq, Prod.mk.injEq] at h3
    rw [← h3.2]; dsimp only at *; omega
  | expr e => intro gs c gs' h; exact gen_depth e _ _ _ _ h
  | ifs x a b iha ihb =>
    intro gs c gs' h
    simp only [genStmt, bindSome] at h
    obtain ⟨⟨c0, s0⟩, h0, ⟨c1, s1⟩, h1, ⟨c2, s2⟩, h2, h3⟩ := h
    have a0 := gen_depth x _ _ _ _ h0
    have a1 := iha _ _ _ h1
    have a2 := ihb _ _ _ h2
    simp only [Option.some.injEq, Prod.mk.injEq] at h3
    simp only [GS.next] at a0
    rw [← h3.2]; dsimp only at *; omega
  | loop i x inc body b k ih =>
    intro gs c gs' h
    simp only [genStmt, bindSome] at h
    obtain ⟨⟨c0, s0⟩, h0, ⟨c1, s1⟩, h1, ⟨c2, s2⟩, h2, ⟨c3, s3⟩, h3, h4⟩ := h
    have a0 := genList_depth _ _ _ _ h0
    have a1 := genCond_depth h1
    have a2 := ih _ _ _ h2
    have a3 := genList_depth _ _ _ _ h3
    simp only [Option.some.injEq, Prod.mk.injEq] at h4
    simp only [GS.next] at a0
    rw [← h4.2]; dsimp only at *; omega
  | doW body x b k ih =>
    intro gs c gs' h
    simp only [genStmt, bindSome] at h
    obtain ⟨⟨c1, s1⟩, h1, ⟨c2, s2⟩, h2, h3⟩ := h
    have a1 := ih _ _ _ h1
    have a2 := gen_depth x _ _ _ _ h2
    simp only [Option.some.injEq, Prod.mk.injEq] at h3
    simp only [GS.next] at a1
    rw [← h3.2]; dsimp only at *; omega
  | switch x cs dd body b ih =>
    intro gs c gs' h
    simp only [genStmt, bindSome] at h
    obtain ⟨⟨c1, s1⟩, h1, ⟨c2, s2⟩, h2, h3⟩ := h
    have a1 := gen_depth x _ _ _ _ h1
    have a2 := ih _ _ _ h2
    simp only [Option.some.injEq, Prod.mk.injEq] at h3
    rw [← h3.2]; dsimp only at *; omega
  | label l s ih =>
    intro gs c gs' h
    simp only [genStmt, bindSome] at h
    obtain ⟨⟨c1, s1⟩, h1, h3⟩ := h
    have a1 := ih _ _ _ h1
    simp only [Option.some.injEq, Prod.mk.injEq] at h3
    rw [← h3.2]; exact a1
  | goto t =>
    intro gs c gs' h
    cases t with
    | lab l => simp only [genStmt, Option.some.injEq, Prod.mk.injEq] at h; rw [h.2]; exact ⟨rfl, Nat.le_refl _⟩
    | name n => simp [genStmt] at h
  | ret e =>
    intro gs c gs' h
    cases e with
    | none => simp only [genStmt, Option.some.injEq, Prod.mk.injEq] at h; rw [h.2]; exact ⟨rfl, Nat.le_refl _⟩
    | some e =>
      simp only [genStmt, bindSome] at h
      obtain ⟨⟨c1, s1⟩, h1, h3⟩ := h
      have a1 := gen_depth e _ _ _ _ h1
      simp only [Option.some.injEq, Prod.mk.injEq] at h3
      rw [← h3.2]; exact a1

/-! ### Pieces -/

theorem sim_list (hev : EvGood E B env P d ev) : ∀ (l : List Expr) gs c gs' m m' pc s, genList l gs = some (c, gs') → gs.depth = d →
    evList ev l m = some m' → CodeAt P pc c → Match E B d m s →
    ∃ s', Runs P env (pc, s) (pc + c.length, s') ∧ Match E B d m' s' ∧ Keeps E B d s.mem s'.mem := by
  intro l
  induction l with
  | nil =>
    intro gs c gs' m m' pc s hg hd he hc hm
    simp only [genList, Option.some.injEq, Prod.mk.injEq, evList] at hg he
    subst he
    rw [← hg.1]
    exact ⟨s, .refl, hm, .refl⟩
  | cons e r ih =>
    intro gs c gs' m m' pc s hg hd he hc hm
    simp only [genList, bindSome] at hg
    obtain ⟨⟨c1, s1⟩, h1, ⟨c2, s2⟩, h2, h3⟩ := hg
    simp only [Option.some.injEq, Prod.mk.injEq] at h3
    obtain ⟨rfl, rfl⟩ := h3
    simp only [evList, Option.bind_eq_some_iff] at he
    obtain ⟨⟨v, m1⟩, e1, e2⟩ := he
    obtain ⟨t1, r1, r2, r3, _⟩ := hev .value e gs c1 s1 m v m1 pc s h1 hd e1 hc.left hm
    obtain ⟨t2, q1, q2, q3⟩ := ih s1 c2 s2 m1 m' _ t1 h2 ((gen_depth e _ _ _ _ h1).1.trans hd) e2 hc.right r2
    refine ⟨t2, ?_, q2, r3.trans q3⟩
    rw [List.length_append, ← Nat.add_assoc]
    exact r1.trans q1

/-- Comparing with zero and branching if the value is zero. -/
theorem sim_test (hev : EvGood E B env P d ev) (hu : UniqueLabels P) {e gs c gs' m v m' pc s l t} (hg : gen false e gs = some (c, gs'))
    (hd : gs.depth = d) (he : ev .test e m = some (v, m')) (hc : CodeAt P pc (c ++ cmpZero ++ [.bnez .a0 l])) (hm : Match E B d m s)
    (ht : P[t]? = some (.label l)) :
    ∃ s', Runs P env (pc, s) (if v = 0 then t else pc + c.length + 2, s') ∧ Match E B d m' s' ∧ Keeps E B d s.mem s'.mem := by
  obtain ⟨s1, r1, r2, r3, r4, _⟩ := hev .test e gs c gs' m v m' pc s hg hd he hc.left.left hm
  have hz := r4 rfl
  have hc2 : CodeAt P (pc + c.length) cmpZero := hc.left.right
  have hb : P[pc + c.length + 1]? = some (Instr.bnez .a0 l) := by
    have := hc.right.head
    rwa [List.length_append, ← Nat.add_assoc] at this
  have e2 := exec_cmpZero env s1
  obtain ⟨q1, q2, q3⟩ := sim_piece (L := [.a0]) r2 hc2 e2 (fun r hr => r_set_ne _ _ _ _ (by simpa using hr)) (by simp) (by simp) rfl
  refine ⟨_, r1.trans (q1.trans (Runs.one (step_bnez hb (find_eq hu ht)))) |> (fun h => ?_), q2, r3.trans q3⟩
  have ha : (s1.set .a0 (ofBool (s1.r .a0 == 0))).r .a0 = ofBool (s1.r .a0 == 0) := r_set_same _ _ _ (by simp)
  rw [ha] at h
  by_cases hv : v = 0
  · have : s1.r .a0 = 0 := hz.mpr hv
    rw [this] at h ⊢
    simpa [ofBool, hv] using h
  · have : s1.r .a0 ≠ 0 := fun h => hv (hz.mp h)
    have e3 : (s1.r .a0 == 0) = false := by simpa using this
    rw [e3] at h ⊢
    simpa [ofBool, hv, cmpZero] using h

/-- Comparing with zero and branching if the value is not zero. -/
theorem sim_test_back (hev : EvGood E B env P d ev) (hu : UniqueLabels P) {e gs c gs' m v m' pc s l t} (hg : gen false e gs = some (c, gs'))
    (hd : gs.depth = d) (he : ev .test e m = some (v, m')) (hc : CodeAt P pc (c ++ cmpZero ++ [.beqz .a0 l])) (hm : Match E B d m s)
    (ht : P[t]? = some (.label l)) :
    ∃ s1 s', Runs P env (pc, s) (pc + c.length + 1, s1) ∧ step P env (pc + c.length + 1, s1) = some (if v = 0 then pc + c.length + 2 else t, s') ∧
      Match E B d m' s' ∧ Keeps E B d s.mem s'.mem := by
  obtain ⟨s1, r1, r2, r3, r4, _⟩ := hev .test e gs c gs' m v m' pc s hg hd he hc.left.left hm
  have hz := r4 rfl
  have hc2 : CodeAt P (pc + c.length) cmpZero := hc.left.right
  have hb : P[pc + c.length + 1]? = some (Instr.beqz .a0 l) := by
    have := hc.right.head
    rwa [List.length_append, ← Nat.add_assoc] at this
  have e2 := exec_cmpZero env s1
  obtain ⟨q1, q2, q3⟩ := sim_piece (L := [.a0]) r2 hc2 e2 (fun r hr => r_set_ne _ _ _ _ (by simpa using hr)) (by simp) (by simp) rfl
  refine ⟨_, _, r1.trans q1, (step_beqz hb (find_eq hu ht)).trans ?_, q2, r3.trans q3⟩
  have ha : (s1.set .a0 (ofBool (s1.r .a0 == 0))).r .a0 = ofBool (s1.r .a0 == 0) := r_set_same _ _ _ (by simp)
  rw [ha]
  by_cases hv : v = 0
  · have : s1.r .a0 = 0 := hz.mpr hv
    rw [this]
    simp [ofBool, hv]
  · have : s1.r .a0 ≠ 0 := fun h => hv (hz.mp h)
    have e3 : (s1.r .a0 == 0) = false := by simpa using this
    rw [e3]
    simp [ofBool, hv]

theorem sim_cond (hev : EvGood E B env P d ev) (hu : UniqueLabels P) {e gs c gs' m v m' pc s l t} (hg : genCond l e gs = some (c, gs'))
    (hd : gs.depth = d) (he : evCond ev e m = some (v, m')) (hc : CodeAt P pc c) (hm : Match E B d m s)
    (ht : P[t]? = some (.label l)) :
    ∃ s', Runs P env (pc, s) (if v = 0 then t else pc + c.length, s') ∧ Match E B d m' s' ∧ Keeps E B d s.mem s'.mem := by
  cases e with
  | none =>
    simp only [genCond, evCond, Option.some.injEq, Prod.mk.injEq] at hg he
    obtain ⟨rfl, rfl⟩ := hg
    obtain ⟨rfl, rfl⟩ := he
    exact ⟨s, .refl, hm, .refl⟩
  | some e =>
    simp only [genCond, bindSome] at hg
    obtain ⟨⟨c1, s1⟩, h1, h3⟩ := hg
    simp only [Option.some.injEq, Prod.mk.injEq] at h3
    obtain ⟨rfl, rfl⟩ := h3
    obtain ⟨s', h⟩ := sim_test hev hu h1 hd he hc hm ht
    refine ⟨s', ?_, h.2⟩
    have := h.1
    simpa [cmpZero, Nat.add_assoc] using this

theorem holds_single {v : Int} {c : Case} (h : c.lo = c.hi) : c.holds v = (BitVec.ofInt 64 v == BitVec.ofInt 64 c.lo) := by
  rw [Bool.eq_iff_iff, Case.holds, decide_eq_true_eq, beq_iff_eq, h, ← BitVec.toNat_inj, BitVec.toNat_ofInt, BitVec.toNat_ofInt]
  omega

theorem holds_range {v : Int} {c : Case} :
    c.holds v = decide (BitVec.ofInt 64 v - BitVec.ofInt 64 c.lo ≤ BitVec.ofInt 64 (c.hi - c.lo)) := by
  rw [Bool.eq_iff_iff, Case.holds, decide_eq_true_eq, decide_eq_true_eq, ← ofInt_sub, BitVec.le_def, BitVec.toNat_ofInt, BitVec.toNat_ofInt]
  omega

/-- One case. -/
theorem sim_case (hu : UniqueLabels P) {c : Case} {v : Int} {m pc s} (hc : CodeAt P pc (caseTest c)) (hm : Match E B d m s)
    (ha : s.r .a0 = BitVec.ofInt 64 v) :
    ∃ s', s'.mem = s.mem ∧ s'.r .a0 = s.r .a0 ∧ Match E B d m s' ∧
      (c.holds v = true → ∀ t, P[t]? = some (.label c.lbl) → Runs P env (pc, s) (t, s')) ∧
      (c.holds v = false → Runs P env (pc, s) (pc + (caseTest c).length, s')) := by
  unfold caseTest at hc ⊢
  split at hc
  · rename_i he
    rw [if_pos he]
    have e1 : execL env [.li .a1 c.lo] s = some (s.set .a1 (BitVec.ofInt 64 c.lo)) := rfl
    obtain ⟨q1, q2, q3⟩ := sim_piece (L := [.a1]) hm (CodeAt.left (a := [_]) hc) e1 (fun r hr => r_set_ne _ _ _ _ (by simpa using hr))
      (by simp) (by simp) rfl
    have hb := hc.tail.head
    have hcond : ((s.set .a1 (BitVec.ofInt 64 c.lo)).r .a0 == (s.set .a1 (BitVec.ofInt 64 c.lo)).r .a1) = c.holds v := by
      rw [r_set_ne _ _ _ _ (by simp), r_set_same _ _ _ (by simp), ha, holds_single he]
    refine ⟨s.set .a1 (BitVec.ofInt 64 c.lo), rfl, r_set_ne _ _ _ _ (by simp), q2, ?_, ?_⟩
    · intro hv t ht
      refine q1.trans (Runs.one ?_)
      rw [hv] at hcond
      simp only [step, List.length_cons, List.length_nil, Nat.zero_add, hb, hcond, branch, find_eq hu ht, ↓reduceIte, Option.map_some]
    · intro hv
      refine q1.trans (Runs.one ?_)
      rw [hv] at hcond
      simp only [step, List.length_cons, List.length_nil, Nat.zero_add, hb, hcond, branch, Bool.false_eq_true, ↓reduceIte, Nat.add_assoc,
        Nat.reduceAdd]
  · rename_i he
    rw [if_neg he]
    have hc' : CodeAt P pc ([.mv .t1 .a0, .li .t0 c.lo, .op .sub .t1 .t1 .t0, .li .t2 (c.hi - c.lo)] ++ [.bleu .t1 .t2 c.lbl]) := hc
    let s1 := (((s.set .t1 (s.r .a0)).set .t0 (BitVec.ofInt 64 c.lo)).set .t1 (s.r .a0 - BitVec.ofInt 64 c.lo)).set .t2 (BitVec.ofInt 64 (c.hi - c.lo))
    have e1 : execL env [.mv .t1 .a0, .li .t0 c.lo, .op .sub .t1 .t1 .t0, .li .t2 (c.hi - c.lo)] s = some s1 := by
      rfl
    have hs : Same [.t1, .t0, .t2] s s1 := by
      intro r hr
      simp only [List.mem_cons, List.not_mem_nil, or_false, not_or] at hr
      simp only [s1, r_set_ne _ _ _ _ hr.1, r_set_ne _ _ _ _ hr.2.1, r_set_ne _ _ _ _ hr.2.2]
    obtain ⟨q1, q2, q3⟩ := sim_piece hm hc'.left e1 hs (by simp) (by simp) rfl
    have hb := hc'.right.head
    have hcond : decide (s1.r .t1 ≤ s1.r .t2) = c.holds v := by
      rw [holds_range, ← ha]
      simp [s1, St.r, St.set]
    refine ⟨s1, rfl, hs _ (by simp), q2, ?_, ?_⟩
    · intro hv t ht
      refine q1.trans (Runs.one ?_)
      rw [hv] at hcond
      simp only [step, hb, hcond, branch, find_eq hu ht, ↓reduceIte, Option.map_some]
    · intro hv
      refine q1.trans (Runs.one ?_)
      rw [hv] at hcond
      simp only [step, hb, hcond, branch, Bool.false_eq_true, ↓reduceIte]
      rfl

/-- The whole list of cases. -/
theorem sim_cases (hu : UniqueLabels P) {v : Int} {m} : ∀ (cs : List Case) (pc : Nat) (s : St), CodeAt P pc (cs.flatMap caseTest) →
    Match E B d m s → s.r .a0 = BitVec.ofInt 64 v →
    ∃ s', s'.mem = s.mem ∧ Match E B d m s' ∧
      (∀ c, cs.find? (Case.holds v) = some c → ∀ t, P[t]? = some (.label c.lbl) → Runs P env (pc, s) (t, s')) ∧
      (cs.find? (Case.holds v) = none → Runs P env (pc, s) (pc + (cs.flatMap caseTest).length, s')) := by
  intro cs
  induction cs with
  | nil =>
    intro pc s hc hm ha
    exact ⟨s, rfl, hm, by simp, fun _ => .refl⟩
  | cons c r ih =>
    intro pc s hc hm ha
    rw [List.flatMap_cons] at hc
    obtain ⟨s1, h1, h2, h3, h4, h5⟩ := sim_case (env := env) hu hc.left hm ha
    cases hv : c.holds v with
    | true =>
      refine ⟨s1, h1, h3, ?_, ?_⟩
      · intro c' hc'
        rw [List.find?_cons_of_pos hv, Option.some.injEq] at hc'
        subst hc'
        exact h4 hv
      · intro hn
        rw [List.find?_cons_of_pos hv] at hn
        simp at hn
    | false =>
      obtain ⟨s2, k1, k2, k3, k4⟩ := ih _ s1 hc.right h3 (h2.trans ha)
      have hn : ¬ c.holds v = true := by simp [hv]
      refine ⟨s2, k1.trans h1, k2, ?_, ?_⟩
      · intro c' hc' t ht
        rw [List.find?_cons_of_neg hn] at hc'
        exact (h5 hv).trans (k3 c' hc' t ht)
      · intro he
        rw [List.find?_cons_of_neg hn] at he
        have := (h5 hv).trans (k4 he)
        rwa [Nat.add_assoc, ← List.length_append] at this

/-! ### Statements -/

theorem good_skip : GoodS E B env P d fn ev .skip := by
  intro n gs c gs' m en pc epc st hd hg hc hm hen
  simp only [genStmt, Option.some.injEq, Prod.mk.injEq] at hg
  obtain ⟨rfl, rfl⟩ := hg
  rw [execR]
  cases en with
  | none => cases hen; exact ⟨st, .refl, hm, .refl⟩
  | some l => simp [Entry, Stmt.defs] at hen

theorem good_seq {a b : Stmt} (ia : GoodS E B env P d fn ev a) (ib : GoodS E B env P d fn ev b) : GoodS E B env P d fn ev (.seq a b) := by
  intro n gs c gs' m en pc epc st hd hg hc hm hen
  simp only [genStmt, bindSome] at hg
  obtain ⟨⟨c1, s1⟩, h1, ⟨c2, s2⟩, h2, h3⟩ := hg
  simp only [Option.some.injEq, Prod.mk.injEq] at h3
  obtain ⟨rfl, rfl⟩ := h3
  have hd1 : s1.depth = d := (genStmt_depth a _ _ _ h1).1.trans hd
  rw [List.length_append, ← Nat.add_assoc]
  cases en with
  | none =>
    rw [execR]
    exact (ia n gs c1 s1 m none pc epc st hd h1 hc.left hm hen).seq fun m' s' hm' => ib n s1 c2 s2 m' none _ _ s' hd1 h2 hc.right hm' rfl
  | some g =>
    rw [execR]
    split
    · rename_i hg
      exact (ia n gs c1 s1 m (some g) pc epc st hd h1 hc.left hm ⟨hg, hen.2⟩).seq fun m' s' hm' =>
        ib n s1 c2 s2 m' none _ _ s' hd1 h2 hc.right hm' rfl
    · rename_i hg
      have hgb : b.defs g = true := by
        have := hen.1
        simp only [Stmt.defs, Bool.or_eq_true] at this
        exact this.resolve_left hg
      exact ib n s1 c2 s2 m (some g) _ epc st hd1 h2 hc.right hm ⟨hgb, hen.2⟩

theorem good_expr (hev : EvGood E B env P d ev) (e : Expr) : GoodS E B env P d fn ev (.expr e) := by
  intro n gs c gs' m en pc epc st hd hg hc hm hen
  cases en with
  | some l => simp [Entry, Stmt.defs] at hen
  | none =>
    cases hen
    rw [execR]
    split
    · rename_i v m' he
      obtain ⟨t, r1, r2, r3, _⟩ := hev .value e gs c gs' m v m' pc st hg hd he hc hm
      exact ⟨t, r1, r2, r3⟩
    · trivial

theorem good_ifs (hev : EvGood E B env P d ev) (hu : UniqueLabels P) (x : Expr) {a b : Stmt} (ia : GoodS E B env P d fn ev a)
    (ib : GoodS E B env P d fn ev b) : GoodS E B env P d fn ev (.ifs x a b) := by
  intro n gs c gs' m en pc epc st hd hg hc hm hen
  simp only [genStmt, bindSome] at hg
  obtain ⟨⟨c0, s0⟩, h0, ⟨c1, s1⟩, h1, ⟨c2, s2⟩, h2, h3⟩ := hg
  simp only [Option.some.injEq, Prod.mk.injEq] at h3
  obtain ⟨rfl, rfl⟩ := h3
  have hd0 : s0.depth = d := (gen_depth x _ _ _ _ h0).1.trans hd
  have hd1 : s1.depth = d := (genStmt_depth a _ _ _ h1).1.trans hd0
  have hlen : pc + (c0 ++ cmpZero ++ [Instr.bnez Reg.a0 (lbl "else" gs.cnt)] ++ c1 ++ [Instr.j (lbl "end" gs.cnt), Instr.label (lbl "else" gs.cnt)] ++
      c2 ++ [Instr.label (lbl "end" gs.cnt)]).length = pc + c0.length + 2 + c1.length + 2 + c2.length + 1 := by
    simp only [List.length_append, List.length_cons, List.length_nil, cmpZero]; omega
  rw [hlen]
  have k0 : CodeAt P pc (c0 ++ cmpZero ++ [.bnez .a0 (lbl "else" gs.cnt)]) := hc.left.left.left.left
  have k1 : CodeAt P (pc + c0.length + 2) c1 := by
    have := hc.left.left.left.right
    simpa [cmpZero, Nat.add_assoc] using this
  have k2 : CodeAt P (pc + c0.length + 2 + c1.length) [Instr.j (lbl "end" gs.cnt), Instr.label (lbl "else" gs.cnt)] := by
    have := hc.left.left.right
    simpa [cmpZero, Nat.add_assoc, Nat.add_left_comm, Nat.add_comm] using this
  have k3 : CodeAt P (pc + c0.length + 2 + c1.length + 2) c2 := by
    have := hc.left.right
    simpa [cmpZero, Nat.add_assoc, Nat.add_left_comm, Nat.add_comm] using this
  have k4 : P[pc + c0.length + 2 + c1.length + 2 + c2.length]? = some (Instr.label (lbl "end" gs.cnt)) := by
    have := hc.right.head
    simpa [cmpZero, Nat.add_assoc, Nat.add_left_comm, Nat.add_comm] using this
  have kj := k2.head
  have ke := k2.tail.head
  have endA : ∀ s, Runs P env (pc + c0.length + 2 + c1.length, s) (pc + c0.length + 2 + c1.length + 2 + c2.length + 1, s) := fun s =>
    (runs_j hu kj k4).trans (runs_label k4)
  have endB : ∀ s, Runs P env (pc + c0.length + 2 + c1.length + 2 + c2.length, s) (pc + c0.length + 2 + c1.length + 2 + c2.length + 1, s) := fun s =>
    runs_label k4
  cases en with
  | none =>
    cases hen
    rw [execR]
    split
    · rename_i v m' he
      obtain ⟨t, r1, r2, r3⟩ := sim_test hev hu h0 hd he k0 hm ke
      by_cases hv : v = 0
      · rw [if_pos hv] at r1
        rw [if_neg (by simp [hv])]
        have r4 := r1.trans (runs_label (env := env) (s := t) ke)
        exact Ends.after r4 r3 ((ib n s1 c2 s2 m' none _ _ t hd1 h2 k3 r2 rfl).move endB)
      · rw [if_neg hv] at r1
        rw [if_pos hv]
        exact Ends.after r1 r3 ((ia n s0 c1 s1 m' none _ _ t hd0 h1 k1 r2 rfl).move endA)
    · trivial
  | some g =>
    rw [execR]
    split
    · rename_i hg
      exact (ia n s0 c1 s1 m (some g) _ epc st hd0 h1 k1 hm ⟨hg, hen.2⟩).move endA
    · rename_i hg
      have hgb : b.defs g = true := by
        have := hen.1
        simp only [Stmt.defs, Bool.or_eq_true] at this
        exact this.resolve_left hg
      exact (ib n s1 c2 s2 m (some g) _ epc st hd1 h2 k3 hm ⟨hgb, hen.2⟩).move endB

theorem good_label (hu : UniqueLabels P) (l : Label) {s : Stmt} (is : GoodS E B env P d fn ev s) : GoodS E B env P d fn ev (.label l s) := by
  intro n gs c gs' m en pc epc st hd hg hc hm hen
  simp only [genStmt, bindSome] at hg
  obtain ⟨⟨c1, s1⟩, h1, h3⟩ := hg
  simp only [Option.some.injEq, Prod.mk.injEq] at h3
  obtain ⟨rfl, rfl⟩ := h3
  have hl := hc.head
  have key : ∀ st, Match E B d m st → Ends E B env P d fn n (execR ev n none s m) pc st (pc + (Instr.label l :: c1).length) := by
    intro st hm
    rw [List.length_cons, Nat.add_comm c1.length, ← Nat.add_assoc]
    exact Ends.after (runs_label hl) .refl (is n gs c1 s1 m none _ _ st hd h1 hc.tail hm rfl)
  rw [execR]
  split
  · rename_i he
    subst he
    cases hu _ _ _ hen.2 hl
    exact key st hm
  · rename_i he
    cases en with
    | none => cases hen; exact key st hm
    | some g =>
      have hgs : s.defs g = true := by
        have := hen.1
        simp only [Stmt.defs, Bool.or_eq_true, beq_iff_eq] at this
        exact this.resolve_left (fun h => he (by rw [h]))
      rw [List.length_cons, Nat.add_comm c1.length, ← Nat.add_assoc]
      exact is n gs c1 s1 m (some g) _ epc st hd h1 hc.tail hm ⟨hgs, hen.2⟩

theorem good_goto (hu : UniqueLabels P) (t : Target) : GoodS E B env P d fn ev (.goto t) := by
  intro n gs c gs' m en pc epc st hd hg hc hm hen
  cases en with
  | some l => simp [Entry, Stmt.defs] at hen
  | none =>
    cases hen
    cases t with
    | name _ => simp [genStmt] at hg
    | lab l =>
      simp only [genStmt, Option.some.injEq, Prod.mk.injEq] at hg
      obtain ⟨rfl, rfl⟩ := hg
      rw [execR]
      intro t ht
      exact ⟨st, .one (step_j hc.head (find_eq hu ht)), hm, .refl⟩

theorem good_ret (hev : EvGood E B env P d ev) (hu : UniqueLabels P) (e : Option Expr) : GoodS E B env P d fn ev (.ret e) := by
  intro n gs c gs' m en pc epc st hd hg hc hm hen
  cases en with
  | some l => simp [Entry, Stmt.defs] at hen
  | none =>
    cases hen
    cases e with
    | none =>
      simp only [genStmt, Option.some.injEq, Prod.mk.injEq] at hg
      obtain ⟨rfl, rfl⟩ := hg
      rw [execR]
      intro t ht
      exact ⟨st, runs_j hu hc.head ht, hm, .refl, by simp⟩
    | some e =>
      simp only [genStmt, bindSome] at hg
      obtain ⟨⟨c1, s1⟩, h1, h3⟩ := hg
      simp only [Option.some.injEq, Prod.mk.injEq] at h3
      obtain ⟨rfl, rfl⟩ := h3
      rw [execR]
      split
      · rename_i v m' he
        obtain ⟨t1, r1, r2, r3, _, r4⟩ := hev .ret e gs c1 s1 m v m' pc st h1 hd he hc.left hm
        intro t ht
        refine ⟨t1, r1.trans (runs_j hu hc.right.head ht), r2, r3, ?_⟩
        intro y hy
        cases hy
        exact r4 (.inr rfl)
      · trivial

/-- A jump to the end label `b`, defined at the end of the code. -/
theorem Ends.catch {n r pc s x} {b : Label} (h : Ends E B env P d fn n r pc s x) (hb : P[x]? = some (.label b)) :
    Ends E B env P d fn n (catchJump b r) pc s (x + 1) := by
  cases r with
  | timeout => exact h
  | stuck => trivial
  | done o m =>
    cases o with
    | normal =>
      obtain ⟨s', h1, h2, h3⟩ := h
      exact ⟨s', h1.trans (runs_label hb), h2, h3⟩
    | jump l =>
      simp only [catchJump]
      split
      · rename_i hl
        subst hl
        obtain ⟨s', h1, h2, h3⟩ := h x hb
        exact ⟨s', h1.runs.trans (runs_label hb), h2, h3⟩
      · exact h
    | ret v => exact h

theorem good_switch (hev : EvGood E B env P d ev) (hu : UniqueLabels P) (x : Expr) (cs : List Case) (dd : Option Label) (b : Label) {body : Stmt}
    (ib : GoodS E B env P d fn ev body) (hlab : ∀ l, body.defs l = true → ∀ gs c gs', genStmt fn body gs = some (c, gs') → Instr.label l ∈ c) :
    GoodS E B env P d fn ev (.switch x cs dd body b) := by
  intro n gs c gs' m en pc epc st hd hg hc hm hen
  simp only [genStmt, bindSome] at hg
  obtain ⟨⟨c1, s1⟩, h1, ⟨c2, s2⟩, h2, h3⟩ := hg
  simp only [Option.some.injEq, Prod.mk.injEq] at h3
  obtain ⟨rfl, rfl⟩ := h3
  have hd1 : s1.depth = d := (gen_depth x _ _ _ _ h1).1.trans hd
  generalize hcd : dfltJump dd = cd at hc ⊢
  generalize hq : pc + c1.length + (cs.flatMap caseTest).length = q
  have hlen : pc + (c1 ++ cs.flatMap caseTest ++ cd ++ [Instr.j b] ++ c2 ++ [Instr.label b]).length = q + cd.length + 1 + c2.length + 1 := by
    simp only [List.length_append, List.length_cons, List.length_nil]; omega
  rw [hlen]
  have k1 : CodeAt P pc c1 := hc.left.left.left.left.left
  have k2 : CodeAt P (pc + c1.length) (cs.flatMap caseTest) := hc.left.left.left.left.right
  have k3 : CodeAt P q cd := by
    have := hc.left.left.left.right
    rwa [List.length_append, ← Nat.add_assoc, hq] at this
  have k4 : P[q + cd.length]? = some (Instr.j b) := by
    have := hc.left.left.right.head
    rwa [List.length_append, List.length_append, ← Nat.add_assoc, ← Nat.add_assoc, hq] at this
  have k5 : CodeAt P (q + cd.length + 1) c2 := by
    have := hc.left.right
    rwa [List.length_append, List.length_append, List.length_append, ← Nat.add_assoc, ← Nat.add_assoc, ← Nat.add_assoc, hq] at this
  have k6 : P[q + cd.length + 1 + c2.length]? = some (Instr.label b) := by
    have := hc.right.head
    rwa [List.length_append, List.length_append, List.length_append, List.length_append, ← Nat.add_assoc, ← Nat.add_assoc, ← Nat.add_assoc,
      ← Nat.add_assoc, hq] at this
  cases en with
  | some g =>
    rw [execR]
    exact (ib n s1 c2 s2 m (some g) _ epc st hd1 h2 k5 hm ⟨hen.1, hen.2⟩).catch k6
  | none =>
    cases hen
    rw [execR]
    split
    case h_2 => trivial
    rename_i v m' he
    obtain ⟨t, r1, r2, r3, _, r4⟩ := hev .switch x gs c1 s1 m v m' pc st h1 hd he k1 hm
    have ra := r4 (.inl rfl)
    obtain ⟨t', p1, p2, p3, p4⟩ := sim_cases (env := env) hu cs _ t k2 r2 ra
    -- the machine reaches the label chosen
    have reach : ∀ y, P[y]? = some (Instr.label (dispatch v cs dd b)) → Runs P env (pc, st) (y, t') := by
      intro y hy
      refine r1.trans ?_
      unfold dispatch at hy
      cases hf : cs.find? (Case.holds v) with
      | some c =>
        rw [hf] at hy
        exact p3 c hf y hy
      | none =>
        rw [hf] at hy
        have p5 := p4 hf
        rw [hq] at p5
        cases dd with
        | some l =>
          simp only [Option.getD_some] at hy
          subst hcd
          exact p5.trans (runs_j hu k3.head hy)
        | none =>
          simp only [Option.getD_none] at hy
          subst hcd
          exact p5.trans (runs_j hu k4 hy)
    have hk : Keeps E B d st.mem t'.mem := by rw [p1]; exact r3
    split
    · rename_i hb
      rw [hb] at reach
      exact ⟨t', (reach _ k6).trans (runs_label k6), p2, hk⟩
    · split
      · rename_i hdef
        obtain ⟨i, hi⟩ := List.getElem?_of_mem (hlab _ hdef _ _ _ h2)
        have hlt : i < c2.length := by
          rcases Nat.lt_or_ge i c2.length with h | h
          · exact h
          · rw [List.getElem?_eq_none h] at hi; simp at hi
        have hy := k5 i hlt
        rw [hi] at hy
        exact Ends.after (reach _ hy) hk ((ib n s1 c2 s2 m' (some _) _ _ t' hd1 h2 k5 p2 ⟨hdef, hy⟩).catch k6)
      · trivial

theorem defs_mem {l : Label} : ∀ (s : Stmt), s.defs l = true → ∀ gs c gs', genStmt fn s gs = some (c, gs') → Instr.label l ∈ c := by
  intro s
  induction s with
  | skip => simp [Stmt.defs]
  | seq a b ia ib =>
    intro h gs c gs' hg
    simp only [genStmt, bindSome] at hg
    obtain ⟨⟨c1, s1⟩, h1, ⟨c2, s2⟩, h2, h3⟩ := hg
    simp only [Option.some.injEq, Prod.mk.injEq] at h3
    obtain ⟨rfl, rfl⟩ := h3
    simp only [Stmt.defs, Bool.or_eq_true] at h
    rcases h with h | h
    · exact List.mem_append_left _ (ia h _ _ _ h1)
    · exact List.mem_append_right _ (ib h _ _ _ h2)
  | expr e => simp [Stmt.defs]
  | ifs x a b ia ib =>
    intro h gs c gs' hg
    simp only [genStmt, bindSome] at hg
    obtain ⟨⟨c0, s0⟩, h0, ⟨c1, s1⟩, h1, ⟨c2, s2⟩, h2, h3⟩ := hg
    simp only [Option.some.injEq, Prod.mk.injEq] at h3
    obtain ⟨rfl, rfl⟩ := h3
    simp only [Stmt.defs, Bool.or_eq_true] at h
    simp only [List.mem_append]
    rcases h with h | h
    · have := ia h _ _ _ h1; simp [this]
    · have := ib h _ _ _ h2; simp [this]
  | loop i x inc body b k ih =>
    intro h gs c gs' hg
    simp only [genStmt, bindSome] at hg
    obtain ⟨⟨c0, s0⟩, h0, ⟨c1, s1⟩, h1, ⟨c2, s2⟩, h2, ⟨c3, s3⟩, h3, h4⟩ := hg
    simp only [Option.some.injEq, Prod.mk.injEq] at h4
    obtain ⟨rfl, rfl⟩ := h4
    have := ih h _ _ _ h2
    simp [this]
  | doW body x b k ih =>
    intro h gs c gs' hg
    simp only [genStmt, bindSome] at hg
    obtain ⟨⟨c1, s1⟩, h1, ⟨c2, s2⟩, h2, h4⟩ := hg
    simp only [Option.some.injEq, Prod.mk.injEq] at h4
    obtain ⟨rfl, rfl⟩ := h4
    have := ih h _ _ _ h1
    simp [this]
  | switch x cs dd body b ih =>
    intro h gs c gs' hg
    simp only [genStmt, bindSome] at hg
    obtain ⟨⟨c1, s1⟩, h1, ⟨c2, s2⟩, h2, h4⟩ := hg
    simp only [Option.some.injEq, Prod.mk.injEq] at h4
    obtain ⟨rfl, rfl⟩ := h4
    have := ih h _ _ _ h2
    simp [this]
  | label l' s ih =>
    intro h gs c gs' hg
    simp only [genStmt, bindSome] at hg
    obtain ⟨⟨c1, s1⟩, h1, h4⟩ := hg
    simp only [Option.some.injEq, Prod.mk.injEq] at h4
    obtain ⟨rfl, rfl⟩ := h4
    simp only [Stmt.defs, Bool.or_eq_true, beq_iff_eq] at h
    rcases h with rfl | h
    · simp
    · exact List.mem_cons_of_mem _ (ih h _ _ _ h1)
  | goto t => simp [Stmt.defs]
  | ret e => simp [Stmt.defs]

/-! ### Loops -/

theorem Ends.step {n r pc s q t x} (h : step P env (pc, s) = some (q, t)) (hk : Keeps E B d s.mem t.mem)
    (he : Ends E B env P d fn n r q t x) : Ends E B env P d fn (n + 1) r pc s x := by
  cases r with
  | timeout => exact Long.step h he
  | stuck => trivial
  | done o m => cases o <;> exact Ends.after (n := n) (Runs.one h) hk he

/-- The end of an iteration: `next` starts at the label `k` at `x`; the label `b` is at `y`. -/
theorem Ends.iter {n r pc s x y} {b k : Label} {next : Mem → Res OutR} (h : Ends E B env P d fn n r pc s x) (hk : P[x]? = some (.label k))
    (hb : P[y]? = some (.label b)) (hn : ∀ m s', Match E B d m s' → Ends E B env P d fn n (next m) x s' (y + 1)) :
    Ends E B env P d fn n (iterR b k next r) pc s (y + 1) := by
  cases r with
  | timeout => exact h
  | stuck => trivial
  | done o m =>
    cases o with
    | normal =>
      obtain ⟨s', h1, h2, h3⟩ := h
      exact (hn m s' h2).after h1 h3
    | jump l =>
      simp only [iterR]
      split
      · rename_i hl
        subst hl
        obtain ⟨s', h1, h2, h3⟩ := h x hk
        exact (hn m s' h2).after h1.runs h3
      · split
        · rename_i hl
          subst hl
          obtain ⟨s', h1, h2, h3⟩ := h y hb
          exact ⟨s', h1.runs.trans (runs_label hb), h2, h3⟩
        · exact h
    | ret v => exact h

theorem loop_next (hev : EvGood E B env P d ev) {inc : Option Expr} {x body b k} {n : Nat} {s2 s3 : GS} {c3 : List Instr} {p q y : Nat}
    {lb : Label} (hu : UniqueLabels P) (h3 : genList inc.toList s2 = some (c3, s3)) (hd2 : s2.depth = d)
    (kk : P[p]? = some (.label k)) (k3 : CodeAt P (p + 1) c3) (kj : P[p + 1 + c3.length]? = some (.j lb)) (kb : P[q]? = some (.label lb))
    (ih : ∀ m s', Match E B d m s' → Ends E B env P d fn n (execR ev n none (.loop [] x inc body b k) m) q s' y) :
    ∀ m s', Match E B d m s' → Ends E B env P d fn (n + 1)
      (match evList ev inc.toList m with
        | some m => execR ev n none (.loop [] x inc body b k) m
        | none => .stuck) p s' y := by
  intro m s' hm
  split
  · rename_i m1 he
    obtain ⟨t, r1, r2, r3⟩ := sim_list hev _ _ _ _ _ _ _ _ h3 hd2 he k3 hm
    exact Ends.after ((runs_label kk).trans r1) r3 (Ends.step (step_j kj (find_eq hu kb)) .refl (ih m1 t r2))
  · trivial

theorem loop_tail (hev : EvGood E B env P d ev) (hu : UniqueLabels P) {inc : Option Expr} {x body b k} {s0 s1 s2 s3 : GS} {c1 c2 c3 : List Instr}
    {q : Nat} {lb : Label} (ib : GoodS E B env P d fn ev body) (hd0 : s0.depth = d) (h1 : genCond b x s0 = some (c1, s1))
    (h2 : genStmt fn body s1 = some (c2, s2)) (h3 : genList inc.toList s2 = some (c3, s3))
    (kb : P[q]? = some (.label lb)) (k1 : CodeAt P (q + 1) c1) (k2 : CodeAt P (q + 1 + c1.length) c2)
    (kk : P[q + 1 + c1.length + c2.length]? = some (.label k)) (k3 : CodeAt P (q + 1 + c1.length + c2.length + 1) c3)
    (kj : P[q + 1 + c1.length + c2.length + 1 + c3.length]? = some (.j lb))
    (ky : P[q + 1 + c1.length + c2.length + 1 + c3.length + 1]? = some (.label b)) :
    ∀ (n : Nat) m st, Match E B d m st → Ends E B env P d fn n (execR ev n none (.loop [] x inc body b k) m) q st
      (q + 1 + c1.length + c2.length + 1 + c3.length + 1 + 1) := by
  have hd1 : s1.depth = d := (genCond_depth h1).1.trans hd0
  have hd2 : s2.depth = d := (genStmt_depth body _ _ _ h2).1.trans hd1
  intro n
  induction n with
  | zero => intro m st hm; rw [execR]; exact Long.zero
  | succ n ih =>
    intro m st hm
    rw [execR]
    simp only [evList]
    split
    · rename_i v m1 he
      obtain ⟨t, r1, r2, r3⟩ := sim_cond hev hu h1 hd0 he k1 hm ky
      have r1 := (runs_label (env := env) (s := st) kb).trans r1
      by_cases hv : v = 0
      · rw [if_pos hv] at r1
        rw [if_neg (by simp [hv])]
        exact ⟨t, r1.trans (runs_label ky), r2, r3⟩
      · rw [if_neg hv] at r1
        rw [if_pos hv]
        refine Ends.after r1 r3 (Ends.iter (ib (n + 1) s1 c2 s2 m1 none _ _ t hd1 h2 k2 r2 rfl) kk ky ?_)
        exact loop_next hev hu h3 hd2 kk k3 kj kb ih
    · trivial

theorem good_loop (hev : EvGood E B env P d ev) (hu : UniqueLabels P) (init : List Expr) (x inc : Option Expr) (b k : Label) {body : Stmt}
    (ib : GoodS E B env P d fn ev body) : GoodS E B env P d fn ev (.loop init x inc body b k) := by
  intro n gs c gs' m en pc epc st hd hg hc hm hen
  simp only [genStmt, bindSome] at hg
  obtain ⟨⟨c0, s0⟩, h0, ⟨c1, s1⟩, h1, ⟨c2, s2⟩, h2, ⟨c3, s3⟩, h3, h4⟩ := hg
  simp only [Option.some.injEq, Prod.mk.injEq] at h4
  obtain ⟨rfl, rfl⟩ := h4
  have hd0 : s0.depth = d := (genList_depth _ _ _ _ h0).1.trans hd
  have hd1 : s1.depth = d := (genCond_depth h1).1.trans hd0
  have hd2 : s2.depth = d := (genStmt_depth body _ _ _ h2).1.trans hd1
  generalize hq : pc + c0.length = q
  have hlen : pc + (c0 ++ [Instr.label (lbl "begin" gs.cnt)] ++ c1 ++ c2 ++ [Instr.label k] ++ c3 ++ [Instr.j (lbl "begin" gs.cnt), Instr.label b]).length =
      q + 1 + c1.length + c2.length + 1 + c3.length + 1 + 1 := by
    simp only [List.length_append, List.length_cons, List.length_nil]; omega
  rw [hlen]
  have k0 : CodeAt P pc c0 := hc.left.left.left.left.left.left
  have kb : P[q]? = some (Instr.label (lbl "begin" gs.cnt)) := by
    have := hc.left.left.left.left.left.right.head
    rwa [hq] at this
  have k1 : CodeAt P (q + 1) c1 := by
    have := hc.left.left.left.left.right
    simpa [← Nat.add_assoc, hq] using this
  have k2 : CodeAt P (q + 1 + c1.length) c2 := by
    have := hc.left.left.left.right
    rw [List.length_append, List.length_append, ← Nat.add_assoc, ← Nat.add_assoc, hq] at this
    exact this
  have kk : P[q + 1 + c1.length + c2.length]? = some (Instr.label k) := by
    have := hc.left.left.right.head
    rw [List.length_append, List.length_append, List.length_append, ← Nat.add_assoc, ← Nat.add_assoc, ← Nat.add_assoc, hq] at this
    exact this
  have k3 : CodeAt P (q + 1 + c1.length + c2.length + 1) c3 := by
    have := hc.left.right
    rw [List.length_append, List.length_append, List.length_append, List.length_append, ← Nat.add_assoc, ← Nat.add_assoc, ← Nat.add_assoc,
      ← Nat.add_assoc, hq] at this
    exact this
  have k4 : CodeAt P (q + 1 + c1.length + c2.length + 1 + c3.length) [Instr.j (lbl "begin" gs.cnt), Instr.label b] := by
    have := hc.right
    rw [List.length_append, List.length_append, List.length_append, List.length_append, List.length_append, ← Nat.add_assoc, ← Nat.add_assoc,
      ← Nat.add_assoc, ← Nat.add_assoc, ← Nat.add_assoc, hq] at this
    exact this
  have kj := k4.head
  have ky := k4.tail.head
  have tail := loop_tail (fn := fn) hev hu ib hd0 h1 h2 h3 kb k1 k2 kk k3 kj ky
  cases n with
  | zero => rw [execR]; exact Long.zero
  | succ n =>
    cases en with
    | none =>
      cases hen
      have e : execR ev (n + 1) none (.loop init x inc body b k) m = match evList ev init m with
          | some m => execR ev (n + 1) none (.loop [] x inc body b k) m
          | none => .stuck := by
        rw [execR]
        split
        · rename_i m' he; simp only [he]; rw [execR]; simp only [evList]
        · rename_i he; simp only [he]
      rw [e]
      split
      · rename_i m1 he
        obtain ⟨t, r1, r2, r3⟩ := sim_list hev _ _ _ _ _ _ _ _ h0 hd he k0 hm
        rw [hq] at r1
        exact Ends.after r1 r3 (tail (n + 1) m1 t r2)
      · trivial
    | some g =>
      rw [execR]
      exact Ends.iter (ib (n + 1) s1 c2 s2 m (some g) _ epc st hd1 h2 k2 hm ⟨hen.1, hen.2⟩) kk ky
        (loop_next hev hu h3 hd2 kk k3 kj kb (tail n))

theorem do_next (hev : EvGood E B env P d ev) {x body b k} {n : Nat} {s1 s2 : GS} {c2 : List Instr} {p q : Nat}
    {lb : Label} (hu : UniqueLabels P) (h2 : gen false x s1 = some (c2, s2)) (hd1 : s1.depth = d)
    (kk : P[p]? = some (.label k)) (k2 : CodeAt P (p + 1) (c2 ++ cmpZero ++ [.beqz .a0 lb])) (kb : P[q]? = some (.label lb))
    (ky : P[p + 1 + c2.length + 2]? = some (.label b))
    (ih : ∀ m s', Match E B d m s' → Ends E B env P d fn n (execR ev n none (.doW body x b k) m) q s' (p + 1 + c2.length + 2 + 1)) :
    ∀ m s', Match E B d m s' → Ends E B env P d fn (n + 1)
      (match ev .test x m with
        | some (v, m) => if v ≠ 0 then execR ev n none (.doW body x b k) m else .done .normal m
        | none => .stuck) p s' (p + 1 + c2.length + 2 + 1) := by
  intro m s' hm
  split
  · rename_i v m1 he
    obtain ⟨t, t', r1, r2, r3, r4⟩ := sim_test_back hev hu h2 hd1 he k2 hm kb
    have r1 := (runs_label (env := env) (s := s') kk).trans r1
    by_cases hv : v = 0
    · rw [if_pos hv] at r2
      rw [if_neg (by simp [hv])]
      exact ⟨t', r1.trans ((Runs.one r2).trans (runs_label ky)), r3, r4⟩
    · rw [if_neg hv] at r2
      rw [if_pos hv]
      have h0 := ih m1 t' r3
      revert h0
      generalize execR ev n none (.doW body x b k) m1 = r
      intro h0
      cases r with
      | timeout => exact Long.after r1 (Long.step r2 h0)
      | stuck => trivial
      | done o m => cases o <;> exact Ends.after (n := n) (r1.trans (Runs.one r2)) r4 h0
  · trivial

theorem good_doW (hev : EvGood E B env P d ev) (hu : UniqueLabels P) (x : Expr) (b k : Label) {body : Stmt}
    (ib : GoodS E B env P d fn ev body) : GoodS E B env P d fn ev (.doW body x b k) := by
  intro n gs c gs' m en pc epc st hd hg hc hm hen
  simp only [genStmt, bindSome] at hg
  obtain ⟨⟨c1, s1⟩, h1, ⟨c2, s2⟩, h2, h4⟩ := hg
  simp only [Option.some.injEq, Prod.mk.injEq] at h4
  obtain ⟨rfl, rfl⟩ := h4
  have hd1 : s1.depth = d := (genStmt_depth body _ _ _ h1).1.trans hd
  have hlen : pc + ([Instr.label (lbl "begin" gs.cnt)] ++ c1 ++ [Instr.label k] ++ c2 ++ cmpZero ++ [Instr.beqz Reg.a0 (lbl "begin" gs.cnt), Instr.label b]).length =
      pc + 1 + c1.length + 1 + c2.length + 2 + 1 := by
    simp only [List.length_append, List.length_cons, List.length_nil, cmpZero]; omega
  rw [hlen]
  have kb : P[pc]? = some (Instr.label (lbl "begin" gs.cnt)) := hc.left.left.left.left.left.head
  have k1 : CodeAt P (pc + 1) c1 := hc.left.left.left.left.right
  have kk : P[pc + 1 + c1.length]? = some (Instr.label k) := by
    have := hc.left.left.left.right.head
    rw [List.length_append, ← Nat.add_assoc] at this
    exact this
  have hc' : CodeAt P pc ([Instr.label (lbl "begin" gs.cnt)] ++ c1 ++ [Instr.label k] ++ ((c2 ++ cmpZero ++ [Instr.beqz Reg.a0 (lbl "begin" gs.cnt)]) ++
      [Instr.label b])) := by
    simpa [List.append_assoc] using hc
  have k2' := hc'.right
  rw [List.length_append, List.length_append, ← Nat.add_assoc, ← Nat.add_assoc] at k2'
  have k2 : CodeAt P (pc + 1 + c1.length + 1) (c2 ++ cmpZero ++ [Instr.beqz Reg.a0 (lbl "begin" gs.cnt)]) := k2'.left
  have ky : P[pc + 1 + c1.length + 1 + c2.length + 2]? = some (Instr.label b) := by
    have := k2'.right.head
    rw [List.length_append, List.length_append, ← Nat.add_assoc, ← Nat.add_assoc] at this
    exact this
  have main : ∀ n m en epc st, Match E B d m st → (match en with | none => epc = pc + 1 | some l => body.defs l = true ∧ P[epc]? = some (.label l)) →
      Ends E B env P d fn n (execR ev n en (.doW body x b k) m) epc st (pc + 1 + c1.length + 1 + c2.length + 2 + 1) := by
    intro n
    induction n with
    | zero => intro m en epc st hm hen; rw [execR]; exact Long.zero
    | succ n ih =>
      intro m en epc st hm hen
      rw [execR]
      refine Ends.iter (ib (n + 1) gs.next c1 s1 m en (pc + 1) epc st hd h1 k1 hm hen) kk ky ?_
      refine do_next hev hu h2 hd1 kk k2 kb ky ?_
      intro m' s' hm'
      exact Ends.after (runs_label kb) .refl (ih m' none (pc + 1) s' hm' rfl)
  cases en with
  | none =>
    cases hen
    exact Ends.after (runs_label kb) .refl (main n m none _ st hm rfl)
  | some g => exact main n m (some g) epc st hm ⟨hen.1, hen.2⟩

/-- The code of every statement node executes it. -/
theorem genStmt_good (hev : EvGood E B env P d ev) (hu : UniqueLabels P) : ∀ s, GoodS E B env P d fn ev s
  | .skip => good_skip
  | .seq a b => good_seq (genStmt_good hev hu a) (genStmt_good hev hu b)
  | .expr e => good_expr hev e
  | .ifs x a b => good_ifs hev hu x (genStmt_good hev hu a) (genStmt_good hev hu b)
  | .loop i x inc body b k => good_loop hev hu i x inc b k (genStmt_good hev hu body)
  | .doW body x b k => good_doW hev hu x b k (genStmt_good hev hu body)
  | .switch x cs dd body b => good_switch hev hu x cs dd b (genStmt_good hev hu body) (fun _ h => defs_mem body h)
  | .label l s => good_label hu l (genStmt_good hev hu s)
  | .goto t => good_goto hu t
  | .ret e => good_ret hev hu e

/-- What the machine does from `(pc, s)` when the body behaves as `r`; it ends at `x` or at the return label. -/
def EndsBody (E : CEnv) (B : W) (env : Env) (P : Prog) (d n : Nat) (r : Res End) (pc : Nat) (s : St) (x t : Nat) : Prop :=
  match r with
  | .timeout => Long P env n (pc, s)
  | .stuck => True
  | .done .fell m => ∃ s', Runs P env (pc, s) (x, s') ∧ Match E B d m s' ∧ Keeps E B d s.mem s'.mem
  | .done (.ret v) m => ∃ s', Runs P env (pc, s) (t, s') ∧ Match E B d m s' ∧ Keeps E B d s.mem s'.mem ∧
      (∀ w, v = some w → s'.r .a0 = BitVec.ofInt 64 w)

theorem body_good (hev : EvGood E B env P d ev) (hu : UniqueLabels P) {body : Stmt} {gs gs' c pc t} (hd : gs.depth = d)
    (hg : genStmt fn body gs = some (c, gs')) (hc : CodeAt P pc c) (ht : P[t]? = some (.label (.ret fn))) :
    ∀ n m en epc st, Match E B d m st → Entry P body en pc epc → EndsBody E B env P d n (runR ev n en body m) epc st (pc + c.length) t := by
  intro n
  induction n with
  | zero =>
    intro m en epc st hm hen
    have h := genStmt_good (fn := fn) hev hu body 0 gs c gs' m en pc epc st hd hg hc hm hen
    rw [runR]
    revert h
    generalize execR ev 0 en body m = r
    intro h
    cases r with
    | timeout => exact h
    | stuck => trivial
    | done o m =>
      cases o with
      | normal => exact h
      | ret v => exact h t ht
      | jump l => exact Long.zero
  | succ n ih =>
    intro m en epc st hm hen
    have h := genStmt_good (fn := fn) hev hu body (n + 1) gs c gs' m en pc epc st hd hg hc hm hen
    rw [runR]
    revert h
    generalize execR ev (n + 1) en body m = r
    intro h
    cases r with
    | timeout => exact h
    | stuck => trivial
    | done o m =>
      cases o with
      | normal => exact h
      | ret v => exact h t ht
      | jump l =>
        dsimp only
        split
        · rename_i hdef
          obtain ⟨i, hi⟩ := List.getElem?_of_mem (defs_mem body hdef _ _ _ hg)
          have hlt : i < c.length := by
            rcases Nat.lt_or_ge i c.length with h | h
            · exact h
            · rw [List.getElem?_eq_none h] at hi; simp at hi
          have hy := hc i hlt
          rw [hi] at hy
          obtain ⟨s', h1, h2, h3⟩ := h _ hy
          have := ih m (some l) _ s' h2 ⟨hdef, hy⟩
          revert this
          generalize runR ev n (some l) body m = r
          intro h4
          cases r with
          | timeout => exact Long.after1 h1 h4
          | stuck => trivial
          | done v m =>
            cases v with
            | fell =>
              obtain ⟨s2, a2, a3, a4⟩ := h4
              exact ⟨s2, h1.runs.trans a2, a3, h3.trans a4⟩
            | ret v =>
              obtain ⟨s2, a2, a3, a4, a5⟩ := h4
              exact ⟨s2, h1.runs.trans a2, a3, h3.trans a4, a5⟩
        · trivial

end
end Toycc.Stm
