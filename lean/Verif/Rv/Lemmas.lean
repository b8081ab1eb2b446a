import Verif.Rv.Machine
/-! Running straight-line code inside a program. -/
namespace Toycc.Rv

theorem r_set_same (s : St) (x : Reg) (v : W) (h : x ≠ .zero) : (s.set x v).r x = v := by simp [St.r, St.set, h]
theorem r_set_ne (s : St) (x y : Reg) (v : W) (h : y ≠ x) : (s.set x v).r y = s.r y := by simp [St.r, St.set, h]
@[simp] theorem mem_set (s : St) (x : Reg) (v : W) : (s.set x v).mem = s.mem := rfl
@[simp] theorem r_mem (s : St) (m : Mem) (x : Reg) : ({ s with mem := m } : St).r x = s.r x := rfl

/-- The program contains `c` at position `pc`. -/
def CodeAt (P : Prog) (pc : Nat) (c : List Instr) : Prop := ∀ i, i < c.length → P[pc + i]? = c[i]?

theorem CodeAt.left {P pc a b} (h : CodeAt P pc (a ++ b)) : CodeAt P pc a := by
  intro i hi
  rw [h i (by simp; omega), List.getElem?_append_left hi]

theorem CodeAt.right {P pc a b} (h : CodeAt P pc (a ++ b)) : CodeAt P (pc + a.length) b := by
  intro i hi
  have := h (a.length + i) (by simp; omega)
  rw [List.getElem?_append_right (by omega)] at this
  rw [Nat.add_assoc, this]
  congr 1; omega

theorem CodeAt.head {P pc x b} (h : CodeAt P pc (x :: b)) : P[pc]? = some x := by
  have := h 0 (by simp)
  simpa using this

theorem CodeAt.tail {P pc x b} (h : CodeAt P pc (x :: b)) : CodeAt P (pc + 1) b := by
  have := CodeAt.right (a := [x]) h
  simpa using this

theorem codeAt_self (c : List Instr) : CodeAt c 0 c := by
  intro i _; rw [Nat.zero_add]

theorem Runs.refl {P env c} : Runs P env c c := ⟨0, .zero c⟩

theorem StepN.trans {P env a b c m n} (h1 : StepN P env m a b) (h2 : StepN P env n b c) : StepN P env (m + n) a c := by
  induction h1 with
  | zero => simpa using h2
  | succ hs _ ih =>
    have := StepN.succ hs (ih h2)
    rw [show ∀ k : Nat, k + 1 + n = k + n + 1 from fun k => by omega]
    exact this

theorem Runs.trans {P env a b c} (h1 : Runs P env a b) (h2 : Runs P env b c) : Runs P env a c :=
  let ⟨_, h1⟩ := h1
  let ⟨_, h2⟩ := h2
  ⟨_, h1.trans h2⟩

theorem Runs.one {P env a b} (h : step P env a = some b) : Runs P env a b := ⟨1, .succ h (.zero b)⟩

/-- Straight-line execution. -/
def execL (env : Env) : List Instr → St → Option St
  | [], s => some s
  | i :: r, s => (exec env i s).bind (execL env r)

theorem execL_append {env a b s} : execL env (a ++ b) s = (execL env a s).bind (execL env b) := by
  induction a generalizing s with
  | nil => rfl
  | cons i r ih =>
    simp only [List.cons_append, execL]
    cases exec env i s with
    | none => rfl
    | some t => simp [ih]

theorem step_exec {P env pc i s s'} (hi : P[pc]? = some i) (h : exec env i s = some s') : step P env (pc, s) = some (pc + 1, s') := by
  unfold step
  rw [hi]
  cases i <;> simp only [exec, reduceCtorEq, Option.some.injEq] at h <;> simp only [exec, Option.map_some, h]

theorem runs_execL {P env c pc s s'} (hc : CodeAt P pc c) (h : execL env c s = some s') : Runs P env (pc, s) (pc + c.length, s') := by
  induction c generalizing pc s with
  | nil => simp only [execL, Option.some.injEq] at h; subst h; exact .refl
  | cons i r ih =>
    simp only [execL, Option.bind_eq_some_iff] at h
    obtain ⟨t, h1, h2⟩ := h
    have := ih hc.tail h2
    rw [List.length_cons, show pc + (r.length + 1) = pc + 1 + r.length by omega]
    exact (Runs.one (step_exec hc.head h1)).trans this

/-- Each label is defined once. -/
def UniqueLabels (P : Prog) : Prop :=
  ∀ (i j : Nat) (l : Label), P[i]? = some (Instr.label l) → P[j]? = some (Instr.label l) → i = j

theorem find_eq {P : Prog} (hu : UniqueLabels P) {i l} (h : P[i]? = some (.label l)) : find P l = some i := by
  unfold find
  rw [List.findIdx?_eq_some_iff_getElem]
  have hi : i < P.length := by
    rcases Nat.lt_or_ge i P.length with h1 | h1
    · exact h1
    · rw [List.getElem?_eq_none h1] at h; simp at h
  refine ⟨hi, ?_, ?_⟩
  · rw [List.getElem?_eq_getElem hi] at h
    simp only [Option.some.injEq] at h
    simp [h]
  · intro j hj
    simp only [beq_iff_eq]
    intro e
    have hj' : j < P.length := by omega
    have := hu i j l h (by rw [List.getElem?_eq_getElem hj', e])
    omega

theorem step_j {P env pc s l t} (hi : P[pc]? = some (.j l)) (ht : find P l = some t) : step P env (pc, s) = some (t, s) := by
  simp [step, hi, branch, ht]

theorem step_bnez {P env pc s l t r} (hi : P[pc]? = some (.bnez r l)) (ht : find P l = some t) :
    step P env (pc, s) = some (if s.r r = 0 then pc + 1 else t, s) := by
  by_cases h : s.r r = 0#64 <;> simp [step, hi, branch, ht, h]

theorem step_beqz {P env pc s l t r} (hi : P[pc]? = some (.beqz r l)) (ht : find P l = some t) :
    step P env (pc, s) = some (if s.r r = 0 then t else pc + 1, s) := by
  by_cases h : s.r r = 0#64 <;> simp [step, hi, branch, ht, h]

end Toycc.Rv
