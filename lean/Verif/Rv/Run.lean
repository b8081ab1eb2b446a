import Verif.Rv.Lemmas
/-! Running a program for a given number of steps (used for concrete cases). -/
namespace Toycc.Rv

def runN (P : Prog) (env : Env) : Nat → Nat × St → Option (Nat × St)
  | 0, c => some c
  | n + 1, c => (step P env c).bind (runN P env n)

theorem runs_of_runN {P env n c c'} (h : runN P env n c = some c') : Runs P env c c' := by
  induction n generalizing c with
  | zero => simp only [runN, Option.some.injEq] at h; subst h; exact .refl
  | succ n ih =>
    simp only [runN, Option.bind_eq_some_iff] at h
    obtain ⟨c1, h1, h2⟩ := h
    exact (Runs.one h1).trans (ih h2)

theorem StepN.det {P env n c a b} (h1 : StepN P env n c a) (h2 : StepN P env n c b) : a = b := by
  induction h1 with
  | zero => cases h2; rfl
  | succ e _ ih => cases h2 with | succ e' h => rw [e] at e'; cases e'; exact ih h

/-- Two runs that both stop at a given position outside the code are the same: the machine is deterministic and `pc` leaves a
position where no instruction is. -/
theorem Runs.det {P : Prog} {env : Env} {c a b : Nat × St} (h1 : Runs P env c a) (h2 : Runs P env c b)
    (ha : P[a.1]? = none) (hb : P[b.1]? = none) : a = b := by
  obtain ⟨n, h1⟩ := h1
  obtain ⟨k, h2⟩ := h2
  induction h1 generalizing k with
  | zero c =>
    cases h2 with
    | zero => rfl
    | succ e h => simp [step, ha] at e
  | succ e _ ih =>
    cases h2 with
    | zero => simp [step, hb] at e
    | succ e' h => rw [e] at e'; cases e'; exact ih ha _ h

end Toycc.Rv
