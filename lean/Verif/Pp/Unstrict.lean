import Verif.Pp.Mono
/-! The strict mode of the model (`Env.strict`) differs from the code only by the errors it adds: where a strict run ends
with anything else, the run of the code ends in the same way. -/
namespace Toycc.Pp
open Toycc.Lex (asc)

/-- The model of the code itself: no strict mode. -/
def relax (env : Env) : Env := { env with strict := false }

/-- The outcomes that say nothing about the code. -/
def PErr.silent : PErr → Bool
  | .fuel | .generated | .includes | .reused => true
  | _ => false

def Silent {α : Type} (a : Except PErr α) : Prop := ∃ e : PErr, e.silent = true ∧ a = .error e

/-- `b` gives the same result as `a` wherever `a` has something to say. -/
def Sim (a b : Rec) : Prop := ∀ st l, Silent (a st l) ∨ b st l = a st l

theorem substArg_sim (env : Env) {a b : Rec} (hl : Sim a b) (s : Sub) (x : Arg) (t : PTok) (r : List PTok) :
    Silent (substArg env a s x t r) ∨ substArg (relax env) b s x t r = substArg env a s x t r := by
  unfold substArg
  rcases hl s.st x.toks with ⟨e, he, h⟩ | h
  · left; exact ⟨e, he, by rw [h]⟩
  · rw [h]
    split
    · right; rfl
    · split
      · right; rfl
      · dsimp only
        split
        · left; exact ⟨.reused, rfl, rfl⟩
        · right
          rw [if_neg (by simp [relax])]

theorem substStep_sim (env : Env) {a b : Rec} (hl : Sim a b) (s : Sub) (t : PTok) (r : List PTok) :
    Silent (substStep env a s t r) ∨ substStep (relax env) b s t r = substStep env a s t r := by
  unfold substStep
  split
  · right; rfl
  · dsimp only
    split
    · right; rfl
    · split
      · right; rfl
      · split
        · split
          · right; rfl
          · split
            · right; rfl
            · exact substArg_sim env hl s _ t r
        · right; rfl

theorem subst_sim (env : Env) {a b : Rec} (hl : Sim a b) (s : Sub) :
    Silent (subst env a s) ∨ subst (relax env) b s = subst env a s := by
  have key : ∀ n, ∀ s : Sub, s.rest.length ≤ n → Silent (subst env a s) ∨ subst (relax env) b s = subst env a s := by
    intro n
    induction n with
    | zero =>
      intro s hs
      have : s.rest = [] := List.length_eq_zero_iff.mp (by omega)
      right
      rw [subst.eq_def, subst.eq_def env a]
      split
      · rfl
      · rename_i h; rw [this] at h; cases h
    | succ n ih =>
      intro s hs
      rw [subst.eq_def, subst.eq_def (relax env) b]
      split
      · right; rfl
      · rename_i t r hr
        split
        · right; rfl
        · rcases substStep_sim env hl s t r with ⟨e, he, h⟩ | h
          · left
            refine ⟨e, he, ?_⟩
            split
            · rename_i e' he'; rw [h] at he'; cases he'; rfl
            · rename_i he'; rw [h] at he'; cases he'
          · cases hst : substStep env a s t r with
            | error e =>
              right
              rw [hst] at h
              split
              · rename_i e1 h1; rw [h] at h1; cases h1; rfl
              · rename_i s1 h1; rw [h] at h1; cases h1
            | ok s2 =>
              rw [hst] at h
              have hlen := substStep_len _ _ _ _ _ _ hst
              rw [hr] at hs
              simp only [List.length_cons] at hs
              rcases ih s2 (by omega) with h2 | h2
              · left; exact h2
              · right
                split
                · rename_i h1; rw [h] at h1; cases h1
                · rename_i s' h1
                  rw [h] at h1; cases h1; exact h2
  exact key _ s (Nat.le_refl _)

theorem expandMacro_sim (env : Env) {a b : Rec} (hl : Sim a b) (st : St) (t : PTok) (r : List PTok) :
    Silent (expandMacro env a st t r) ∨ expandMacro (relax env) b st t r = expandMacro env a st t r := by
  unfold expandMacro
  split
  · right; rfl
  · split
    · right; rfl
    · rename_i m _
      split
      · right; rfl
      · split
        · right; rfl
        · split
          · right; rfl
          · split
            · right; rfl
            · split
              · right; rfl
              · rename_i args rp r2 _
                rw [if_neg (by simp [relax] : ¬ ((relax env).strict && rp.tail) = true)]
                split
                · left; exact ⟨.reused, rfl, rfl⟩
                · rcases subst_sim env hl { st := st, args := args, acc := [], rest := m.body } with ⟨e, he, h⟩ | h
                  · left; exact ⟨e, he, by rw [h]⟩
                  · right; rw [h]

theorem readConstExpr_relax (env : Env) (st : St) (l : List PTok) : readConstExpr (relax env) st l = readConstExpr env st l := by
  have key : ∀ n, ∀ l : List PTok, l.length ≤ n → readConstExpr (relax env) st l = readConstExpr env st l := by
    intro n
    induction n with
    | zero =>
      intro l hl
      have : l = [] := List.length_eq_zero_iff.mp (by omega)
      subst this; simp [readConstExpr]
    | succ n ih =>
      intro l hl
      match l with
      | [] => simp [readConstExpr]
      | t :: r =>
        simp only [List.length_cons] at hl
        have hn : ∀ v t, newNum (relax env) v t = newNum env v t := fun _ _ => rfl
        rw [readConstExpr.eq_def, readConstExpr.eq_def env]
        dsimp only
        rw [ih r (by omega)]
        split
        · rfl
        · split
          · split
            · rfl
            · rename_i u r1
              simp only [List.length_cons] at hl
              rw [ih r1 (by omega)]
              split
              · split
                · rfl
                · rename_i v r2
                  simp only [List.length_cons] at hl
                  split
                  · rfl
                  · split
                    · rfl
                    · rename_i w r3
                      simp only [List.length_cons] at hl
                      rw [ih r3 (by omega)]
                      rfl
              · rfl
          · rfl
  exact key _ l (Nat.le_refl _)

theorem zeroIdents_relax (env : Env) (l : List PTok) : zeroIdents (relax env) l = zeroIdents env l := by
  induction l with
  | nil => rfl
  | cons t r ih => rw [zeroIdents, zeroIdents, ih]; rfl

theorem evalConst_sim (env : Env) {a b : Rec} (hl : Sim a b) (st : St) (l : List PTok) :
    Silent (evalConst env a st l) ∨ evalConst (relax env) b st l = evalConst env a st l := by
  unfold evalConst
  split
  · right; rfl
  · rw [readConstExpr_relax]
    split
    · right; rfl
    · rename_i ex _
      rcases hl st (ex.map ownTok) with ⟨e, he, h⟩ | h
      · left; exact ⟨e, he, by rw [h]⟩
      · right; rw [h]; simp only [zeroIdents_relax]; rfl

theorem readLineMarker_sim {a b : Rec} (hl : Sim a b) (st : St) (l : List PTok) :
    Silent (readLineMarker a st l) ∨ readLineMarker b st l = readLineMarker a st l := by
  unfold readLineMarker
  split
  · right; rfl
  · split
    · right; rfl
    · rename_i line rest _
      rcases hl st line with ⟨e, he, h⟩ | h
      · left; exact ⟨e, he, by rw [h]⟩
      · right; rw [h]

theorem directive_sim (env : Env) (hs : env.strict = true) {a b : Rec} (hl : Sim a b) (n m : Nat) (st : St) (start : PTok)
    (l : List PTok) :
    Silent (directive env a n st start l) ∨ directive (relax env) b m st start l = directive env a n st start l := by
  have hif : ∀ r, Silent (dirIf env a st r) ∨ dirIf (relax env) b st r = dirIf env a st r := by
    intro r
    unfold dirIf
    rcases evalConst_sim env hl st r with ⟨e, he, h⟩ | h
    · left; exact ⟨e, he, by rw [h]⟩
    · right; rw [h]
  have helif : ∀ l r, Silent (dirElif env a st l r) ∨ dirElif (relax env) b st l r = dirElif env a st l r := by
    intro l r
    unfold dirElif
    split
    · right; rfl
    · split
      · right; rfl
      · split
        · right; rfl
        · rename_i c cs _ _ _
          rcases evalConst_sim env hl { st with conds := { c with ctx := .inElif } :: cs } r with ⟨e, he, h⟩ | h
          · left; exact ⟨e, he, by rw [h]⟩
          · right; rw [h]
  cases l with
  | nil => right; rfl
  | cons t r =>
    unfold directive
    dsimp only
    by_cases h : t.is "include" = true
    · rw [if_pos h, if_pos h, if_pos hs]; left; exact ⟨.includes, rfl, rfl⟩
    rw [if_neg h, if_neg h]; clear h
    by_cases h : t.is "include_next" = true
    · rw [if_pos h, if_pos h, if_pos hs]; left; exact ⟨.includes, rfl, rfl⟩
    rw [if_neg h, if_neg h]; clear h
    by_cases h : t.is "define" = true
    · rw [if_pos h, if_pos h]; right; rfl
    rw [if_neg h, if_neg h]; clear h
    by_cases h : t.is "undef" = true
    · rw [if_pos h, if_pos h]; right; rfl
    rw [if_neg h, if_neg h]; clear h
    by_cases h : t.is "if" = true
    · rw [if_pos h, if_pos h]; exact hif _
    rw [if_neg h, if_neg h]; clear h
    by_cases h : t.is "ifdef" = true
    · rw [if_pos h, if_pos h]; right; rfl
    rw [if_neg h, if_neg h]; clear h
    by_cases h : t.is "ifndef" = true
    · rw [if_pos h, if_pos h]; right; rfl
    rw [if_neg h, if_neg h]; clear h
    by_cases h : t.is "elif" = true
    · rw [if_pos h, if_pos h]; exact helif _ _
    rw [if_neg h, if_neg h]; clear h
    by_cases h : t.is "else" = true
    · rw [if_pos h, if_pos h]; right; rfl
    rw [if_neg h, if_neg h]; clear h
    by_cases h : t.is "endif" = true
    · rw [if_pos h, if_pos h]; right; rfl
    rw [if_neg h, if_neg h]; clear h
    by_cases h : t.is "line" = true
    · rw [if_pos h, if_pos h]; exact readLineMarker_sim hl _ _
    rw [if_neg h, if_neg h]; clear h
    by_cases h : (t.kind == .ppNum) = true
    · rw [if_pos h, if_pos h]; exact readLineMarker_sim hl _ _
    rw [if_neg h, if_neg h]; clear h
    right; rfl

/-- **Where the strict mode does not stop, it is the code.** -/
theorem pp_sim (env : Env) (hs : env.strict = true) (n : Nat) (top : Bool) (st : St) (l : List PTok) :
    Silent (pp env n top st l) ∨ pp (relax env) n top st l = pp env n top st l := by
  induction n generalizing top st l with
  | zero => left; exact ⟨.fuel, rfl, rfl⟩
  | succ n ih =>
    have hle : Sim (pp env n false) (pp (relax env) n false) := fun st l => ih false st l
    cases l with
    | nil => right; rfl
    | cons t r =>
      rw [pp, pp]
      split
      · right; rfl
      · rcases expandMacro_sim env hle st t r with ⟨e, he, h⟩ | h
        · left; exact ⟨e, he, by rw [h]⟩
        · rw [h]
          split
          · right; rfl
          · rename_i st' l' _
            rcases ih top st' l' with ⟨e, he, h2⟩ | h2
            · left; exact ⟨e, he, by rw [h2]⟩
            · right; rw [h2]
          · split
            · rcases ih top st r with ⟨e, he, h2⟩ | h2
              · left; exact ⟨e, he, by rw [h2]⟩
              · right; rw [h2]
            · rw [if_neg (by simp [relax] : ¬ ((relax env).strict && !(top && t.own)) = true)]
              split
              · left; exact ⟨.generated, rfl, rfl⟩
              · rcases directive_sim env hs hle n n st t r with ⟨e, he, h3⟩ | h3
                · left; exact ⟨e, he, by rw [h3]⟩
                · rw [h3]
                  split
                  · right; rfl
                  · rename_i st' l' _
                    rcases ih top st' l' with ⟨e, he, h2⟩ | h2
                    · left; exact ⟨e, he, by rw [h2]⟩
                    · right; rw [h2]

end Toycc.Pp
