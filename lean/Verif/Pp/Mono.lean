import Verif.Pp.Model
/-! More fuel does not change a result that did not run out of fuel. -/
namespace Toycc.Pp
open Toycc.Lex (asc)

/-- `b` gives the same result as `a` wherever `a` does not run out of fuel. -/
def Le (a b : Rec) : Prop := ∀ st l, a st l = .error .fuel ∨ b st l = a st l

theorem substArg_mono (env : Env) {a b : Rec} (hl : Le a b) (s : Sub) (x : Arg) (t : PTok) (r : List PTok) :
    substArg env a s x t r = .error .fuel ∨ substArg env b s x t r = substArg env a s x t r := by
  unfold substArg
  rcases hl s.st x.toks with h | h
  · left; rw [h]
  · right; rw [h]

theorem substStep_mono (env : Env) {a b : Rec} (hl : Le a b) (s : Sub) (t : PTok) (r : List PTok) :
    substStep env a s t r = .error .fuel ∨ substStep env b s t r = substStep env a s t r := by
  unfold substStep
  split
  · right; rfl
  · dsimp only
    split
    · right; rfl
    · split
      · right; rfl
      · split
        · split
          · right; rfl
          · split
            · right; rfl
            · exact substArg_mono env hl s _ t r
        · right; rfl

theorem subst_mono (env : Env) {a b : Rec} (hl : Le a b) (s : Sub) :
    subst env a s = .error .fuel ∨ subst env b s = subst env a s := by
  have key : ∀ n, ∀ s : Sub, s.rest.length ≤ n → subst env a s = .error .fuel ∨ subst env b s = subst env a s := by
    intro n
    induction n with
    | zero =>
      intro s hs
      have : s.rest = [] := List.length_eq_zero_iff.mp (by omega)
      right
      rw [subst.eq_def, subst.eq_def env a]
      split
      · rfl
      · rename_i h; rw [this] at h; cases h
    | succ n ih =>
      intro s hs
      rw [subst.eq_def, subst.eq_def env b]
      split
      · right; rfl
      · rename_i t r hr
        split
        · right; rfl
        · rcases substStep_mono env hl s t r with h | h
          · left
            split
            · rename_i e he; rw [h] at he; cases he; rfl
            · rename_i he; rw [h] at he; cases he
          · cases hst : substStep env a s t r with
            | error e =>
              right
              rw [hst] at h
              split
              · rename_i e1 h1; rw [h] at h1; cases h1; rfl
              · rename_i s1 h1; rw [h] at h1; cases h1
            | ok s2 =>
              rw [hst] at h
              have hlen := substStep_len _ _ _ _ _ _ hst
              rw [hr] at hs
              simp only [List.length_cons] at hs
              rcases ih s2 (by omega) with h2 | h2
              · left; exact h2
              · right
                split
                · rename_i h1; rw [h] at h1; cases h1
                · rename_i s' h1
                  rw [h] at h1; cases h1; exact h2
  exact key _ s (Nat.le_refl _)

theorem expandMacro_mono (env : Env) {a b : Rec} (hl : Le a b) (st : St) (t : PTok) (r : List PTok) :
    expandMacro env a st t r = .error .fuel ∨ expandMacro env b st t r = expandMacro env a st t r := by
  unfold expandMacro
  split
  · right; rfl
  · split
    · right; rfl
    · rename_i m _
      split
      · right; rfl
      · split
        · right; rfl
        · split
          · right; rfl
          · split
            · right; rfl
            · split
              · right; rfl
              · rename_i args rp r2 _
                split
                · right; rfl
                · rcases subst_mono env hl { st := st, args := args, acc := [], rest := m.body } with h | h
                  · left; rw [h]
                  · right; rw [h]

theorem evalConst_mono (env : Env) {a b : Rec} (hl : Le a b) (st : St) (l : List PTok) :
    evalConst env a st l = .error .fuel ∨ evalConst env b st l = evalConst env a st l := by
  unfold evalConst
  split
  · right; rfl
  · split
    · right; rfl
    · rename_i ex _
      rcases hl st (ex.map ownTok) with h | h
      · left; rw [h]
      · right; rw [h]

theorem readInc_mono {a b : Rec} (hl : Le a b) (n m : Nat) (hn : n ≤ m) (st : St) (l : List PTok) :
    readIncludeFilename a n st l = .error .fuel ∨ readIncludeFilename b m st l = readIncludeFilename a n st l := by
  induction n generalizing m st l with
  | zero => left; rfl
  | succ n ih =>
    obtain ⟨m, rfl⟩ : ∃ k, m = k + 1 := ⟨m - 1, by omega⟩
    cases l with
    | nil => right; rfl
    | cons t r =>
      rw [readIncludeFilename, readIncludeFilename]
      split
      · right; rfl
      · split
        · right; rfl
        · split
          · split
            · right; rfl
            · rename_i line rest _
              rcases hl st line with h | h
              · left; rw [h]
              · rw [h]
                split
                · right; rfl
                · rename_i st' out _ _
                  rcases ih m (by omega) st' out with h2 | h2
                  · left; rw [h2]; rfl
                  · right; rw [h2]
          · right; rfl

theorem readLineMarker_mono {a b : Rec} (hl : Le a b) (st : St) (l : List PTok) :
    readLineMarker a st l = .error .fuel ∨ readLineMarker b st l = readLineMarker a st l := by
  unfold readLineMarker
  split
  · right; rfl
  · split
    · right; rfl
    · rename_i line rest _
      rcases hl st line with h | h
      · left; rw [h]
      · right; rw [h]

theorem directive_mono (env : Env) {a b : Rec} (hl : Le a b) (n m : Nat) (hn : n ≤ m) (st : St) (start : PTok)
    (l : List PTok) :
    directive env a n st start l = .error .fuel ∨ directive env b m st start l = directive env a n st start l := by
  have hinc : ∀ r, dirInclude env a n st start r = .error .fuel ∨ dirInclude env b m st start r = dirInclude env a n st start r := by
    intro r
    unfold dirInclude
    rcases readInc_mono hl n m hn st r with h | h
    · left; rw [h]
    · right; rw [h]
  have hincn : ∀ r, dirIncludeNext env a n st r = .error .fuel ∨ dirIncludeNext env b m st r = dirIncludeNext env a n st r := by
    intro r
    unfold dirIncludeNext
    rcases readInc_mono hl n m hn st r with h | h
    · left; rw [h]
    · right; rw [h]
  have hif : ∀ r, dirIf env a st r = .error .fuel ∨ dirIf env b st r = dirIf env a st r := by
    intro r
    unfold dirIf
    rcases evalConst_mono env hl st r with h | h
    · left; rw [h]
    · right; rw [h]
  have helif : ∀ l r, dirElif env a st l r = .error .fuel ∨ dirElif env b st l r = dirElif env a st l r := by
    intro l r
    unfold dirElif
    split
    · right; rfl
    · split
      · right; rfl
      · split
        · right; rfl
        · rename_i c cs _ _ _
          rcases evalConst_mono env hl { st with conds := { c with ctx := .inElif } :: cs } r with h | h
          · left; rw [h]
          · right; rw [h]
  cases l with
  | nil => right; rfl
  | cons t r =>
    unfold directive
    dsimp only
    by_cases h : t.is "include" = true
    · rw [if_pos h, if_pos h]; by_cases hs : env.strict = true
      · rw [if_pos hs, if_pos hs]; right; rfl
      · rw [if_neg hs, if_neg hs]; exact hinc _
    rw [if_neg h, if_neg h]; clear h
    by_cases h : t.is "include_next" = true
    · rw [if_pos h, if_pos h]; by_cases hs : env.strict = true
      · rw [if_pos hs, if_pos hs]; right; rfl
      · rw [if_neg hs, if_neg hs]; exact hincn _
    rw [if_neg h, if_neg h]; clear h
    by_cases h : t.is "define" = true
    · rw [if_pos h, if_pos h]; right; rfl
    rw [if_neg h, if_neg h]; clear h
    by_cases h : t.is "undef" = true
    · rw [if_pos h, if_pos h]; right; rfl
    rw [if_neg h, if_neg h]; clear h
    by_cases h : t.is "if" = true
    · rw [if_pos h, if_pos h]; exact hif _
    rw [if_neg h, if_neg h]; clear h
    by_cases h : t.is "ifdef" = true
    · rw [if_pos h, if_pos h]; right; rfl
    rw [if_neg h, if_neg h]; clear h
    by_cases h : t.is "ifndef" = true
    · rw [if_pos h, if_pos h]; right; rfl
    rw [if_neg h, if_neg h]; clear h
    by_cases h : t.is "elif" = true
    · rw [if_pos h, if_pos h]; exact helif _ _
    rw [if_neg h, if_neg h]; clear h
    by_cases h : t.is "else" = true
    · rw [if_pos h, if_pos h]; right; rfl
    rw [if_neg h, if_neg h]; clear h
    by_cases h : t.is "endif" = true
    · rw [if_pos h, if_pos h]; right; rfl
    rw [if_neg h, if_neg h]; clear h
    by_cases h : t.is "line" = true
    · rw [if_pos h, if_pos h]; exact readLineMarker_mono hl _ _
    rw [if_neg h, if_neg h]; clear h
    by_cases h : (t.kind == .ppNum) = true
    · rw [if_pos h, if_pos h]; exact readLineMarker_mono hl _ _
    rw [if_neg h, if_neg h]; clear h
    right; rfl

/-- **More fuel gives the same result.** -/
theorem pp_mono (env : Env) (n m : Nat) (hn : n ≤ m) (top : Bool) (st : St) (l : List PTok) :
    pp env n top st l = .error .fuel ∨ pp env m top st l = pp env n top st l := by
  induction n generalizing m top st l with
  | zero => left; rfl
  | succ n ih =>
    obtain ⟨m, rfl⟩ : ∃ k, m = k + 1 := ⟨m - 1, by omega⟩
    have hle : Le (pp env n false) (pp env m false) := fun st l => ih m (by omega) false st l
    have hn' : n ≤ m := by omega
    cases l with
    | nil => right; rfl
    | cons t r =>
      rw [pp, pp]
      split
      · right; rfl
      · rcases expandMacro_mono env hle st t r with h | h
        · left; rw [h]
        · rw [h]
          split
          · right; rfl
          · rename_i st' l' _
            rcases ih m hn' top st' l' with h2 | h2
            · left; rw [h2]
            · right; rw [h2]
          · split
            · rcases ih m hn' top st r with h2 | h2
              · left; rw [h2]
              · right; rw [h2]
            · split
              · right; rfl
              · rcases directive_mono env hle n m hn' st t r with h3 | h3
                · left; rw [h3]
                · rw [h3]
                  split
                  · right; rfl
                  · rename_i st' l' _
                    rcases ih m hn' top st' l' with h2 | h2
                    · left; rw [h2]
                    · right; rw [h2]

theorem le_pp (env : Env) (n m : Nat) (hn : n ≤ m) (top : Bool) : Le (pp env n top) (pp env m top) :=
  fun st l => pp_mono env n m hn top st l

end Toycc.Pp
