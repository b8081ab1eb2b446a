import Verif.Pp.Model
/-! Properties of the include cache that are kept by every step of the preprocessor. -/
namespace Toycc.Pp
open Toycc.Lex (asc)

/-- The property `P` of states is kept by runs of `rec`. -/
def Keep (P : St → Prop) (rec : Rec) : Prop := ∀ st l st' o p, rec st l = .ok (st', o, p) → P st → P st'

variable {P : St → Prop} {env : Env} {rec : Rec}

theorem substStep_keep (hr : Keep P rec) (s : Sub) (t : PTok) (r : List PTok) (s' : Sub)
    (h : substStep env rec s t r = .ok s') (hp : P s.st) : P s'.st := by
  have hva : ∀ r' s', substVaOpt s r' = .ok s' → s'.st = s.st := by
    intro r' s' h
    unfold substVaOpt at h
    split at h
    · cases h
    · split at h
      · cases h
      · cases h; rfl
  unfold substStep at h
  split at h
  · split at h
    · cases h
    · split at h
      · cases h
      · split at h
        · cases h
        · cases h; exact hp
  · dsimp only at h
    split at h
    · split at h
      · cases h; exact hp
      · cases h; exact hp
    · split at h
      · unfold substPaste at h
        split at h
        · cases h
        · split at h
          · cases h
          · split at h
            · cases h
            · split at h
              · split at h
                · cases h
                · split at h
                  · cases h; exact hp
                  · split at h
                    · cases h
                    · cases h; exact hp
              · split at h
                · cases h
                · cases h; exact hp
      · split at h
        · split at h
          · unfold substLeft at h
            split at h
            · split at h
              · split at h
                · cases h; exact hp
                · cases h; exact hp
              · cases h
            · cases h; exact hp
          · split at h
            · rw [hva _ _ h]; exact hp
            · unfold substArg at h
              split at h
              · cases h
              · rename_i st' out pre hrec
                split at h
                · cases h
                · dsimp only at h
                  split at h
                  · cases h
                  · cases h; exact hr _ _ _ _ _ hrec hp
        · split at h
          · rw [hva _ _ h]; exact hp
          · cases h; exact hp

theorem subst_keep (hr : Keep P rec) (s : Sub) (st' : St) (b : List PTok) (h : subst env rec s = .ok (st', b))
    (hp : P s.st) : P st' := by
  have key : ∀ n, ∀ s : Sub, s.rest.length ≤ n → subst env rec s = .ok (st', b) → P s.st → P st' := by
    intro n
    induction n with
    | zero =>
      intro s hs h hp
      rw [subst.eq_def] at h
      split at h
      · cases h
      · rename_i hl
        rw [hl] at hs; simp at hs
    | succ n ih =>
      intro s hs h hp
      rw [subst.eq_def] at h
      split at h
      · cases h
      · rename_i t r hl
        split at h
        · cases h; exact hp
        · split at h
          · cases h
          · rename_i s2 hst
            have hlen := substStep_len _ _ _ _ _ _ hst
            rw [hl] at hs
            simp only [List.length_cons] at hs
            exact ih s2 (by omega) h (substStep_keep hr _ _ _ _ hst hp)
  exact key _ s (Nat.le_refl _) h hp

theorem expandMacro_keep (hc : ∀ st st' : St, st'.cache = st.cache → P st → P st') (hr : Keep P rec) (st : St)
    (t : PTok) (r : List PTok) (st' : St) (l : List PTok) (h : expandMacro env rec st t r = .ok (some (st', l)))
    (hp : P st) : P st' := by
  unfold expandMacro at h
  split at h
  · cases h
  · split at h
    · cases h
    · split at h
      · rename_i hd _
        split at h
        · cases h
        · rename_i st1 x hh
          cases h
          refine hc st _ ?_ hp
          cases hd <;> simp only [runHandler] at hh
          · cases hx : newStr env (lineState st (root t).1).1 t <;> rw [hx] at hh <;> simp [Except.map] at hh
            rw [← hh.1]
          · cases hx : newNum env (↑(root t).2 + (lineState st (root t).1).2) t <;> rw [hx] at hh <;> simp [Except.map] at hh
            rw [← hh.1]
          · cases hx : newNum env (↑st.counter) t <;> rw [hx] at hh <;> simp [Except.map] at hh
            rw [← hh.1]
          · cases hx : newStr env (env.stamp t.file.name) t <;> rw [hx] at hh <;> simp [Except.map] at hh
            rw [← hh.1]
          · cases hx : newStr env env.base t <;> rw [hx] at hh <;> simp [Except.map] at hh
            rw [← hh.1]
      · split at h
        · split at h
          · cases h
          · cases h; exact hp
        · split at h
          · cases h
          · split at h
            · cases h
            · split at h
              · cases h
              · split at h
                · cases h
                · split at h
                  · cases h
                  · rename_i st1 b hs
                    split at h
                    · cases h
                    · cases h; exact subst_keep hr _ _ _ hs hp

theorem evalConst_keep (hr : Keep P rec) (st : St) (l : List PTok) (st' : St) (v : Int) (rest : List PTok)
    (h : evalConst env rec st l = .ok (st', v, rest)) (hp : P st) : P st' := by
  unfold evalConst at h
  split at h
  · cases h
  · split at h
    · cases h
    · split at h
      · cases h
      · rename_i st1 out pre hrec
        have := hr _ _ _ _ _ hrec hp
        split at h
        · cases h
        · split at h
          · cases h
          · split at h
            · cases h
            · split at h
              · cases h
              · cases h; exact this
              · split at h
                · cases h; exact this
                · cases h

theorem map_ok {α β : Type} (x : Except PErr α) (f : α → β) (b : β) (h : x.map f = .ok b) : ∃ a, x = .ok a ∧ f a = b := by
  cases x with
  | error e => cases h
  | ok a => cases h; exact ⟨a, rfl, rfl⟩

theorem readInc_keep (hr : Keep P rec) (n : Nat) (st : St) (l : List PTok) (st' : St) (f : Bytes) (q : Bool)
    (rest : List PTok) (h : readIncludeFilename rec n st l = .ok (st', f, q, rest)) (hp : P st) : P st' := by
  induction n generalizing st l st' f q rest with
  | zero => cases h
  | succ n ih =>
    cases l with
    | nil => cases h
    | cons t r =>
      rw [readIncludeFilename] at h
      split at h
      · obtain ⟨a, _, ha⟩ := map_ok _ _ _ h; cases ha; exact hp
      · split at h
        · split at h
          · cases h
          · dsimp only at h
            split at h
            · cases h
            · split at h
              · obtain ⟨a, _, ha⟩ := map_ok _ _ _ h; cases ha; exact hp
              · cases h
        · split at h
          · split at h
            · cases h
            · split at h
              · cases h
              · rename_i st1 out pre hrec
                obtain ⟨⟨st2, f2, q2, r2⟩, ha, hb⟩ := map_ok _ _ _ h
                cases hb
                exact ih _ _ _ _ _ _ ha (hr _ _ _ _ _ hrec hp)
          · cases h

theorem readLineMarker_keep (hc : ∀ st st' : St, st'.cache = st.cache → P st → P st') (hr : Keep P rec) (st : St)
    (l : List PTok) (st' : St) (rest : List PTok) (h : readLineMarker rec st l = .ok (st', rest)) (hp : P st) : P st' := by
  unfold readLineMarker at h
  split at h
  · cases h
  · split at h
    · cases h
    · split at h
      · cases h
      · rename_i st1 out pre hrec
        have hk := hr _ _ _ _ _ hrec hp
        split at h
        · cases h
        · split at h
          · cases h
          · split at h
            · cases h
            · split at h
              · cases h; exact hk
              · dsimp only at h
                split at h
                · cases h
                · split at h
                  · cases h; exact hc st1 _ rfl hk
                  · split at h
                    · cases h; exact hc st1 _ rfl hk
                    · cases h

theorem includeFile_cache (st : St) (path : Bytes) (l : List PTok) (st' : St) (l' : List PTok)
    (h : includeFile env st path l = .ok (st', l')) : st'.cache = st.cache := by
  unfold includeFile at h
  split at h
  · cases h; rfl
  · split at h
    · cases h; rfl
    · split at h
      · cases h
      · cases h
      · rename_i st1 ts ht
        have h1 : st1.cache = st.cache := by
          unfold tokenizeFile at ht
          split at ht
          · cases ht
          · split at ht
            · cases ht
            · split at ht
              · cases ht
              · cases ht; rfl
        split at h
        · cases h
        · dsimp only at h
          cases h
          split
          · exact h1
          · exact h1

theorem readMacroDefinition_cache (st : St) (l : List PTok) (st' : St) (rest : List PTok)
    (h : readMacroDefinition st l = .ok (st', rest)) : st'.cache = st.cache := by
  cases l with
  | nil => cases h
  | cons t r =>
    rw [readMacroDefinition.eq_def] at h
    dsimp only at h
    split at h
    · cases h
    · split at h
      · cases h
      · split at h
        · split at h
          · cases h
          · split at h
            · cases h
            · cases h; rfl
        · split at h
          · cases h
          · cases h; rfl

theorem directive_keep (hc : ∀ st st' : St, st'.cache = st.cache → P st → P st')
    (hse : ∀ st name, P st → P (searchIncludePaths env st name).1) (hr : Keep P rec) (n : Nat) (st : St) (start : PTok)
    (l : List PTok) (st' : St) (l' : List PTok) (h : directive env rec n st start l = .ok (st', l')) (hp : P st) : P st' := by
  have hinc : ∀ r, dirInclude env rec n st start r = .ok (st', l') → P st' := by
    intro r h
    unfold dirInclude at h
    split at h
    · cases h
    · rename_i st1 name q rest h1
      have hk := readInc_keep hr _ _ _ _ _ _ _ h1 hp
      dsimp only at h
      split at h
      · exact hc _ _ (includeFile_cache _ _ _ _ _ h) hk
      · have hs := hse st1 name hk
        split at h
        · rename_i st2 path h2
          rw [h2] at hs
          exact hc _ _ (includeFile_cache _ _ _ _ _ h) hs
        · rename_i st2 h2
          rw [h2] at hs
          exact hc _ _ (includeFile_cache _ _ _ _ _ h) hs
  have hincn : ∀ r, dirIncludeNext env rec n st r = .ok (st', l') → P st' := by
    intro r h
    unfold dirIncludeNext at h
    split at h
    · cases h
    · rename_i st1 name q rest h1
      have hk := readInc_keep hr _ _ _ _ _ _ _ h1 hp
      have hs : ∀ name, (searchIncludeNext env st1 name).1.cache = st1.cache := by
        intro name
        unfold searchIncludeNext
        split <;> rfl
      have hs := hs name
      split at h
      · rename_i st2 path h2
        rw [h2] at hs
        exact hc _ _ ((includeFile_cache _ _ _ _ _ h).trans hs) hk
      · rename_i st2 h2
        rw [h2] at hs
        exact hc _ _ ((includeFile_cache _ _ _ _ _ h).trans hs) hk
  have hif : ∀ r, dirIf env rec st r = .ok (st', l') → P st' := by
    intro r h
    unfold dirIf at h
    split at h
    · cases h
    · rename_i st1 v rest h1
      have hk := evalConst_keep hr _ _ _ _ _ h1 hp
      split at h
      · cases h; exact hc st1 _ rfl hk
      · obtain ⟨a, _, ha⟩ := map_ok _ _ _ h; cases ha; exact hc st1 _ rfl hk
  have hifdef : ∀ b r, dirIfdef st b r = .ok (st', l') → P st' := by
    intro b r h
    unfold dirIfdef at h
    split at h
    · cases h
    · dsimp only at h
      split at h
      · cases h
      · split at h
        · cases h; exact hc st _ rfl hp
        · obtain ⟨a, _, ha⟩ := map_ok _ _ _ h; cases ha; exact hc st _ rfl hp
  have helif : ∀ l r, dirElif env rec st l r = .ok (st', l') → P st' := by
    intro l r h
    unfold dirElif at h
    split at h
    · cases h
    · split at h
      · cases h
      · split at h
        · obtain ⟨a, _, ha⟩ := map_ok _ _ _ h; cases ha; exact hc st _ rfl hp
        · split at h
          · cases h
          · rename_i st1 v rest h1
            have hk := evalConst_keep hr _ _ _ _ _ h1 (hc st _ rfl hp)
            split at h
            · split at h
              · cases h
              · cases h; exact hc st1 _ rfl hk
            · obtain ⟨a, _, ha⟩ := map_ok _ _ _ h; cases ha; exact hk
  have helse : ∀ r, dirElse st r = .ok (st', l') → P st' := by
    intro r h
    unfold dirElse at h
    split at h
    · cases h
    · split at h
      · cases h
      · split at h
        · cases h
        · dsimp only at h
          split at h
          · obtain ⟨a, _, ha⟩ := map_ok _ _ _ h; cases ha; exact hc st _ rfl hp
          · cases h; exact hc st _ rfl hp
  cases l with
  | nil => cases h
  | cons t r =>
    unfold directive at h
    dsimp only at h
    by_cases c : t.is "include" = true
    · rw [if_pos c] at h
      by_cases hs : env.strict = true
      · rw [if_pos hs] at h; cases h
      · rw [if_neg hs] at h; exact hinc _ h
    rw [if_neg c] at h; clear c
    by_cases c : t.is "include_next" = true
    · rw [if_pos c] at h
      by_cases hs : env.strict = true
      · rw [if_pos hs] at h; cases h
      · rw [if_neg hs] at h; exact hincn _ h
    rw [if_neg c] at h; clear c
    by_cases c : t.is "define" = true
    · rw [if_pos c] at h; exact hc st _ (readMacroDefinition_cache _ _ _ _ h) hp
    rw [if_neg c] at h; clear c
    by_cases c : t.is "undef" = true
    · rw [if_pos c] at h
      split at h
      · cases h
      · split at h
        · cases h
        · obtain ⟨a, _, ha⟩ := map_ok _ _ _ h; cases ha; exact hc st _ rfl hp
    rw [if_neg c] at h; clear c
    by_cases c : t.is "if" = true
    · rw [if_pos c] at h; exact hif _ h
    rw [if_neg c] at h; clear c
    by_cases c : t.is "ifdef" = true
    · rw [if_pos c] at h; exact hifdef _ _ h
    rw [if_neg c] at h; clear c
    by_cases c : t.is "ifndef" = true
    · rw [if_pos c] at h; exact hifdef _ _ h
    rw [if_neg c] at h; clear c
    by_cases c : t.is "elif" = true
    · rw [if_pos c] at h; exact helif _ _ h
    rw [if_neg c] at h; clear c
    by_cases c : t.is "else" = true
    · rw [if_pos c] at h; exact helse _ h
    rw [if_neg c] at h; clear c
    by_cases c : t.is "endif" = true
    · rw [if_pos c] at h
      split at h
      · cases h
      · obtain ⟨a, _, ha⟩ := map_ok _ _ _ h; cases ha; exact hc st _ rfl hp
    rw [if_neg c] at h; clear c
    by_cases c : t.is "line" = true
    · rw [if_pos c] at h; exact readLineMarker_keep hc hr _ _ _ _ h hp
    rw [if_neg c] at h; clear c
    by_cases c : (t.kind == .ppNum) = true
    · rw [if_pos c] at h; exact readLineMarker_keep hc hr _ _ _ _ h hp
    rw [if_neg c] at h; clear c
    by_cases c : (t.is "pragma" && nextIs r "once") = true
    · rw [if_pos c] at h; obtain ⟨a, _, ha⟩ := map_ok _ _ _ h; cases ha; exact hc st _ rfl hp
    rw [if_neg c] at h; clear c
    by_cases c : t.is "pragma" = true
    · rw [if_pos c] at h; obtain ⟨a, _, ha⟩ := map_ok _ _ _ h; cases ha; exact hp
    rw [if_neg c] at h; clear c
    split at h
    · cases h
    · split at h
      · cases h; exact hp
      · cases h

theorem pp_keep (hc : ∀ st st' : St, st'.cache = st.cache → P st → P st')
    (hse : ∀ st name, P st → P (searchIncludePaths env st name).1) (n : Nat) (top : Bool) : Keep P (pp env n top) := by
  induction n generalizing top with
  | zero => intro st l st' o p h; cases h
  | succ n ih =>
    intro st l st' o p h hp
    cases l with
    | nil => cases h
    | cons t r =>
      rw [pp] at h
      split at h
      · cases h; exact hp
      · split at h
        · cases h
        · rename_i st1 l1 he
          split at h
          · cases h
          · rename_i h2
            cases h
            exact ih top _ _ _ _ _ h2 (expandMacro_keep hc (ih false) _ _ _ _ _ he hp)
        · split at h
          · split at h
            · cases h
            · rename_i h2
              cases h
              exact ih top _ _ _ _ _ h2 hp
          · split at h
            · cases h
            · split at h
              · cases h
              · rename_i st1 l1 hd
                split at h
                · cases h
                · rename_i h2
                  cases h
                  exact ih top _ _ _ _ _ h2 (directive_keep hc hse (ih false) _ _ _ _ _ _ hd hp)

end Toycc.Pp
