import Verif.Pp.TermMain
/-! Termination of preprocessing (C22): directives and the top level. -/
namespace Toycc.Pp
open Toycc.Lex (Kind asc)

theorem named_add {st : St} (m : Macro) (h : Named st.macros) : Named (addMacro st m).macros := by
  intro p hp
  have hp : p ∈ (m.name, m) :: st.macros.filter fun p => p.1 != m.name := hp
  rcases List.mem_cons.mp hp with rfl | hp
  · rfl
  · exact h p (List.mem_filter.mp hp).1

theorem named_undef {st : St} (n : Bytes) (h : Named st.macros) : Named (undefMacro st n).macros := by
  intro p hp
  have hp : p ∈ st.macros.filter fun p => p.1 != n := hp
  exact h p (List.mem_filter.mp hp).1

theorem copyLine_suffix (l a r : List PTok) (h : copyLine l = .ok (a, r)) : r <:+ l := by
  induction l generalizing a r with
  | nil => cases h
  | cons t l ih =>
    rw [copyLine] at h
    split at h
    · cases h; exact List.suffix_refl _
    · split at h
      · cases h
      · rename_i h2
        cases h
        exact (ih _ _ h2).trans (List.suffix_cons _ _)

theorem skipLine_suffix (l r : List PTok) (h : skipLine l = .ok r) : r <:+ l := by
  unfold skipLine at h
  split at h
  · cases h
  · cases h; exact List.suffix_refl _

theorem skipPragma_suffix (l r : List PTok) (h : skipPragma l = .ok r) : r <:+ l := by
  induction l with
  | nil => cases h
  | cons t l ih =>
    rw [skipPragma] at h
    split at h
    · cases h; exact List.suffix_refl _
    · exact (ih h).trans (List.suffix_cons _ _)

theorem skipCond2_suffix (k : Nat) (l l' : List PTok) (h : skipCond2 k l = .ok l') : l' <:+ l := by
  have key : ∀ n, ∀ l : List PTok, l.length ≤ n → ∀ k l', skipCond2 k l = .ok l' → l' <:+ l := by
    intro n
    induction n with
    | zero =>
      intro l hl k l' h
      have : l = [] := List.length_eq_zero_iff.mp (by omega)
      subst this; simp [skipCond2] at h
    | succ n ih =>
      intro l hl k l' h
      match l with
      | [] => simp [skipCond2] at h
      | t :: r =>
        rw [skipCond2.eq_def] at h
        dsimp only at h
        split at h
        · cases h; exact List.suffix_refl _
        · split at h
          · match r with
            | [] => cases h
            | u :: r2 =>
              dsimp only at h
              simp only [List.length_cons] at hl
              have h2 : r2 <:+ t :: u :: r2 := (List.suffix_cons _ _).trans (List.suffix_cons _ _)
              split at h
              · exact (ih r2 (by omega) _ _ h).trans h2
              · split at h
                · match k with
                  | 0 => cases h; exact h2
                  | k + 1 => dsimp only at h; exact (ih r2 (by omega) _ _ h).trans h2
                · exact (ih (u :: r2) (by simp only [List.length_cons]; omega) _ _ h).trans (List.suffix_cons _ _)
          · simp only [List.length_cons] at hl
            exact (ih r (by omega) _ _ h).trans (List.suffix_cons _ _)
  exact key _ l (Nat.le_refl _) k l' h

theorem skipCond_suffix (l l' : List PTok) (h : skipCond l = .ok l') : l' <:+ l := by
  have key : ∀ n, ∀ l : List PTok, l.length ≤ n → ∀ l', skipCond l = .ok l' → l' <:+ l := by
    intro n
    induction n with
    | zero =>
      intro l hl l' h
      have : l = [] := List.length_eq_zero_iff.mp (by omega)
      subst this; simp [skipCond] at h
    | succ n ih =>
      intro l hl l' h
      match l with
      | [] => simp [skipCond] at h
      | t :: r =>
        rw [skipCond.eq_def] at h
        dsimp only at h
        simp only [List.length_cons] at hl
        split at h
        · cases h; exact List.suffix_refl _
        · split at h
          · match r with
            | [] => cases h
            | u :: r2 =>
              dsimp only at h
              simp only [List.length_cons] at hl
              split at h
              · split at h
                · cases h
                · rename_i l2 h2
                  have hs := skipCond2_suffix _ _ _ h2
                  have := hs.length_le
                  exact (ih l2 (by omega) _ h).trans (hs.trans ((List.suffix_cons _ _).trans (List.suffix_cons _ _)))
              · split at h
                · cases h; exact List.suffix_refl _
                · exact (ih (u :: r2) (by simp only [List.length_cons]; omega) _ h).trans (List.suffix_cons _ _)
          · exact (ih r (by omega) _ h).trans (List.suffix_cons _ _)
  exact key _ l (Nat.le_refl _) l' h

theorem skip_suffix (s : String) (l l' : List PTok) (h : skip s l = .ok l') : l' <:+ l := by
  obtain ⟨a, rfl⟩ := skip_len _ _ _ h
  exact List.suffix_append _ _

theorem readMacroParams_suffix (first : Bool) (l : List PTok) (ps : List Bytes) (va : Option Bytes) (r : List PTok)
    (h : readMacroParams first l = .ok (ps, va, r)) : r <:+ l := by
  have key : ∀ n, ∀ l : List PTok, l.length ≤ n → ∀ first ps va r, readMacroParams first l = .ok (ps, va, r) → r <:+ l := by
    intro n
    induction n with
    | zero =>
      intro l hl first ps va r h
      have : l = [] := List.length_eq_zero_iff.mp (by omega)
      subst this; simp [readMacroParams] at h
    | succ n ih =>
      intro l hl first ps va r h
      match l with
      | [] => simp [readMacroParams] at h
      | t :: l =>
        simp only [List.length_cons] at hl
        have h1 : l <:+ t :: l := List.suffix_cons _ _
        have hm : ∀ (l2 : List PTok) (f : List PTok → List Bytes × Option Bytes × List PTok), (∀ y, (f y).2.2 = y) → l2 <:+ t :: l →
            (skip ")" l2).map f = .ok (ps, va, r) → r <:+ t :: l := by
          intro l2 f hf hs hx
          obtain ⟨y, hy, e⟩ := map_ok _ _ _ hx
          have := hf y
          rw [e] at this
          dsimp only at this
          rw [this]
          exact (skip_suffix _ _ _ hy).trans hs
        rw [readMacroParams.eq_def] at h
        dsimp only at h
        split at h
        · cases h; exact h1
        · split at h
          · split at h
            · exact hm _ _ (fun _ => rfl) h1 h
            · split at h
              · cases h
              · split at h
                · exact hm _ _ (fun _ => rfl) ((List.drop_suffix _ _).trans h1) h
                · split at h
                  · cases h
                  · rename_i ps' va' l' hp
                    cases h
                    exact (ih l (by omega) _ _ _ _ hp).trans h1
          · split at h
            · split at h
              · cases h
              · rename_i t2 r2
                simp only [List.length_cons] at hl
                have h2 : r2 <:+ t :: t2 :: r2 := (List.suffix_cons _ _).trans h1
                split at h
                · exact hm _ _ (fun _ => rfl) h2 h
                · split at h
                  · cases h
                  · split at h
                    · exact hm _ _ (fun _ => rfl) ((List.drop_suffix _ _).trans h2) h
                    · split at h
                      · cases h
                      · rename_i ps' va' l' hp
                        cases h
                        exact (ih r2 (by omega) _ _ _ _ hp).trans h2
            · cases h
  exact key _ l (Nat.le_refl _) first ps va r h

theorem readMacroDefinition_good (st : St) (l : List PTok) (st' : St) (r : List PTok) (h : readMacroDefinition st l = .ok (st', r))
    (hn : Named st.macros) : Named st'.macros ∧ r <:+ l := by
  unfold readMacroDefinition at h
  split at h
  · cases h
  · rename_i t l
    split at h
    · cases h
    · split at h
      · cases h
      · rename_i u r2
        have h2 : r2 <:+ t :: u :: r2 := (List.suffix_cons _ _).trans (List.suffix_cons _ _)
        split at h
        · split at h
          · cases h
          · rename_i ps va l1 hp
            split at h
            · cases h
            · rename_i b rest hc
              cases h
              exact ⟨named_add _ hn, (copyLine_suffix _ _ _ hc).trans ((readMacroParams_suffix _ _ _ _ _ hp).trans h2)⟩
        · split at h
          · cases h
          · rename_i b rest hc
            cases h
            exact ⟨named_add _ hn, (copyLine_suffix _ _ _ hc).trans (List.suffix_cons _ _)⟩

theorem evalConst_good (env : Env) (rec : Rec) (ms : List (Bytes × Macro)) (hk : Keep (fun st => st.macros = ms) rec) (st : St)
    (l : List PTok) (st' : St) (v : Int) (r : List PTok) (h : evalConst env rec st l = .ok (st', v, r)) (hst : st.macros = ms) :
    st'.macros = ms ∧ r <:+ l := by
  refine ⟨evalConst_keep hk st l st' v r h hst, ?_⟩
  unfold evalConst at h
  split at h
  · cases h
  · rename_i line rest hc
    have hs := copyLine_suffix _ _ _ hc
    split at h
    · cases h
    · split at h
      · cases h
      · split at h
        · cases h
        · split at h
          · cases h
          · split at h
            · cases h
            · split at h
              · cases h
              · cases h; exact hs
              · split at h
                · cases h; exact hs
                · cases h

theorem readLineMarker_good (rec : Rec) (ms : List (Bytes × Macro)) (hk : Keep (fun st => st.macros = ms) rec) (st : St)
    (l : List PTok) (st' : St) (r : List PTok) (h : readLineMarker rec st l = .ok (st', r)) (hst : st.macros = ms) :
    st'.macros = ms ∧ r <:+ l := by
  unfold readLineMarker at h
  split at h
  · cases h
  · split at h
    · cases h
    · rename_i line rest hc
      have hs := copyLine_suffix _ _ _ hc
      split at h
      · cases h
      · rename_i st1 out pre hr
        have h1 : st1.macros = ms := hk _ _ _ _ _ hr hst
        split at h
        · cases h
        · split at h
          · cases h
          · split at h
            · cases h
            · split at h
              · cases h; exact ⟨h1, hs⟩
              · dsimp only at h
                split at h
                · cases h
                · split at h
                  · cases h; exact ⟨h1, hs⟩
                  · split at h
                    · cases h; exact ⟨h1, hs⟩
                    · cases h

/-- A directive goes on with a later part of the list, and keeps the table of macros in order. -/
theorem directive_good (env : Env) (hs : env.strict = true) (rec : Rec) (st : St)
    (hk : ∀ ms, Named ms → Keep (fun st => st.macros = ms) rec) (n : Nat) (start : PTok) (l : List PTok) (st' : St) (r : List PTok)
    (h : directive env rec n st start l = .ok (st', r)) (hn : Named st.macros) : Named st'.macros ∧ r <:+ l := by
  have hkm := hk st.macros hn
  have named_of : ∀ x : St, x.macros = st.macros → Named x.macros := fun x hx => by rw [hx]; exact hn
  unfold directive at h
  split at h
  · cases h
  · rename_i t tl
    have h1 : tl <:+ t :: tl := List.suffix_cons _ _
    by_cases c : t.is "include" = true
    · rw [if_pos c, if_pos hs] at h; cases h
    rw [if_neg c] at h; clear c
    by_cases c : t.is "include_next" = true
    · rw [if_pos c, if_pos hs] at h; cases h
    rw [if_neg c] at h; clear c
    by_cases c : t.is "define" = true
    · rw [if_pos c] at h
      have := readMacroDefinition_good _ _ _ _ h hn
      exact ⟨this.1, this.2.trans h1⟩
    rw [if_neg c] at h; clear c
    by_cases c : t.is "undef" = true
    · rw [if_pos c] at h
      split at h
      · cases h
      · split at h
        · cases h
        · obtain ⟨y, hy, e⟩ := map_ok _ _ _ h
          cases e
          exact ⟨named_undef _ hn, (skipLine_suffix _ _ hy).trans ((List.suffix_cons _ _).trans h1)⟩
    rw [if_neg c] at h; clear c
    by_cases c : t.is "if" = true
    · rw [if_pos c] at h
      unfold dirIf at h
      split at h
      · cases h
      · rename_i st1 v rest he
        obtain ⟨g1, g2⟩ := evalConst_good env rec _ hkm st _ _ _ _ he rfl
        split at h
        · cases h; exact ⟨named_of _ g1, g2.trans h1⟩
        · obtain ⟨y, hy, e⟩ := map_ok _ _ _ h
          cases e
          exact ⟨named_of _ g1, (skipCond_suffix _ _ hy).trans (g2.trans h1)⟩
    rw [if_neg c] at h; clear c
    have hifdef : ∀ want, dirIfdef st want tl = .ok (st', r) → Named st'.macros ∧ r <:+ t :: tl := by
      intro want h
      unfold dirIfdef at h
      split at h
      · cases h
      · dsimp only at h
        split at h
        · cases h
        · rename_i l2 hl2
          have hs2 := (skipLine_suffix _ _ hl2).trans ((List.suffix_cons _ _).trans h1)
          split at h
          · cases h; exact ⟨hn, hs2⟩
          · obtain ⟨y, hy, e⟩ := map_ok _ _ _ h
            cases e
            exact ⟨hn, (skipCond_suffix _ _ hy).trans hs2⟩
    by_cases c : t.is "ifdef" = true
    · rw [if_pos c] at h; exact hifdef _ h
    rw [if_neg c] at h; clear c
    by_cases c : t.is "ifndef" = true
    · rw [if_pos c] at h; exact hifdef _ h
    rw [if_neg c] at h; clear c
    by_cases c : t.is "elif" = true
    · rw [if_pos c] at h
      unfold dirElif at h
      split at h
      · cases h
      · split at h
        · cases h
        · split at h
          · obtain ⟨y, hy, e⟩ := map_ok _ _ _ h
            cases e
            exact ⟨hn, skipCond_suffix _ _ hy⟩
          · split at h
            · cases h
            · rename_i st1 v rest he
              obtain ⟨g1, g2⟩ := evalConst_good env rec st.macros hkm _ _ _ _ _ he rfl
              split at h
              · split at h
                · cases h
                · cases h; exact ⟨named_of _ g1, g2.trans h1⟩
              · obtain ⟨y, hy, e⟩ := map_ok _ _ _ h
                cases e
                exact ⟨named_of _ g1, (skipCond_suffix _ _ hy).trans (g2.trans h1)⟩
    rw [if_neg c] at h; clear c
    by_cases c : t.is "else" = true
    · rw [if_pos c] at h
      unfold dirElse at h
      split at h
      · cases h
      · split at h
        · cases h
        · split at h
          · cases h
          · rename_i l2 hl2
            have hs2 := (skipLine_suffix _ _ hl2).trans h1
            dsimp only at h
            split at h
            · obtain ⟨y, hy, e⟩ := map_ok _ _ _ h
              cases e
              exact ⟨hn, (skipCond_suffix _ _ hy).trans hs2⟩
            · cases h; exact ⟨hn, hs2⟩
    rw [if_neg c] at h; clear c
    by_cases c : t.is "endif" = true
    · rw [if_pos c] at h
      split at h
      · cases h
      · obtain ⟨y, hy, e⟩ := map_ok _ _ _ h
        cases e
        exact ⟨hn, (skipLine_suffix _ _ hy).trans h1⟩
    rw [if_neg c] at h; clear c
    by_cases c : t.is "line" = true
    · rw [if_pos c] at h
      obtain ⟨g1, g2⟩ := readLineMarker_good rec _ hkm _ _ _ _ h rfl
      exact ⟨named_of _ g1, g2.trans h1⟩
    rw [if_neg c] at h; clear c
    by_cases c : (t.kind == .ppNum) = true
    · rw [if_pos c] at h
      obtain ⟨g1, g2⟩ := readLineMarker_good rec _ hkm _ _ _ _ h rfl
      exact ⟨named_of _ g1, g2⟩
    rw [if_neg c] at h; clear c
    by_cases c : (t.is "pragma" && nextIs tl "once") = true
    · rw [if_pos c] at h
      obtain ⟨y, hy, e⟩ := map_ok _ _ _ h
      cases e
      exact ⟨hn, (skipLine_suffix _ _ hy).trans ((List.drop_suffix _ _).trans h1)⟩
    rw [if_neg c] at h; clear c
    by_cases c : t.is "pragma" = true
    · rw [if_pos c] at h
      obtain ⟨y, hy, e⟩ := map_ok _ _ _ h
      cases e
      exact ⟨hn, (skipPragma_suffix _ _ hy).trans h1⟩
    rw [if_neg c] at h; clear c
    split at h
    · cases h
    · split at h
      · cases h; exact ⟨hn, List.suffix_refl _⟩
      · cases h

/-! ### No directive runs out of fuel -/

theorem copyLine_fuel (l : List PTok) : copyLine l ≠ .error .fuel := by
  induction l with
  | nil => intro h; cases h
  | cons t l ih =>
    rw [copyLine]
    split
    · intro h; cases h
    · split
      · rename_i e he; intro h; cases h; exact ih he
      · intro h; cases h

theorem newNum_fuel (env : Env) (v : Int) (t : PTok) : newNum env v t ≠ .error .fuel := firstTok_fuel _ _ _

theorem readConstExpr_fuel (env : Env) (st : St) (l : List PTok) : readConstExpr env st l ≠ .error .fuel := by
  have key : ∀ n, ∀ l : List PTok, l.length ≤ n → readConstExpr env st l ≠ .error .fuel := by
    intro n
    induction n with
    | zero =>
      intro l hl
      have : l = [] := List.length_eq_zero_iff.mp (by omega)
      subst this; intro h; simp [readConstExpr] at h
    | succ n ih =>
      intro l hl
      match l with
      | [] => intro h; simp [readConstExpr] at h
      | t :: r =>
        simp only [List.length_cons] at hl
        rw [readConstExpr.eq_def]
        dsimp only
        split
        · intro h; cases h
        · split
          · split
            · intro h; cases h
            · rename_i u r1
              simp only [List.length_cons] at hl
              split
              · split
                · intro h; cases h
                · rename_i v r2
                  simp only [List.length_cons] at hl
                  split
                  · intro h; cases h
                  · split
                    · intro h; cases h
                    · rename_i w r3
                      simp only [List.length_cons] at hl
                      split
                      · intro h; cases h
                      · split
                        · rename_i e he; intro h; cases h; exact newNum_fuel _ _ _ he
                        · split
                          · rename_i e he; intro h; cases h; exact ih r3 (by omega) he
                          · intro h; cases h
              · split
                · intro h; cases h
                · split
                  · rename_i e he; intro h; cases h; exact newNum_fuel _ _ _ he
                  · split
                    · rename_i e he; intro h; cases h; exact ih r1 (by omega) he
                    · intro h; cases h
          · split
            · rename_i e he; intro h; cases h; exact ih r (by omega) he
            · intro h; cases h
  exact key _ l (Nat.le_refl _)

theorem zeroIdents_fuel (env : Env) (l : List PTok) : zeroIdents env l ≠ .error .fuel := by
  induction l with
  | nil => intro h; cases h
  | cons t r ih =>
    rw [zeroIdents]
    split
    · intro h; cases h
    · split
      · rename_i e he
        intro h; cases h
        split at he
        · exact newNum_fuel _ _ _ he
        · cases he
      · split
        · rename_i e he; intro h; cases h; exact ih he
        · intro h; cases h

theorem evalConst_term {env : Env} (hs : env.strict = true) (st : St) (hn : Named st.macros) (l : List PTok) :
    ∃ N, evalConst env (pp env N false) st l ≠ .error .fuel := by
  unfold evalConst
  split
  · rename_i e he; exact ⟨0, by intro h; cases h; exact copyLine_fuel _ he⟩
  · split
    · rename_i e he; exact ⟨0, by intro h; cases h; exact readConstExpr_fuel _ _ _ he⟩
    · rename_i ex _
      obtain ⟨N, hN⟩ := line_term hs hn (ex.map ownTok) st rfl
      refine ⟨N, ?_⟩
      split
      · rename_i e he; intro h; cases h; exact hN he
      · split
        · intro h; cases h
        · split
          · intro h; cases h
          · split
            · rename_i e he; intro h; cases h; exact zeroIdents_fuel _ _ he
            · split
              · intro h; cases h
              · intro h; cases h
              · split <;> intro h <;> cases h

theorem readLineMarker_term {env : Env} (hs : env.strict = true) (st : St) (hn : Named st.macros) (l : List PTok) :
    ∃ N, readLineMarker (pp env N false) st l ≠ .error .fuel := by
  unfold readLineMarker
  split
  · exact ⟨0, by intro h; cases h⟩
  · split
    · rename_i e he; exact ⟨0, by intro h; cases h; exact copyLine_fuel _ he⟩
    · rename_i line _ _
      obtain ⟨N, hN⟩ := line_term hs hn line st rfl
      refine ⟨N, ?_⟩
      split
      · rename_i e he; intro h; cases h; exact hN he
      · split
        · intro h; cases h
        · split
          · intro h; cases h
          · split
            · intro h; cases h
            · split
              · intro h; cases h
              · dsimp only
                split
                · intro h; cases h
                · split
                  · intro h; cases h
                  · split <;> intro h <;> cases h

theorem skipLine_fuel (l : List PTok) : skipLine l ≠ .error .fuel := by
  unfold skipLine; split <;> intro h <;> cases h

theorem skipPragma_fuel (l : List PTok) : skipPragma l ≠ .error .fuel := by
  induction l with
  | nil => intro h; cases h
  | cons t l ih =>
    rw [skipPragma]; split
    · intro h; cases h
    · exact ih

theorem skipCond2_fuel (k : Nat) (l : List PTok) : skipCond2 k l ≠ .error .fuel := by
  have key : ∀ n, ∀ l : List PTok, l.length ≤ n → ∀ k, skipCond2 k l ≠ .error .fuel := by
    intro n
    induction n with
    | zero =>
      intro l hl k
      have : l = [] := List.length_eq_zero_iff.mp (by omega)
      subst this; intro h; simp [skipCond2] at h
    | succ n ih =>
      intro l hl k
      match l with
      | [] => intro h; simp [skipCond2] at h
      | t :: r =>
        simp only [List.length_cons] at hl
        rw [skipCond2.eq_def]
        dsimp only
        split
        · intro h; cases h
        · split
          · match r with
            | [] => intro h; cases h
            | u :: r2 =>
              dsimp only
              simp only [List.length_cons] at hl
              split
              · exact ih r2 (by omega) _
              · split
                · match k with
                  | 0 => intro h; cases h
                  | k + 1 => exact ih r2 (by omega) _
                · exact ih (u :: r2) (by simp only [List.length_cons]; omega) _
          · exact ih r (by omega) _
  exact key _ l (Nat.le_refl _) k

theorem skipCond_fuel (l : List PTok) : skipCond l ≠ .error .fuel := by
  have key : ∀ n, ∀ l : List PTok, l.length ≤ n → skipCond l ≠ .error .fuel := by
    intro n
    induction n with
    | zero =>
      intro l hl
      have : l = [] := List.length_eq_zero_iff.mp (by omega)
      subst this; intro h; simp [skipCond] at h
    | succ n ih =>
      intro l hl
      match l with
      | [] => intro h; simp [skipCond] at h
      | t :: r =>
        rw [skipCond.eq_def]
        dsimp only
        simp only [List.length_cons] at hl
        split
        · intro h; cases h
        · split
          · match r with
            | [] => intro h; cases h
            | u :: r2 =>
              dsimp only
              simp only [List.length_cons] at hl
              split
              · split
                · rename_i e he; intro h; cases h; exact skipCond2_fuel _ _ he
                · rename_i l2 h2
                  have := (skipCond2_suffix _ _ _ h2).length_le
                  exact ih l2 (by omega)
              · split
                · intro h; cases h
                · exact ih (u :: r2) (by simp only [List.length_cons]; omega)
          · exact ih r (by omega)
  exact key _ l (Nat.le_refl _)

theorem readMacroParams_fuel (first : Bool) (l : List PTok) : readMacroParams first l ≠ .error .fuel := by
  have key : ∀ n, ∀ l : List PTok, l.length ≤ n → ∀ first, readMacroParams first l ≠ .error .fuel := by
    intro n
    induction n with
    | zero =>
      intro l hl first
      have : l = [] := List.length_eq_zero_iff.mp (by omega)
      subst this; intro h; simp [readMacroParams] at h
    | succ n ih =>
      intro l hl first
      match l with
      | [] => intro h; simp [readMacroParams] at h
      | t :: l =>
        simp only [List.length_cons] at hl
        rw [readMacroParams.eq_def]
        dsimp only
        split
        · intro h; cases h
        · split
          · split
            · exact map_fuel (skip_fuel _ _)
            · split
              · intro h; cases h
              · split
                · exact map_fuel (skip_fuel _ _)
                · split
                  · rename_i e he; intro h; cases h; exact ih l (by omega) _ he
                  · intro h; cases h
          · split
            · split
              · intro h; cases h
              · rename_i t2 r2
                simp only [List.length_cons] at hl
                split
                · exact map_fuel (skip_fuel _ _)
                · split
                  · intro h; cases h
                  · split
                    · exact map_fuel (skip_fuel _ _)
                    · split
                      · rename_i e he; intro h; cases h; exact ih r2 (by omega) _ he
                      · intro h; cases h
            · intro h; cases h
  exact key _ l (Nat.le_refl _) first

theorem readMacroDefinition_fuel (st : St) (l : List PTok) : readMacroDefinition st l ≠ .error .fuel := by
  unfold readMacroDefinition
  split
  · intro h; cases h
  · split
    · intro h; cases h
    · split
      · intro h; cases h
      · split
        · split
          · rename_i e he; intro h; cases h; exact readMacroParams_fuel _ _ he
          · split
            · rename_i e he; intro h; cases h; exact copyLine_fuel _ he
            · intro h; cases h
        · split
          · rename_i e he; intro h; cases h; exact copyLine_fuel _ he
          · intro h; cases h

theorem directive_term {env : Env} (hs : env.strict = true) (st : St) (hn : Named st.macros) (start : PTok) (l : List PTok) :
    ∃ N, directive env (pp env N false) N st start l ≠ .error .fuel := by
  cases l with
  | nil => exact ⟨0, by intro h; cases h⟩
  | cons t r =>
    unfold directive
    dsimp only
    by_cases c : t.is "include" = true
    · exact ⟨0, by rw [if_pos c, if_pos hs]; intro h; cases h⟩
    simp only [if_neg c]; clear c
    by_cases c : t.is "include_next" = true
    · exact ⟨0, by rw [if_pos c, if_pos hs]; intro h; cases h⟩
    simp only [if_neg c]; clear c
    by_cases c : t.is "define" = true
    · exact ⟨0, by rw [if_pos c]; exact readMacroDefinition_fuel _ _⟩
    simp only [if_neg c]; clear c
    by_cases c : t.is "undef" = true
    · refine ⟨0, ?_⟩
      rw [if_pos c]
      split
      · intro h; cases h
      · split
        · intro h; cases h
        · exact map_fuel (skipLine_fuel _)
    simp only [if_neg c]; clear c
    by_cases c : t.is "if" = true
    · obtain ⟨N, hN⟩ := evalConst_term hs st hn r
      refine ⟨N, ?_⟩
      rw [if_pos c]
      unfold dirIf
      split
      · rename_i e he; intro h; cases h; exact hN he
      · split
        · intro h; cases h
        · exact map_fuel (skipCond_fuel _)
    simp only [if_neg c]; clear c
    have hifdef : ∀ want, dirIfdef st want r ≠ .error .fuel := by
      intro want
      unfold dirIfdef
      split
      · intro h; cases h
      · dsimp only
        split
        · rename_i e he; intro h; cases h; exact skipLine_fuel _ he
        · split
          · intro h; cases h
          · exact map_fuel (skipCond_fuel _)
    by_cases c : t.is "ifdef" = true
    · exact ⟨0, by rw [if_pos c]; exact hifdef _⟩
    simp only [if_neg c]; clear c
    by_cases c : t.is "ifndef" = true
    · exact ⟨0, by rw [if_pos c]; exact hifdef _⟩
    simp only [if_neg c]; clear c
    by_cases c : t.is "elif" = true
    · have hel : ∃ N, dirElif env (pp env N false) st (t :: r) r ≠ .error .fuel := by
        unfold dirElif
        split
        · exact ⟨0, by intro h; cases h⟩
        · rename_i c0 cs _
          split
          · exact ⟨0, by intro h; cases h⟩
          · split
            · exact ⟨0, map_fuel (skipCond_fuel _)⟩
            · obtain ⟨N, hN⟩ := evalConst_term hs { st with conds := { c0 with ctx := .inElif } :: cs } hn r
              refine ⟨N, ?_⟩
              split
              · rename_i e he; intro h; cases h; exact hN he
              · split
                · split <;> intro h <;> cases h
                · exact map_fuel (skipCond_fuel _)
      obtain ⟨N, hN⟩ := hel
      exact ⟨N, by rw [if_pos c]; exact hN⟩
    simp only [if_neg c]; clear c
    by_cases c : t.is "else" = true
    · refine ⟨0, ?_⟩
      rw [if_pos c]
      unfold dirElse
      split
      · intro h; cases h
      · split
        · intro h; cases h
        · split
          · rename_i e he; intro h; cases h; exact skipLine_fuel _ he
          · dsimp only
            split
            · exact map_fuel (skipCond_fuel _)
            · intro h; cases h
    simp only [if_neg c]; clear c
    by_cases c : t.is "endif" = true
    · refine ⟨0, ?_⟩
      rw [if_pos c]
      split
      · intro h; cases h
      · exact map_fuel (skipLine_fuel _)
    simp only [if_neg c]; clear c
    by_cases c : t.is "line" = true
    · obtain ⟨N, hN⟩ := readLineMarker_term hs st hn r
      exact ⟨N, by rw [if_pos c]; exact hN⟩
    simp only [if_neg c]; clear c
    by_cases c : (t.kind == .ppNum) = true
    · obtain ⟨N, hN⟩ := readLineMarker_term hs st hn (t :: r)
      exact ⟨N, by rw [if_pos c]; exact hN⟩
    simp only [if_neg c]; clear c
    refine ⟨0, ?_⟩
    split
    · exact map_fuel (skipLine_fuel _)
    · split
      · exact map_fuel (skipPragma_fuel _)
      · split
        · intro h; cases h
        · split <;> intro h <;> cases h

/-! ### The top level -/

theorem top_term {env : Env} (hs : env.strict = true) : ∀ (k : Nat) (st : St) (l : List PTok), Named st.macros →
    l.countP (·.own) ≤ k → ∃ N, pp env N true st l ≠ .error .fuel := by
  intro k
  induction k using Nat.strongRecOn with
  | ind k ihk =>
    have inner : ∀ (ms : List (Bytes × Macro)), Named ms → ∀ (μ : Nat → Nat) (zs : List (Core × List Bytes)) (l : List PTok) (st : St),
        cnt zs = μ → Levels (ms.map (·.1)) zs → l.map core = zs.map (·.1) → st.macros = ms → l.countP (·.own) ≤ k →
        ∃ N, pp env N true st l ≠ .error .fuel := by
      intro ms hn μ
      induction lt_acc (ms.length + 1) μ with
      | intro μ _ ih =>
        intro zs l st hμ hz hzs hst hk
        cases l with
        | nil => exact ⟨1, by intro h; cases h⟩
        | cons t r =>
          have ihg : ∀ l st, Good ms (cnt zs) l → st.macros = ms → ∃ N, pp env N false st l ≠ .error .fuel := by
            intro l st hg hst
            obtain ⟨L', I', zs', rfl, g1, g2, g3, g4, g5⟩ := hg
            exact nested_term hs hn (cnt zs') zs' L' I' st rfl g2 g1 g3 g4 hst
          have hex := expand_term hs hn zs hz t r [] hzs (by simp) ihg st hst
          rw [List.append_nil] at hex
          refine pp_step env true st t r hex ?_ ?_ ?_
          · intro N st' l' h
            obtain ⟨h1, c, L1, L2, I2, e1, _, e2, e3, e4, e5, e6⟩ :=
              step_some env hs _ ms hn (pp_macros env hs ms hn N) st hst t r [] st' l' (by rw [List.append_nil]; exact h) (by simp)
            obtain ⟨zs2, g1, g2, g3⟩ := e6 zs hz hzs
            have hI2 : I2 = [] := by simpa using e3
            subst hI2
            rw [List.append_nil] at e2
            subst e2
            refine ih (cnt zs2) (by rw [← hμ]; exact g3) zs2 _ st' rfl g2 g1 h1 ?_
            have hc1 := congrArg List.length e5
            rw [List.length_map, List.length_map, ← List.countP_eq_length_filter, ← List.countP_eq_length_filter] at hc1
            rw [hc1]
            rw [e1, List.countP_append] at hk
            omega
          · intro _
            cases zs with
            | nil => cases hzs
            | cons z zs =>
              simp only [List.map_cons, List.cons.injEq] at hzs
              have := lt_tail hz
              rw [List.length_map] at this
              rw [List.countP_cons] at hk
              exact ih (cnt zs) (by rw [← hμ]; exact this) zs r st rfl (hz.sublist (List.sublist_cons_self _ _)) hzs.2 hst (by omega)
          · intro _ hown
            rw [hs] at hown
            have hto : t.own = true := by simpa using hown
            obtain ⟨N, hN⟩ := directive_term hs st (by rw [hst]; exact hn) t r
            refine ⟨N, hN, fun st' l' h => ?_⟩
            obtain ⟨g1, g2⟩ := directive_good env hs _ st (fun ms hn => pp_macros env hs ms hn N) N t r st' l' h (by rw [hst]; exact hn)
            have hle : l'.countP (·.own) ≤ r.countP (·.own) := g2.sublist.countP_le
            rw [List.countP_cons, hto] at hk
            simp only [if_true] at hk
            exact ihk (l'.countP (·.own)) (by omega) st' l' g1 (Nat.le_refl _)
    intro st l hn hk
    obtain ⟨h1, h2⟩ := base_levels (st.macros.map (·.1)) l
    exact inner st.macros hn _ _ l st rfl h1 h2 rfl hk

end Toycc.Pp
