import Verif.Stm.Sem
/-! More fuel changes nothing once a run has ended: the result of a statement is unique. -/
namespace Toycc.Stm
open Toycc.Rv Toycc.Cg

/-- `r` has not run out of fuel, then `r'` is the same. -/
def More {α} (r r' : Res α) : Prop := r = .timeout ∨ r' = r

theorem More.andThen {r r' : Res Out} {f f' : Mem → Res Out} (h : More r r') (hf : ∀ m, More (f m) (f' m)) :
    More (r.andThen f) (r'.andThen f') := by
  rcases h with rfl | rfl
  · exact .inl rfl
  · cases r' with
    | timeout => exact .inl rfl
    | stuck => exact .inr rfl
    | done o m => cases o <;> first | exact hf m | exact .inr rfl

theorem More.iter {r r' : Res Out} {f f' : Mem → Res Out} (h : More r r') (hf : ∀ m, More (f m) (f' m)) :
    More (iterC f r) (iterC f' r') := by
  rcases h with rfl | rfl
  · exact .inl rfl
  · cases r' with
    | timeout => exact .inl rfl
    | stuck => exact .inr rfl
    | done o m => cases o <;> first | exact hf m | exact .inr rfl

theorem More.catch {r r' : Res Out} (h : More r r') : More (catchBrk r) (catchBrk r') := by
  rcases h with rfl | rfl
  · exact .inl rfl
  · exact .inr rfl

theorem exec_more {ev : Ev} : ∀ (n : Nat) (s : SStmt) (t : Ty) (en : Option Tgt) (m : Mem),
    More (exec ev n t en s m) (exec ev (n + 1) t en s m) := by
  intro n
  induction n with
  | zero =>
    intro s
    induction s with
    | skip => intro t en m; rw [exec, exec]; exact .inr rfl
    | seq a b ia ib =>
      intro t en m
      cases en with
      | none => rw [exec, exec]; exact (ia _ _ _).andThen fun m => ib _ _ _
      | some g =>
        rw [exec, exec]
        split
        · exact (ia _ _ _).andThen fun m => ib _ _ _
        · exact ib _ _ _
    | expr e => intro t en m; rw [exec, exec]; exact .inr rfl
    | ifs c a b ia ib =>
      intro t en m
      cases en with
      | none =>
        rw [exec, exec]
        rcases ev .test c m with _ | ⟨v, m1⟩
        · exact .inr rfl
        dsimp only
        split
        · exact ia _ _ _
        · exact ib _ _ _
      | some g =>
        rw [exec, exec]
        split
        · exact ia _ _ _
        · exact ib _ _ _
    | loop i c inc b ib => intro t en m; rw [exec]; exact .inl rfl
    | doW b c ib => intro t en m; rw [exec]; exact .inl rfl
    | switch c b ib =>
      intro t en m
      cases en with
      | none =>
        rw [exec, exec]
        rcases ev .switch c m with _ | ⟨v, m1⟩
        · exact .inr rfl
        dsimp only
        split
        · exact (ib _ _ _).catch
        · split
          · exact (ib _ _ _).catch
          · exact .inr rfl
      | some g => rw [exec, exec]; exact (ib _ _ _).catch
    | case lo hi s is =>
      intro t en m
      rcases en with _ | g
      · rw [exec, exec] <;> first | exact is _ _ _ | simp
      cases g with
      | case v => rw [exec, exec]; split <;> exact is _ _ _
      | lab n => rw [exec, exec] <;> first | exact is _ _ _ | simp
      | dflt => rw [exec, exec] <;> first | exact is _ _ _ | simp
    | dflt s is => intro t en m; rw [exec, exec]; split <;> exact is _ _ _
    | label l s is => intro t en m; rw [exec, exec]; split <;> exact is _ _ _
    | goto l => intro t en m; rw [exec, exec]; exact .inr rfl
    | brk => intro t en m; rw [exec, exec]; exact .inr rfl
    | cont => intro t en m; rw [exec, exec]; exact .inr rfl
    | ret e => intro t en m; cases e <;> (rw [exec, exec]; exact .inr rfl)
  | succ n ihn =>
    intro s
    induction s with
    | skip => intro t en m; rw [exec, exec]; exact .inr rfl
    | seq a b ia ib =>
      intro t en m
      cases en with
      | none => rw [exec, exec]; exact (ia _ _ _).andThen fun m => ib _ _ _
      | some g =>
        rw [exec, exec]
        split
        · exact (ia _ _ _).andThen fun m => ib _ _ _
        · exact ib _ _ _
    | expr e => intro t en m; rw [exec, exec]; exact .inr rfl
    | ifs c a b ia ib =>
      intro t en m
      cases en with
      | none =>
        rw [exec, exec]
        rcases ev .test c m with _ | ⟨v, m1⟩
        · exact .inr rfl
        dsimp only
        split
        · exact ia _ _ _
        · exact ib _ _ _
      | some g =>
        rw [exec, exec]
        split
        · exact ia _ _ _
        · exact ib _ _ _
    | loop i c inc b ib =>
      intro t en m
      have hnext : ∀ m, More (match evList ev inc.toList m with | some m => exec ev n t none (.loop [] c inc b) m | none => .stuck)
          (match evList ev inc.toList m with | some m => exec ev (n + 1) t none (.loop [] c inc b) m | none => .stuck) := by
        intro m
        cases evList ev inc.toList m with
        | none => exact .inr rfl
        | some m1 => exact ihn _ _ _ _
      cases en with
      | none =>
        rw [exec, exec]
        rcases evList ev i m with _ | m1
        · exact .inr rfl
        dsimp only
        rcases evCond ev c m1 with _ | ⟨v, m2⟩
        · exact .inr rfl
        dsimp only
        split
        · exact (ib _ _ _).iter hnext
        · exact .inr rfl
      | some g => rw [exec, exec]; exact (ib _ _ _).iter hnext
    | doW b c ib =>
      intro t en m
      rw [exec, exec]
      refine (ib _ _ _).iter fun m => ?_
      rcases ev .test c m with _ | ⟨v, m1⟩
      · exact .inr rfl
      dsimp only
      split
      · exact ihn _ _ _ _
      · exact .inr rfl
    | switch c b ib =>
      intro t en m
      cases en with
      | none =>
        rw [exec, exec]
        rcases ev .switch c m with _ | ⟨v, m1⟩
        · exact .inr rfl
        dsimp only
        split
        · exact (ib _ _ _).catch
        · split
          · exact (ib _ _ _).catch
          · exact .inr rfl
      | some g => rw [exec, exec]; exact (ib _ _ _).catch
    | case lo hi s is =>
      intro t en m
      rcases en with _ | g
      · rw [exec, exec] <;> first | exact is _ _ _ | simp
      cases g with
      | case v => rw [exec, exec]; split <;> exact is _ _ _
      | lab n => rw [exec, exec] <;> first | exact is _ _ _ | simp
      | dflt => rw [exec, exec] <;> first | exact is _ _ _ | simp
    | dflt s is => intro t en m; rw [exec, exec]; split <;> exact is _ _ _
    | label l s is => intro t en m; rw [exec, exec]; split <;> exact is _ _ _
    | goto l => intro t en m; rw [exec, exec]; exact .inr rfl
    | brk => intro t en m; rw [exec, exec]; exact .inr rfl
    | cont => intro t en m; rw [exec, exec]; exact .inr rfl
    | ret e => intro t en m; cases e <;> (rw [exec, exec]; exact .inr rfl)

theorem run_more {ev : Ev} (s : SStmt) : ∀ n en m, More (run ev n en s m) (run ev (n + 1) en s m) := by
  intro n
  induction n with
  | zero =>
    intro en m
    have h := exec_more (ev := ev) 0 s .void en m
    rw [run, run]
    rcases h with h | h
    · rw [h]; exact .inl rfl
    · rw [h]
      generalize exec ev 0 .void en s m = r
      cases r with
      | timeout => exact .inl rfl
      | stuck => exact .inr rfl
      | done o m => cases o <;> first | exact .inr rfl | exact .inl rfl
  | succ n ih =>
    intro en m
    have h := exec_more (ev := ev) (n + 1) s .void en m
    rw [run, run]
    rcases h with h | h
    · rw [h]; exact .inl rfl
    · rw [h]
      generalize exec ev (n + 1) .void en s m = r
      cases r with
      | timeout => exact .inl rfl
      | stuck => exact .inr rfl
      | done o m =>
        cases o with
        | goto l =>
          dsimp only
          split
          · exact ih _ _
          · exact .inr rfl
        | _ => exact .inr rfl

end Toycc.Stm
