import Verif.Stx.Complete
/-! What is read is a text of the grammar. -/
namespace Toycc.Stx
open Toycc.Parse (Tok P)
variable {σ E D : Type} (O : Oracle σ E D)

theorem bind_inv {α β : Type} {x : Except SErr α} {f : α → Except SErr β} {y : β} (h : (x >>= f) = .ok y) : ∃ a, x = .ok a ∧ f a = .ok y := by
  cases x with
  | error e => cases h
  | ok a => exact ⟨a, rfl, h⟩

theorem skip_inv {ts r : List Tok} {q : Tok} (h : skip ts q = .ok r) : ts = q :: r := by
  rw [skip.eq_def] at h
  split at h
  · by_cases hh : ‹Tok› = q
    · rw [if_pos hh] at h; cases h; rw [hh]
    · rw [if_neg hh] at h; cases h
  · cases h

theorem expr_inv (hO : O.Prefix) {a b : σ} {ts r : List Tok} {e : E} (h : O.expr a ts = .ok (e, b, r)) : ∃ pre, ts = pre ++ r ∧ (read O).expr a pre e b := by
  obtain ⟨pre, rfl⟩ := hO.expr _ _ _ _ _ h
  exact ⟨pre, rfl, r, h⟩

theorem parenExpr_inv (hO : O.Prefix) {a b : σ} {ts r : List Tok} {e : E} (h : parenExpr O a ts = .ok (e, b, r)) :
    ∃ pre, ts = .p .lpar :: (pre ++ .p .rpar :: r) ∧ (read O).expr a pre e b := by
  obtain ⟨t1, h1, h⟩ := bind_inv h
  obtain ⟨⟨e', b', t2⟩, h2, h⟩ := bind_inv h
  obtain ⟨t3, h3, h⟩ := bind_inv h
  cases h
  cases skip_inv h1
  cases skip_inv h3
  obtain ⟨pre, rfl, hh⟩ := expr_inv O hO h2
  exact ⟨pre, rfl, hh⟩

theorem optExpr_inv (hO : O.Prefix) {a b : σ} {q : P} {ts r : List Tok} {o : Option E} (h : optExpr O a q ts = .ok (o, b, r)) :
    ∃ pre, ts = pre ++ .p q :: r ∧ OptExpr (read O) a o pre b := by
  rw [optExpr.eq_def] at h
  split at h
  · cases h
  · rename_i t u
    by_cases hh : t = .p q
    · rw [if_pos hh] at h; cases h; subst hh
      exact ⟨[], rfl, .none _⟩
    · rw [if_neg hh] at h
      obtain ⟨⟨e', b', t2⟩, h2, h⟩ := bind_inv h
      obtain ⟨t3, h3, h⟩ := bind_inv h
      cases h
      cases skip_inv h3
      obtain ⟨pre, e, hh⟩ := expr_inv O hO h2
      exact ⟨pre, e, .some hh⟩

theorem exprStmt_inv (hO : O.Prefix) {a b : σ} {ts r : List Tok} {o : Option E} (h : exprStmt O a ts = .ok (o, b, r)) :
    ∃ pre, ts = pre ++ .p .semi :: r ∧ OptExpr (read O) a o pre b := by
  rw [exprStmt.eq_def] at h
  split at h
  · cases h; exact ⟨[], rfl, .none _⟩
  · obtain ⟨⟨e', b', t2⟩, h2, h⟩ := bind_inv h
    obtain ⟨t3, h3, h⟩ := bind_inv h
    cases h
    cases skip_inv h3
    obtain ⟨pre, e, hh⟩ := expr_inv O hO h2
    exact ⟨pre, e, .some hh⟩

theorem forInit_inv (hO : O.Prefix) {a b : σ} {ts r : List Tok} {i : D ⊕ Option E} (h : forInit O a ts = .ok (i, b, r)) :
    ∃ pre, ts = pre ++ r ∧ ForInit (read O) a i pre b := by
  rw [forInit.eq_def] at h
  split at h
  · cases h
  · rename_i t u
    by_cases hh : O.isType a t = true
    · rw [if_pos hh] at h
      obtain ⟨⟨d, b', t2⟩, h2, h⟩ := bind_inv h
      cases h
      obtain ⟨pre, e⟩ := hO.forDecl _ _ _ _ _ h2
      rw [e] at h2 ⊢
      exact ⟨pre, rfl, .decl ⟨_, h2⟩⟩
    · rw [if_neg hh] at h
      obtain ⟨⟨d, b', t2⟩, h2, h⟩ := bind_inv h
      cases h
      obtain ⟨pre, e, hh⟩ := exprStmt_inv O hO h2
      exact ⟨pre ++ [.p .semi], by simp [e], .expr hh⟩

theorem forHead_inv (hO : O.Prefix) {a b : σ} {ts r : List Tok} {i : D ⊕ Option E} {o o' : Option E} (h : forHead O a ts = .ok (i, o, o', b, r)) :
    ∃ ti c to d to', ts = .p .lpar :: (ti ++ (to ++ .p .semi :: (to' ++ .p .rpar :: r))) ∧ ForInit (read O) (O.enter a) i ti c ∧
      OptExpr (read O) c o to d ∧ OptExpr (read O) d o' to' b := by
  obtain ⟨t1, h1, h⟩ := bind_inv h
  obtain ⟨⟨i', c, t2⟩, h2, h⟩ := bind_inv h
  obtain ⟨⟨o1, d, t3⟩, h3, h⟩ := bind_inv h
  obtain ⟨⟨o2, d', t4⟩, h4, h⟩ := bind_inv h
  cases h
  cases skip_inv h1
  obtain ⟨ti, rfl, k1⟩ := forInit_inv O hO h2
  obtain ⟨to, rfl, k2⟩ := optExpr_inv O hO h3
  obtain ⟨to', rfl, k3⟩ := optExpr_inv O hO h4
  exact ⟨ti, c, to, d, to', rfl, k1, k2, k3⟩

theorem const_inv (hO : O.Prefix) {a b : σ} {ts r : List Tok} {v : Int} (h : O.const a ts = .ok (v, b, r)) : ∃ pre, ts = pre ++ r ∧ (read O).const a pre v b := by
  obtain ⟨pre, rfl⟩ := hO.const _ _ _ _ _ h
  exact ⟨pre, rfl, r, h⟩

/-- A case label and the statement after it. -/
theorem caseHead_inv (hO : O.Prefix) {a b : σ} {ts r : List Tok} {lo hi : Int} (h : caseHead O a ts = .ok (lo, hi, b, r)) {s : S E D} {ss : List Tok} {d : σ}
    (hs : Stmt (read O) O.scoping b s ss d) :
    ∃ pre, ts = pre ++ r ∧ Stmt (read O) O.scoping a (.case lo hi s) (.kw "case" :: (pre ++ ss)) d := by
  obtain ⟨⟨lo', b1, t1⟩, h1, h⟩ := bind_inv h
  obtain ⟨⟨hi', b2, t2⟩, h2, h⟩ := bind_inv h
  obtain ⟨t3, h3, h⟩ := bind_inv h
  cases h
  cases skip_inv h3
  obtain ⟨pre, rfl, k1⟩ := const_inv O hO h1
  rw [caseEnd.eq_def] at h2
  split at h2
  · obtain ⟨⟨v, b3, t4⟩, h4, h2⟩ := bind_inv h2
    by_cases hh : v < lo
    · simp only [if_pos hh] at h2; cases h2
    · simp only [if_neg hh] at h2; cases h2
      obtain ⟨pre2, rfl, k2⟩ := const_inv O hO h4
      refine ⟨pre ++ .p .dots :: (pre2 ++ [.p .colon]), by simp, ?_⟩
      have := Stmt.range k1 k2 (by omega) hs
      simpa using this
  · cases h2
    refine ⟨pre ++ [.p .colon], by simp, ?_⟩
    have := Stmt.case k1 hs
    simpa using this

theorem exprS_inv (hO : O.Prefix) {a b : σ} {ts r : List Tok} {s : S E D} (h : exprS O a ts = .ok (s, b, r)) :
    ∃ pre, ts = pre ++ r ∧ Stmt (read O) O.scoping a s pre b ∧ s.open = false := by
  obtain ⟨⟨o, b', t⟩, h1, h⟩ := bind_inv h
  obtain ⟨pre, rfl, hh⟩ := exprStmt_inv O hO h1
  cases hh with
  | none => cases h; exact ⟨[.p .semi], rfl, .null _, rfl⟩
  | some hh => cases h; exact ⟨pre ++ [.p .semi], by simp, .expr hh, rfl⟩

theorem isElse_inv {ts r : List Tok} (h : isElse ts = some r) : ts = .kw "else" :: r := by
  rw [isElse.eq_def] at h
  split at h
  · by_cases hh : ‹String› = "else"
    · rw [if_pos hh] at h; cases h; rw [hh]
    · rw [if_neg hh] at h; cases h
  · cases h

/-- What is said of `stmt`. -/
def StmtOk (n : Nat) : Prop := ∀ a ts s b r, stmt O n a ts = .ok (s, b, r) → s.plain = true →
  ∃ pre, ts = pre ++ r ∧ Stmt (read O) O.scoping a s pre b ∧ (s.open = true → isElse r = none)
def ItemsOk (n : Nat) : Prop := ∀ a ts i b r, items O n a ts = .ok (i, b, r) → i.plain = true →
  ∃ pre, ts = pre ++ .p .rbrace :: r ∧ Items (read O) O.scoping a i pre b

theorem items_step (hO : O.Prefix) {n : Nat} (hs : StmtOk O n) (hi : ItemsOk O n) : ItemsOk O (n + 1) := by
  intro a ts i b r h hp
  rw [items.eq_def] at h
  dsimp only at h
  split at h
  · cases h; exact ⟨[], rfl, .nil _⟩
  · by_cases hh : isDecl O a ts = true
    · rw [if_pos hh] at h
      obtain ⟨⟨d, b1, t1⟩, h1, h⟩ := bind_inv h
      obtain ⟨⟨i', b2, t2⟩, h2, h⟩ := bind_inv h
      cases h
      obtain ⟨pre, rfl⟩ := hO.decl _ _ _ _ _ h1
      obtain ⟨pre2, rfl, k⟩ := hi _ _ _ _ _ h2 hp
      exact ⟨pre ++ pre2, by simp, .decl ⟨_, h1⟩ k⟩
    · rw [if_neg hh] at h
      obtain ⟨⟨s, b1, t1⟩, h1, h⟩ := bind_inv h
      obtain ⟨⟨i', b2, t2⟩, h2, h⟩ := bind_inv h
      cases h
      simp only [B.plain, Bool.and_eq_true] at hp
      obtain ⟨pre, rfl, k1, _⟩ := hs _ _ _ _ _ h1 hp.1
      obtain ⟨pre2, rfl, k⟩ := hi _ _ _ _ _ h2 hp.2
      exact ⟨pre ++ pre2, by simp, .stmt k1 k⟩

theorem stmt_step (hO : O.Prefix) {n : Nat} (hs : StmtOk O n) (hi : ItemsOk O n) : StmtOk O (n + 1) := by
  intro a ts s b r h hp
  rw [stmt.eq_def] at h
  dsimp only at h
  split at h
  · rename_i w us
    split at h
    · rename_i hk
      cases kwOf_some hk
      obtain ⟨⟨o, b1, t1⟩, h1, h⟩ := bind_inv h
      cases h
      obtain ⟨pre, rfl, k⟩ := optExpr_inv O hO h1
      exact ⟨.kw "return" :: (pre ++ [.p .semi]), by simp [K.word], .ret k, nofun⟩
    · rename_i hk
      cases kwOf_some hk
      obtain ⟨⟨c, b1, t1⟩, h1, h⟩ := bind_inv h
      obtain ⟨⟨x, b2, t2⟩, h2, h4⟩ := bind_inv h
      obtain ⟨pre, rfl, k1⟩ := parenExpr_inv O hO h1
      dsimp only at h4
      split at h4
      · rename_i r' he
        obtain ⟨⟨y, b3, t3⟩, h3, h5⟩ := bind_inv h4
        cases h5
        simp only [S.plain, Bool.and_eq_true] at hp
        obtain ⟨px, rfl, k2, ho⟩ := hs _ _ _ _ _ h2 hp.1
        cases isElse_inv he
        obtain ⟨py, rfl, k3, ho'⟩ := hs _ _ _ _ _ h3 hp.2
        have hx : x.open = false := by
          cases hx : x.open with
          | false => rfl
          | true => cases he.symm.trans (ho hx)
        exact ⟨_, by simp [K.word], .ifElse k1 k2 hx k3, ho'⟩
      · rename_i he
        cases h4
        obtain ⟨px, rfl, k2, _⟩ := hs _ _ _ _ _ h2 hp
        exact ⟨_, by simp [K.word], .ifs k1 k2, fun _ => he⟩
    · rename_i hk
      cases kwOf_some hk
      obtain ⟨⟨c, b1, t1⟩, h1, h⟩ := bind_inv h
      obtain ⟨⟨x, b2, t2⟩, h2, h⟩ := bind_inv h
      cases h
      obtain ⟨pre, rfl, k1⟩ := parenExpr_inv O hO h1
      obtain ⟨px, rfl, k2, ho⟩ := hs _ _ _ _ _ h2 hp
      exact ⟨_, by simp [K.word], .switch k1 k2, ho⟩
    · rename_i hk
      cases kwOf_some hk
      obtain ⟨⟨lo, hi, b1, t1⟩, h1, h⟩ := bind_inv h
      obtain ⟨⟨x, b2, t2⟩, h2, h⟩ := bind_inv h
      cases h
      obtain ⟨px, rfl, k2, ho⟩ := hs _ _ _ _ _ h2 hp
      obtain ⟨pre, rfl, k1⟩ := caseHead_inv O hO h1 k2
      exact ⟨_, by simp [K.word], k1, ho⟩
    · rename_i hk
      cases kwOf_some hk
      obtain ⟨t1, h1, h⟩ := bind_inv h
      obtain ⟨⟨x, b2, t2⟩, h2, h⟩ := bind_inv h
      cases h
      cases skip_inv h1
      obtain ⟨px, rfl, k2, ho⟩ := hs _ _ _ _ _ h2 hp
      exact ⟨_, by simp [K.word], .dflt k2, ho⟩
    · rename_i hk
      cases kwOf_some hk
      obtain ⟨⟨i, o, o', b1, t1⟩, h1, h⟩ := bind_inv h
      obtain ⟨⟨x, b2, t2⟩, h2, h⟩ := bind_inv h
      cases h
      obtain ⟨px, rfl, k2, ho⟩ := hs _ _ _ _ _ h2 hp
      obtain ⟨ti, c, to, d, to', rfl, q1, q2, q3⟩ := forHead_inv O hO h1
      exact ⟨_, by simp [K.word], .forS q1 q2 q3 k2, ho⟩
    · rename_i hk
      cases kwOf_some hk
      obtain ⟨⟨c, b1, t1⟩, h1, h⟩ := bind_inv h
      obtain ⟨⟨x, b2, t2⟩, h2, h⟩ := bind_inv h
      cases h
      obtain ⟨pre, rfl, k1⟩ := parenExpr_inv O hO h1
      obtain ⟨px, rfl, k2, ho⟩ := hs _ _ _ _ _ h2 hp
      exact ⟨_, by simp [K.word], .whileS k1 k2, ho⟩
    · rename_i hk
      cases kwOf_some hk
      obtain ⟨⟨x, b2, t2⟩, h2, h⟩ := bind_inv h
      obtain ⟨t1, h1, h⟩ := bind_inv h
      obtain ⟨⟨c, b1, t3⟩, h3, h⟩ := bind_inv h
      obtain ⟨t4, h4, h⟩ := bind_inv h
      cases h
      obtain ⟨px, rfl, k2, ho⟩ := hs _ _ _ _ _ h2 hp
      cases skip_inv h1
      obtain ⟨pre, rfl, k1⟩ := parenExpr_inv O hO h3
      cases skip_inv h4
      exact ⟨_, by simp [K.word], .doW k2 k1, nofun⟩
    · obtain ⟨⟨c, t1⟩, h1, h⟩ := bind_inv h
      cases h
      cases hp
    · rename_i hk
      cases kwOf_some hk
      split at h
      · obtain ⟨⟨c, b1, t1⟩, h1, h⟩ := bind_inv h
        obtain ⟨t4, h4, h⟩ := bind_inv h
        cases h
        obtain ⟨pre, rfl, k1⟩ := expr_inv O hO h1
        cases skip_inv h4
        exact ⟨_, by simp [K.word], .gotoE k1, nofun⟩
      · obtain ⟨t4, h4, h⟩ := bind_inv h
        cases h
        cases skip_inv h4
        exact ⟨_, by simp [K.word], .goto _, nofun⟩
      · cases h
    · rename_i hk
      cases kwOf_some hk
      obtain ⟨t4, h4, h⟩ := bind_inv h
      cases h
      cases skip_inv h4
      exact ⟨_, by simp [K.word], .brk _, nofun⟩
    · rename_i hk
      cases kwOf_some hk
      obtain ⟨t4, h4, h⟩ := bind_inv h
      cases h
      cases skip_inv h4
      exact ⟨_, by simp [K.word], .cont _, nofun⟩
    · obtain ⟨pre, e, k, ho⟩ := exprS_inv O hO h
      exact ⟨pre, e, k, fun h => by rw [ho] at h; cases h⟩
  · obtain ⟨⟨x, b2, t2⟩, h2, h⟩ := bind_inv h
    cases h
    obtain ⟨px, rfl, k2, ho⟩ := hs _ _ _ _ _ h2 hp
    exact ⟨_, by simp, .label k2, ho⟩
  · obtain ⟨⟨x, b2, t2⟩, h2, h⟩ := bind_inv h
    cases h
    obtain ⟨px, rfl, k2⟩ := hi _ _ _ _ _ h2 hp
    exact ⟨_, by simp, .block k2, nofun⟩
  · obtain ⟨pre, e, k, ho⟩ := exprS_inv O hO h
    exact ⟨pre, e, k, fun h => by rw [ho] at h; cases h⟩

theorem all_sound (hO : O.Prefix) : ∀ n, StmtOk O n ∧ ItemsOk O n
  | 0 => ⟨fun a ts s b r h => (by rw [stmt] at h; cases h), fun a ts s b r h => (by rw [items] at h; cases h)⟩
  | n + 1 => ⟨stmt_step O hO (all_sound hO n).1 (all_sound hO n).2, items_step O hO (all_sound hO n).1 (all_sound hO n).2⟩

end Toycc.Stx
