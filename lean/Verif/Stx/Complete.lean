import Verif.Stx.Spec
/-! Every text of the grammar is read. -/
namespace Toycc.Stx
open Toycc.Parse (Tok P)
variable {σ E D : Type} (O : Oracle σ E D)

/-- The equations of `stmt` by the word. -/
theorem kwOf_word (k : K) : kwOf k.word = some k := by cases k <;> decide

theorem kwOf_some {s : String} {k : K} (h : kwOf s = some k) : s = k.word := by
  have := List.find?_some h
  exact (eq_of_beq this).symm

theorem skip_ok (q : Tok) (r : List Tok) : skip (q :: r) q = .ok r := by simp [skip]

theorem before_semi (r : List Tok) : Before [.semi, .rpar] (.p .semi :: r) := ⟨_, _, by simp, rfl⟩
theorem before_rpar (r : List Tok) : Before [.semi, .rpar] (.p .rpar :: r) := ⟨_, _, by simp, rfl⟩
theorem before_colon (r : List Tok) : Before [.colon, .dots] (.p .colon :: r) := ⟨_, _, by simp, rfl⟩
theorem before_dots (r : List Tok) : Before [.colon, .dots] (.p .dots :: r) := ⟨_, _, by simp, rfl⟩

theorem parenExpr_ok {a b : σ} {ts : List Tok} {e : E} (h : (reads O).expr a ts e b) (r : List Tok) :
    parenExpr O a (.p .lpar :: (ts ++ .p .rpar :: r)) = .ok (e, b, r) := by
  simp only [parenExpr, skip_ok, bind, Except.bind, h.1 _ (before_rpar r)]

theorem optExpr_ok {a b : σ} {ts : List Tok} {o : Option E} (h : OptExpr (reads O) a o ts b) {q : P} (hq : q ∈ [P.semi, .rpar]) (r : List Tok) :
    optExpr O a q (ts ++ .p q :: r) = .ok (o, b, r) := by
  cases h with
  | none => simp [optExpr]
  | some h =>
    obtain ⟨h, t, u, rfl, hs, _⟩ := h
    have hb : Before [.semi, .rpar] (.p q :: r) := ⟨q, r, hq, rfl⟩
    have hne : t ≠ .p q := by
      rintro rfl
      simp only [List.mem_cons, List.not_mem_nil, or_false] at hq
      rcases hq with rfl | rfl
      · exact hs.2.2.1 rfl
      · exact hs.2.2.2.1 rfl
    have h := h _ hb
    rw [List.cons_append] at h ⊢
    simp only [optExpr, if_neg hne, h, bind, Except.bind, skip_ok]

theorem exprStmt_some {a b : σ} {ts : List Tok} {e : E} (h : (reads O).expr a ts e b) (r : List Tok) :
    exprStmt O a (ts ++ .p .semi :: r) = .ok (some e, b, r) := by
  obtain ⟨h, t, u, rfl, hs, _⟩ := h
  have h := h _ (before_semi r)
  rw [List.cons_append] at h ⊢
  rw [exprStmt.eq_def]
  split
  · rename_i heq
    exact absurd (List.cons.inj heq).1 hs.2.2.1
  · simp only [h, bind, Except.bind, skip_ok]

theorem forInit_ok (hT : O.Types) {a b : σ} {ts : List Tok} {i : D ⊕ Option E} (h : ForInit (reads O) a i ts b) (r : List Tok) :
    forInit O a (ts ++ r) = .ok (i, b, r) := by
  cases h with
  | decl h =>
    obtain ⟨h, t, u, rfl, ht⟩ := h
    have h := h r
    rw [List.cons_append] at h ⊢
    simp only [forInit, ht, if_true, h, bind, Except.bind]
  | expr h =>
    rw [List.append_assoc, List.singleton_append]
    cases h with
    | none =>
      have : O.isType a (.p .semi) = false := by
        cases hh : O.isType a (.p .semi) with
        | false => rfl
        | true => rcases hT _ _ hh with ⟨_, e⟩ | ⟨_, e, _⟩ <;> cases e
      simp [forInit, this, exprStmt, bind, Except.bind]
    | some h =>
      have h2 := exprStmt_some O h r
      obtain ⟨h, t, u, rfl, hs, _⟩ := h
      rw [List.cons_append] at h2 ⊢
      simp [forInit, hs.1, h2, bind, Except.bind]

theorem exprS_some {a b : σ} {ts : List Tok} {e : E} (h : (reads O).expr a ts e b) (r : List Tok) :
    exprS O a (ts ++ .p .semi :: r) = .ok (.expr e, b, r) := by
  simp only [exprS, exprStmt_some O h r, bind, Except.bind]

/-- A statement that begins like an expression. -/
theorem stmt_expr {a : σ} {t : Tok} {r : List Tok} (hs : Starts O a t) (hc : ∀ r', r ≠ .p .colon :: r') (n : Nat) :
    stmt O (n + 1) a (t :: r) = exprS O a (t :: r) := by
  rw [stmt.eq_def]
  dsimp only
  split
  · rename_i k u heq
    have e := (List.cons.inj heq).1
    have := hs.2.1 _ e
    rw [this, heq]
  · rename_i heq
    exact absurd (List.cons.inj heq).2 (hc _)
  · rename_i heq
    exact absurd (List.cons.inj heq).1 hs.2.2.2.2.1
  · rfl

theorem isType_p (hT : O.Types) (a : σ) (q : P) : O.isType a (.p q) = false := by
  cases hh : O.isType a (.p q) with
  | false => rfl
  | true => rcases hT _ _ hh with ⟨_, e⟩ | ⟨_, e, _⟩ <;> cases e

theorem isType_kw (hT : O.Types) (a : σ) (k : K) : O.isType a (.kw k.word) = false := by
  cases hh : O.isType a (.kw k.word) with
  | false => rfl
  | true =>
    rcases hT _ _ hh with ⟨_, e⟩ | ⟨s, e, h, _⟩
    · cases e
    · cases e
      rw [kwOf_word] at h
      cases h

theorem isDecl_no {a : σ} {t : Tok} (r : List Tok) (h : O.isType a t = false) : isDecl O a (t :: r) = false := by
  rw [isDecl.eq_def]
  split
  · rfl
  · rename_i heq; cases heq; exact h
  · rfl

/-- A statement does not look like a declaration, nor like the end of the block. -/
theorem stmt_notDecl (hT : O.Types) {a b : σ} {s : S E D} {ts : List Tok} (h : Stmt (reads O) O.scoping a s ts b) (r : List Tok) :
    isDecl O a (ts ++ r) = false ∧ ∀ r', ts ++ r ≠ .p .rbrace :: r' := by
  cases h with
  | expr h =>
    obtain ⟨_, t, u, rfl, hs, _⟩ := h
    exact ⟨isDecl_no O _ hs.1, fun r' e => hs.2.2.2.2.2.1 (List.cons.inj e).1⟩
  | null => exact ⟨isDecl_no O _ (isType_p O hT _ _), by simp⟩
  | block => exact ⟨isDecl_no O _ (isType_p O hT _ _), by simp⟩
  | label => exact ⟨rfl, by simp⟩
  | ret => exact ⟨isDecl_no O _ (isType_kw O hT _ .ret), by simp⟩
  | ifs => exact ⟨isDecl_no O _ (isType_kw O hT _ .ifK), by simp⟩
  | ifElse => exact ⟨isDecl_no O _ (isType_kw O hT _ .ifK), by simp⟩
  | switch => exact ⟨isDecl_no O _ (isType_kw O hT _ .switchK), by simp⟩
  | case => exact ⟨isDecl_no O _ (isType_kw O hT _ .caseK), by simp⟩
  | range => exact ⟨isDecl_no O _ (isType_kw O hT _ .caseK), by simp⟩
  | dflt => exact ⟨isDecl_no O _ (isType_kw O hT _ .dfltK), by simp⟩
  | forS => exact ⟨isDecl_no O _ (isType_kw O hT _ .forK), by simp⟩
  | whileS => exact ⟨isDecl_no O _ (isType_kw O hT _ .whileK), by simp⟩
  | doW => exact ⟨isDecl_no O _ (isType_kw O hT _ .doK), by simp⟩
  | asm => exact ⟨isDecl_no O _ (isType_kw O hT _ .asmK), by simp⟩
  | goto => exact ⟨isDecl_no O _ (isType_kw O hT _ .gotoK), by simp⟩
  | gotoE => exact ⟨isDecl_no O _ (isType_kw O hT _ .gotoK), by simp⟩
  | brk => exact ⟨isDecl_no O _ (isType_kw O hT _ .brkK), by simp⟩
  | cont => exact ⟨isDecl_no O _ (isType_kw O hT _ .contK), by simp⟩

theorem isElse_ne {t : Tok} (r : List Tok) (h : t ≠ .kw "else") : isElse (t :: r) = none := by
  rw [isElse.eq_def]
  split
  · rename_i heq
    have e := (List.cons.inj heq).1
    subst e
    exact if_neg fun e => h (by rw [e])
  · rfl

/-- No statement begins with `else`. -/
theorem stmt_noElse {a b : σ} {s : S E D} {ts : List Tok} (h : Stmt (reads O) O.scoping a s ts b) (r : List Tok) : isElse (ts ++ r) = none := by
  cases h with
  | expr h =>
    obtain ⟨_, t, u, rfl, hs, _⟩ := h
    exact isElse_ne _ hs.2.2.2.2.2.2
  | _ => simp [isElse]

theorem items_noElse (hT : O.Types) {a b : σ} {s : B E D} {ts : List Tok} (h : Items (reads O) O.scoping a s ts b) (r : List Tok) :
    isElse (ts ++ .p .rbrace :: r) = none := by
  cases h with
  | nil => rfl
  | decl h1 h2 =>
    obtain ⟨_, t, u, v, rfl, ht, _⟩ := h1
    refine isElse_ne _ ?_
    rintro rfl
    rcases hT _ _ ht with ⟨_, e⟩ | ⟨s, e, _, h⟩
    · cases e
    · cases e; exact h rfl
  | stmt h1 h2 =>
    rw [List.append_assoc]
    exact stmt_noElse O h1 _

theorem kw_ret : kwOf "return" = some .ret := kwOf_word .ret
theorem kw_if : kwOf "if" = some .ifK := kwOf_word .ifK
theorem kw_switch : kwOf "switch" = some .switchK := kwOf_word .switchK
theorem kw_case : kwOf "case" = some .caseK := kwOf_word .caseK
theorem kw_dflt : kwOf "default" = some .dfltK := kwOf_word .dfltK
theorem kw_for : kwOf "for" = some .forK := kwOf_word .forK
theorem kw_while : kwOf "while" = some .whileK := kwOf_word .whileK
theorem kw_do : kwOf "do" = some .doK := kwOf_word .doK
theorem kw_goto : kwOf "goto" = some .gotoK := kwOf_word .gotoK
theorem kw_brk : kwOf "break" = some .brkK := kwOf_word .brkK
theorem kw_cont : kwOf "continue" = some .contK := kwOf_word .contK

/-- Reads to the end, with enough fuel. -/
def Ev {α : Type} (f : Nat → Except SErr α) (x : α) : Prop := ∃ N, ∀ n, N ≤ n → f n = .ok x

theorem Ev.succ {α : Type} {f : Nat → Except SErr α} {x : α} (h : Ev (fun n => f (n + 1)) x) : Ev f x := by
  obtain ⟨N, h⟩ := h
  refine ⟨N + 1, fun n hn => ?_⟩
  obtain ⟨m, rfl⟩ : ∃ m, n = m + 1 := ⟨n - 1, by omega⟩
  exact h m (by omega)

theorem Ev.bind {α β : Type} {f : Nat → Except SErr α} {g : Nat → α → Except SErr β} {x : α} {y : β} (hf : Ev f x) (hg : Ev (fun n => g n x) y) :
    Ev (fun n => f n >>= g n) y := by
  obtain ⟨N, hf⟩ := hf
  obtain ⟨M, hg⟩ := hg
  exact ⟨max N M, fun n hn => by
    have h1 := hf n (by omega)
    have h2 := hg n (by omega)
    show (f n).bind (g n) = _
    rw [h1]; exact h2⟩

theorem Ev.ret {α : Type} {f : Nat → Except SErr α} (x : α) (h : ∀ n, f n = .ok x) : Ev f x := ⟨0, fun n _ => h n⟩

theorem okBind {α β : Type} (x : α) (f : α → Except SErr β) : (Except.ok x >>= f) = f x := rfl

mutual
theorem stmt_ev (hT : O.Types) {a b : σ} {s : S E D} {ts : List Tok} (h : Stmt (reads O) O.scoping a s ts b) (hp : s.plain = true) (r : List Tok)
    (hr : s.open = true → isElse r = none) : Ev (fun n => stmt O n a (ts ++ r)) (s, b, r) := by
  cases h with
  | null => exact Ev.succ (Ev.ret _ fun n => rfl)
  | expr h =>
    refine Ev.succ (Ev.ret _ fun n => ?_)
    have h2 := exprS_some O h r
    obtain ⟨_, t, u, rfl, hs, hc⟩ := h
    rw [List.append_assoc, List.singleton_append, ← h2]
    refine stmt_expr O hs ?_ n
    intro r' e
    cases u with
    | nil => cases e
    | cons v u => cases e; exact hc _ rfl
  | @ret _ o us _ h =>
    refine Ev.succ (Ev.ret _ fun n => ?_)
    have e : (Tok.kw "return" :: (us ++ [Tok.p .semi])) ++ r = .kw "return" :: (us ++ .p .semi :: r) := by simp
    rw [e]
    simp only [stmt, kw_ret, optExpr_ok O h (by simp : P.semi ∈ [P.semi, .rpar]), bind, Except.bind]
  | @ifs _ c us d s vs _ h1 h2 =>
    refine Ev.succ ?_
    have ih := stmt_ev hT h2 hp r (fun _ => hr rfl)
    have e : (Tok.kw "if" :: .p .lpar :: (us ++ .p .rpar :: vs)) ++ r = .kw "if" :: .p .lpar :: (us ++ .p .rpar :: (vs ++ r)) := by simp
    rw [e]
    simp only [stmt, kw_if, parenExpr_ok O h1, okBind]
    refine Ev.bind ih (Ev.ret _ fun n => ?_)
    simp only [hr rfl]
  | @ifElse _ c us d s vs f s' ws _ h1 h2 ho h3 =>
    refine Ev.succ ?_
    simp only [S.plain, Bool.and_eq_true] at hp
    have ih := stmt_ev hT h2 hp.1 (.kw "else" :: (ws ++ r)) (fun h => by rw [ho] at h; cases h)
    have ih2 := stmt_ev hT h3 hp.2 r hr
    have e : (Tok.kw "if" :: .p .lpar :: (us ++ .p .rpar :: (vs ++ .kw "else" :: ws))) ++ r =
      .kw "if" :: .p .lpar :: (us ++ .p .rpar :: (vs ++ .kw "else" :: (ws ++ r))) := by simp
    rw [e]
    simp only [stmt, kw_if, parenExpr_ok O h1, okBind]
    refine Ev.bind ih ?_
    simp only [isElse, if_true]
    exact Ev.bind ih2 (Ev.ret _ fun n => rfl)
  | @switch _ c us d s vs _ h1 h2 =>
    refine Ev.succ ?_
    have ih := stmt_ev hT h2 hp r hr
    have e : (Tok.kw "switch" :: .p .lpar :: (us ++ .p .rpar :: vs)) ++ r = .kw "switch" :: .p .lpar :: (us ++ .p .rpar :: (vs ++ r)) := by simp
    rw [e]
    simp only [stmt, kw_switch, parenExpr_ok O h1, okBind]
    exact Ev.bind ih (Ev.ret _ fun n => rfl)
  | @case _ v us d s vs _ h1 h2 =>
    refine Ev.succ ?_
    have ih := stmt_ev hT h2 hp r hr
    have e : (Tok.kw "case" :: (us ++ .p .colon :: vs)) ++ r = .kw "case" :: (us ++ .p .colon :: (vs ++ r)) := by simp
    have hh : caseHead O a (us ++ .p .colon :: (vs ++ r)) = .ok (v, v, d, vs ++ r) := by
      simp only [caseHead, h1 _ (before_colon _), bind, Except.bind, caseEnd, skip_ok]
    rw [e]
    simp only [stmt, kw_case, hh, okBind]
    exact Ev.bind ih (Ev.ret _ fun n => rfl)
  | @range _ v us d v' us' d' s vs _ h1 h1' hle h2 =>
    refine Ev.succ ?_
    have ih := stmt_ev hT h2 hp r hr
    have e : (Tok.kw "case" :: (us ++ .p .dots :: (us' ++ .p .colon :: vs))) ++ r = .kw "case" :: (us ++ .p .dots :: (us' ++ .p .colon :: (vs ++ r))) := by simp
    have hh : caseHead O a (us ++ .p .dots :: (us' ++ .p .colon :: (vs ++ r))) = .ok (v, v', d', vs ++ r) := by
      simp only [caseHead, h1 _ (before_dots _), bind, Except.bind, caseEnd, h1' _ (before_colon _), if_neg (by omega : ¬ v' < v), skip_ok]
    rw [e]
    simp only [stmt, kw_case, hh, okBind]
    exact Ev.bind ih (Ev.ret _ fun n => rfl)
  | dflt h2 =>
    refine Ev.succ ?_
    have ih := stmt_ev hT h2 hp r hr
    simp only [List.cons_append, stmt, kw_dflt, skip_ok, okBind]
    exact Ev.bind ih (Ev.ret _ fun n => rfl)
  | @forS _ i ti d o to f o' to' g s vs b' h1 h2 h3 h4 =>
    refine Ev.succ ?_
    have ih := stmt_ev hT h4 hp r hr
    have e : (Tok.kw "for" :: .p .lpar :: (ti ++ (to ++ .p .semi :: (to' ++ .p .rpar :: vs)))) ++ r =
      .kw "for" :: .p .lpar :: (ti ++ (to ++ .p .semi :: (to' ++ .p .rpar :: (vs ++ r)))) := by simp
    have hh : forHead O a (.p .lpar :: (ti ++ (to ++ .p .semi :: (to' ++ .p .rpar :: (vs ++ r))))) = .ok (i, o, o', g, vs ++ r) := by
      have h1 : ForInit (reads O) (O.enter a) i ti d := h1
      simp only [forHead, skip_ok, bind, Except.bind, forInit_ok O hT h1, optExpr_ok O h2 (by simp : P.semi ∈ [P.semi, .rpar]),
        optExpr_ok O h3 (by simp : P.rpar ∈ [P.semi, .rpar])]
    rw [e]
    simp only [stmt, kw_for, hh, okBind]
    exact Ev.bind ih (Ev.ret _ fun n => rfl)
  | @whileS _ c us d s vs _ h1 h2 =>
    refine Ev.succ ?_
    have ih := stmt_ev hT h2 hp r hr
    have e : (Tok.kw "while" :: .p .lpar :: (us ++ .p .rpar :: vs)) ++ r = .kw "while" :: .p .lpar :: (us ++ .p .rpar :: (vs ++ r)) := by simp
    rw [e]
    simp only [stmt, kw_while, parenExpr_ok O h1, okBind]
    exact Ev.bind ih (Ev.ret _ fun n => rfl)
  | @doW _ s vs d c us _ h1 h2 =>
    refine Ev.succ ?_
    have ih := stmt_ev hT h1 hp (.kw "while" :: .p .lpar :: (us ++ .p .rpar :: .p .semi :: r)) (fun _ => rfl)
    have e : (Tok.kw "do" :: (vs ++ .kw "while" :: .p .lpar :: (us ++ [.p .rpar, .p .semi]))) ++ r =
      .kw "do" :: (vs ++ .kw "while" :: .p .lpar :: (us ++ .p .rpar :: .p .semi :: r)) := by simp
    rw [e]
    simp only [stmt, kw_do]
    refine Ev.bind ih (Ev.ret _ fun n => ?_)
    simp only [skip_ok, bind, Except.bind, parenExpr_ok O h2]
  | asm => cases hp
  | goto => exact Ev.succ (Ev.ret _ fun n => by simp [stmt, kw_goto, skip_ok, bind, Except.bind])
  | @gotoE _ e us _ h =>
    refine Ev.succ (Ev.ret _ fun n => ?_)
    have e : (Tok.kw "goto" :: .p .star :: (us ++ [Tok.p .semi])) ++ r = .kw "goto" :: .p .star :: (us ++ .p .semi :: r) := by simp
    rw [e]
    simp only [stmt, kw_goto, h.1 _ (before_semi _), skip_ok, bind, Except.bind]
  | brk => exact Ev.succ (Ev.ret _ fun n => by simp [stmt, kw_brk, skip_ok, bind, Except.bind])
  | cont => exact Ev.succ (Ev.ret _ fun n => by simp [stmt, kw_cont, skip_ok, bind, Except.bind])
  | label h2 =>
    refine Ev.succ ?_
    have ih := stmt_ev hT h2 hp r hr
    simp only [List.cons_append, stmt]
    exact Ev.bind ih (Ev.ret _ fun n => rfl)
  | @block _ i ti _ h =>
    refine Ev.succ ?_
    have ih := items_ev hT h hp r
    have e : (Tok.p .lbrace :: (ti ++ [Tok.p .rbrace])) ++ r = .p .lbrace :: (ti ++ .p .rbrace :: r) := by simp
    rw [e]
    simp only [stmt]
    exact Ev.bind ih (Ev.ret _ fun n => rfl)
theorem items_ev (hT : O.Types) {a b : σ} {s : B E D} {ts : List Tok} (h : Items (reads O) O.scoping a s ts b) (hp : s.plain = true) (r : List Tok) :
    Ev (fun n => items O n a (ts ++ .p .rbrace :: r)) (s, b, r) := by
  cases h with
  | nil => exact Ev.succ (Ev.ret _ fun n => rfl)
  | @decl _ d us b' i ti _ h1 h2 =>
    refine Ev.succ ?_
    have ih := items_ev hT h2 hp r
    obtain ⟨hd, t, u, v, rfl, ht, hu⟩ := h1
    have hd := hd (ti ++ .p .rbrace :: r)
    rw [List.append_assoc, List.cons_append, List.cons_append] at *
    have h3 : isDecl O a (t :: u :: (v ++ (ti ++ .p .rbrace :: r))) = true := by
      rw [isDecl.eq_def]
      split
      · rename_i heq
        exact absurd (List.cons.inj (List.cons.inj heq).2).1 hu
      · rename_i heq; cases heq; exact ht
      · rename_i heq; cases heq
    have h4 : t ≠ .p .rbrace := by
      rintro rfl
      rw [isType_p O hT] at ht; cases ht
    have e : ∀ n, items O (n + 1) a (t :: u :: (v ++ (ti ++ .p .rbrace :: r))) =
        items O n b' (ti ++ .p .rbrace :: r) >>= fun x => .ok (.decl d x.1, x.2.1, x.2.2) := by
      intro n
      rw [items.eq_def]
      dsimp only
      split
      · rename_i heq; exact absurd (List.cons.inj heq).1 h4
      · rw [h3, hd]; rfl
    simp only [e]
    exact Ev.bind ih (Ev.ret _ fun n => rfl)
  | @stmt _ s us b' i ti _ h1 h2 =>
    refine Ev.succ ?_
    simp only [B.plain, Bool.and_eq_true] at hp
    have ih := items_ev hT h2 hp.2 r
    have h3 := stmt_notDecl O hT h1 (ti ++ .p .rbrace :: r)
    have hne : isElse (ti ++ .p .rbrace :: r) = none := items_noElse O hT h2 r
    have ih1 := stmt_ev hT h1 hp.1 (ti ++ .p .rbrace :: r) (fun _ => hne)
    rw [List.append_assoc]
    have e : ∀ n, items O (n + 1) a (us ++ (ti ++ .p .rbrace :: r)) =
        stmt O n a (us ++ (ti ++ .p .rbrace :: r)) >>= fun x => items O n x.2.1 x.2.2 >>= fun y => .ok (.stmt x.1 y.1, y.2.1, y.2.2) := by
      intro n
      rw [items.eq_def]
      dsimp only
      split
      · rename_i heq; exact absurd heq (h3.2 _)
      · rw [h3.1]; rfl
    simp only [e]
    exact Ev.bind ih1 (Ev.bind ih (Ev.ret _ fun n => rfl))
end

end Toycc.Stx
