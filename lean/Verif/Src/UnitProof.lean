import Verif.Src.UnitSpec
import Verif.Src.TextProps
/-! Lemmas for C74: a file is read as what is written. -/
namespace Toycc.Src
open Toycc.Cg Toycc.Low
open Toycc.Parse (Tok P Tree)
open Toycc.Stx (SErr)

/-! ### Scopes -/

/-- All scopes, and those but the innermost. -/
def Sc.all (a : Sc) : List (List (String × Bind)) × List (List String) := (a.scopes, a.tags)
def Sc.rest (a : Sc) : List (List (String × Bind)) × List (List String) := (a.scopes.tail, a.tags.tail)

theorem rest_all {a b : Sc} (h : b.all = a.all) : b.rest = a.rest := by
  simp only [Sc.all, Prod.mk.injEq] at h
  unfold Sc.rest
  rw [h.1, h.2]

theorem tag_rest (a : Sc) (x : Option String) : (a.tag x).rest = a.rest := by
  unfold Sc.tag Sc.rest
  cases x with
  | none => rfl
  | some x => cases a.tags <;> rfl

theorem push_tail (a : Sc) (x : String) (b : Bind) : (a.push x b).rest = a.rest := by
  unfold Sc.push Sc.rest
  cases a.scopes <;> rfl

theorem newVar_tail (off : Nat → Int) (a : Sc) (x : String) (t : CTy) : (a.newVar off x t).rest = a.rest := push_tail _ _ _

theorem vars_tail {off : Nat → Int} {t : CTy} {a : Sc} {ds : List Dr} {is : List XI} {b : Sc} (h : Vars off t a ds is b) : b.rest = a.rest := by
  induction h with
  | nil a => rfl
  | cons _ _ _ _ ih => rw [ih, newVar_tail]

theorem typedefs_tail {t : CTy} {a : Sc} {ds : List Dr} {b : Sc} (h : Typedefs t a ds b) : b.rest = a.rest := by
  induction h with
  | nil a => rfl
  | cons _ _ _ ih => rw [ih, push_tail]

theorem enumerators_tail {val : Sc → Tree TN → Option Int} {a : Sc} {n : Int} {ds : List Er} {b : Sc} (h : Enumerators val a n ds b) : b.rest = a.rest := by
  induction h with
  | nil a => rfl
  | cons _ _ _ _ ih => rw [ih, push_tail]

theorem specs_tail {val : Sc → Tree TN → Option Int} {a : Sc} {ts : List Tok} {t : CTy} {xs : List String} {b : Sc} (h : Specs val a ts t xs b) : b.rest = a.rest := by
  cases h with
  | spec _ => rfl
  | enum _ h => rw [tag_rest, enumerators_tail h]

theorem varDecl_tail {off : Nat → Int} {val : Sc → Tree TN → Option Int} {a : Sc} {ts : List Tok} {is : List XI} {b : Sc} (h : VarDecl off val a ts is b) : b.rest = a.rest := by
  cases h with
  | vars hs h => rw [vars_tail h, specs_tail hs]

theorem blockDecl_tail {off : Nat → Int} {val : Sc → Tree TN → Option Int} {a : Sc} {ts : List Tok} {is : List XI} {b : Sc} (h : BlockDecl off val a ts is b) : b.rest = a.rest := by
  cases h with
  | vars h => exact varDecl_tail h
  | typedef hs h => rw [typedefs_tail h, specs_tail hs]

section
variable {off : Nat → Int} {val : Sc → Tree TN → Option Int}

theorem expr_same {a b : Sc} {ts : List Tok} {e : SExpr} (h : (words off val).expr a ts e b) : b = a := by
  obtain ⟨_, _, _, h⟩ := h
  exact h

theorem const_same {a b : Sc} {ts : List Tok} {e : Int} (h : (words off val).const a ts e b) : b = a := by
  obtain ⟨_, _, _, h⟩ := h
  exact h

theorem opt_same {a b : Sc} {ts : List Tok} {e : Option SExpr} (h : Stx.OptExpr (words off val) a e ts b) : b = a := by
  cases h with
  | none => rfl
  | some h => exact expr_same h

theorem forInit_tail {a b : Sc} {ts : List Tok} {i : List XI ⊕ Option SExpr} (h : Stx.ForInit (words off val) a i ts b) : b.rest = a.rest := by
  cases h with
  | decl h => exact varDecl_tail h
  | expr h => rw [opt_same h]

mutual
/-- After a statement the scopes are those before it. -/
theorem stmt_scopes : ∀ {a : Sc} {s : Stx.S SExpr (List XI)} {ts : List Tok} {b : Sc}, Stx.Stmt (words off val) ⟨Sc.enter, Sc.leave⟩ a s ts b → b.all = a.all
  | _, _, _, _, .null _ => rfl
  | _, _, _, _, .expr h => by rw [expr_same h]
  | _, _, _, _, .ret h => by rw [opt_same h]
  | _, _, _, _, .ifs h1 h2 => by rw [stmt_scopes h2, expr_same h1]
  | _, _, _, _, .ifElse h1 h2 _ h3 => by rw [stmt_scopes h3, stmt_scopes h2, expr_same h1]
  | _, _, _, _, .switch h1 h2 => by rw [stmt_scopes h2, expr_same h1]
  | _, _, _, _, .case h1 h2 => by rw [stmt_scopes h2, const_same h1]
  | _, _, _, _, .range h1 h2 _ h3 => by rw [stmt_scopes h3, const_same h2, const_same h1]
  | _, _, _, _, .dflt h => stmt_scopes h
  | _, _, _, _, .forS h1 h2 h3 h4 => by
    have := stmt_scopes h4
    have e := forInit_tail h1
    rw [opt_same h3, opt_same h2] at this
    show Sc.rest _ = _
    rw [rest_all this, e]
    rfl
  | _, _, _, _, .whileS h1 h2 => by rw [stmt_scopes h2, expr_same h1]
  | _, _, _, _, .doW h1 h2 => by rw [expr_same h2, stmt_scopes h1]
  | _, _, _, _, .asm _ _ => rfl
  | _, _, _, _, .goto _ => rfl
  | _, _, _, _, .gotoE h => by rw [expr_same h]
  | _, _, _, _, .brk _ => rfl
  | _, _, _, _, .cont _ => rfl
  | _, _, _, _, .label h => stmt_scopes h
  | _, _, _, _, .block h => by
    have := items_tail h
    show Sc.rest _ = _
    rw [this]
    rfl
theorem items_tail : ∀ {a : Sc} {s : Stx.B SExpr (List XI)} {ts : List Tok} {b : Sc}, Stx.Items (words off val) ⟨Sc.enter, Sc.leave⟩ a s ts b →
    b.rest = a.rest
  | _, _, _, _, .nil _ => rfl
  | _, _, _, _, .decl h1 h2 => by rw [items_tail h2, blockDecl_tail h1]
  | _, _, _, _, .stmt h1 h2 => by rw [items_tail h2, rest_all (stmt_scopes h1)]
end

theorem written_scopes {a b : Sc} {ts : List Tok} {x : XStmt} (h : Written off val a ts x b) : b.all = a.all := by
  obtain ⟨s, h, _⟩ := h
  exact stmt_scopes h

theorem written_brace {a b : Sc} {ts : List Tok} {x : XStmt} (h : Written off val a ts x b) : ∃ r, ts = .p .lbrace :: r := by
  obtain ⟨s, h, _⟩ := h
  cases h with
  | block _ => exact ⟨_, rfl⟩

end

/-! ### Parameters -/

theorem adjusts {t u : CTy} (h : Adjusts t u) : adj t = u := by
  cases h with
  | arr t n => rfl
  | same h =>
    cases t with
    | arr b n => exact absurd rfl (h b n)
    | _ => rfl

/-- What follows a parameter. -/
def AfterP (r : List Tok) : Prop := ∃ r', r = .p .comma :: r' ∨ r = .p .rpar :: r'

theorem lens_start (ls : List Nat) {r : List Tok} (hr : AfterP r) : ∃ q r', lensText ls ++ r = .p q :: r' ∧ (q = .lbrk ∨ q = .comma ∨ q = .rpar) := by
  cases ls with
  | nil =>
    obtain ⟨r', rfl | rfl⟩ := hr
    · exact ⟨_, _, rfl, .inr (.inl rfl)⟩
    · exact ⟨_, _, rfl, .inr (.inr rfl)⟩
  | cons l ls => exact ⟨_, _, rfl, .inl rfl⟩

theorem parm_read {a : Sc} {ts : List Tok} {p : CTy × Option String} (h : Parm a ts p) {r : List Tok} (hr : AfterP r) : parm a (ts ++ r) = .ok (p, r) := by
  cases h with
  | @mk ts t u k x ls hs hl hv ha =>
    obtain ⟨q, r', e, hq⟩ := lens_start ls hr
    have hstar : NoStar (nameText x ++ (lensText ls ++ r)) := by
      intro r2 e2
      cases x with
      | none => rw [nameText, List.nil_append, e] at e2; cases e2; rcases hq with h | h | h <;> cases h
      | some x => cases e2
    have hkw : NoKw (nameText x ++ (lensText ls ++ r)) := by
      intro s r2 e2
      cases x with
      | none => rw [nameText, List.nil_append, e] at e2; cases e2
      | some x => cases e2
    have hn : optName (nameText x ++ (lensText ls ++ r)) = (x, lensText ls ++ r) := by
      cases x with
      | none => rw [nameText, List.nil_append, e]; rfl
      | some x => rfl
    have hd : dims (ptrs k t) (lensText ls ++ r) = .ok (arrays ls (ptrs k t), r) := by
      refine dims_read _ _ _ hl ?_ ?_ <;> rintro r2 rfl <;> obtain ⟨r', h | h⟩ := hr <;> cases h
    have e3 : ts ++ (starsText k ++ (nameText x ++ lensText ls)) ++ r = ts ++ (starsText k ++ (nameText x ++ (lensText ls ++ r))) := by simp only [List.append_assoc]
    rw [e3]
    unfold parm
    simp only [spec_read hs (noKw_stars k hkw), bind, Except.bind, stars_app k hstar, hn, hd, if_neg hv, adjusts ha]

theorem more_after {a : Sc} {ts : List Tok} {ps : List (CTy × Option String)} (h : More a ts ps) (r : List Tok) : AfterP (ts ++ r) := by
  cases h with
  | nil => exact ⟨_, .inr rfl⟩
  | cons _ _ => exact ⟨_, .inl rfl⟩

theorem more_read {a : Sc} {ts : List Tok} {ps : List (CTy × Option String)} (h : More a ts ps) : ∀ (n : Nat) (r : List Tok), ps.length < n →
    parms a n false (ts ++ r) = .ok (ps, r) := by
  induction h with
  | nil =>
    intro n r hn
    cases n with
    | zero => omega
    | succ n => rfl
  | @cons ts p r' ps hp hm ih =>
    intro n r hn
    cases n with
    | zero => omega
    | succ n =>
      have k := ih n r (by simp only [List.length_cons] at hn; omega)
      have e1 := parm_read hp (more_after hm r)
      rw [List.cons_append, List.append_assoc, parms.eq_def]
      simp only [Bool.false_eq_true, if_false, Stx.skip, if_true, bind, Except.bind, e1, k]

theorem parm_start {a : Sc} {ts : List Tok} {p : CTy × Option String} (h : Parm a ts p) {r : List Tok} (hr : AfterP r) :
    (∃ x r', ts = x :: r' ∧ x ≠ .p .rpar) ∧ isVoid (ts ++ r) = none := by
  cases h with
  | @mk ts t u k x ls hs hl hv ha =>
    cases hs with
    | name hx => exact ⟨⟨_, _, rfl, by intro e; cases e⟩, rfl⟩
    | tag hx => exact ⟨⟨_, _, rfl, by intro e; cases e⟩, rfl⟩
    | base b =>
      refine ⟨?_, ?_⟩
      · cases b <;> exact ⟨_, _, rfl, by intro e; cases e⟩
      · by_cases hb : b = .void
        · subst hb
          cases k with
          | succ k => unfold starsText; rw [List.replicate_succ]; rfl
          | zero =>
            cases x with
            | some x => rfl
            | none =>
              cases ls with
              | cons l ls => rfl
              | nil => exact absurd rfl hv
        · unfold isVoid
          split
          · rename_i e
            refine if_neg ?_
            rintro rfl
            apply hb
            have e1 := congrArg List.head? e
            cases b <;> first | rfl | (exact absurd e1 (by intro h; injection h with h; injection h with h; revert h; decide))
          · rfl

theorem more_length {a : Sc} {ts : List Tok} {ps : List (CTy × Option String)} (h : More a ts ps) : ps.length < ts.length := by
  induction h with
  | nil => simp
  | cons _ _ ih => simp only [List.length_cons, List.length_append]; omega

theorem parms_read {a : Sc} {ts : List Tok} {ps : List (CTy × Option String)} (h : Parms a ts ps) (r : List Tok) : funcParams a (ts ++ r) = .ok (ps, r) := by
  unfold funcParams
  cases h with
  | void => rfl
  | empty => rfl
  | @list ts p r' ps hp hm =>
    rw [List.append_assoc]
    have ha := more_after hm r
    obtain ⟨⟨x, y, e, hx⟩, hv⟩ := parm_start hp ha
    rw [hv]
    have hlen := more_length hm
    have k := more_read hm (ts ++ (r' ++ r)).length r (by rw [e]; simp only [List.length_append, List.length_cons]; omega)
    have e1 := parm_read hp ha
    dsimp only
    rw [parms.eq_def]
    dsimp only
    split
    · rename_i h2
      rw [e] at h2
      cases h2
      exact absurd rfl hx
    · simp only [if_true, bind, Except.bind, e1, k]

/-! ### Functions -/

theorem parmsIn {a : Sc} {ps : List (CTy × Option String)} {b : Sc} (h : ParmsIn a ps b) : parmVars a ps = some b := by
  induction h with
  | nil => rfl
  | cons _ ih => simp only [parmVars, ih, Option.bind_eq_bind, Option.bind_some]

theorem bodyIn {a : Sc} {f : String} {ps : List (CTy × Option String)} {b : Sc} (h : BodyIn a f ps b) : bodySc a f ps = some b := by
  cases h with
  | mk h => unfold bodySc; simp only [parmsIn h, Option.bind_eq_bind, Option.bind_some]

theorem parmsIn_tail {a : Sc} {ps : List (CTy × Option String)} {b : Sc} (h : ParmsIn a ps b) : b.rest = a.rest := by
  induction h with
  | nil => rfl
  | cons _ ih => rw [newVar_tail, ih]

theorem bodyIn_tail {a : Sc} {f : String} {ps : List (CTy × Option String)} {b : Sc} (h : BodyIn a f ps b) : b.rest = a.all := by
  cases h with
  | mk h => rw [push_tail, push_tail, newVar_tail, parmsIn_tail h]; rfl

theorem declares {st : USt} {f : String} {t : CTy} {ps : List CTy} {b : Sc} (h : Declares st.sc f t ps b) :
    ∃ o, declareT st f t ps = (t, ⟨b, st.defs, o⟩) ∧ ((o = st.order ∧ b = st.sc ∧ st.sc.find f = some (.func t ps)) ∨
      (o = f :: st.order ∧ st.sc.find f = none ∧ b = st.sc.push f (.func t ps))) := by
  unfold declareT
  cases h with
  | first h =>
    have : known st.sc f = none := by unfold known; rw [h]
    rw [this]
    exact ⟨_, rfl, .inr ⟨rfl, h, rfl⟩⟩
  | again h =>
    have : known st.sc f = some (t, ps) := by unfold known; rw [h]
    rw [this]
    exact ⟨_, rfl, .inl ⟨rfl, rfl, h⟩⟩

variable (val : Sc → Tree TN → Option Int)

theorem proto_read (n : Nat) {st st' : USt} {t : CTy} {f : String} {pts : List Tok} {ps : List (CTy × Option String)} (hp : Parms st.sc pts ps)
    (hd : declareT st f t (tys ps) = (t, st')) (r : List Tok) : functionT val n st t f (pts ++ .p .semi :: r) = .ok (st', r) := by
  unfold functionT
  simp only [parms_read hp, bind, Except.bind, hd]

theorem func_read {st st' : USt} {t : CTy} {f : String} {pts : List Tok} {ps : List (CTy × Option String)} {c d : Sc} {bts : List Tok} {x : XStmt} (hp : Parms st.sc pts ps)
    (hd : declareT st f t (tys ps) = (t, st')) (hf : ∀ g ∈ st'.defs, g.name ≠ f) (hc : BodyIn st'.sc f ps c) (hb : Written num val c bts x d) (h0 : st'.sc.next = 0) (r : List Tok) :
    ∃ M, ∀ n, M ≤ n → functionT val n st t f (pts ++ (bts ++ r)) = .ok ({ st' with defs := ⟨f, t, tys ps, x⟩ :: st'.defs }, r) := by
  obtain ⟨s, M, h1, h2⟩ := Props.C72_read_partial num val hb r
  obtain ⟨br, e⟩ := written_brace hb
  refine ⟨M, fun n hn => ?_⟩
  have h2 := h2 n hn
  have hsc : ({ d.leave with next := 0 } : Sc) = st'.sc := by
    have : d.rest = st'.sc.all := by rw [rest_all (written_scopes hb), bodyIn_tail hc]
    simp only [Sc.rest, Sc.all, Prod.mk.injEq] at this
    show (⟨d.scopes.tail, 0, d.tags.tail⟩ : Sc) = _
    rw [this.1, this.2, ← h0]
  rw [e, List.cons_append] at h2 ⊢
  have hany : st'.defs.any (fun g => decide (g.name = f)) = false := by
    rw [List.any_eq_false]
    intro g hg
    have := hf g hg
    simpa using this
  unfold functionT
  simp only [parms_read hp, bind, Except.bind, hd, hany, Bool.false_eq_true, if_false, bodyIn hc, h2, h1, hsc]

theorem globals_read (t : CTy) : ∀ {a : Sc} {ds : List Dr} {b : Sc}, Globals t a ds b → ∀ (n : Nat) (r : List Tok), ds.length < n →
    globalsT t n true a (list ds ++ .p .semi :: r) = .ok (b, r) ∧ globalsT t n false a (sep ds ++ .p .semi :: r) = .ok (b, r) := by
  intro a ds b h
  induction h with
  | nil a =>
    intro n r hn
    cases n with
    | zero => omega
    | succ n => exact ⟨rfl, rfl⟩
  | @cons a d ds b hi hv hl _ ih =>
    intro n r hn
    cases n with
    | zero => omega
    | succ n =>
      have k := (ih n r (by simp only [List.length_cons] at hn; omega)).2
      have e1 := declr_text t d (sep ds ++ .p .semi :: r) hl (sep_after ds r)
      rw [hi, initText, List.nil_append] at e1
      constructor
      · rw [list, List.append_assoc, globalsT.eq_def]
        dsimp only
        split
        · rename_i h; exact absurd h (dr_not_semi _ _ _)
        · simp only [if_true, bind, Except.bind, e1, if_neg hv, k]
      · rw [sep, List.cons_append, List.append_assoc, globalsT.eq_def]
        simp only [Bool.false_eq_true, if_false, Stx.skip, if_true, bind, Except.bind, e1, if_neg hv, k]

/-- Declarators of variables are not those of functions. -/
theorem list_noFunction {t : CTy} {a : Sc} {ds : List Dr} {b : Sc} (h : Globals t a ds b) (r : List Tok) : isFunction (list ds ++ .p .semi :: r) = none := by
  cases h with
  | nil => rfl
  | @cons _ d ds _ hi _ _ _ =>
    unfold isFunction
    have e : list (d :: ds) ++ .p .semi :: r = starsText d.stars ++ (.ident d.name :: (lensText d.lens ++ (sep ds ++ .p .semi :: r))) := by
      simp only [list, Dr.text, hi, initText, List.append_nil, List.append_assoc, List.cons_append]
    rw [e, stars_app _ (by intro r e; cases e)]
    dsimp only
    split
    · rename_i h
      cases hl : d.lens with
      | cons l ls => rw [hl] at h; cases h
      | nil =>
        rw [hl] at h
        obtain ⟨r', h2 | h2⟩ := sep_after ds r
        · rw [lensText, List.nil_append, h2] at h; cases h
        · rw [lensText, List.nil_append, h2] at h; cases h
    · rfl

theorem isFunction_text (k : Nat) (f : String) (r : List Tok) : isFunction (starsText k ++ .ident f :: .p .lpar :: r) = some (f, r) := by
  unfold isFunction
  rw [stars_app _ (by intro r e; cases e)]

theorem ext_of {st : USt} {ts r : List Tok} {t : CTy} {xs : List String} {a : Sc} (hs : Specs val st.sc ts t xs a) (n : Nat) : itemT val n st (ts ++ r) = extT val n st (ts ++ r) := by
  obtain ⟨x, y, rfl, _, h, _⟩ := specs_start val hs
  unfold itemT
  split
  · rename_i e
    cases e
    exact if_neg (fun h2 => h (by rw [h2]))
  · rfl

theorem stars_noBrace (k : Nat) (f : String) (r r' : List Tok) : starsText k ++ .ident f :: r ≠ .p .lbrace :: r' := by
  intro e
  cases k with
  | zero => cases e
  | succ n => rw [starsText, List.replicate_succ] at e; cases e

theorem func_ext {st : USt} {ts r : List Tok} {t : CTy} (hs : Spec st.sc ts t) (n k : Nat) (f : String) :
    itemT val n st (ts ++ (starsText k ++ .ident f :: .p .lpar :: r)) = functionT val n st (ptrs k t) f r := by
  have hkw : NoKw (starsText k ++ .ident f :: .p .lpar :: r) := noKw_stars k (by intro s r e; cases e)
  rw [ext_of val (.spec hs)]
  unfold extT
  simp only [specs_read val (.spec hs) hkw (stars_noBrace k f _), bind, Except.bind, isFunction_text]
  rw [stars_app _ (by intro r e; cases e)]

theorem vars_ext {st : USt} {ts r : List Tok} {t : CTy} {xs : List String} {a : Sc} (hs : Specs val st.sc ts t xs a) (n : Nat) {ds : List Dr} {b : Sc} (h : Globals t a ds b) :
    itemT val n st (ts ++ (list ds ++ .p .semi :: r)) = .ok ({ st with sc := b }, r) := by
  rw [ext_of val hs]
  unfold extT
  have k := (globals_read t h ((list ds ++ .p .semi :: r).length + 1) r (by have := list_length ds; simp only [List.length_append, List.length_cons]; omega)).1
  simp only [specs_read val hs (list_start ds r).1 (list_noBrace ds r), bind, Except.bind, list_noFunction h, k]

theorem typedef_item {st : USt} {ts r : List Tok} {t : CTy} {xs : List String} {a : Sc} (hs : Specs val st.sc ts t xs a) (n : Nat) {ds : List Dr} {b : Sc} (h : Typedefs t a ds b) :
    itemT val n st (.kw "typedef" :: (ts ++ (list ds ++ .p .semi :: r))) = .ok ({ st with sc := b }, r) := by
  unfold itemT
  have k := (typedefs_read t h ((list ds ++ .p .semi :: r).length + 1) r (by have := list_length ds; simp only [List.length_append, List.length_cons]; omega)).1
  simp only [if_true, specs_read val hs (list_start ds r).1 (list_noBrace ds r), bind, Except.bind, k]

end Toycc.Src
