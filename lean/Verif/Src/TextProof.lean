import Verif.Src.TextSpec
/-! The parser reads the texts of the specification. -/
namespace Toycc.Src
open Toycc.Cg Toycc.Low
open Toycc.Parse (Tok P Tree)
open Toycc.Stx (SErr limit limit_eq reads withExpr Before)

/-- Tokens that do not begin with a keyword. -/
def NoKw (ts : List Tok) : Prop := ∀ s r, ts ≠ .kw s :: r
def NoStar (ts : List Tok) : Prop := ∀ r, ts ≠ .p .star :: r

theorem op2 {o : Parse.BOp} {l r x : SExpr} (h : Op2 o l r x) : binX o l r = x := by cases h <;> rfl

theorem opA {o : Parse.BOp} {x : BinOp} (h : OpA o x) : opX o = some x := by cases h <;> rfl

mutual
theorem means_resolve {a : Sc} : ∀ {e : Tree TN} {x : SExpr}, Means a e x → resolve a e = some x
  | _, _, .var h => by simp only [resolve, h]
  | _, _, .enum h => by simp only [resolve, h]
  | _, _, .int h1 h2 => by rw [resolve, if_pos ⟨h1, h2⟩]
  | _, _, .uint h1 h2 => by rw [resolve, if_pos ⟨h1, h2⟩]; rfl
  | _, _, .long h1 h2 => by rw [resolve, if_pos ⟨h1, h2⟩]; rfl
  | _, _, .ulong h1 h2 => by rw [resolve, if_pos ⟨h1, h2⟩]; rfl
  | _, _, .bin h1 h2 h3 => by simp only [resolve, means_resolve h1, means_resolve h2, Option.bind_eq_bind, Option.bind_some, op2 h3]
  | _, _, .opAssign h h1 h2 => by simp only [resolve, opA h, means_resolve h1, means_resolve h2, Option.bind_eq_bind, Option.bind_some]
  | _, _, .cond h1 h2 h3 => by simp only [resolve, means_resolve h1, means_resolve h2, means_resolve h3, Option.bind_eq_bind, Option.bind_some]
  | _, _, .assign h1 h2 => by simp only [resolve, means_resolve h1, means_resolve h2, Option.bind_eq_bind, Option.bind_some]
  | _, _, .elvis h1 h2 => by simp only [resolve, means_resolve h1, means_resolve h2, Option.bind_eq_bind, Option.bind_some]
  | _, _, .comma h1 h2 => by simp only [resolve, means_resolve h1, means_resolve h2, Option.bind_eq_bind, Option.bind_some]
  | _, _, .index h1 h2 => by simp only [resolve, means_resolve h1, means_resolve h2, Option.bind_eq_bind, Option.bind_some]
  | _, _, .neg h => by simp only [resolve, means_resolve h, Option.bind_eq_bind, Option.bind_some]
  | _, _, .addr h => by simp only [resolve, means_resolve h, Option.bind_eq_bind, Option.bind_some]
  | _, _, .deref h => by simp only [resolve, means_resolve h, Option.bind_eq_bind, Option.bind_some]
  | _, _, .not h => by simp only [resolve, means_resolve h, Option.bind_eq_bind, Option.bind_some]
  | _, _, .bitnot h => by simp only [resolve, means_resolve h, Option.bind_eq_bind, Option.bind_some]
  | _, _, .preinc h => by simp only [resolve, means_resolve h, Option.bind_eq_bind, Option.bind_some]
  | _, _, .predec h => by simp only [resolve, means_resolve h, Option.bind_eq_bind, Option.bind_some]
  | _, _, .postinc h => by simp only [resolve, means_resolve h, Option.bind_eq_bind, Option.bind_some]
  | _, _, .postdec h => by simp only [resolve, means_resolve h, Option.bind_eq_bind, Option.bind_some]
  | _, _, .cast h => by simp only [resolve, means_resolve h, Option.bind_eq_bind, Option.bind_some]
  | _, _, .sizeof _ => rfl
  | _, _, .call h1 h2 => by simp only [resolve, h1, means_args h2, Option.bind_eq_bind, Option.bind_some]
theorem means_args {a : Sc} : ∀ {ps : List CTy} {e : Parse.Trees TN} {x : SArgs}, MeansArgs a ps e x → resolveArgs a ps e = some x
  | _, _, _, .nil => rfl
  | _, _, _, .cons h1 h2 => by simp only [resolveArgs, means_resolve h1, means_args h2, Option.bind_eq_bind, Option.bind_some]
end

theorem binX_op (o : Parse.BOp) (l r : SExpr) : Op2 o l r (binX o l r) := by cases o <;> constructor

theorem opX_op {o : Parse.BOp} {x : BinOp} (h : opX o = some x) : OpA o x := by cases o <;> first | (cases h; constructor) | cases h

mutual
/-- Only what has a meaning is accepted. -/
theorem resolve_means {a : Sc} : ∀ {e : Tree TN} {x : SExpr}, resolve a e = some x → Means a e x
  | .ident x, _, h => by
    rw [resolve] at h
    split at h
    · cases h; exact .var (by assumption)
    · cases h; exact .enum (by assumption)
    · cases h
  | .num v, _, h => by
    rw [resolve] at h
    split at h
    · rename_i hv; cases h; exact .int hv.1 hv.2
    · cases h
  | .tnum t v, _, h => by
    rw [resolve] at h
    split at h
    · rename_i hv
      cases h
      cases t
      · exact .uint hv.1 hv.2
      · exact .long hv.1 hv.2
      · exact .ulong hv.1 hv.2
    · cases h
  | .bin o _ _, _, h => by
    simp only [resolve, Option.bind_eq_bind, Option.bind_eq_some_iff, Option.some.injEq] at h
    obtain ⟨l, h1, r, h2, rfl⟩ := h
    exact .bin (resolve_means h1) (resolve_means h2) (binX_op o l r)
  | .assign none _ _, _, h => by
    simp only [resolve, Option.bind_eq_bind, Option.bind_eq_some_iff, Option.some.injEq] at h
    obtain ⟨l, h1, r, h2, rfl⟩ := h
    exact .assign (resolve_means h1) (resolve_means h2)
  | .assign (some o) _ _, _, h => by
    simp only [resolve, Option.bind_eq_bind, Option.bind_eq_some_iff, Option.some.injEq] at h
    obtain ⟨o', h0, l, h1, r, h2, rfl⟩ := h
    exact .opAssign (opX_op h0) (resolve_means h1) (resolve_means h2)
  | .cond _ _ _, _, h => by
    simp only [resolve, Option.bind_eq_bind, Option.bind_eq_some_iff, Option.some.injEq] at h
    obtain ⟨c, h0, l, h1, r, h2, rfl⟩ := h
    exact .cond (resolve_means h0) (resolve_means h1) (resolve_means h2)
  | .elvis _ _, _, h => by
    simp only [resolve, Option.bind_eq_bind, Option.bind_eq_some_iff, Option.some.injEq] at h
    obtain ⟨l, h1, r, h2, rfl⟩ := h
    exact .elvis (resolve_means h1) (resolve_means h2)
  | .comma _ _, _, h => by
    simp only [resolve, Option.bind_eq_bind, Option.bind_eq_some_iff, Option.some.injEq] at h
    obtain ⟨l, h1, r, h2, rfl⟩ := h
    exact .comma (resolve_means h1) (resolve_means h2)
  | .index _ _, _, h => by
    simp only [resolve, Option.bind_eq_bind, Option.bind_eq_some_iff, Option.some.injEq] at h
    obtain ⟨l, h1, r, h2, rfl⟩ := h
    exact .index (resolve_means h1) (resolve_means h2)
  | .un .neg _, _, h => by
    simp only [resolve, Option.bind_eq_bind, Option.bind_eq_some_iff, Option.some.injEq] at h
    obtain ⟨l, h1, rfl⟩ := h
    exact .neg (resolve_means h1)
  | .un .addr _, _, h => by
    simp only [resolve, Option.bind_eq_bind, Option.bind_eq_some_iff, Option.some.injEq] at h
    obtain ⟨l, h1, rfl⟩ := h
    exact .addr (resolve_means h1)
  | .un .deref _, _, h => by
    simp only [resolve, Option.bind_eq_bind, Option.bind_eq_some_iff, Option.some.injEq] at h
    obtain ⟨l, h1, rfl⟩ := h
    exact .deref (resolve_means h1)
  | .un .not _, _, h => by
    simp only [resolve, Option.bind_eq_bind, Option.bind_eq_some_iff, Option.some.injEq] at h
    obtain ⟨l, h1, rfl⟩ := h
    exact .not (resolve_means h1)
  | .un .bitnot _, _, h => by
    simp only [resolve, Option.bind_eq_bind, Option.bind_eq_some_iff, Option.some.injEq] at h
    obtain ⟨l, h1, rfl⟩ := h
    exact .bitnot (resolve_means h1)
  | .un .preinc _, _, h => by
    simp only [resolve, Option.bind_eq_bind, Option.bind_eq_some_iff, Option.some.injEq] at h
    obtain ⟨l, h1, rfl⟩ := h
    exact .preinc (resolve_means h1)
  | .un .predec _, _, h => by
    simp only [resolve, Option.bind_eq_bind, Option.bind_eq_some_iff, Option.some.injEq] at h
    obtain ⟨l, h1, rfl⟩ := h
    exact .predec (resolve_means h1)
  | .postinc _, _, h => by
    simp only [resolve, Option.bind_eq_bind, Option.bind_eq_some_iff, Option.some.injEq] at h
    obtain ⟨l, h1, rfl⟩ := h
    exact .postinc (resolve_means h1)
  | .postdec _, _, h => by
    simp only [resolve, Option.bind_eq_bind, Option.bind_eq_some_iff, Option.some.injEq] at h
    obtain ⟨l, h1, rfl⟩ := h
    exact .postdec (resolve_means h1)
  | .cast _ _, _, h => by
    simp only [resolve, Option.bind_eq_bind, Option.bind_eq_some_iff, Option.some.injEq] at h
    obtain ⟨l, h1, rfl⟩ := h
    exact .cast (resolve_means h1)
  | .sizeofT t, _, h => by
    rw [resolve] at h
    cases h
    exact .sizeof t
  | .call (.ident f) as, _, h => by
    rw [resolve] at h
    split at h
    · rename_i h0
      simp only [Option.bind_eq_bind, Option.bind_eq_some_iff, Option.some.injEq] at h
      obtain ⟨as', h1, rfl⟩ := h
      exact .call h0 (resolve_args h1)
    · cases h
theorem resolve_args {a : Sc} : ∀ {ps : List CTy} {e : Parse.Trees TN} {x : SArgs}, resolveArgs a ps e = some x → MeansArgs a ps e x
  | [], .nil, _, h => by cases h; exact .nil
  | _ :: _, .cons _ _, _, h => by
    simp only [resolveArgs, Option.bind_eq_bind, Option.bind_eq_some_iff, Option.some.injEq] at h
    obtain ⟨e', h1, r', h2, rfl⟩ := h
    exact .cons (resolve_means h1) (resolve_args h2)
end

theorem kws_none {ts : List Tok} (h : NoKw ts) : kws ts = [] := by
  unfold kws
  split
  · exact absurd rfl (h _ _)
  · rfl

theorem kws_app (ws : List String) {ts : List Tok} (h : NoKw ts) : kws (ws.map .kw ++ ts) = ws := by
  induction ws with
  | nil => exact kws_none h
  | cons w r ih => simp only [List.map_cons, List.cons_append, kws, ih]

theorem base_find (b : Base) : bases.find? (fun c => c.words == b.words) = some b := by cases b <;> decide

theorem drop_kws (ws : List String) (ts : List Tok) : (ws.map Tok.kw ++ ts).drop ws.length = ts := by
  have := List.drop_left (l₁ := ws.map Tok.kw) (l₂ := ts)
  rw [List.length_map] at this
  exact this

theorem stars_none {ts : List Tok} (h : NoStar ts) : stars ts = (0, ts) := by
  unfold stars
  split
  · exact absurd rfl (h _)
  · rfl

theorem stars_app (n : Nat) {ts : List Tok} (h : NoStar ts) : stars (starsText n ++ ts) = (n, ts) := by
  unfold starsText
  induction n with
  | zero => exact stars_none h
  | succ n ih => rw [List.replicate_succ, List.cons_append]; simp only [stars, ih]

theorem noKw_stars (n : Nat) {ts : List Tok} (h : NoKw ts) : NoKw (starsText n ++ ts) := by
  unfold starsText
  cases n with
  | zero => exact h
  | succ n => rw [List.replicate_succ]; intro s r e; cases e

theorem isType_kw (a : Sc) {s : String} (h : typeWords.contains s = true) : isType a (.kw s) = true := h

theorem good_PO (a : Sc) : (PO a).Good TN.text := by
  refine ⟨?_, ?_, ?_⟩
  · intro t r
    have h1 : NoKw (starsText t.stars ++ .p .rpar :: r) := noKw_stars _ (by intro s r e; cases e)
    show typename (t.text ++ _) = _
    unfold typename TN.text
    rw [List.append_assoc, kws_app _ h1, base_find, drop_kws]
    dsimp only
    rw [stars_app _ (by intro r e; cases e)]
  · intro t
    obtain ⟨b, n⟩ := t
    have : ∀ b : Base, ∃ x r, b.words.map Tok.kw ++ starsText n = x :: r ∧ isType a x = true := fun b => by cases b <;> exact ⟨_, _, rfl, isType_kw a (by decide)⟩
    exact this b
  · intro t h
    change isType a t = true at h
    cases t with
    | kw s =>
      refine .inr ⟨s, rfl, ?_, ?_⟩
      · rintro rfl; exact absurd (show typeWords.contains "sizeof" = true from h) (by decide)
      · rintro rfl; exact absurd (show typeWords.contains "_Alignof" = true from h) (by decide)
    | ident s => exact .inl ⟨s, rfl⟩
    | _ => cases h

theorem types_parser (off : Nat → Int) (val : Sc → Tree TN → Option Int) : (parser off val).Types := by
  intro a t h
  change isType a t = true at h
  cases t with
  | ident s => exact .inl ⟨s, rfl⟩
  | kw s =>
    refine .inr ⟨s, rfl, ?_⟩
    have hs : s ∈ typeWords := by simpa [isType] using h
    have : ∀ s ∈ typeWords, Stx.kwOf s = none ∧ s ≠ "else" := by decide
    exact this s hs
  | _ => cases h

theorem noType_p (a : Sc) (q : P) : (PO a).isType (.p q) = false := rfl

variable (off : Nat → Int) (val : Sc → Tree TN → Option Int)

/-- The oracle of Verif.Stx.Expr, to use its lemmas. -/
noncomputable def plainO : Stx.Oracle Sc (Tree TN) (List XI) :=
  withExpr ⟨fun _ _ => .error .other, fun _ _ => .error .other, declT off val, forDeclT off val, isType, Sc.enter, Sc.leave⟩ PO val

theorem expr_read {a : Sc} {e : Tree TN} {s : List Tok} (ok : Parse.Derives (PO a) TN.text false 0 e s) {x : SExpr} (hx : resolve a e = some x) :
    (reads (parser off val)).expr a s x a := by
  obtain ⟨h1, h2⟩ := Stx.expr_reads ⟨fun _ _ => .error .other, fun _ _ => .error .other, declT off val, forDeclT off val, isType, Sc.enter, Sc.leave⟩ PO val (good_PO a) ok
  refine ⟨fun r hr => ?_, h2⟩
  have := h1 r hr
  simp only [withExpr] at this
  simp only [parser]
  cases hl : limit fun n => Parse.expr (PO a) n (s ++ r) with
  | error y => rw [hl] at this; cases this
  | ok p =>
    rw [hl] at this
    simp only [bind, Except.bind, Except.ok.injEq, Prod.mk.injEq] at this ⊢
    obtain ⟨h1, -, h3⟩ := this
    rw [h1, hx, h3]

theorem const_read {a : Sc} {e : Tree TN} {s : List Tok} (ok : Parse.Derives (PO a) TN.text false 2 e s) {v : Int} (hv : val a e = some v) :
    (reads (parser off val)).const a s v a :=
  Stx.const_reads ⟨fun _ _ => .error .other, fun _ _ => .error .other, declT off val, forDeclT off val, isType, Sc.enter, Sc.leave⟩ PO val (good_PO a) ok hv

/-- What follows a declarator with its initialiser. -/
def After (r : List Tok) : Prop := ∃ r', r = .p .comma :: r' ∨ r = .p .semi :: r'

theorem assign_read {a : Sc} {e : Tree TN} {s : List Tok} (ok : Parse.Derives (PO a) TN.text false 1 e s) {r : List Tok} (hr : After r) :
    (limit fun n => Parse.assign (PO a) n (s ++ r)) = .ok (e, r) := by
  refine limit_eq ?_
  have := (Parse.derives_G (PO a) (good_PO a) (noType_p a) ok).ps 1 (by omega) (by omega) r (by
    obtain ⟨r', rfl | rfl⟩ := hr
    · intro x y hxy j hj; cases hxy; cases hj; omega
    · intro x y hxy j hj; cases hxy; cases hj)
  exact this

theorem dims_read (t : CTy) : ∀ (ls : List Nat) (r : List Tok), (∀ l ∈ ls, l < 2 ^ 31) → (∀ r', r ≠ .p .lbrk :: r') → (∀ r', r ≠ .p .lpar :: r') →
    dims t (lensText ls ++ r) = .ok (arrays ls t, r)
  | [], r, _, h1, h2 => by
    rw [lensText, List.nil_append, dims.eq_def]
    split
    · exact absurd rfl (h1 _)
    · exact absurd rfl (h1 _)
    · exact absurd rfl (h2 _)
    · rfl
  | l :: ls, r, h, h1, h2 => by
    have hl := h l (.head _)
    simp only [lensText, List.cons_append, dims, dims_read t ls r (fun l hl => h l (.tail _ hl)) h1 h2, bind, Except.bind]
    rw [if_pos (by omega)]
    simp [arrays]

theorem declr_read (t : CTy) (d : Dr) (r : List Tok) (h : ∀ l ∈ d.lens, l < 2 ^ 31) (h1 : ∀ r', r ≠ .p .lbrk :: r') (h2 : ∀ r', r ≠ .p .lpar :: r') :
    declr t (starsText d.stars ++ .ident d.name :: (lensText d.lens ++ r)) = .ok (d.name, d.ty t, r) := by
  unfold declr
  rw [stars_app _ (by intro r e; cases e)]
  simp only [dims_read _ d.lens r h h1 h2, bind, Except.bind]
  rfl

theorem after_no {r : List Tok} (h : After r) {q : P} (hc : q ≠ .comma) (hs : q ≠ .semi) : ∀ r', r ≠ .p q :: r' := by
  rintro r' rfl
  obtain ⟨x, h | h⟩ := h <;> cases h
  · exact hc rfl
  · exact hs rfl

theorem init_no {i : Option (List Tok)} {r : List Tok} (h : After r) {q : P} (hc : q ≠ .comma) (hs : q ≠ .semi) (he : q ≠ .eq) : ∀ r', initText i ++ r ≠ .p q :: r' := by
  cases i with
  | none => exact after_no h hc hs
  | some e => intro r' e; cases e; exact he rfl

theorem init_read {o : Int} {a : Sc} {u : CTy} {i : Option (List Tok)} {x : XI} (h : Inits o a u i x) {r : List Tok} (hr : After r) :
    initT o a u (initText i ++ r) = .ok (x, r) := by
  cases h with
  | none =>
    rw [initText, List.nil_append, initT.eq_def]
    split
    · exact absurd rfl (after_no hr (by decide) (by decide) _)
    · rfl
  | some ok hx hu =>
    simp only [initText, List.cons_append, initT, assign_read ok hr, bind, Except.bind, means_resolve hx, hu, if_true]

/-- The end of a list of declarators. -/
theorem sep_after (ds : List Dr) (r : List Tok) : After (sep ds ++ .p .semi :: r) := by
  cases ds with
  | nil => exact ⟨_, .inr rfl⟩
  | cons d ds => exact ⟨_, .inl rfl⟩

theorem dr_not_semi (d : Dr) (r : List Tok) : ∀ r', d.text ++ r ≠ .p .semi :: r' := by
  intro r' e
  unfold Dr.text starsText at e
  cases hs : d.stars with
  | zero => rw [hs] at e; cases e
  | succ n => rw [hs, List.replicate_succ] at e; cases e

theorem declr_text (t : CTy) (d : Dr) (r : List Tok) (h : ∀ l ∈ d.lens, l < 2 ^ 31) (hr : After r) :
    declr t (d.text ++ r) = .ok (d.name, d.ty t, initText d.init ++ r) := by
  have := declr_read t d (initText d.init ++ r) h (init_no hr (by decide) (by decide) (by decide)) (init_no hr (by decide) (by decide) (by decide))
  unfold Dr.text
  simpa only [List.append_assoc, List.cons_append] using this

theorem vars_read (t : CTy) : ∀ {a : Sc} {ds : List Dr} {is : List XI} {b : Sc}, Vars off t a ds is b → ∀ (n : Nat) (r : List Tok), ds.length < n →
    declLoop off t n true a (list ds ++ .p .semi :: r) = .ok (is, b, r) ∧ declLoop off t n false a (sep ds ++ .p .semi :: r) = .ok (is, b, r) := by
  intro a ds is b h
  induction h with
  | nil a =>
    intro n r hn
    cases n with
    | zero => omega
    | succ n => exact ⟨rfl, rfl⟩
  | @cons a d i ds is b hv hl hi _ ih =>
    intro n r hn
    cases n with
    | zero => omega
    | succ n =>
      have k := (ih n r (by simp only [List.length_cons] at hn; omega)).2
      have e1 := declr_text t d (sep ds ++ .p .semi :: r) hl (sep_after ds r)
      have e2 := init_read hi (sep_after ds r)
      constructor
      · rw [list, List.append_assoc, declLoop.eq_def]
        dsimp only
        split
        · rename_i h; exact absurd h (dr_not_semi _ _ _)
        · simp only [if_true, bind, Except.bind, e1, if_neg hv, e2, k]
      · rw [sep, List.cons_append, List.append_assoc, declLoop.eq_def]
        simp only [Bool.false_eq_true, if_false, Stx.skip, if_true, bind, Except.bind, e1, if_neg hv, e2, k]

theorem typedefs_read (t : CTy) : ∀ {a : Sc} {ds : List Dr} {b : Sc}, Typedefs t a ds b → ∀ (n : Nat) (r : List Tok), ds.length < n →
    typedefLoop t n true a (list ds ++ .p .semi :: r) = .ok ([], b, r) ∧ typedefLoop t n false a (sep ds ++ .p .semi :: r) = .ok ([], b, r) := by
  intro a ds b h
  induction h with
  | nil a =>
    intro n r hn
    cases n with
    | zero => omega
    | succ n => exact ⟨rfl, rfl⟩
  | @cons a d ds b hi hl _ ih =>
    intro n r hn
    cases n with
    | zero => omega
    | succ n =>
      have k := (ih n r (by simp only [List.length_cons] at hn; omega)).2
      have e1 := declr_text t d (sep ds ++ .p .semi :: r) hl (sep_after ds r)
      rw [hi, initText, List.nil_append] at e1
      constructor
      · rw [list, List.append_assoc, typedefLoop.eq_def]
        dsimp only
        split
        · rename_i h; exact absurd h (dr_not_semi _ _ _)
        · simp only [if_true, bind, Except.bind, e1, k]
      · rw [sep, List.cons_append, List.append_assoc, typedefLoop.eq_def]
        simp only [Bool.false_eq_true, if_false, Stx.skip, if_true, bind, Except.bind, e1, k]

/-- What follows specifiers. -/
theorem list_start (ds : List Dr) (r : List Tok) : NoKw (list ds ++ .p .semi :: r) ∧ (∀ r', list ds ++ .p .semi :: r ≠ .p .colon :: r') := by
  cases ds with
  | nil => exact ⟨(by intro s r e; cases e), (by intro r e; cases e)⟩
  | cons d ds =>
    have : ∃ x y, d.text = x :: y ∧ (x = .p .star ∨ x = .ident d.name) := by
      unfold Dr.text starsText
      cases d.stars with
      | zero => exact ⟨_, _, rfl, .inr rfl⟩
      | succ n => rw [List.replicate_succ]; exact ⟨_, _, rfl, .inl rfl⟩
    obtain ⟨x, y, e, h⟩ := this
    rw [list, e]
    constructor
    · intro s r e; rcases h with rfl | rfl <;> cases e
    · intro r e; rcases h with rfl | rfl <;> cases e

theorem list_noBrace (ds : List Dr) (r r' : List Tok) : list ds ++ .p .semi :: r ≠ .p .lbrace :: r' := by
  cases ds with
  | nil => intro e; cases e
  | cons d ds =>
    intro e
    rw [list] at e
    unfold Dr.text starsText at e
    cases hs : d.stars with
    | zero => rw [hs] at e; cases e
    | succ n => rw [hs, List.replicate_succ] at e; cases e

theorem list_length : ∀ (ds : List Dr), ds.length ≤ (list ds).length := by
  have hs : ∀ ds : List Dr, ds.length ≤ (sep ds).length := by
    intro ds
    induction ds with
    | nil => exact Nat.le_refl _
    | cons d ds ih => simp only [sep, List.length_cons, List.length_append]; omega
  intro ds
  cases ds with
  | nil => exact Nat.le_refl _
  | cons d ds =>
    have := hs ds
    have h1 : 0 < d.text.length := by simp only [Dr.text, List.length_append, List.length_cons]; omega
    simp only [list, List.length_cons, List.length_append]
    omega

theorem base_not_ident (b : Base) (r : List Tok) : ∃ s, b.words.map Tok.kw ++ r = .kw s :: ((b.words.map Tok.kw).tail ++ r) ∧ typeWords.contains s = true ∧ s ≠ "typedef" := by
  cases b <;> exact ⟨_, rfl, by decide, by decide⟩

theorem spec_read {a : Sc} {ts : List Tok} {t : CTy} (h : Spec a ts t) {r : List Tok} (hr : NoKw r) : declspec a (ts ++ r) = .ok (t, r) := by
  cases h with
  | base b =>
    have h1 := kws_app b.words hr
    obtain ⟨s, e, -⟩ := base_not_ident b r
    unfold declspec
    split
    · rename_i h; rw [e] at h; cases h
    · rw [h1, if_neg (by cases b <;> decide), base_find, drop_kws]
  | name hx => simp only [List.cons_append, List.nil_append, declspec, hx]
  | @tag x hx =>
    have hk : kws (.kw "enum" :: .ident x :: r) = ["enum"] := rfl
    simp only [List.cons_append, List.nil_append, declspec, hk, if_true, List.tail_cons]
    rw [enumRef.eq_def]
    split
    · rename_i h; cases h; exact absurd rfl (hr _ _)
    · rename_i h; cases h; rw [if_pos hx]
    · rename_i h; exact absurd rfl (h _ _)

theorem spec_start {a : Sc} {ts : List Tok} {t : CTy} (h : Spec a ts t) : ∃ x r, ts = x :: r ∧ isType a x = true ∧ x ≠ .kw "typedef" ∧ (∀ r', r ≠ .p .colon :: r') := by
  cases h with
  | base b => cases b <;> exact ⟨_, _, rfl, isType_kw a (by decide), by decide, by intro r' e; cases e⟩
  | name hx => exact ⟨_, _, rfl, by simp only [isType, hx, Bool.or_true], (by intro e; cases e), by intro r' e; cases e⟩
  | tag _ => exact ⟨_, _, rfl, isType_kw a (by decide), by decide, by intro r' e; cases e⟩

/-! Enumerations -/

/-- What follows an enumerator. -/
def AfterE (r : List Tok) : Prop := ∃ r', r = .p .comma :: r' ∨ r = .p .rbrace :: r'

theorem conditional_read {a : Sc} {e : Tree TN} {s : List Tok} (ok : Parse.Derives (PO a) TN.text false 2 e s) {r : List Tok} (hr : AfterE r) :
    (limit fun n => Parse.conditional (PO a) n (s ++ r)) = .ok (e, r) := by
  refine limit_eq ?_
  have := (Parse.derives_G (PO a) (good_PO a) (noType_p a) ok).ps 2 (by omega) (by omega) r (by
    obtain ⟨r', rfl | rfl⟩ := hr
    · intro x y hxy j hj; cases hxy; cases hj; omega
    · intro x y hxy j hj; cases hxy; cases hj)
  exact this

theorem enumVal_read {a : Sc} {n v : Int} {o : Option (List Tok)} (h : ErVal val a n o v) (h1 : -(2 ^ 31) ≤ v) (h2 : v < 2 ^ 31 - 1) {r : List Tok} (hr : AfterE r) :
    enumVal val a n (initText o ++ r) = .ok (v, r) := by
  cases h with
  | next =>
    rw [initText, List.nil_append, enumVal.eq_def]
    split
    · obtain ⟨r', h | h⟩ := hr <;> cases h
    · rfl
  | const ok hv =>
    have : Int.bmod v (2 ^ 32) = v := by rw [Int.bmod_eq_of_le] <;> omega
    simp only [initText, List.cons_append, enumVal, conditional_read ok hr, bind, Except.bind, hv, this]

theorem enumEnd (c : Bool) (r : List Tok) : AfterE ((if c then [.p .comma] else []) ++ .p .rbrace :: r) := by
  cases c
  · exact ⟨_, .inr rfl⟩
  · exact ⟨_, .inl rfl⟩

theorem erSep_after (ds : List Er) (c : Bool) (r : List Tok) : AfterE (erSep ds ++ ((if c then [.p .comma] else []) ++ .p .rbrace :: r)) := by
  cases ds with
  | nil => exact enumEnd c r
  | cons d ds => exact ⟨_, .inl rfl⟩

theorem enumLoop_end (n : Nat) (b : Bool) (v : Int) (a : Sc) (c : Bool) (r : List Tok) :
    enumLoop val (n + 1) b v a ((if c then [.p .comma] else []) ++ .p .rbrace :: r) = .ok (a, r) := by
  cases c <;> rfl

theorem enum_read (c : Bool) : ∀ {a : Sc} {v : Int} {ds : List Er} {b : Sc}, Enumerators val a v ds b → ∀ (n : Nat) (r : List Tok), ds.length < n →
    enumLoop val n true v a (erList ds ++ ((if c then [.p .comma] else []) ++ .p .rbrace :: r)) = .ok (b, r) ∧
    enumLoop val n false v a (erSep ds ++ ((if c then [.p .comma] else []) ++ .p .rbrace :: r)) = .ok (b, r) := by
  intro a v ds b h
  induction h with
  | nil a v =>
    intro n r hn
    cases n with
    | zero => omega
    | succ n => exact ⟨enumLoop_end val n _ v a c r, enumLoop_end val n _ v a c r⟩
  | @cons a v d w ds b hv h1 h2 _ ih =>
    intro n r hn
    cases n with
    | zero => omega
    | succ n =>
      have k := (ih n r (by simp only [List.length_cons] at hn; omega)).2
      have e2 := enumVal_read val hv h1 h2 (erSep_after ds c r)
      have hne : w ≠ 2 ^ 31 - 1 := by omega
      constructor
      · rw [erList, Er.text, List.cons_append, List.cons_append, List.append_assoc, enumLoop.eq_def]
        simp only [if_true, bind, Except.bind, e2, if_neg hne, k]
      · rw [erSep, Er.text, List.cons_append, List.cons_append, List.cons_append, List.append_assoc, enumLoop.eq_def]
        simp only [Bool.false_eq_true, if_false, Stx.skip, if_true, bind, Except.bind, e2, if_neg hne, k]

theorem erList_length : ∀ (ds : List Er), ds.length ≤ (erList ds).length := by
  have hs : ∀ ds : List Er, ds.length ≤ (erSep ds).length := by
    intro ds
    induction ds with
    | nil => exact Nat.le_refl _
    | cons d ds ih => simp only [erSep, List.length_cons, List.length_append]; omega
  intro ds
  cases ds with
  | nil => exact Nat.le_refl _
  | cons d ds =>
    have := hs ds
    simp only [erList, Er.text, List.length_cons, List.length_append]
    omega

/-- What follows specifiers is not a brace. -/
def NoBrace (ts : List Tok) : Prop := ∀ r, ts ≠ .p .lbrace :: r

theorem spec_noDef {a : Sc} {ts : List Tok} {t : CTy} (h : Spec a ts t) {r : List Tok} (hb : NoBrace r) : enumDef (ts ++ r) = none := by
  have key : ∀ s u, s ≠ "enum" → enumDef (.kw s :: u) = none := by
    intro s u hs
    unfold enumDef
    split
    · rename_i e; cases e; exact if_neg hs
    · rename_i e; cases e; exact if_neg hs
    · rfl
  cases h with
  | base b => cases b <;> exact key _ _ (by decide)
  | name _ => rfl
  | tag _ =>
    cases r with
    | nil => rfl
    | cons x y =>
      unfold enumDef
      simp only [List.cons_append, List.nil_append]
      split
      · rename_i e; cases e
      · rename_i e; cases e; exact absurd rfl (hb _)
      · rfl

theorem specs_read {a : Sc} {ts : List Tok} {t : CTy} {xs : List String} {b : Sc} (h : Specs val a ts t xs b) {r : List Tok} (hr : NoKw r) (hb : NoBrace r) :
    specT val a (ts ++ r) = .ok (t, b, r) := by
  cases h with
  | spec h => simp only [specT, spec_noDef h hb, spec_read h hr, bind, Except.bind]
  | @enum x ds b c h =>
    have k : ∀ n, ds.length < n → enumLoop val n true 0 a (erList ds ++ ((if c then [.p .comma] else []) ++ .p .rbrace :: r)) = .ok (b, r) := fun n hn => (enum_read val c h n r hn).1
    have hl := erList_length ds
    have hd : enumDef (.kw "enum" :: (tagText x ++ .p .lbrace :: (erList ds ++ ((if c then [.p .comma] else []) ++ .p .rbrace :: r)))) =
        some (x, erList ds ++ ((if c then [.p .comma] else []) ++ .p .rbrace :: r)) := by
      cases x <;> simp [enumDef, tagText]
    have e : ∀ q : List Tok, (.kw "enum" :: (q ++ .p .lbrace :: (erList ds ++ ((if c then [.p .comma] else []) ++ [.p .rbrace])))) ++ r =
        .kw "enum" :: (q ++ .p .lbrace :: (erList ds ++ ((if c then [.p .comma] else []) ++ .p .rbrace :: r))) := by
      intro q; simp
    rw [e]
    unfold specT
    rw [hd]
    simp only [bind, Except.bind]
    rw [k _ (by simp only [List.length_append]; omega)]
    dsimp only
    split
    · exact absurd rfl (hr _ _)
    · rfl

theorem specs_start {a : Sc} {ts : List Tok} {t : CTy} {xs : List String} {b : Sc} (h : Specs val a ts t xs b) :
    ∃ x r, ts = x :: r ∧ isType a x = true ∧ x ≠ .kw "typedef" ∧ (∀ r', r ≠ .p .colon :: r') := by
  cases h with
  | spec h => exact spec_start h
  | @enum x ds b c h => refine ⟨_, _, rfl, isType_kw a (by decide), by decide, ?_⟩; intro r' e; cases x <;> cases e

theorem var_read {a : Sc} {ts : List Tok} {is : List XI} {b : Sc} (h : VarDecl off val a ts is b) (r : List Tok) : forDeclT off val a (ts ++ r) = .ok (is, b, r) := by
  cases h with
  | @vars ts t xs a' ds is b hs hv =>
    have e : ts ++ list ds ++ [.p .semi] ++ r = ts ++ (list ds ++ .p .semi :: r) := by simp
    rw [e]
    unfold forDeclT
    simp only [specs_read val hs (list_start ds r).1 (list_noBrace ds r), bind, Except.bind]
    exact (vars_read off t hv _ r (by have := list_length ds; simp only [List.length_append, List.length_cons]; omega)).1

theorem var_start {a : Sc} {ts : List Tok} {is : List XI} {b : Sc} (h : VarDecl off val a ts is b) :
    ∃ t u r, ts = t :: u :: r ∧ isType a t = true ∧ u ≠ .p .colon ∧ t ≠ .kw "typedef" := by
  cases h with
  | @vars ts t xs a' ds is b hs hv =>
    obtain ⟨x, r, rfl, h1, h2, h3⟩ := specs_start val hs
    have h4 := (list_start ds []).2
    cases r with
    | nil =>
      cases hl : list ds ++ [.p .semi] with
      | nil => simp at hl
      | cons u v => exact ⟨x, u, v, by rw [List.append_assoc, hl]; rfl, h1, (by rintro rfl; exact h4 _ hl), h2⟩
    | cons u v => exact ⟨x, u, _, rfl, h1, (by rintro rfl; exact h3 _ rfl), h2⟩

theorem decl_read {a : Sc} {ts : List Tok} {is : List XI} {b : Sc} (h : BlockDecl off val a ts is b) : (reads (parser off val)).decl a ts is b := by
  cases h with
  | vars h =>
    obtain ⟨t, u, r, e, h1, h2, h3⟩ := var_start off val h
    refine ⟨fun r' => ?_, t, u, r, e, h1, h2⟩
    have := var_read off val h r'
    rw [e] at this ⊢
    show declT off val a _ = _
    unfold declT
    split
    · rename_i s w hh
      cases hh
      rw [if_neg (by rintro rfl; exact h3 rfl)]
      exact this
    · exact this
  | @typedef ts t xs a' ds b hs ht =>
    obtain ⟨x, r, rfl, h1, h2, h3⟩ := specs_start val hs
    refine ⟨fun r' => ?_, .kw "typedef", x, _, rfl, isType_kw a (s := "typedef") (by decide), ?_⟩
    · have e : (.kw "typedef" :: (x :: r ++ list ds ++ [.p .semi])) ++ r' = .kw "typedef" :: (x :: r ++ (list ds ++ .p .semi :: r')) := by simp
      rw [e]
      unfold parser
      dsimp only
      rw [declT.eq_def]
      dsimp only
      rw [if_pos rfl]
      simp only [specs_read val hs (list_start ds r').1 (list_noBrace ds r'), bind, Except.bind]
      exact (typedefs_read t ht _ r' (by have := list_length ds; simp only [List.length_append, List.length_cons]; omega)).1
    · rintro rfl; cases h1

theorem words_read {a b : Sc} {s : Stx.S SExpr (List XI)} {ts : List Tok} (h : Stx.Stmt (words off val) ⟨Sc.enter, Sc.leave⟩ a s ts b) :
    Stx.Stmt (reads (parser off val)) ⟨Sc.enter, Sc.leave⟩ a s ts b := by
  refine Stx.stmt_mono (V := words off val) (W := reads (parser off val)) _ ?_ ?_ ?_ ?_ h
  · rintro a ts e b ⟨t, ok, hx, rfl⟩
    exact expr_read off val ok (means_resolve hx)
  · rintro a ts e b ⟨t, ok, hx, rfl⟩
    exact const_read off val ok hx
  · intro a ts e b h
    exact decl_read off val h
  · intro a ts e b h
    obtain ⟨t, u, r, e, h1, -⟩ := var_start off val h
    exact ⟨fun r' => var_read off val h r', t, u :: r, e, h1⟩

mutual
theorem body_plain : ∀ {s : Stx.S SExpr (List XI)} {x : XStmt}, body s = some x → s.plain = true
  | .null, _, _ => rfl
  | .expr _, _, _ => rfl
  | .ret _, _, _ => rfl
  | .ifs c a, _, h => by
    simp only [body, Option.bind_eq_bind, Option.bind_eq_some_iff] at h
    obtain ⟨y, h1, -⟩ := h
    exact body_plain (s := a) h1
  | .ifElse c a b, _, h => by
    simp only [body, Option.bind_eq_bind, Option.bind_eq_some_iff] at h
    obtain ⟨y, h1, z, h2, -⟩ := h
    simp only [Stx.S.plain, body_plain (s := a) h1, body_plain (s := b) h2, Bool.and_self]
  | .switch c a, _, h => by
    simp only [body, Option.bind_eq_bind, Option.bind_eq_some_iff] at h
    obtain ⟨y, h1, -⟩ := h
    exact body_plain (s := a) h1
  | .case _ _ a, _, h => by
    simp only [body, Option.bind_eq_bind, Option.bind_eq_some_iff] at h
    obtain ⟨y, h1, -⟩ := h
    exact body_plain (s := a) h1
  | .dflt a, _, h => by
    simp only [body, Option.bind_eq_bind, Option.bind_eq_some_iff] at h
    obtain ⟨y, h1, -⟩ := h
    exact body_plain (s := a) h1
  | .forS (.inl _) _ _ a, _, h => by
    simp only [body, Option.bind_eq_bind, Option.bind_eq_some_iff] at h
    obtain ⟨y, h1, -⟩ := h
    exact body_plain (s := a) h1
  | .forS (.inr _) _ _ a, _, h => by
    simp only [body, Option.bind_eq_bind, Option.bind_eq_some_iff] at h
    obtain ⟨y, h1, -⟩ := h
    exact body_plain (s := a) h1
  | .whileS _ a, _, h => by
    simp only [body, Option.bind_eq_bind, Option.bind_eq_some_iff] at h
    obtain ⟨y, h1, -⟩ := h
    exact body_plain (s := a) h1
  | .doW a _, _, h => by
    simp only [body, Option.bind_eq_bind, Option.bind_eq_some_iff] at h
    obtain ⟨y, h1, -⟩ := h
    exact body_plain (s := a) h1
  | .asm _, _, h => by cases h
  | .goto _, _, _ => rfl
  | .gotoE _, _, h => by cases h
  | .brk, _, _ => rfl
  | .cont, _, _ => rfl
  | .label _ a, _, h => by
    simp only [body, Option.bind_eq_bind, Option.bind_eq_some_iff] at h
    obtain ⟨y, h1, -⟩ := h
    exact body_plain (s := a) h1
  | .block b, _, h => bodyB_plain (b := b) h
theorem bodyB_plain : ∀ {b : Stx.B SExpr (List XI)} {x : XStmt}, bodyB b = some x → b.plain = true
  | .nil, _, _ => rfl
  | .decl _ r, _, h => by
    simp only [bodyB, Option.bind_eq_bind, Option.bind_eq_some_iff] at h
    obtain ⟨y, h1, -⟩ := h
    exact bodyB_plain (b := r) h1
  | .stmt a r, _, h => by
    simp only [bodyB, Option.bind_eq_bind, Option.bind_eq_some_iff] at h
    obtain ⟨y, h1, z, h2, -⟩ := h
    simp only [Stx.B.plain, body_plain (s := a) h1, bodyB_plain (b := r) h2, Bool.and_self]
end

mutual
theorem isBody : ∀ {s : Stx.S SExpr (List XI)} {x : XStmt}, IsBody s x → body s = some x
  | _, _, .null => rfl
  | _, _, .expr _ => rfl
  | _, _, .ret _ => rfl
  | _, _, .ifs h => by simp only [body, isBody h, Option.bind_eq_bind, Option.bind_some]
  | _, _, .ifElse h h' => by simp only [body, isBody h, isBody h', Option.bind_eq_bind, Option.bind_some]
  | _, _, .switch h => by simp only [body, isBody h, Option.bind_eq_bind, Option.bind_some]
  | _, _, .case h => by simp only [body, isBody h, Option.bind_eq_bind, Option.bind_some]
  | _, _, .dflt h => by simp only [body, isBody h, Option.bind_eq_bind, Option.bind_some]
  | _, _, .forDecl h => by simp only [body, isBody h, Option.bind_eq_bind, Option.bind_some]
  | _, _, .forExpr h => by simp only [body, isBody h, Option.bind_eq_bind, Option.bind_some, Option.toList_some, List.map_cons, List.map_nil]
  | _, _, .forNone h => by simp only [body, isBody h, Option.bind_eq_bind, Option.bind_some, Option.toList_none, List.map_nil]
  | _, _, .while h => by simp only [body, isBody h, Option.bind_eq_bind, Option.bind_some]
  | _, _, .doW h => by simp only [body, isBody h, Option.bind_eq_bind, Option.bind_some]
  | _, _, .goto _ => rfl
  | _, _, .brk => rfl
  | _, _, .cont => rfl
  | _, _, .label h => by simp only [body, isBody h, Option.bind_eq_bind, Option.bind_some]
  | _, _, .block h => by simp only [body, isBlock h]
theorem isBlock : ∀ {s : Stx.B SExpr (List XI)} {x : XStmt}, IsBlock s x → bodyB s = some x
  | _, _, .nil => rfl
  | _, _, .decl h => by simp only [bodyB, isBlock h, Option.bind_eq_bind, Option.bind_some]
  | _, _, .stmt h h' => by simp only [bodyB, isBody h, isBlock h', Option.bind_eq_bind, Option.bind_some]
end

end Toycc.Src
