import Verif.Src.PreLine
import Verif.Src.IfProps
/-! C79: the directives, and the induction over the specification. -/
namespace Toycc.Src
open Toycc.Lex (asc)
open Toycc.Pp (Bytes PTok Dir Group Tail Steps Bol withConds isHash)
open Toycc.Parse (Tok P)

/-- The first token of the list is not a parenthesis. -/
def NotParen (l : List PTok) : Prop := ∀ p ∈ l.head?, p.is "(" = false

/-- What is known of the state. -/
structure Inv (env : Pp.Env) (files : Bytes → Option Grp) (M : Macros) (once : List Bytes) (st : Pp.St) : Prop where
  mac : Models M st
  cache : Pp.CacheOk env st
  once : ∀ p, p ∈ st.once ↔ p ∈ once
  guards : ∀ p x, (p, x) ∈ st.guards → ∃ y b, x = asc y ∧ files p = some (.sect (.ifndef y) b .endif .nil)

theorem Inv.conds {env : Pp.Env} {files : Bytes → Option Grp} {M : Macros} {o : List Bytes} {st : Pp.St} (h : Inv env files M o st) (cs : List Pp.Cond) : Inv env files M o (withConds st cs) :=
  ⟨h.mac.congr rfl, h.cache, h.once, h.guards⟩

/-! ### The beginning of what follows -/

theorem grp_bol {cur : Bytes} {G : Grp} (hok : G.Ok) {l rest : List PTok} (h : Items cur G.items l) (hr : Bol rest) : Bol (l ++ rest) := by
  obtain ⟨g, hg, rfl⟩ := grp_group G hok l h
  exact Pp.group_bol g hg rest hr

theorem hash_paren {p : PTok} (h : isHash p = true) : p.is "(" = false := by
  unfold Pp.isHash at h
  simp only [Bool.and_eq_true] at h
  exact Pp.asc_inj_ne p _ "(" h.2 (by decide +kernel)

theorem dir_notParen {cur : Bytes} {s : String} {a : List Item} {l : List PTok} (h : Items cur (dirItems s ++ a) l) (rest : List PTok) : NotParen (l ++ rest) := by
  obtain ⟨k, n, r, rfl, h1, _⟩ := h.dir
  intro p hp
  cases hp
  exact hash_paren h1

theorem If.notParen {cur : Bytes} (c : If) {a : List Item} {l : List PTok} (h : Items cur (c.items ++ a) l) (rest : List PTok) : NotParen (l ++ rest) := by
  rw [If.items_eq, List.append_assoc] at h
  exact dir_notParen h rest

theorem Rest.notParen {cur : Bytes} (r : Rest) {a : List Item} {l : List PTok} (h : Items cur (r.items ++ a) l) (rest : List PTok) : NotParen (l ++ rest) := by
  cases r with
  | endif => exact dir_notParen h rest
  | els g => simp only [Rest.items, List.append_assoc] at h; exact dir_notParen h rest
  | elif ts g r => simp only [Rest.items, List.append_assoc] at h; exact dir_notParen h rest

theorem runs_notParen {env : Pp.Env} {files : Bytes → Option Grp} {cur : Bytes} {s s' : PState} {G : Grp} {out : List Tok} (h : Runs env files cur s G s' out) {l rest : List PTok}
    (hl : Items cur G.items l) (hr : s'.bare = true → NotParen rest) : s.bare = true → NotParen (l ++ rest) := by
  intro hb
  cases h with
  | nil => cases hl; exact hr hb
  | @text _ _ t ts ls us g _ out _ ht _ =>
    cases hl with
    | cons h1 _ =>
      intro p hp
      cases hp
      cases hc : Pp.PTok.is _ "(" with
      | false => rfl
      | true =>
        have := sign_is (q := .lpar) (pt_tok h1.pt) (by simpa [Pp.PTok.is, sign] using hc)
        exact absurd this (ht hb)
  | define _ => simp only [Grp.items, List.append_assoc] at hl; exact dir_notParen hl rest
  | defineF _ => simp only [Grp.items, List.append_assoc] at hl; exact dir_notParen hl rest
  | undef _ => simp only [Grp.items, List.append_assoc] at hl; exact dir_notParen hl rest
  | incl _ _ _ _ _ _ _ => simp only [Grp.items, List.append_assoc] at hl; exact dir_notParen hl rest
  | again _ _ _ _ => simp only [Grp.items, List.append_assoc] at hl; exact dir_notParen hl rest
  | once _ => simp only [Grp.items, List.append_assoc] at hl; exact dir_notParen hl rest
  | pragma _ _ => simp only [Grp.items, List.append_assoc] at hl; exact dir_notParen hl rest
  | taken _ _ _ => simp only [Grp.items, List.append_assoc] at hl; exact If.notParen _ hl rest
  | skipped _ _ _ => simp only [Grp.items, List.append_assoc] at hl; exact If.notParen _ hl rest

/-! ### Conditions -/

theorem value_val {M : Macros} {ts : List Tok} {v : Int} (h : Value M ts v) : ∃ K, ∀ k, K ≤ k → ∀ (env : Pp.Env) (st : Pp.St) (cur : Bytes) (line : List PTok), env.constExpr = constExpr k → env.strict = false → Models M st →
    Items cur (inner ts) line → Pp.Val env st line v st := by
  obtain ⟨us, ws, e, h1, h2, h3, h4, h5, h6⟩ := h
  obtain ⟨K, hK⟩ := Props.C76_value_partial h3 h4 h5 h6
  refine ⟨K, fun k hk env st cur line he hst hM hl => ?_⟩
  have hf : (fun x => (M (asc x)).isSome) = fun x => (Pp.lookup st (asc x)).isSome := by
    funext x; exact (hM.isSome x).symm
  rw [hf] at h1
  exact hK k hk env st line ts us ws he hst hl.inner.1 (fun p hp => ⟨(hl.inner.2 p hp).1, (hl.inner.2 p hp).2.1⟩) h1 (h2.imp fun _ h => h.mono hM.le) rfl

theorem nm_find {x : String} {p : PTok} (h : Is (nm x) p) (st : Pp.St) : Pp.findMacro st p = Pp.lookup st (asc x) := by
  obtain ⟨hk, htx, _⟩ := is_name h (nm_cases x)
  unfold Pp.findMacro
  rw [hk, htx]; rfl

theorem one_inner {cur : Bytes} {t : Tok} {l : List PTok} (h : Items cur (inner [t]) l) : ∃ p, l = [p] ∧ Is t p := by
  cases h with
  | cons h1 h2 =>
    cases h2
    exact ⟨_, rfl, pt_tok h1.pt⟩

theorem cond_holds {M : Macros} {c : If} {v : Bool} (h : Cond M c v) : ∃ K, ∀ k, K ≤ k → ∀ (env : Pp.Env) (st : Pp.St) (cur : Bytes) (d : Dir), env.constExpr = constExpr k → env.strict = false → Models M st →
    d.name.text = asc c.name → Items cur (inner c.toks) d.line → Pp.Holds env st d v st := by
  cases h with
  | @ifE ts v hv =>
    obtain ⟨K, hK⟩ := value_val hv
    exact ⟨K, fun k hk env st cur d he hst hM hn hl => .ifE v st (text_is hn) (hK k hk env st cur d.line he hst hM hl)⟩
  | @ifdef x =>
    refine ⟨0, fun k _ env st cur d _ _ hM hn hl => ?_⟩
    obtain ⟨p, e, hp⟩ := one_inner hl
    have := Pp.Holds.ifdef (env := env) (st := st) (d := d) p (text_is hn) e
    rwa [nm_find hp, hM.isSome] at this
  | @ifndef x =>
    refine ⟨0, fun k _ env st cur d _ _ hM hn hl => ?_⟩
    obtain ⟨p, e, hp⟩ := one_inner hl
    have := Pp.Holds.ifndef (env := env) (st := st) (d := d) p (text_is hn) e
    rwa [nm_find hp, hM.isSome] at this

/-! ### Directives -/

theorem lookup_undef (st : Pp.St) (x y : Bytes) : Pp.lookup (Pp.undefMacro st x) y = if x = y then none else Pp.lookup st y := by
  unfold Pp.lookup Pp.undefMacro
  dsimp only
  generalize st.macros = l
  induction l with
  | nil => split <;> rfl
  | cons p l ih =>
    rw [List.filter_cons, List.find?_cons]
    by_cases h : p.1 = x
    · rw [if_neg (by simp [h])]
      rw [ih]
      split
      · rfl
      · rename_i hn
        have : (p.1 == y) = false := by simpa [h] using hn
        rw [this]
    · rw [if_pos (by simpa using h), List.find?_cons]
      by_cases hy : p.1 = y
      · have : (p.1 == y) = true := by simpa using hy
        rw [this, if_neg (by rw [← hy]; exact fun e => h e.symm)]
      · have : (p.1 == y) = false := by simpa using hy
        rw [this]
        exact ih

theorem defs_name {st : Pp.St} {s x : String} (e : asc s = asc x) :
    (∀ b, (defsOf st).obj x b → (defsOf st).obj s b) ∧ (∀ ps va b, (defsOf st).fn x ps va b → (defsOf st).fn s ps va b) := by
  have h : ∀ {b m}, IsMacro st x b m → IsMacro st s b m := fun h => ⟨by rw [e]; exact h.found, h.handler, by rw [e]; exact h.name, h.body⟩
  exact ⟨fun b ⟨m, h1, h2⟩ => ⟨m, h h1, h2⟩, fun ps va b ⟨m, h1, h2⟩ => ⟨m, h h1, h2⟩⟩

/-- A state is that of the specification in which one name has got another meaning. -/
theorem models_set {M : Macros} {st st' : Pp.St} (h : Models M st) {x : String} {o : Option Mac} (hne : ∀ s, asc s ≠ asc x → Pp.lookup st' (asc s) = Pp.lookup st (asc s))
    (h1 : ∀ b, o = some (.obj b) → (defsOf st').obj x b) (h2 : ∀ ps va b, o = some (.fn ps va b) → (defsOf st').fn x ps va b) (h3 : o = none → Pp.lookup st' (asc x) = none)
    (h4 : o ≠ some .other) : Models (M.set x o) st' := by
  refine ⟨⟨fun s c hs => ?_, fun s ps va c hs => ?_, fun s hs => ?_⟩, fun s hs => ?_⟩
  · replace hs : (M.set x o) (asc s) = _ := hs
    unfold Macros.set at hs
    split at hs
    · rename_i e; exact (defs_name e).1 c (h1 c hs)
    · rename_i e; exact obj_lookup (hne s e) (h.le.obj s c hs)
  · replace hs : (M.set x o) (asc s) = _ := hs
    unfold Macros.set at hs
    split at hs
    · rename_i e; exact (defs_name e).2 ps va c (h2 ps va c hs)
    · rename_i e; exact fn_lookup (hne s e) (h.le.fn s ps va c hs)
  · replace hs : (M.set x o) (asc s) = _ := hs
    show Pp.lookup st' (asc s) = none
    unfold Macros.set at hs
    split at hs
    · rename_i e; rw [e]; exact h3 hs
    · rename_i e; rw [hne s e]; exact h.none s hs
  · unfold Macros.set at hs
    split at hs
    · exact absurd hs h4
    · rename_i e; rw [hne s e]; exact h.other s hs

theorem add_other {st : Pp.St} {m : Pp.Macro} {x : String} (hn : m.name = asc x) (s : String) (hs : asc s ≠ asc x) : Pp.lookup (Pp.addMacro st m) (asc s) = Pp.lookup st (asc s) := by
  rw [Props.lookup_add, if_neg (by rw [hn]; exact fun e => hs e.symm)]

theorem models_define {M : Macros} {st : Pp.St} (h : Models M st) {x : String} {b : List Tok} {m : Pp.Macro} (hn : m.name = asc x) (ho : (defsOf (Pp.addMacro st m)).obj x b) :
    Models (M.set x (some (.obj b))) (Pp.addMacro st m) :=
  models_set h (add_other hn) (fun c e => by cases e; exact ho) (fun _ _ _ e => by cases e) (fun e => by cases e) (by simp)

theorem models_defineF {M : Macros} {st : Pp.St} (h : Models M st) {x : String} {ps : List String} {va : Option String} {b : List Tok} {m : Pp.Macro} (hn : m.name = asc x)
    (ho : (defsOf (Pp.addMacro st m)).fn x ps va b) : Models (M.set x (some (.fn ps va b))) (Pp.addMacro st m) :=
  models_set h (add_other hn) (fun c e => by cases e) (fun _ _ _ e => by cases e; exact ho) (fun e => by cases e) (by simp)

theorem models_undef {M : Macros} {st : Pp.St} (h : Models M st) {x : String} : Models (M.set x none) (Pp.undefMacro st (asc x)) :=
  models_set h (fun s hs => by rw [lookup_undef, if_neg (fun e => hs e.symm)]) (fun _ e => by cases e) (fun _ _ _ e => by cases e) (fun _ => by rw [lookup_undef, if_pos rfl]) (by simp)

theorem copyLine_bol {l rest : List PTok} (hl : ∀ u ∈ l, u.bol = false) (hr : Bol rest) : Pp.copyLine (l ++ rest) = .ok (l.map Pp.ownTok ++ [Pp.lineEnd], rest) := by
  obtain ⟨t, r, rfl, hb⟩ := hr
  rw [Pp.copyLine_line l t r hl hb]
  unfold Pp.newEof Pp.ownTok Pp.lineEnd
  rw [hb]

/-- `#define` of an object-like macro. -/
theorem step_define {env : Pp.Env} (hs : env.strict = false) {cur : Bytes} {x : String} {b : List Tok} {l rest : List PTok} (hl : Items cur (dirItems "define" ++ (inner [nm x] ++ bodyItems b)) l)
    (hr : Bol rest) (hp : b = [] → NotParen rest) (st : Pp.St) (cs : List Pp.Cond) :
    ∃ m : Pp.Macro, m.name = asc x ∧ (defsOf (Pp.addMacro st m)).obj x b ∧ Steps env (withConds st cs) (l ++ rest) [] (withConds (Pp.addMacro st m) cs) rest := by
  obtain ⟨d, hd, rfl, hi, _, _, htx, _⟩ := dir_wf hl (by
    intro i hi
    rcases List.mem_append.mp hi with hi | hi
    · exact inner_bol _ i hi
    · exact body_bol _ i hi)
  obtain ⟨l1, l2, e, h1, h2⟩ := hi.append
  obtain ⟨p, rfl, hp1⟩ := one_inner h1
  obtain ⟨pk, ptx, _⟩ := is_name hp1 (nm_cases x)
  have hall : All b l2 ∧ (∀ u ∈ l2, u.hs = []) ∧ (∀ u ∈ l2.head?, u.sp = true) := by
    cases b with
    | nil => cases h2; exact ⟨.nil, by simp, by simp⟩
    | cons t ts =>
      cases h2 with
      | cons h3 h4 =>
        refine ⟨.cons (pt_tok h3.pt) h4.inner.1, ?_, ?_⟩
        · intro u hu
          rcases List.mem_cons.mp hu with rfl | hu
          · exact h3.hs
          · exact (h4.inner.2 u hu).2.1
        · intro u hu
          cases hu
          exact h3.white rfl rfl
  have hbol := h2.bol (body_bol b)
  refine ⟨{ name := p.text, objlike := true, body := l2.map Pp.ownTok ++ [Pp.lineEnd] }, ptx, ?_, ?_⟩
  · exact (Props.C76_define ptx hall.1 hall.2.1 st).1
  · refine Steps.dirD hs hd ⟨0, fun n _ => ?_⟩
    have h3 := Pp.name_is hd
    have hdir : ∀ r, Pp.directive env (Pp.pp env n false) n (withConds st cs) d.hash (d.name :: r) = Pp.readMacroDefinition (withConds st cs) r := by
      intro r
      unfold Pp.directive
      dsimp only
      rw [Pp.asc_inj_ne _ _ "include" h3 (by decide +kernel), Pp.asc_inj_ne _ _ "include_next" h3 (by decide +kernel), h3]
      simp only [Bool.false_eq_true, if_false, if_true]
    rw [hdir, e, List.append_assoc]
    have hcl := copyLine_bol hbol hr
    have hne : ∃ u r2, l2 ++ rest = u :: r2 ∧ (!u.sp && u.is "(") = false := by
      cases l2 with
      | nil =>
        have hb : b = [] := by
          have := hall.1
          generalize hx : ([] : List PTok) = y at this
          cases this with
          | nil => rfl
          | cons _ _ => cases hx
        obtain ⟨t, r, rfl, _⟩ := hr
        exact ⟨t, r, rfl, by rw [hp hb t rfl, Bool.and_false]⟩
      | cons u l2 => exact ⟨u, l2 ++ rest, rfl, by rw [hall.2.2 u rfl]; rfl⟩
    obtain ⟨u, r2, e2, hu⟩ := hne
    rw [e2] at hcl ⊢
    rw [List.singleton_append, Pp.readMacroDefinition]
    rw [if_neg (by rw [pk]; decide), if_neg (by rw [hu]; decide), hcl]
    rfl

theorem yes_dots {p : PTok} (h : Is (.p .dots) p) : p.is "..." = true := by
  show (p.text == asc (sign .dots)) = true
  rw [sign_eq h]
  exact decide_eq_true rfl

theorem no_dots {t : Tok} {p : PTok} (h : Is t p) (hn : t ≠ .p .dots) : p.is "..." = false := by
  show (p.text == asc (sign .dots)) = false
  rw [sign_eq h]
  exact decide_eq_false hn

theorem more_dots {as : List (List Tok)} {l : List PTok} (ha : All (more as) l) {c : PTok} (q : List PTok) (hc : Is (.p .rpar) c) : Pp.nextIs (l ++ c :: q) "..." = false := by
  cases as with
  | nil => cases ha; exact no_dots hc (fun e => by cases e)
  | cons s as =>
    cases ha with
    | cons h _ => exact no_dots h (fun e => by cases e)

theorem name_dots {x : String} : nm x ≠ .p .dots := by
  unfold nm
  split <;> exact fun e => by cases e

theorem name_isnt {x : String} {p : PTok} (h : Is (nm x) p) (q : P) : (p.text == asc (sign q)) = false := by
  rw [sign_eq h]
  refine decide_eq_false ?_
  unfold nm
  split <;> exact fun e => by cases e

theorem all_cons {t : Tok} {ts : List Tok} {l : List PTok} (h : All (t :: ts) l) : ∃ p ps, l = p :: ps ∧ Is t p ∧ All ts ps := by
  cases h with
  | cons h1 h2 => exact ⟨_, _, rfl, h1, h2⟩

theorem all_nil {l : List PTok} (h : All [] l) : l = [] := by
  cases h; rfl

/-- The parameters after the first. -/
theorem params_more {va : Option String} : ∀ {ps : List String} {l : List PTok}, All (more (ps.map (fun s => [nm s]) ++ vaText va)) l → ∀ {c : PTok} (q : List PTok), Is (.p .rpar) c →
    Pp.readMacroParams false (l ++ c :: q) = .ok (ps.map asc, va.map asc, q)
  | [], l, ha, c, q, hc => by
    have hcr : c.is ")" = true := by rw [is_rpar hc]; exact decide_eq_true rfl
    have hsk : Pp.skip ")" (c :: q) = .ok q := if_pos hcr
    cases va with
    | none =>
      cases ha
      rw [List.nil_append, Pp.readMacroParams.eq_def]
      dsimp only
      rw [hcr]; rfl
    | some v =>
      by_cases hv : v = "__VA_ARGS__"
      · subst hv
        replace ha : All [.p .comma, .p .dots] l := ha
        obtain ⟨k, l, rfl, hk, h2⟩ := all_cons ha
        obtain ⟨p, l, rfl, hp, h3⟩ := all_cons h2
        obtain rfl := all_nil h3
        have k1 : k.is ")" = false := by rw [is_rpar hk]; rfl
        have k2 : k.is "," = true := by rw [is_comma hk]; exact decide_eq_true rfl
        rw [List.cons_append, List.cons_append, Pp.readMacroParams.eq_def]
        dsimp only
        rw [k1, k2, yes_dots hp, List.nil_append, hsk]
        rfl
      · have e : vaText (some v) = [[nm v, .p .dots]] := if_neg hv
        rw [e] at ha
        replace ha : All [.p .comma, nm v, .p .dots] l := ha
        obtain ⟨k, l, rfl, hk, h2⟩ := all_cons ha
        obtain ⟨p, l, rfl, hp, h3⟩ := all_cons h2
        obtain ⟨d, l, rfl, hd, h4⟩ := all_cons h3
        obtain rfl := all_nil h4
        have k1 : k.is ")" = false := by rw [is_rpar hk]; rfl
        have k2 : k.is "," = true := by rw [is_comma hk]; exact decide_eq_true rfl
        obtain ⟨pk, pt, _⟩ := is_name hp (nm_cases v)
        have hn : Pp.nextIs (d :: c :: q) "..." = true := yes_dots hd
        rw [List.cons_append, List.cons_append, List.cons_append, List.nil_append, Pp.readMacroParams.eq_def]
        dsimp only
        rw [k1, k2, no_dots hp name_dots, pk, hn, show List.drop 1 (d :: c :: q) = c :: q from rfl, hsk, pt]
        rfl
  | s :: ps, _, .cons (p := k) hk (.cons (p := p) (ps := l) hp ha), c, q, hc => by
    have ih := params_more (ps := ps) ha q hc
    have k1 : k.is ")" = false := by rw [is_rpar hk]; rfl
    have k2 : k.is "," = true := by rw [is_comma hk]; exact decide_eq_true rfl
    obtain ⟨pk, pt, _⟩ := is_name hp (nm_cases s)
    have hd := more_dots ha q hc
    rw [List.cons_append, List.cons_append, Pp.readMacroParams.eq_def]
    dsimp only
    rw [k1, k2, no_dots hp name_dots, pk, hd, ih, pt]
    rfl

theorem params_all {ps : List String} {va : Option String} {l : List PTok} (ha : All (sepBy (ps.map (fun s => [nm s]) ++ vaText va)) l) {c : PTok} (q : List PTok) (hc : Is (.p .rpar) c) :
    Pp.readMacroParams true (l ++ c :: q) = .ok (ps.map asc, va.map asc, q) := by
  cases ps with
  | nil =>
    have hcr : c.is ")" = true := by rw [is_rpar hc]; exact decide_eq_true rfl
    have hsk : Pp.skip ")" (c :: q) = .ok q := if_pos hcr
    cases va with
    | none =>
      cases ha
      rw [List.nil_append, Pp.readMacroParams.eq_def]
      dsimp only
      rw [hcr]; rfl
    | some v =>
      by_cases hv : v = "__VA_ARGS__"
      · subst hv
        replace ha : All [.p .dots] l := ha
        obtain ⟨p, l, rfl, hp, h3⟩ := all_cons ha
        obtain rfl := all_nil h3
        have k1 : p.is ")" = false := by rw [is_rpar hp]; rfl
        rw [List.cons_append, Pp.readMacroParams.eq_def]
        dsimp only
        rw [k1, yes_dots hp, List.nil_append, hsk]
        rfl
      · have e : vaText (some v) = [[nm v, .p .dots]] := if_neg hv
        rw [e] at ha
        replace ha : All [nm v, .p .dots] l := ha
        obtain ⟨p, l, rfl, hp, h3⟩ := all_cons ha
        obtain ⟨d, l, rfl, hd, h4⟩ := all_cons h3
        obtain rfl := all_nil h4
        have k1 : p.is ")" = false := name_isnt hp .rpar
        obtain ⟨pk, pt, _⟩ := is_name hp (nm_cases v)
        have hn : Pp.nextIs (d :: c :: q) "..." = true := yes_dots hd
        rw [List.cons_append, List.cons_append, List.nil_append, Pp.readMacroParams.eq_def]
        dsimp only
        rw [k1, no_dots hp name_dots, pk, hn, show List.drop 1 (d :: c :: q) = c :: q from rfl, hsk, pt]
        rfl
  | cons s ps =>
    rw [List.map_cons, List.cons_append, sepBy_cons (R := Is) (fun _ _ h => h)] at ha
    cases ha with
    | @cons _ p _ l hp ha =>
      have ha : All (more (ps.map (fun s => [nm s]) ++ vaText va)) l := ha
      have ih := params_more (ps := ps) ha q hc
      obtain ⟨pk, pt, _⟩ := is_name hp (nm_cases s)
      have hd := more_dots ha q hc
      have k1 : p.is ")" = false := name_isnt hp .rpar
      rw [List.cons_append, Pp.readMacroParams.eq_def]
      dsimp only
      rw [k1, no_dots hp name_dots, pk, hd, ih, pt]
      rfl

theorem All.split {t1 t2 : List Tok} {l : List PTok} (h : All (t1 ++ t2) l) : ∃ l1 l2, l = l1 ++ l2 ∧ All t1 l1 ∧ All t2 l2 := by
  obtain ⟨l1, l2, e, h1, h2⟩ := (each_all h).split
  exact ⟨l1, l2, e, h1.all fun _ _ h => h, h2.all fun _ _ h => h⟩

theorem mem_sepBy {a : List Tok} {t : Tok} (ht : t ∈ a) {as : List (List Tok)} (ha : a ∈ as) : t ∈ sepBy as := by
  cases as with
  | nil => cases ha
  | cons b as =>
    rw [sepBy_cons (R := Is) (fun _ _ h => h)]
    rcases List.mem_cons.mp ha with rfl | ha
    · exact List.mem_append_left _ ht
    · refine List.mem_append_right _ ?_
      unfold more
      rw [List.mem_flatMap]
      exact ⟨a, ha, List.mem_cons_of_mem _ ht⟩

theorem all_word {w : List Tok} {l : List PTok} (h : All w l) {s : String} (hm : nm s ∈ w) : Word s := by
  induction h with
  | nil => cases hm
  | @cons t p ts l hi _ ih =>
    rcases List.mem_cons.mp hm with e | hm
    · have : nameOf (nm s) = some s := by unfold nm; split <;> rfl
      rw [← e] at hi
      exact (name_word hi this).1
    · exact ih hm

theorem va_word : Word "__VA_ARGS__" := by
  refine ⟨'_', ['_', 'V', 'A', '_', 'A', 'R', 'G', 'S', '_', '_'], by decide, ?_, ?_⟩
  · unfold Letter; decide
  · unfold Letter; decide

theorem sepBy_names {ps : List String} {va : Option String} {l : List PTok} (h : All (sepBy (ps.map (fun s => [nm s]) ++ vaText va)) l) : ∀ s ∈ ps ++ va.toList, Word s := by
  intro s hs
  rcases List.mem_append.mp hs with hs | hs
  · exact all_word h (mem_sepBy (List.mem_singleton.mpr rfl) (List.mem_append_left _ (List.mem_map.mpr ⟨s, hs, rfl⟩)))
  · cases va with
    | none => cases hs
    | some v =>
      obtain rfl : s = v := List.mem_singleton.mp hs
      by_cases hv : s = "__VA_ARGS__"
      · rw [hv]; exact va_word
      · have e : vaText (some s) = [[nm s, .p .dots]] := if_neg hv
        rw [e] at h
        exact all_word h (mem_sepBy (a := [nm s, .p .dots]) List.mem_cons_self (List.mem_append_right _ (List.mem_singleton.mpr rfl)))

/-- `#define` of a function-like macro. -/
theorem step_defineF {env : Pp.Env} (hs : env.strict = false) {cur : Bytes} {x : String} {ps : List String} {va : Option String} {b : List Tok} {l rest : List PTok}
    (hl : Items cur (dirItems "define" ++ (inner [nm x] ++ (paramItems ps va ++ inner b))) l) (hr : Bol rest) (st : Pp.St) (cs : List Pp.Cond) :
    ∃ m : Pp.Macro, m.name = asc x ∧ (defsOf (Pp.addMacro st m)).fn x ps va b ∧ Steps env (withConds st cs) (l ++ rest) [] (withConds (Pp.addMacro st m) cs) rest := by
  obtain ⟨d, hd, rfl, hi, _, _, htx, _⟩ := dir_wf hl (by
    intro i hi
    rcases List.mem_append.mp hi with hi | hi
    · exact inner_bol _ i hi
    rcases List.mem_append.mp hi with hi | hi
    · exact param_bol _ _ i hi
    · exact inner_bol _ i hi)
  obtain ⟨l1, l2, e, h1, h2⟩ := hi.append
  obtain ⟨p, rfl, hp1⟩ := one_inner h1
  obtain ⟨pk, ptx, _⟩ := is_name hp1 (nm_cases x)
  obtain ⟨l2, l3, rfl, h2', h3⟩ := h2.append
  cases h2' with
  | @cons _ lp _ l2 hlp h2' =>
    obtain ⟨l2, l4, rfl, h4, h5⟩ := h2'.inner.1.split
    cases h5 with
    | @cons _ rp _ _ hrp h5 =>
      cases h5
      obtain ⟨b1, b2⟩ := h3.inner
      have hbol : ∀ u ∈ l3, u.bol = false := fun u hu => (b2 u hu).1
      have hlpar : lp.is "(" = true := by rw [is_lpar (pt_tok hlp.pt)]; exact decide_eq_true rfl
      have hsp : lp.sp = false := hlp.tight rfl rfl
      refine ⟨{ name := p.text, objlike := false, params := ps.map asc, va := va.map asc, body := l3.map Pp.ownTok ++ [Pp.lineEnd] }, ptx, ?_, ?_⟩
      · refine ⟨_, ⟨by rw [Props.lookup_add, if_pos ptx], rfl, ptx, l3.map Pp.ownTok, Pp.lineEnd, rfl, rfl, b1.map fun p => ⟨rfl, rfl, rfl⟩, ?_⟩, rfl, rfl, rfl, sepBy_names h4, ?_⟩
        · intro q hq
          obtain ⟨u, hu, rfl⟩ := List.mem_map.mp hq
          exact (b2 u hu).2.1
        · intro q hq he
          rcases List.mem_append.mp hq with hq | hq
          · obtain ⟨u, hu, rfl⟩ := List.mem_map.mp hq
            rw [show (Pp.ownTok u).isEof = u.isEof from rfl, b1.noEof u hu] at he
            cases he
          · rw [List.mem_singleton.mp hq]; rfl
      · refine Steps.dirD hs hd ⟨0, fun n _ => ?_⟩
        have h3' := Pp.name_is hd
        have hdir : ∀ r, Pp.directive env (Pp.pp env n false) n (withConds st cs) d.hash (d.name :: r) = Pp.readMacroDefinition (withConds st cs) r := by
          intro r
          unfold Pp.directive
          dsimp only
          rw [Pp.asc_inj_ne _ _ "include" h3' (by decide +kernel), Pp.asc_inj_ne _ _ "include_next" h3' (by decide +kernel), h3']
          simp only [Bool.false_eq_true, if_false, if_true]
        have hpar := params_all h4 (l3 ++ rest) hrp
        have e2 : d.line ++ rest = p :: lp :: (l2 ++ rp :: (l3 ++ rest)) := by rw [e]; simp
        rw [hdir, e2, Pp.readMacroDefinition, if_neg (by rw [pk]; decide), if_pos (by rw [hsp, hlpar]; decide), hpar]
        dsimp only
        rw [copyLine_bol hbol hr]
        rfl

/-- `#undef`. -/
theorem step_undef {env : Pp.Env} (hs : env.strict = false) {cur : Bytes} {x : String} {l rest : List PTok} (hl : Items cur (dirItems "undef" ++ inner [nm x]) l)
    (hr : Bol rest) (st : Pp.St) (cs : List Pp.Cond) : Steps env (withConds st cs) (l ++ rest) [] (withConds (Pp.undefMacro st (asc x)) cs) rest := by
  obtain ⟨d, hd, rfl, hi, _⟩ := dir_wf hl (inner_bol _)
  obtain ⟨p, e, hp1⟩ := one_inner hi
  obtain ⟨pk, ptx, _⟩ := is_name hp1 (nm_cases x)
  refine Steps.dirD hs hd ⟨0, fun n _ => ?_⟩
  have h3 := Pp.name_is hd
  unfold Pp.directive
  dsimp only
  rw [Pp.asc_inj_ne _ _ "include" h3 (by decide +kernel), Pp.asc_inj_ne _ _ "include_next" h3 (by decide +kernel), Pp.asc_inj_ne _ _ "define" h3 (by decide +kernel), h3, e]
  simp only [Bool.false_eq_true, if_false, if_true, List.singleton_append, pk, ptx, Pp.skipLine_ne _ hr.ne]
  rfl

theorem directive_pragma (env : Pp.Env) (rec : Pp.Rec) (n : Nat) (st : Pp.St) (h t : PTok) (r : List PTok) (ht : t.is "pragma" = true) (hk : t.kind = .ident) :
    Pp.directive env rec n st h (t :: r) = if Pp.nextIs r "once" then (Pp.skipLine (r.drop 1)).map fun l => ({ st with once := t.file.name :: st.once }, l) else (Pp.skipPragma r).map fun l => (st, l) := by
  unfold Pp.directive
  dsimp only
  rw [Pp.asc_inj_ne _ _ "include" ht (by decide +kernel), Pp.asc_inj_ne _ _ "include_next" ht (by decide +kernel), Pp.asc_inj_ne _ _ "define" ht (by decide +kernel),
    Pp.asc_inj_ne _ _ "undef" ht (by decide +kernel), Pp.asc_inj_ne _ _ "if" ht (by decide +kernel), Pp.asc_inj_ne _ _ "ifdef" ht (by decide +kernel), Pp.asc_inj_ne _ _ "ifndef" ht (by decide +kernel),
    Pp.asc_inj_ne _ _ "elif" ht (by decide +kernel), Pp.asc_inj_ne _ _ "else" ht (by decide +kernel), Pp.asc_inj_ne _ _ "endif" ht (by decide +kernel), Pp.asc_inj_ne _ _ "line" ht (by decide +kernel), ht, hk]
  simp only [Bool.false_eq_true, if_false, if_true, Bool.true_and]
  rfl

theorem once_word : Word "once" := by
  refine ⟨'o', ['n', 'c', 'e'], by decide, ?_, ?_⟩
  · unfold Letter; decide
  · unfold Letter; decide

/-- `#pragma once`. -/
theorem step_once {env : Pp.Env} (hs : env.strict = false) {cur : Bytes} {l rest : List PTok} (hl : Items cur (dirItems "pragma" ++ inner [nm "once"]) l)
    (hr : Bol rest) (st : Pp.St) (cs : List Pp.Cond) : Steps env (withConds st cs) (l ++ rest) [] (withConds { st with once := cur :: st.once } cs) rest := by
  obtain ⟨d, hd, rfl, hi, _, hf, _⟩ := dir_wf hl (inner_bol _)
  obtain ⟨p, e, hp1⟩ := one_inner hi
  obtain ⟨pk, ptx, _⟩ := is_name hp1 (nm_cases _)
  refine Steps.dirD hs hd ⟨0, fun n _ => ?_⟩
  rw [directive_pragma _ _ _ _ _ _ _ (Pp.name_is hd) hd.2.2.1, e, List.singleton_append]
  rw [if_pos (by simp [Pp.nextIs, text_is ptx]), List.drop_one, List.tail_cons, Pp.skipLine_ne _ hr.ne, hf]
  rfl

theorem skipPragma_line {l rest : List PTok} (hl : ∀ u ∈ l, u.bol = false) (hr : Bol rest) : Pp.skipPragma (l ++ rest) = .ok rest := by
  induction l with
  | nil =>
    obtain ⟨t, r, rfl, hb⟩ := hr
    rw [List.nil_append, Pp.skipPragma, if_pos hb]
  | cons u l ih =>
    rw [List.cons_append, Pp.skipPragma, if_neg (by rw [hl u List.mem_cons_self]; decide)]
    exact ih fun v hv => hl v (List.mem_cons_of_mem _ hv)

/-- Another `#pragma`. -/
theorem step_pragma {env : Pp.Env} (hs : env.strict = false) {cur : Bytes} {t : Tok} {ts : List Tok} {l rest : List PTok} (hl : Items cur (dirItems "pragma" ++ inner (t :: ts)) l)
    (ht : t ≠ nm "once") (hr : Bol rest) (st : Pp.St) (cs : List Pp.Cond) : Steps env (withConds st cs) (l ++ rest) [] (withConds st cs) rest := by
  obtain ⟨d, hd, rfl, hi, _, hf, _⟩ := dir_wf hl (inner_bol _)
  refine Steps.dirD hs hd ⟨0, fun n _ => ?_⟩
  rw [directive_pragma _ _ _ _ _ _ _ (Pp.name_is hd) hd.2.2.1]
  have hb := hi.bol (inner_bol _)
  generalize hl' : d.line = line at hi hb
  cases hi with
  | @cons _ p _ ps h1 h2 =>
    have : Pp.nextIs (p :: ps ++ rest) "once" = false := by
      cases hc : p.is "once" with
      | false => simp [Pp.nextIs, hc]
      | true => exact absurd (word_is (pt_tok h1.pt) once_word (by simpa [Pp.PTok.is] using hc)) ht
    rw [this, if_neg (by decide), skipPragma_line hb hr]
    rfl

end Toycc.Src
