import Verif.Src.CharsScan
/-!
Specification: replacement of macros in a list of tokens, C11 6.10.3. Left out: the operators # and ##, and what depends on the tokens after the list or on hidden names that come
out of an argument.
-/
namespace Toycc.Src
open Toycc.Parse (Tok P)
open Toycc.Lex (asc)

instance (s : String) : Decidable (IsKeyword s) := by unfold IsKeyword; infer_instance

/-- A word as a token of a line. -/
def nm (s : String) : Tok := if IsKeyword s then .kw s else .ident s

/-- The macros: object-like ones with their replacement list, function-like ones with their parameters, the name of the variable arguments if there are any, and replacement list, and the names that are no
macros. -/
structure Defs where
  obj : String → List Tok → Prop
  fn : String → List String → Option String → List Tok → Prop
  free : String → Prop

/-- The text of an argument: parentheses match, and commas (unless `commas`) are inside of parentheses (6.10.3p11). -/
inductive ArgText : Bool → List Tok → Prop where
  | nil {commas} : ArgText commas []
  | tok {commas t a} : t ≠ .p .lpar → t ≠ .p .rpar → (commas = false → t ≠ .p .comma) → ArgText commas a → ArgText commas (t :: a)
  | group {commas a b} : ArgText true a → ArgText commas b → ArgText commas (.p .lpar :: (a ++ .p .rpar :: b))

/-- Arguments with commas between them. -/
def sepBy : List (List Tok) → List Tok
  | [] => []
  | [a] => a
  | a :: as => a ++ .p .comma :: sepBy as

/-- `VarText as w ts`: the arguments `as` followed by the variable arguments `w`, which may be left out with the comma before them (6.10.3p12, C23 6.10.5p4). -/
inductive VarText : List (List Tok) → List Tok → List Tok → Prop where
  | none {as} : VarText as [] (sepBy as)
  | only {w} : VarText [] w w
  | some {a as w} : VarText (a :: as) w (sepBy (a :: as) ++ .p .comma :: w)

/-- The name a token may be of a macro or parameter. -/
def nameOf : Tok → Option String
  | .ident s => some s
  | .kw s => some s
  | _ => none

/-- 6.10.3.1: parameters are replaced by the arguments that go with them. -/
def substT (σ : List (String × List Tok)) : List Tok → List Tok
  | [] => []
  | t :: b => (match nameOf t with
    | some s => (σ.lookup s).getD [t]
    | none => [t]) ++ substT σ b

/-- A token that is not replaced: `hid` are the macros being replaced, whose names are not replaced again (6.10.3.4p2). -/
def Stop (D : Defs) (hid : List String) (t : Tok) : Prop := ∀ s, t = .ident s ∨ t = .kw s → D.free s ∨ s ∈ hid

/-- Of two parts of a list, does the last token stay? -/
def lastOf (ts : List Tok) (z1 z2 : Bool) : Bool := if ts.isEmpty then z1 else z2

/-- `Expand D hid ts us z`: the list `ts` becomes `us` when all macros are replaced, where `hid` are being replaced already. Arguments are replaced completely, as if they formed the rest of the file;
the result with the arguments in the place of the parameters is scanned again (6.10.3.4). A name of a function-like macro is left alone unless `(` follows (6.10.3p10); it is not the last token of
its list. No name that can be replaced remains in an argument. The variable arguments, with the commas between them, go with one more parameter (6.10.3.1p2). `z`: the last token does not vanish, i.e. it is kept or is replaced by a list of which that is true. -/
inductive Expand (D : Defs) : List String → List Tok → List Tok → Bool → Prop where
  | nil {hid} : Expand D hid [] [] false
  | keep {hid t ts us z} : Stop D hid t → Expand D hid ts us z → Expand D hid (t :: ts) (t :: us) (lastOf ts true z)
  | bare {hid t s ps va b u ts us z} : t = .ident s ∨ t = .kw s → s ∉ hid → D.fn s ps va b → u ≠ .p .lpar → Expand D hid (u :: ts) us z → Expand D hid (t :: u :: ts) (t :: us) z
  | replace {hid t s b ts us vs z1 z2} : t = .ident s ∨ t = .kw s → s ∉ hid → D.obj s b → Expand D (s :: hid) b us z1 → Expand D hid ts vs z2 →
      Expand D hid (t :: ts) (us ++ vs) (lastOf ts z1 z2)
  | call {hid t s ps b ts us vs z1 z2} {args xs : List (List Tok)} {zs : List Tok × List Tok → Bool} : t = .ident s ∨ t = .kw s → s ∉ hid → D.fn s ps none b → args.length = ps.length → xs.length = ps.length →
      (∀ a ∈ args, ArgText false a) → (∀ q ∈ args.zip xs, Expand D hid q.1 q.2 (zs q)) → (∀ x ∈ xs, ∀ u ∈ x, Stop D hid u) → .ident "__VA_OPT__" ∉ b →
      Expand D (s :: hid) (substT (ps.zip xs) b) us z1 → Expand D hid ts vs z2 → Expand D hid (t :: .p .lpar :: (sepBy args ++ .p .rpar :: ts)) (us ++ vs) (lastOf ts z1 z2)
  | callV {hid t s ps va b ts us vs z1 z2 w y zw tx} {args xs : List (List Tok)} {zs : List Tok × List Tok → Bool} : t = .ident s ∨ t = .kw s → s ∉ hid → D.fn s ps (some va) b →
      args.length = ps.length → xs.length = ps.length → (∀ a ∈ args, ArgText false a) → ArgText true w → VarText args w tx → (∀ q ∈ args.zip xs, Expand D hid q.1 q.2 (zs q)) → Expand D hid w y zw →
      (∀ x ∈ xs, ∀ u ∈ x, Stop D hid u) → (∀ u ∈ y, Stop D hid u) → .ident "__VA_OPT__" ∉ b → Expand D (s :: hid) (substT ((ps ++ [va]).zip (xs ++ [y])) b) us z1 → Expand D hid ts vs z2 →
      Expand D hid (t :: .p .lpar :: (tx ++ .p .rpar :: ts)) (us ++ vs) (lastOf ts z1 z2)

/-- The list becomes `us`. -/
def Expands (D : Defs) (ts us : List Tok) : Prop := ∃ z, Expand D [] ts us z

/-- A macro (not one of the handlers of predefined_macro.c:19-60) with a replacement list that spells `b`. -/
structure IsMacro (st : Pp.St) (s : String) (b : List Tok) (m : Pp.Macro) : Prop where
  found : Pp.lookup st (asc s) = some m
  handler : m.handler = none
  name : m.name = asc s
  body : ∃ bs e, m.body = bs ++ [e] ∧ e.isEof = true ∧ All b bs ∧ ∀ p ∈ bs, p.hs = []

/-- The macros of a state of the preprocessor. -/
def defsOf (st : Pp.St) : Defs where
  obj s b := ∃ m, IsMacro st s b m ∧ m.objlike = true
  fn s ps va b := ∃ m, IsMacro st s b m ∧ m.objlike = false ∧ m.params = ps.map asc ∧ m.va = va.map asc ∧ (∀ p ∈ ps ++ va.toList, Word p) ∧ ∀ q ∈ m.body, q.isEof = true → q.text = []
  free s := Pp.lookup st (asc s) = none

end Toycc.Src
