import Verif.Src.Unit
import Verif.Src.TextSpec
/-!
Specification: the texts of files (C11 6.9), with the grammar of statements, expressions and declarations of Verif.Stx.Spec, Verif.Parse.Spec and Verif.Src.TextSpec. A
file is a list of function definitions; in their bodies a variable is named by its number: parameters from the last to the first, then one that the
program does not name, then the variables of the body in the order of their declarations.
-/
namespace Toycc.Src
open Toycc.Cg Toycc.Low
open Toycc.Parse (Tok P Tree)

/-- C11 6.7.6.3p7: a parameter declared as an array is a pointer. -/
inductive Adjusts : CTy → CTy → Prop where
  | arr (t n) : Adjusts (.arr t n) (.ptr t)
  | same {t} : (∀ b n, t ≠ .arr b n) → Adjusts t t

def nameText : Option String → List Tok
  | none => []
  | some x => [.ident x]

/-- A parameter: its text, its type and its name. -/
inductive Parm (a : Sc) : List Tok → CTy × Option String → Prop where
  | mk {ts t u} (k : Nat) (x : Option String) (ls : List Nat) : Spec a ts t → (∀ l ∈ ls, l < 2 ^ 31) → arrays ls (ptrs k t) ≠ .void → Adjusts (arrays ls (ptrs k t)) u →
      Parm a (ts ++ (starsText k ++ (nameText x ++ lensText ls))) (u, x)

/-- The parameters after the first, with the closing parenthesis. -/
inductive More (a : Sc) : List Tok → List (CTy × Option String) → Prop where
  | nil : More a [.p .rpar] []
  | cons {ts p r ps} : Parm a ts p → More a r ps → More a (.p .comma :: (ts ++ r)) (p :: ps)

/-- A list of parameters with the closing parenthesis (C11 6.7.6.3); `()` and `(void)` are both without parameters. -/
inductive Parms (a : Sc) : List Tok → List (CTy × Option String) → Prop where
  | void : Parms a [.kw "void", .p .rpar] []
  | empty : Parms a [.p .rpar] []
  | list {ts p r ps} : Parm a ts p → More a r ps → Parms a (ts ++ r) (p :: ps)

/-- Declaring a function with a result and parameters: its scope begins; if it has been declared before, then with the same type (C11 6.7p4). -/
inductive Declares (a : Sc) (f : String) (t : CTy) (ps : List CTy) : Sc → Prop where
  | first : a.find f = none → Declares a f t ps (a.push f (.func t ps))
  | again : a.find f = some (.func t ps) → Declares a f t ps a

/-- The parameters become visible. -/
inductive ParmsIn (a : Sc) : List (CTy × Option String) → Sc → Prop where
  | nil : ParmsIn a [] a
  | cons {t x r b} : ParmsIn a r b → ParmsIn a ((t, some x) :: r) (b.newVar num x t)

/-- The scopes of the body of the function `f`: its parameters, and `__func__` (C11 6.4.2.2). The other two names are reserved (7.1.3). -/
inductive BodyIn (a : Sc) (f : String) (ps : List (CTy × Option String)) : Sc → Prop where
  | mk {b} : ParmsIn { a.enter with next := 0 } ps b → BodyIn a f ps
      (((b.newVar num "__alloca_size__" (.ptr (.char false))).push "__func__" (.var (.arr (.char false) (f.utf8ByteSize + 1)) (.glob (f ++ ".__func__")))).push
        "__FUNCTION__" (.var (.arr (.char false) (f.utf8ByteSize + 1)) (.glob (f ++ ".__FUNCTION__"))))

/-- Variables of file scope, without initialisers. -/
inductive Globals (t : CTy) : Sc → List Dr → Sc → Prop where
  | nil (a) : Globals t a [] a
  | cons {a d ds b} : d.init = none → d.ty t ≠ .void → (∀ l ∈ d.lens, l < 2 ^ 31) → Globals t (a.push d.name (.var (d.ty t) (.glob d.name))) ds b → Globals t a (d :: ds) b

/-- None of the names is that of a function (C11 6.7p3). -/
def NoFunc (a : Sc) (xs : List String) : Prop := ∀ x ∈ xs, ∀ r ps, a.find x ≠ some (.func r ps)

/-- C11 6.9: the text of a file from a place where the scopes are `a` and the functions `dn` have been defined; the function definitions in it. -/
inductive File (val : Sc → Tree TN → Option Int) : Sc → List String → List Tok → List Def → Prop where
  | nil (a dn) : File val a dn [] []
  | typedef {a dn ts t xs a' ds b r U} : Specs val a ts t xs a' → NoFunc a (xs ++ ds.map (·.name)) → Typedefs t a' ds b → File val b dn r U →
      File val a dn (.kw "typedef" :: (ts ++ (list ds ++ .p .semi :: r))) U
  | vars {a dn ts t xs a' ds b r U} : Specs val a ts t xs a' → NoFunc a (xs ++ ds.map (·.name)) → Globals t a' ds b → File val b dn r U →
      File val a dn (ts ++ (list ds ++ .p .semi :: r)) U
  | proto {a dn ts t f pts ps b r U} (k : Nat) : Spec a ts t → Parms a pts ps → Declares a f (ptrs k t) (ps.map (·.1)) b → File val b dn r U →
      File val a dn (ts ++ (starsText k ++ .ident f :: .p .lpar :: (pts ++ .p .semi :: r))) U
  | func {a dn ts t f pts ps b c bts x d r U} (k : Nat) : Spec a ts t → Parms a pts ps → Declares a f (ptrs k t) (ps.map (·.1)) b → f ∉ dn → BodyIn b f ps c →
      Written num val c bts x d → File val b (f :: dn) r U →
      File val a dn (ts ++ (starsText k ++ .ident f :: .p .lpar :: (pts ++ (bts ++ r)))) (⟨f, ptrs k t, ps.map (·.1), x⟩ :: U)

/-- A whole file. -/
def IsFile (val : Sc → Tree TN → Option Int) (ts : List Tok) (U : List Def) : Prop := File val ⟨[[]], 0, [[]]⟩ [] ts U

/-! ### Variables -/

mutual
/-- The local variables named in an expression, with the types they are used at. -/
def localsX : SExpr → List (CTy × Int)
  | .var t (.loc n) => [(t, n)]
  | .num _ _ | .var _ _ => []
  | .member e _ _ _ | .deref e | .addr e | .neg e | .not e | .bitnot e | .cast _ e | .pre _ e | .post _ e => localsX e
  | .bin _ l r | .assign l r | .opAssign _ l r | .comma l r | .elvis l r | .logand l r | .logor l r => localsX l ++ localsX r
  | .cond c t e => localsX c ++ localsX t ++ localsX e
  | .call f as => localsX f ++ localsAs as
def localsAs : SArgs → List (CTy × Int)
  | .nil => []
  | .cons _ e r => localsX e ++ localsAs r
end

def localsI : XI → List (CTy × Int)
  | .expr e => localsX e
  | .var _ => []
  | .ini t n e => (t, n) :: localsX e

/-- The local variables named in a statement. -/
def localsS : XStmt → List (CTy × Int)
  | .seq a b => localsS a ++ localsS b
  | .items is => is.flatMap localsI
  | .ifs c a b => localsX c ++ localsS a ++ localsS b
  | .loop init c inc b => init.flatMap localsI ++ c.toList.flatMap localsX ++ inc.toList.flatMap localsX ++ localsS b
  | .doW b c => localsS b ++ localsX c
  | .switch c b => localsX c ++ localsS b
  | .case _ _ s | .dflt s | .label _ s => localsS s
  | .ret e => e.toList.flatMap localsX
  | .skip | .goto _ | .brk | .cont => []

def declI : XI → List CTy
  | .expr _ => []
  | .var t => [t]
  | .ini t _ _ => [t]

/-- The types of the variables declared in a statement, in the order of the text. -/
def decls : XStmt → List CTy
  | .seq a b => decls a ++ decls b
  | .items is => is.flatMap declI
  | .ifs _ a b => decls a ++ decls b
  | .loop init _ _ b => init.flatMap declI ++ decls b
  | .doW b _ => decls b
  | .switch _ b => decls b
  | .case _ _ s | .dflt s | .label _ s => decls s
  | .ret _ | .skip | .goto _ | .brk | .cont => []

/-- The types of the variables of a function, by number. -/
def Def.named (d : Def) : List CTy := d.params.reverse ++ .ptr (.char false) :: decls d.body

end Toycc.Src
