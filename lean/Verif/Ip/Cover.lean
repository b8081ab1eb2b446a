import Verif.Ip.Spec
/-!
The initialisers and types that the code reads as it should: what is left out of `C68_initializer_partial`. Each condition is there because of an error of the code; see
Verif.Ip.Props for the witnesses.
-/
namespace Toycc.Ip
open Toycc.Parse (Tok P)
open Toycc.Init (Ini Inis)
variable {α : Type}

mutual
/-- Types: arrays and structures are not empty (C11 has no empty ones); only structures are without a name (an anonymous union, or a bit-field without name, makes struct_designator use a null pointer). -/
def ITy.Ok : ITy → Prop
  | .sc t => t.isScalar = true
  | .arr b n => 0 < n ∧ b.Ok
  | .struc _ ms => (ms.get? 0).isSome ∧ ms.Ok
  | .union _ ms => (ms.get? 0).isSome ∧ ms.Ok
def IMems.Ok : IMems → Prop
  | .nil => True
  | .cons nm _ _ t r => t.Ok ∧ (nm = none → ∃ n ms, t = .struc n ms) ∧ r.Ok
end

mutual
/-- An expression for the current subobject `U`: a literal does not come to an array whose elements are not characters (string_initializer takes it for one); an expression of
structure type does not come to another structure type; there is no expression of union type. -/
def Lands (width : String → Nat) (lit : Option String) (st : Bool) (whole : ITy → Bool) : ITy → Prop
  | .sc _ => True
  | .arr b _ => match lit with
    | some s => isChars width b s = true
    | none => Lands width lit st whole b
  | .struc n ms => st = whole (.struc n ms) ∧ (st = false → LandsM width lit st whole ms)
  | .union n ms => whole (.union n ms) = false ∧ LandsM width lit st whole ms
def LandsM (width : String → Nat) (lit : Option String) (st : Bool) (whole : ITy → Bool) : IMems → Prop
  | .nil => True
  | .cons _ _ _ t _ => Lands width lit st whole t
end

/-- Every member on the path is the last one of its structure. -/
def lastIn : ITy → Path → Prop
  | _, [] => True
  | U, i :: p => (∀ n ms, U = .struc n ms → ms.get? (i + 1) = none) ∧ ∀ V, U.child? i = some V → lastIn V p

def Items.isNil : Items α → Bool
  | .nil => true
  | _ => false

/-- No item has a designation. -/
def Items.plain : Items α → Bool
  | .nil => true
  | .cons ds _ r => ds.isEmpty && r.plain

mutual
/-- The items of a list for `T`, from the current subobject `c` on. A designation that leads through a member that is not the last one (other than at its first step) is only in the last item: after it,
struct_initializer2 does not skip the comma. -/
def Tame (width : String → Nat) (T : ITy) : Items α → Option Path → Prop
  | .nil, _ => True
  | .cons ds s r, c => ∀ p U, (if ds.isEmpty then c else resolve T ds) = some p → T.sub p = some U →
    TameSrc width U s ∧ (ds ≠ [] → r.isNil = false → ∀ i q V, p = i :: q → T.child? i = some V → lastIn V q) ∧ Tame width T r (next T (p ++ s.land width U))
/-- The initialiser of a subobject of type `U`. -/
def TameSrc (width : String → Nat) (U : ITy) : Src α → Prop
  | .expr ts _ st w => Lands width (litOf ts) st w U
  | .list its c => match U with
    -- no comma after the expression
    | .sc _ => c = false
    -- not a literal in braces
    | .arr b n => (∀ ts e st w s, its = .cons [] (.expr ts e st w) .nil → litOf ts = some s → isChars width b s = false) ∧ Tame width (.arr b n) its (some [0])
    | .struc n ms => Tame width (.struc n ms) its (some [0])
    -- not empty; one designation at most, which comes first; no comma after it
    | .union n ms => its.isNil = false ∧ Tame width (.union n ms) its (some [0]) ∧ ∀ ds s r, its = .cons ds s r → r.plain = true ∧ (ds ≠ [] → c = false)
end

/-- What can follow an expression in an initialiser. -/
def StopE : List Tok → Prop
  | t :: _ => t = .p .comma ∨ t = .p .rbrace ∨ t = .p .semi
  | [] => False

/-- The first token of an expression. -/
def ExprStart (t : Tok) : Prop := t ≠ .p .lbrace ∧ t ≠ .p .rbrace ∧ t ≠ .p .lbrk ∧ t ≠ .p .dot ∧ t ≠ .p .comma ∧ t ≠ .p .eq

mutual
/-- The tokens of expressions and indices are read by assign and const_expr; an expression that begins with a string literal is that literal. -/
def Src.Reads (O : Oracle α) : Src α → Prop
  | .expr ts e st _ => (∀ r, StopE r → O.assign (ts ++ r) = .ok (e, st, r)) ∧ (∃ t r, ts = t :: r ∧ ExprStart t ∧ ∀ s, t = .str s → r = [] ∧ st = false)
  | .list its _ => its.Reads O
def Items.Reads (O : Oracle α) : Items α → Prop
  | .nil => True
  | .cons ds s r => (∀ ts i, Des.idx ts i ∈ ds → ∀ r, O.const (ts ++ .p .rbrk :: r) = .ok ((i : Int), .p .rbrk :: r)) ∧ s.Reads O ∧ r.Reads O
end

end Toycc.Ip
