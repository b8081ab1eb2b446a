import Verif.Call.Model
/-!
Specification: calls (C11 6.5.2.2). An argument is given by its tokens and its meaning.
-/
namespace Toycc.Call
open Toycc.Parse (Tok P)
open Toycc.Decl (DTy DTys)

variable {B L α : Type}

def types : DTys B L → List (DTy B L)
  | .nil => []
  | .cons t _ r => t :: types r

/-- The arguments, with commas between them. -/
def text : Bool → List (List Tok × α) → List Tok
  | _, [] => []
  | first, a :: r => (if first then [] else [.p .comma]) ++ (a.1 ++ text false r)

/-- The tokens are read as the argument, whether a comma or the parenthesis follows. -/
def Reads (O : Orc B L α) (a : List Tok × α) : Prop :=
  (∃ t q, a.1 = t :: q ∧ t ≠ .p .rpar) ∧ ∀ r, (∃ q, r = .p .comma :: q ∨ r = .p .rpar :: q) → O.assign (a.1 ++ r) = .ok (a.2, r)

/-- C11 6.5.2.2p2, p7: as many arguments as parameters; with an ellipsis, at least as many. -/
def Count (v : Bool) (params args : Nat) : Prop := params = args ∨ v = true ∧ params ≤ args

/-- C11 6.5.2.2p1, 6.3.2.1p4: a function, or a pointer to one. -/
def Callee (f : DTy B L) (ret : DTy B L) (ps : DTys B L) (v : Bool) : Prop := f = .func ret ps v ∨ f = .ptr (.func ret ps v)

/-- C11 6.5.2.2p7: the argument `i` is converted to the type of the parameter `i` (a structure has this type already); p6: an argument for the ellipsis of type
float is converted to double. -/
def convert (O : Orc B L α) (ps : List (DTy B L)) (i : Nat) (e : α) : Arg B L α :=
  match ps[i]? with
  | some (.base b) => if O.agg b then .plain e else .cast e (.base b)
  | some t => .cast e t
  | none => match O.ty e with
    | .base b => if O.flt b then .cast e (.base O.double) else .plain e
    | _ => .plain e

/-- The type of an argument as it is passed. -/
def Arg.ty (O : Orc B L α) : Arg B L α → DTy B L
  | .plain e => O.ty e
  | .cast _ t => t

end Toycc.Call
