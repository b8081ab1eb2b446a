import Verif.Parse.Model
/-!
Declarators: pointers, abstract_declarator, func_params, array_dimension, type_suffix, declarator (parser/declarator.c:299-342, 665-718,
767-844), as functions from tokens to types. declspec (modelled in Verif.Types.Declspec), conditional (Verif.Parse) and the
folding of array lengths (Verif.Fold) are oracles.
-/
namespace Toycc.Decl
open Toycc.Parse (Tok P)

mutual
/-- Types, type.c:250-291: `arr t (-1)` is an array of unknown length (declarator.c:776). `dummy` is the local variable of
declarator.c:325 and 817. A type built by declspec is `base`. -/
inductive DTy (B L : Type) where
  | base (b : B)
  | dummy
  | ptr (t : DTy B L)
  | arr (t : DTy B L) (n : Int)
  | vla (t : DTy B L) (e : L)
  | func (ret : DTy B L) (ps : DTys B L) (variadic : Bool)
  deriving DecidableEq
/-- The `params` list of a function type: types with names. -/
inductive DTys (B L : Type) where
  | nil
  | cons (t : DTy B L) (name : Option String) (r : DTys B L)
  deriving DecidableEq
end

/-- `skip` and `fuel`: a missing punctuator; the bound of the recursion. `other`: an error of an oracle. -/
inductive DErr where
  | skip | fuel | other
  deriving DecidableEq, Repr

/-- declspec (declarator.c:446-663), conditional (parser.c:971-1008), and the value of a length as converted to int by the call of
array_of, if is_const_expr holds (declarator.c:720-765, 786-789). -/
structure Oracle (B L : Type) where
  declspec : List Tok → Except DErr (B × List Tok)
  cond : List Tok → Except DErr (L × List Tok)
  const : L → Option Int

variable {B L : Type}

/-- The words skipped after `*`, declarator.c:306-311. -/
def isQual : Tok → Bool
  | .kw s => s == "const" || s == "volatile" || s == "restrict" || s == "__restrict" || s == "__restrict__"
  | _ => false

/-- The words skipped after `[`, declarator.c:771-772. -/
def isDimQual : Tok → Bool
  | .kw s => s == "static" || s == "restrict"
  | _ => false

/-- pointers, declarator.c:300-319. `after`: a `*` has been read, so qualifiers are skipped; the two nested loops are one recursion. -/
def pointers (after : Bool) : List Tok → DTy B L → DTy B L × List Tok
  | [], ty => (ty, [])
  | t :: r, ty => if t = .p .star then pointers true r (.ptr ty) else if after && isQual t then pointers true r ty else (ty, t :: r)

/-- skip, utils.c:92-97. -/
def skip (ts : List Tok) (q : P) : Except DErr (List Tok) :=
  match ts with
  | t :: r => if t = .p q then .ok r else .error .skip
  | [] => .error .skip

/-- declarator.c:679-680: a comma before each parameter but the first. -/
def sep (first : Bool) (ts : List Tok) : Except DErr (List Tok) := if first then .ok ts else skip ts .comma

def DTy.isVla : DTy B L → Bool
  | .vla _ _ => true
  | _ => false

/-- declarator.c:695-708: arrays and functions as parameters. -/
def adjust : DTy B L → DTy B L
  | .arr t _ => .ptr t
  | .func r ps v => .ptr (.func r ps v)
  | t => t

/-- The array type of declarator.c:774-789; `len` is the length expression, if there is one. -/
def mkArr (O : Oracle B L) (ty : DTy B L) : Option L → DTy B L
  | none => .arr ty (-1)
  | some e =>
    match ty.isVla, O.const e with
    | false, some n => .arr ty n
    | _, _ => .vla ty e

def isVoid : List Tok → Option (List Tok)
  | .kw s :: .p .rpar :: r => if s = "void" then some r else none
  | _ => none

mutual
/-- declarator, declarator.c:811-844 (`abs = false`), and abstract_declarator, declarator.c:321-341 (`abs = true`), which differ only in
that the latter takes no identifier. The name is the field ty->name, which the callers read at once; that it is written into a
type object which may be shared is not modelled. -/
def declarator (O : Oracle B L) (abs : Bool) : Nat → List Tok → DTy B L → Except DErr (DTy B L × Option String × List Tok)
  | 0, _, _ => .error .fuel
  | n + 1, ts, ty =>
    let p := pointers false ts ty
    declBody O abs n p.2 p.1
termination_by n _ _ => (n, 0)
/-- The rest of declarator, declarator.c:815-843. -/
def declBody (O : Oracle B L) (abs : Bool) (n : Nat) (ts : List Tok) (ty : DTy B L) : Except DErr (DTy B L × Option String × List Tok) :=
  match ts with
  | .p .lpar :: start => do
    let (_, _, ts) ← declarator O abs n start .dummy
    let ts ← skip ts .rpar
    let (ty, rest) ← typeSuffix O n ts ty
    let (ty, name, _) ← declarator O abs n start ty
    .ok (ty, name, rest)
  | .ident x :: r =>
    if abs then do
      let (ty, rest) ← typeSuffix O n (.ident x :: r) ty
      .ok (ty, none, rest)
    else do
      let (ty, rest) ← typeSuffix O n r ty
      .ok (ty, some x, rest)
  | ts => do
    let (ty, rest) ← typeSuffix O n ts ty
    .ok (ty, none, rest)
termination_by (n, 1)
/-- type_suffix, declarator.c:795-808, with func_params (667-718) and array_dimension (767-790). -/
def typeSuffix (O : Oracle B L) : Nat → List Tok → DTy B L → Except DErr (DTy B L × List Tok)
  | 0, _, _ => .error .fuel
  | n + 1, ts, ty =>
    match ts with
    | .p .lpar :: r =>
      match isVoid r with
      | some r => .ok (.func ty .nil false, r)
      | none => do
        let (ps, v, rest) ← params O n true r
        .ok (.func ty ps v, rest)
    | .p .lbrk :: r =>
      match r.dropWhile isDimQual with
      | .p .rbrk :: r => do
        let (ty, rest) ← typeSuffix O n r ty
        .ok (mkArr O ty none, rest)
      | r => do
        let (e, r) ← O.cond r
        let r ← skip r .rbrk
        let (ty, rest) ← typeSuffix O n r ty
        .ok (mkArr O ty (some e), rest)
    | ts => .ok (ty, ts)
termination_by n _ _ => (n, 0)
/-- The loop of func_params, declarator.c:678-710: the parameters, whether `...` was read, and the tokens after the closing parenthesis. -/
def params (O : Oracle B L) : Nat → Bool → List Tok → Except DErr (DTys B L × Bool × List Tok)
  | 0, _, _ => .error .fuel
  | n + 1, first, ts =>
    match ts with
    | .p .rpar :: r => .ok (.nil, false, r)
    | ts => do
      let ts ← sep first ts
      match ts with
      | .p .dots :: r => do
        let r ← skip r .rpar
        .ok (.nil, true, r)
      | ts => do
        let (b, ts) ← O.declspec ts
        let (ty, name, ts) ← declarator O false n ts (.base b)
        let (ps, v, rest) ← params O n false ts
        .ok (.cons (adjust ty) name ps, v, rest)
termination_by n _ _ => (n, 0)
end

end Toycc.Decl
