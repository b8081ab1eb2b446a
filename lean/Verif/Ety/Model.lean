import Verif.Types.Arith
/-!
Types of expressions: add_type, type.c:341-498, with the parts of the parser that look at types when they make nodes: new_add and new_sub (parser/parser.c:662-730),
unary (762-824), the callee in funcall (24-33), and sizeof (primary, 148-302).
Left out: variable-length arrays, statement expressions, labels as values, atomic builtins; compound assignments (C53); arguments of calls.
-/
namespace Toycc.Ety
open Toycc.Types (Arith)

/-- struct Type, toycc.h. A structure or union is known by its identity and has a size; a function type by its result and an identity for its parameters. -/
inductive Ty where
  | void
  | arith (a : Arith)
  | ptr (t : Ty)
  | arr (t : Ty) (n : Nat)
  | fn (ret : Ty) (params : Nat)
  | struc (tag size : Nat)
  deriving DecidableEq

/-- `size`: type.c:3-73, pointer_to, func_type, array_of (type.c:249-273). -/
def Ty.size : Ty → Nat
  | .void => 1
  | .arith a => a.size
  | .ptr _ => 8
  | .arr t n => t.size * n
  | .fn _ _ => 1
  | .struc _ n => n

/-- `base`. -/
def Ty.base : Ty → Option Ty
  | .ptr t => some t
  | .arr t _ => some t
  | _ => none

/-- `is_unsigned`; pointer_to sets it (type.c:254). -/
def Ty.unsigned : Ty → Bool
  | .arith a => a.unsigned
  | .ptr _ => true
  | _ => false

/-- is_numeric, type.c:178-181. -/
def Ty.numeric : Ty → Bool
  | .arith _ => true
  | _ => false

/-- is_integer, type.c:150-158. -/
def Ty.integer : Ty → Bool
  | .arith a => !(a == .float || a == .double || a == .ldouble)
  | _ => false

/-- Operators whose operands undergo the usual arithmetic conversions and whose result has the common type. -/
inductive Bop where
  | mul | div | mod | band | bor | bxor
  deriving DecidableEq

/-- Expressions as written. `num` is a constant with the type tokenize gave it, `zero` if its value is 0; `bits` a member that is a bit-field of type int or unsigned int. -/
inductive E where
  | num (t : Arith) (zero : Bool)
  | var (t : Ty)
  | bin (op : Bop) (a b : E)
  | add (a b : E)
  | sub (a b : E)
  | cmp (a b : E)
  | logic (a b : E)
  | shift (a b : E)
  | neg (e : E)
  | pos (e : E)
  | bitnot (e : E)
  | not (e : E)
  | assign (l r : E)
  | cond (c a b : E)
  | comma (a b : E)
  | member (e : E) (t : Ty)
  | bits (e : E) (u : Bool) (w : Nat)
  | addr (e : E)
  | deref (e : E)
  | call (f : E)
  | cast (t : Ty) (e : E)

/-- A type, a diagnostic, or a null pointer used by the compiler. -/
inductive Res where
  | ok (t : Ty)
  | err
  | crash
  deriving DecidableEq

def Res.bind (r : Res) (f : Ty → Res) : Res :=
  match r with
  | .ok t => f t
  | .err => .err
  | .crash => .crash

/-- get_common_type, type.c:293-323. -/
def common (t1 t2 : Ty) : Ty :=
  match t1.base with
  | some b => .ptr b
  | none =>
    match t1, t2 with
    | .fn r p, _ => .ptr (.fn r p)
    | _, .fn r p => .ptr (.fn r p)
    | _, _ =>
      if t1 = .arith .ldouble ∨ t2 = .arith .ldouble then .arith .ldouble
      else if t1 = .arith .double ∨ t2 = .arith .double then .arith .double
      else if t1 = .arith .float ∨ t2 = .arith .float then .arith .float
      else
        let a := if t1.size < 4 then .arith (.int false) else t1
        let b := if t2.size < 4 then .arith (.int false) else t2
        if a.size ≠ b.size then (if a.size < b.size then b else a)
        else if b.unsigned then b
        else a

/-- p_ty_int. -/
def int : Ty := .arith (.int false)

/-- new_add, parser.c:662-693, and add_type on the result. -/
def addTy (t1 t2 : Ty) : Res :=
  if t1.numeric && t2.numeric then .ok (common t1 t2)
  else
    match t1.base, t2.base with
    | some _, some _ => .err
    | none, some _ => .ok (common t2 (common t1 (.arith (.long false))))
    | some _, none => .ok (common t1 (common t2 (.arith (.long false))))
    | none, none => .crash

/-- new_sub, parser.c:695-730, and add_type on the result. The first test looks twice at the left operand. -/
def subTy (t1 t2 : Ty) : Res :=
  if t1.numeric && t1.numeric then .ok (common t1 t2)
  else
    match t1.base, t2.base with
    | some _, some _ => .ok (common (.arith (.long false)) int)
    | none, _ => .crash
    | some _, none => if t2.integer then .ok (common t1 (common t2 (.arith (.long false)))) else .err

/-- add_type, type.c:341-498; unary, parser.c:762-824. -/
def addType : E → Res
  | .num t _ => .ok (.arith t)
  | .var t => .ok t
  | .bin _ a b => (addType a).bind fun s => (addType b).bind fun t => .ok (common s t)
  | .add a b => (addType a).bind fun s => (addType b).bind fun t => addTy s t
  | .sub a b => (addType a).bind fun s => (addType b).bind fun t => subTy s t
  | .cmp a b => (addType a).bind fun _ => (addType b).bind fun _ => .ok int
  | .logic a b => (addType a).bind fun _ => (addType b).bind fun _ => .ok int
  | .shift a b => (addType a).bind fun s => (addType b).bind fun _ => .ok s
  | .neg e => (addType e).bind fun t => .ok (common int t)
  | .pos e => addType e
  | .bitnot e => addType e
  | .not e => (addType e).bind fun _ => .ok int
  | .assign l r => (addType l).bind fun s => (addType r).bind fun _ => match s with
    | .arr _ _ => .err
    | s => .ok s
  | .cond c a b => (addType c).bind fun _ => (addType a).bind fun s => (addType b).bind fun t => if s = .void ∨ t = .void then .ok .void else .ok (common s t)
  | .comma a b => (addType a).bind fun _ => addType b
  | .member e t => (addType e).bind fun _ => .ok t
  | .bits e u _ => (addType e).bind fun _ => .ok (.arith (.int u))
  | .addr e => (addType e).bind fun t => match t with
    | .arr b _ => .ok (.ptr b)
    | t => .ok (.ptr t)
  | .deref e => (addType e).bind fun t => match t with
    | .fn r p => .ok (.fn r p)
    | t => match t.base with
      | none => .err
      | some .void => .err
      | some b => .ok b
  | .call f => (addType f).bind fun t => match t with
    | .fn r _ => .ok r
    | .ptr (.fn r _) => .ok r
    | _ => .err
  | .cast t e => (addType e).bind fun _ => .ok t

/-- `sizeof e`, primary, parser.c:148-302. -/
def sizeofE (e : E) : Option Nat :=
  match addType e with
  | .ok t => some t.size
  | _ => none

end Toycc.Ety
