import Verif.Cg.Sem
/-!
Expressions as they are written, after parsing (C43) and name resolution (C44), with the types of their variables, members and functions. Floating-point
and atomic operands, variable-length arrays, calls of functions that return or take aggregates, statement expressions, compound literals, unary plus, sizeof
and _Generic are left out. `a[i]` is `*(a + i)`, `p->m` is `(*p).m` and `a > b` is `b < a` (parser.c:524-597, 843-870).
-/
namespace Toycc.Low
open Toycc.Cg

/-- Types; `struc` is a structure or union of a size. -/
inductive CTy
  | void | bool | char (u : Bool) | short (u : Bool) | int (u : Bool) | long (u : Bool) | enum
  | ptr (b : CTy) | arr (b : CTy) (n : Nat) | struc (n : Nat) | func (r : CTy)
  deriving DecidableEq, Repr

/-- `size` of struct Type, type.c:3-73, 250-292 (sizeof void is 1, type.c:6). -/
def CTy.size : CTy → Nat
  | .void => 1 | .bool => 1 | .char _ => 1 | .short _ => 2 | .int _ => 4 | .long _ => 8 | .enum => 4 | .ptr _ => 8
  | .arr b n => b.size * n | .struc n => n | .func _ => 0

/-- What code generation knows of a type. -/
def CTy.low : CTy → Ty
  | .void => .void | .bool => .bool | .char u => .char u | .short u => .short u | .int u => .int u | .long u => .long u | .enum => .enum
  | .ptr _ => .ptr | .arr b n => .arr (b.size * n) | .struc n => .struc n | .func _ => .func

/-- Integer types: is_integer, type.c:150-158. -/
def CTy.isInt : CTy → Bool
  | .bool | .char _ | .short _ | .int _ | .long _ | .enum => true
  | _ => false

/-- `ty->base`. -/
def CTy.base : CTy → Option CTy
  | .ptr b => some b | .arr b _ => some b | _ => none

mutual
inductive SExpr
  | num (t : CTy) (v : Int)
  | var (t : CTy) (v : Var)
  | member (e : SExpr) (t : CTy) (offset : Int) (bits : Option (Nat × Nat))
  | deref (e : SExpr)
  | addr (e : SExpr)
  | bin (op : BinOp) (l r : SExpr)
  | neg (e : SExpr)
  | not (e : SExpr)
  | bitnot (e : SExpr)
  | assign (l r : SExpr)
  /-- `l op= r` -/
  | opAssign (op : BinOp) (l r : SExpr)
  /-- `++l` (`up`) or `--l` -/
  | pre (up : Bool) (l : SExpr)
  /-- `l++` or `l--` -/
  | post (up : Bool) (l : SExpr)
  | comma (l r : SExpr)
  | cast (t : CTy) (e : SExpr)
  | cond (c t e : SExpr)
  /-- `a ?: b` -/
  | elvis (a b : SExpr)
  | logand (l r : SExpr)
  | logor (l r : SExpr)
  | call (f : SExpr) (args : SArgs)
/-- Arguments with the types of the parameters. -/
inductive SArgs
  | nil
  | cons (t : CTy) (e : SExpr) (r : SArgs)
end

end Toycc.Low
