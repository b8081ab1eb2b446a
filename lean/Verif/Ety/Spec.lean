import Verif.Ety.Model
/-! Specification: the types of expressions in C11 (6.3.2.1, 6.5), for expressions that satisfy the constraints. -/
namespace Toycc.Ety
open Toycc.Types (Arith usualArith promote isFloating)

/-- 6.3.2.1p3-4: arrays and functions become pointers. -/
def decay : Ty → Ty
  | .arr t _ => .ptr t
  | .fn r p => .ptr (.fn r p)
  | t => t

def isInt (a : Arith) : Bool := !isFloating a

/-- 6.3.2.3p3, for constants (not for other constant expressions). -/
def isNull : E → Bool
  | .num t z => isInt t && z
  | .cast (.ptr .void) (.num t z) => isInt t && z
  | _ => false

/-- A pointer to an object type can be used in pointer arithmetic. -/
def isObject : Ty → Bool
  | .void | .fn _ _ => false
  | _ => true

/-- The type of an operand in arithmetic. 6.3.1.1p2: a bit-field whose values fit in int becomes an int. -/
def operand (e : E) (t : Ty) : Ty :=
  match e with
  | .bits _ true w => if w < 32 then int else t
  | _ => decay t

/-- 6.5.15: operands (after conversion) `s` and `t` of a conditional; `n` and `m`: they are null pointer constants. -/
def condTy (s t : Ty) (n m : Bool) : Option Ty :=
  match s, t with
  | .arith a, .arith b => some (.arith (usualArith a b))
  | .void, .void => some .void
  | .struc i k, .struc j l => if i = j ∧ k = l then some (.struc i k) else none
  | .ptr a, .arith _ => if m then some (.ptr a) else none
  | .arith _, .ptr b => if n then some (.ptr b) else none
  | .ptr a, .ptr b => if a = b then some (.ptr a) else if n then some (.ptr b) else if m then some (.ptr a) else if a = .void ∨ b = .void then some (.ptr .void) else none
  | _, _ => none

/-- 6.5.16.1: a value of type `t` (`m`: a null pointer constant) can be assigned to an object of type `s`. -/
def assignable (s t : Ty) (m : Bool) : Bool :=
  match s, t with
  | .arith _, .arith _ => true
  | .arith .bool, .ptr _ => true
  | .struc i k, .struc j l => i == j && k == l
  | .ptr a, .ptr b => decide (a = b) || decide (a = .void) || decide (b = .void)
  | .ptr _, .arith _ => m
  | _, _ => false

/-- 6.5.8, 6.5.9. -/
def comparable (s t : Ty) (n m : Bool) : Bool :=
  match s, t with
  | .arith _, .arith _ => true
  | .ptr a, .ptr b => decide (a = b) || decide (a = .void) || decide (b = .void)
  | .ptr _, .arith _ => m
  | .arith _, .ptr _ => n
  | _, _ => false

def isScalar : Ty → Bool
  | .arith _ | .ptr _ => true
  | _ => false

/-- 6.5.5, 6.5.10-12. -/
def binTy (op : Bop) (s t : Ty) : Option Ty :=
  match s, t with
  | .arith a, .arith b =>
    if op = .mul ∨ op = .div then some (.arith (usualArith a b))
    else if isInt a ∧ isInt b then some (.arith (usualArith a b)) else none
  | _, _ => none

/-- 6.5.6. -/
def plusTy (s t : Ty) : Option Ty :=
  match s, t with
  | .arith a, .arith b => some (.arith (usualArith a b))
  | .ptr a, .arith b => if isObject a ∧ isInt b then some (.ptr a) else none
  | .arith a, .ptr b => if isObject b ∧ isInt a then some (.ptr b) else none
  | _, _ => none

/-- 6.5.6; the difference of pointers has type long (ptrdiff_t). -/
def minusTy (s t : Ty) : Option Ty :=
  match s, t with
  | .arith a, .arith b => some (.arith (usualArith a b))
  | .ptr a, .arith b => if isObject a ∧ isInt b then some (.ptr a) else none
  | .ptr a, .ptr b => if a = b ∧ isObject a then some (.arith (.long false)) else none
  | _, _ => none

/-- Integer promotions (6.3.1.1), floating types stay. -/
def promoted (t : Ty) : Option Ty :=
  match t with
  | .arith a => some (.arith (if isFloating a then a else promote a))
  | _ => none

/-- The type of an expression, for `sizeof`: arrays and functions are not converted at the outside. `none`: a constraint is violated (or the expression is outside this specification). -/
def cType : E → Option Ty
  | .num t _ => some (.arith t)
  | .var t => some t
  | .bin op a b => do binTy op (operand a (← cType a)) (operand b (← cType b))
  | .add a b => do plusTy (operand a (← cType a)) (operand b (← cType b))
  | .sub a b => do minusTy (operand a (← cType a)) (operand b (← cType b))
  | .cmp a b => do if comparable (operand a (← cType a)) (operand b (← cType b)) (isNull a) (isNull b) then some int else none
  | .logic a b => do if isScalar (decay (← cType a)) && isScalar (decay (← cType b)) then some int else none
  | .shift a b => do
    let s ← cType a
    let t ← cType b
    if s.integer && t.integer then promoted (operand a s) else none
  | .neg e => do promoted (operand e (← cType e))
  | .pos e => do promoted (operand e (← cType e))
  | .bitnot e => do
    let t ← cType e
    if t.integer then promoted (operand e t) else none
  | .not e => do if isScalar (decay (← cType e)) then some int else none
  | .assign l r => do
    let s ← cType l
    let t ← cType r
    if assignable s (decay t) (isNull r) then some s else none
  | .cond c a b => do
    let u ← cType c
    let s ← cType a
    let t ← cType b
    if isScalar (decay u) then condTy (operand a s) (operand b t) (isNull a) (isNull b) else none
  | .comma a b => do
    let _ ← cType a
    return decay (← cType b)
  | .member e t => do match ← cType e with
    | .struc _ _ => some t
    | _ => none
  | .bits e u _ => do match ← cType e with
    | .struc _ _ => some (.arith (.int u))
    | _ => none
  | .addr e => do return .ptr (← cType e)
  | .deref e => do match decay (← cType e) with
    | .ptr t => some t
    | _ => none
  | .call f => do match ← cType f with
    | .fn r _ => some r
    | .ptr (.fn r _) => some r
    | _ => none
  | .cast t e => do if t = .void ∨ (isScalar t ∧ isScalar (decay (← cType e))) then some t else none

/-! ### The exceptions -/

/-- An operand of arithmetic: not enumerated, no unsigned bit-field narrower than int. -/
def plainOperand (e : E) : Bool :=
  (match e with
    | .bits _ true w => !decide (w < 32)
    | _ => true) &&
  match cType e with
  | some (.arith (.enum _)) => false
  | _ => true

/-- An operand that is as wide as int. -/
def wide (e : E) : Bool :=
  match cType e with
  | some t => decide (4 ≤ t.size)
  | none => true

/-- Operands of a conditional where the type of toycc is that of C. -/
def plainCond (a b : E) : Bool :=
  match cType a, cType b with
  | some (.struc _ n), some _ => decide (4 ≤ n)
  | some (.arith _), some (.arith _) => true
  | some (.arith _), some (.arr _ _) => false
  | some (.arith _), _ => true
  | some s, some (.arith _) => !decide (s = .void)
  | some s, some t => decide (decay s = decay t) || (decide (decay s = .ptr .void) && !isNull a)
  | _, _ => true

/-- Expressions to which toycc gives the type of C: see the witnesses of Verif.Ety.Props for the rest. -/
def Tame : E → Bool
  | .num _ _ => true
  | .var _ => true
  | .bin _ a b => Tame a && Tame b && plainOperand a && plainOperand b
  | .add a b => Tame a && Tame b && plainOperand a && plainOperand b
  | .sub a b => Tame a && Tame b && plainOperand a && plainOperand b
  | .cmp a b => Tame a && Tame b
  | .logic a b => Tame a && Tame b
  | .shift a b => Tame a && Tame b && plainOperand a && wide a
  | .neg e => Tame e && plainOperand e
  | .pos e => Tame e && plainOperand e && wide e
  | .bitnot e => Tame e && plainOperand e && wide e
  | .not e => Tame e
  | .assign l r => Tame l && Tame r
  | .cond c a b => Tame c && Tame a && Tame b && plainOperand a && plainOperand b && plainCond a b
  | .comma a b => Tame a && Tame b && (match cType b with | some (.arr _ _) | some (.fn _ _) => false | _ => true)
  | .member e _ => Tame e
  | .bits e _ _ => Tame e
  | .addr e => Tame e && (match cType e with | some (.arr _ _) => false | _ => true)
  | .deref e => Tame e && (match cType e with | some (.ptr .void) | some (.arr .void _) => false | _ => true)
  | .call f => Tame f
  | .cast _ e => Tame e

end Toycc.Ety
