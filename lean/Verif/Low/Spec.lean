import Verif.Low.Syntax
import Verif.Types.Arith
/-!
Specification: types and values of expressions by C11 6.5, for what is in Verif.Low.Syntax. `none` is a violated constraint, or undefined behaviour. Integer
values and memory are those of Verif.Cg.Sem. Where C leaves the order of evaluation unspecified one order is taken.
-/
namespace Toycc.Low
open Toycc.Cg Toycc.Rv

/-- The integer types among the arithmetic types of C30. -/
def CTy.arith : CTy → Option Types.Arith
  | .bool => some .bool | .char u => some (.char u) | .short u => some (.short u) | .int u => some (.int u) | .long u => some (.long u)
  | .enum => some (.enum 0) | _ => none

def ofArith : Types.Arith → Option CTy
  | .int u => some (.int u) | .long u => some (.long u) | _ => none

/-- C11 6.3.1.8. -/
def usual (t1 t2 : CTy) : Option CTy := do
  let a ← t1.arith
  let b ← t2.arith
  ofArith (Types.usualArith a b)

/-- C11 6.3.1.1. -/
def prom (t : CTy) : Option CTy := do
  let a ← t.arith
  ofArith (Types.promote a)

/-- C11 6.3.2.1: arrays and functions become pointers. -/
def CTy.decay : CTy → CTy
  | .arr b _ => .ptr b
  | .func r => .ptr (.func r)
  | t => t

def CTy.scalar (t : CTy) : Bool :=
  t.isInt || match t with | .ptr _ => true | _ => false

def CTy.isStruc : CTy → Bool
  | .struc _ => true
  | _ => false

/-- Complete object types: what pointer arithmetic is done on (and void, as in GNU C). -/
def CTy.object : CTy → Bool
  | .func _ => false
  | _ => true

/-- Type of a binary operation, C11 6.5.5-6.5.12. -/
def opT (op : BinOp) (t1 t2 : CTy) : Option CTy :=
  let t1 := t1.decay
  let t2 := t2.decay
  match op with
  | .shl | .shr => if t2.isInt then prom t1 else none
  | .eq | .ne | .lt | .le =>
    if t1.scalar && t2.scalar then some (.int false) else none
  | .add =>
    match t1, t2 with
    | .ptr b, t => if t.isInt && b.object then some (.ptr b) else none
    | t, .ptr b => if t.isInt && b.object then some (.ptr b) else none
    | t1, t2 => usual t1 t2
  | .sub =>
    match t1, t2 with
    | .ptr b, .ptr c => if b = c ∧ b.object then some (.long false) else none
    | .ptr b, t => if t.isInt && b.object then some (.ptr b) else none
    | t1, t2 => usual t1 t2
  | _ => usual t1 t2

/-- C11 6.5.6p8: `n` elements of a size from `p`. No object has 2^63 bytes or more, or extends beyond the address space. -/
def ptrAdd (p n : Int) (size : Nat) : Option Int :=
  if -(2 ^ 63) < n * size ∧ n * size < 2 ^ 63 ∧ 0 ≤ p + n * size ∧ p + n * size < 2 ^ 64 then some (p + n * size) else none

/-- C11 6.5.6p9: the number of elements from `q` to `p`. -/
def ptrDiff (p q : Int) (size : Nat) : Option Int :=
  if size ≠ 0 ∧ size < 2 ^ 63 ∧ -(2 ^ 63) ≤ p - q ∧ p - q < 2 ^ 63 ∧ (size : Int) ∣ p - q then some ((p - q) / size) else none

/-- Value of a binary operation on operands of given types (addresses are compared as unsigned numbers). -/
def opC (op : BinOp) (t1 t2 : CTy) (x y : Int) : Option Int :=
  let t1 := t1.decay
  let t2 := t2.decay
  match op with
  | .shl | .shr => (prom t1).bind fun t => binC op t.low x y
  | .eq | .ne | .lt | .le =>
    match t1, t2 with
    | .ptr _, _ => binC op .ptr (convC .ptr x) (convC .ptr y)
    | _, .ptr _ => binC op .ptr (convC .ptr x) (convC .ptr y)
    | t1, t2 => (usual t1 t2).bind fun t => binC op t.low (convC t.low x) (convC t.low y)
  | .add =>
    match t1, t2 with
    | .ptr b, _ => ptrAdd x y b.size
    | _, .ptr b => ptrAdd y x b.size
    | t1, t2 => (usual t1 t2).bind fun t => binC .add t.low (convC t.low x) (convC t.low y)
  | .sub =>
    match t1, t2 with
    | .ptr b, .ptr _ => ptrDiff x y b.size
    | .ptr b, _ => ptrAdd x (-y) b.size
    | t1, t2 => (usual t1 t2).bind fun t => binC .sub t.low (convC t.low x) (convC t.low y)
  | op => (usual t1 t2).bind fun t => binC op t.low (convC t.low x) (convC t.low y)

/-- The operators of compound assignment. -/
def BinOp.compound : BinOp → Bool
  | .eq | .ne | .lt | .le => false
  | _ => true

/-- Lvalues (bit-fields included). -/
def SExpr.lv : SExpr → Bool
  | .var _ _ => true
  | .member e _ _ _ => e.lv
  | .deref _ => true
  | _ => false

def SExpr.bits : SExpr → Option (Nat × Nat)
  | .member _ _ _ b => b
  | _ => none

/-- The type of an expression as an operand: a bit-field all of whose values are values of int becomes an int (C11 6.3.1.1p2). -/
def SExpr.vty (e : SExpr) (t : CTy) : CTy :=
  match e.bits with
  | some (_, w) => if w < 32 ∨ (w = 32 ∧ ¬ t.low.unsigned) then .int false else t
  | none => t

/-- A null pointer constant. -/
def SExpr.null : SExpr → Bool
  | .num _ v => v == 0
  | _ => false

/-- Type of the conditional operator, C11 6.5.15. -/
def condT (a b : SExpr) (t1 t2 : CTy) : Option CTy :=
  match (a.vty t1).decay, (b.vty t2).decay with
  | .void, .void => some .void
  | .ptr p, .ptr q => if p = q then some (.ptr p) else none
  | .ptr p, t => if t.isInt && b.null then some (.ptr p) else none
  | t, .ptr p => if t.isInt && a.null then some (.ptr p) else none
  | t1, t2 => usual t1 t2

/-- Return type of what is called. -/
def CTy.ret : CTy → Option CTy
  | .func r => some r
  | .ptr (.func r) => some r
  | _ => none

mutual
/-- Type of an expression. -/
def typeC : SExpr → Option CTy
  | .num t v => if t.isInt && inRange t.low v then some t else none
  | .var t _ => if t = .void then none else some t
  | .member e t _ b => do
    let .struc _ ← typeC e | none
    match b with
    | none => if t = .void then none else some t
    | some (o, w) => if t.isInt && decide (0 < w ∧ o + w ≤ t.low.bits) then some t else none
  | .deref e => do
    let t ← typeC e
    let b ← t.base
    if b = .void then none else some b
  | .addr e => do
    let t ← typeC e
    if e.lv && e.bits.isNone then some (.ptr t) else none
  | .bin op l r => do
    let t1 ← typeC l
    let t2 ← typeC r
    opT op (l.vty t1) (r.vty t2)
  | .neg e => do
    let t ← typeC e
    prom (e.vty t)
  | .not e => do
    let t ← typeC e
    if t.decay.scalar then some (.int false) else none
  | .bitnot e => do
    let t ← typeC e
    prom (e.vty t)
  | .assign l r => do
    let t1 ← typeC l
    let t2 ← typeC r
    if l.lv && ((t1.scalar && t2.decay.scalar) || (t1.isStruc && t2 = t1)) then some t1 else none
  | .opAssign op l r => do
    let t1 ← typeC l
    let t2 ← typeC r
    let _ ← opT op (l.vty t1) (r.vty t2)
    if l.lv && BinOp.compound op && t1.scalar && t2.isInt then some t1 else none
  | .pre _ l => do
    let t ← typeC l
    let _ ← opT .add (l.vty t) (.int false)
    if l.lv && t.scalar then some t else none
  | .post _ l => do
    let t ← typeC l
    let _ ← opT .add (l.vty t) (.int false)
    if l.lv && t.scalar then some t else none
  | .comma l r => do
    let _ ← typeC l
    let t ← typeC r
    some (r.vty t)
  | .cast t e => do
    let t' ← typeC e
    if t = .void ∨ (t.scalar && t'.decay.scalar) then some t else none
  | .cond c t e => do
    let tc ← typeC c
    let t1 ← typeC t
    let t2 ← typeC e
    if tc.decay.scalar then condT t e t1 t2 else none
  | .elvis a b => do
    let t1 ← typeC a
    let t2 ← typeC b
    if t1.scalar then condT a b t1 t2 else none
  | .logand l r => do
    let t1 ← typeC l
    let t2 ← typeC r
    if t1.decay.scalar && t2.decay.scalar then some (.int false) else none
  | .logor l r => do
    let t1 ← typeC l
    let t2 ← typeC r
    if t1.decay.scalar && t2.decay.scalar then some (.int false) else none
  | .call f as => do
    let t ← typeC f
    let r ← t.ret
    let _ ← typesC as
    if r = .void ∨ r.scalar then some r else none
def typesC : SArgs → Option Unit
  | .nil => some ()
  | .cons t e r => do
    let t' ← typeC e
    let _ ← typesC r
    if t.scalar && t'.decay.scalar then some () else none
end

/-- The value of the object designated by an lvalue at an address. -/
def loadL (S : CEnv) (t : CTy) (bits : Option (Nat × Nat)) (m : Mem) (a : W) : Option Int :=
  match bits with
  | none => loadC S t.low m a
  | some (o, w) => loadBitsC S t.low o w m a

/-- Assignment to the object designated by an lvalue at an address. -/
def storeL (S : CEnv) (t : CTy) (bits : Option (Nat × Nat)) (a : W) (v : Int) (m : Mem) : Option (Int × Mem) :=
  assignC S (bits.map fun p => (⟨t.low, 0, some p⟩, p.1, p.2)) t.low a v m

/-- The operands of a binary operator, in the order in which they are evaluated. -/
def leftFirst (op : BinOp) (t1 t2 : CTy) : Bool := op = .add && t1.isInt && t2.base.isSome

mutual
/-- Value (`ad = false`) or address (`ad = true`) of an expression. -/
def evalX (S : CEnv) (ad : Bool) : SExpr → Mem → Option (Int × Mem)
  | .num _ v, m => if ad then none else some (v, m)
  | .var t v, m => do
    let a ← varAddrC S v m
    if ad then some (a.toNat, m) else (loadC S t.low m a).map (·, m)
  | .member e t o b, m => do
    let (a, m) ← evalX S true e m
    let a := adr a + BitVec.ofInt 64 o
    if ad then some (a.toNat, m) else (loadL S t b m a).map (·, m)
  | .deref e, m => do
    let t ← typeC e
    let b ← t.base
    let (a, m) ← evalX S false e m
    if ad then some (a, m) else (loadC S b.low m (adr a)).map (·, m)
  | .addr e, m => if ad then none else evalX S true e m
  | .bin op l r, m => do
    if ad then none
    else
      let t1 ← typeC l
      let t2 ← typeC r
      if leftFirst op t1 t2 then
        let (x, m) ← evalX S false l m
        let (y, m) ← evalX S false r m
        (opC op (l.vty t1) (r.vty t2) x y).map (·, m)
      else
        let (y, m) ← evalX S false r m
        let (x, m) ← evalX S false l m
        (opC op (l.vty t1) (r.vty t2) x y).map (·, m)
  | .neg e, m => do
    if ad then none
    else
      let t ← typeC e
      let t ← prom (e.vty t)
      let (v, m) ← evalX S false e m
      (arithC t.low (-convC t.low v)).map (·, m)
  | .not e, m => do
    if ad then none
    else
      let (v, m) ← evalX S false e m
      some (boolC (decide (v = 0)), m)
  | .bitnot e, m => do
    if ad then none
    else
      let t ← typeC e
      let t ← prom (e.vty t)
      let (v, m) ← evalX S false e m
      some (convC t.low (-v - 1), m)
  | .assign l r, m => do
    let t ← typeC l
    if ad && !t.low.isStruct then none
    else
      let (a, m) ← evalX S true l m
      let (v, m) ← evalX S false r m
      storeL S t l.bits (adr a) v m
  | .opAssign op l r, m => do
    if ad then none
    else
      let t1 ← typeC l
      let t2 ← typeC r
      let (a, m) ← evalX S true l m
      let (y, m) ← evalX S false r m
      let x ← loadL S t1 l.bits m (adr a)
      let z ← opC op (l.vty t1) (r.vty t2) x y
      storeL S t1 l.bits (adr a) z m
  | .pre up l, m => do
    if ad then none
    else
      let t ← typeC l
      let (a, m) ← evalX S true l m
      let x ← loadL S t l.bits m (adr a)
      let z ← opC (if up then .add else .sub) (l.vty t) (.int false) x 1
      storeL S t l.bits (adr a) z m
  | .post up l, m => do
    if ad then none
    else
      let t ← typeC l
      let (a, m) ← evalX S true l m
      let x ← loadL S t l.bits m (adr a)
      let z ← opC (if up then .add else .sub) (l.vty t) (.int false) x 1
      let (_, m) ← storeL S t l.bits (adr a) z m
      some (x, m)
  | .comma l r, m => do
    let (_, m) ← evalX S false l m
    evalX S ad r m
  | .cast t e, m => do
    if ad then none
    else
      let (v, m) ← evalX S false e m
      some (if t = .void then 0 else convC t.low v, m)
  | .cond c t e, m => do
    if ad then none
    else
      let t1 ← typeC t
      let t2 ← typeC e
      let ty ← condT t e t1 t2
      let (v, m) ← evalX S false c m
      let (w, m) ← if v ≠ 0 then evalX S false t m else evalX S false e m
      some (if ty = .void then w else convC ty.low w, m)
  | .elvis a b, m => do
    if ad then none
    else
      let t1 ← typeC a
      let t2 ← typeC b
      let ty ← condT a b t1 t2
      let (v, m) ← evalX S false a m
      let (w, m) ← if v ≠ 0 then some (v, m) else evalX S false b m
      some (convC ty.low w, m)
  | .logand l r, m => do
    if ad then none
    else
      let (v, m) ← evalX S false l m
      if v = 0 then some (0, m)
      else
        let (w, m) ← evalX S false r m
        some (boolC (decide (w ≠ 0)), m)
  | .logor l r, m => do
    if ad then none
    else
      let (v, m) ← evalX S false l m
      if v ≠ 0 then some (1, m)
      else
        let (w, m) ← evalX S false r m
        some (boolC (decide (w ≠ 0)), m)
  | .call f as, m => do
    if ad then none
    else
      let t ← typeC f
      let r ← t.ret
      let (vs, m) ← evalArgsX S as m
      let (a, m) ← evalX S false f m
      S.call (adr a) 0 r.low vs m
def evalArgsX (S : CEnv) : SArgs → Mem → Option (List (Ty × Int) × Mem)
  | .nil, m => some ([], m)
  | .cons t e r, m => do
    let (vs, m) ← evalArgsX S r m
    let (v, m) ← evalX S false e m
    some ((t.low, convC t.low v) :: vs, m)
end

end Toycc.Low
