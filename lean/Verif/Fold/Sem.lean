import Verif.Fold.Model
import Verif.Cg.SimpleProof
/-!
Constant expressions whose folding is right: the C value of the expression, computed with the checks that exclude the known
defects of the evaluator (arithmetic on `unsigned int` that wraps, 64-bit unsigned arithmetic that overflows as signed
arithmetic, casts to `_Bool`).
-/
namespace Toycc.Fold
open Toycc.Rv Toycc.Cg

/-- The signed number with the same 64 bits. -/
def s64 (x : Int) : Int := x.bmod (2 ^ 64)

def in64 (x : Int) : Bool := decide (-(2 ^ 63) ≤ x ∧ x < 2 ^ 64)

def in63 (x : Int) : Bool := decide (-(2 ^ 63) ≤ x ∧ x < 2 ^ 63)

/-- An arithmetic result of type `t` whose exact value is `r`, and whose value in the compiler's arithmetic is `s`. -/
def exact (t : Ty) (r s : Int) : Bool :=
  if t.unsigned then (if t.size == 8 then in63 s else inRange t r) else true

/-- Binary operators; the result is that of C (`binC`). -/
def binK (op : BinOp) (ty lt : Ty) (x y : Int) : Option Int := do
  let v ← binC op ty x y
  match op with
  | .add =>
    let _ ← Cg.guard (ty.scalar && promote ty == ty && inRange ty x && inRange ty y && exact ty (x + y) (s64 x + s64 y))
    some v
  | .sub =>
    let _ ← Cg.guard (ty.scalar && promote ty == ty && inRange ty x && inRange ty y && exact ty (x - y) (s64 x - s64 y))
    some v
  | .mul =>
    let _ ← Cg.guard (ty.scalar && promote ty == ty && inRange ty x && inRange ty y && exact ty (x * y) (s64 x * s64 y))
    some v
  | .div | .mod | .and | .or | .xor =>
    let _ ← Cg.guard (ty.scalar && promote ty == ty && inRange ty x && inRange ty y)
    some v
  | .eq | .ne | .lt | .le =>
    let _ ← Cg.guard (lt.scalar && inRange lt x && inRange lt y)
    some v
  | .shl =>
    let _ ← Cg.guard (ty.scalar && promote ty == ty && inRange ty x && (!ty.unsigned || ty.size == 8 || inRange ty (x * 2 ^ y.toNat)))
    some v
  | .shr =>
    let _ ← Cg.guard (ty.scalar && promote ty == ty && inRange ty x)
    some v

/-- A value: a number, or an offset from the address of a global symbol. -/
abbrev KV := Option String × Int

/-- A number that is not an address. -/
def number : KV → Option Int
  | (none, v) => some v
  | _ => none

mutual
/-- The value (`ad = false`) or the address (`ad = true`) of a constant expression. -/
def kval : Expr → Option KV
  | .num t v => do
    let _ ← Cg.guard (t.scalar && inRange t v)
    some (none, v)
  | .neg t e => do
    let v ← (kval e).bind number
    let r ← arithC (promote t) (-v)
    let _ ← Cg.guard (t.scalar && promote t == t && inRange t v && exact t (-v) (-(s64 v)))
    some (none, r)
  | .bin op t l r => do
    let y ← (kval r).bind number
    let x ← kval l
    match x with
    | (none, x) =>
      let v ← binK op t l.ty x y
      some (none, v)
    | (some n, a) =>
      -- an address and an integer
      let _ ← Cg.guard (t == .ptr && in63 a && in63 y)
      match op with
      | .add =>
        let _ ← Cg.guard (in63 (a + y))
        some (some n, a + y)
      | .sub =>
        let _ ← Cg.guard (in63 (a - y))
        some (some n, a - y)
      | _ => none
  | .cond _ c t e => do
    let v ← (kval c).bind number
    let _ ← Cg.guard (in64 v)
    if v ≠ 0 then kval t else kval e
  | .comma l r => do
    let _ ← kval l
    kval r
  | .not e => do
    let v ← (kval e).bind number
    let _ ← Cg.guard (in64 v)
    some (none, boolC (decide (v = 0)))
  | .bitnot e => do
    let v ← (kval e).bind number
    let _ ← Cg.guard (e.ty.scalar && inRange e.ty v && e.ty != .int true)
    some (none, convC (promote e.ty) (-v - 1))
  | .logand l r => do
    let v ← (kval l).bind number
    let _ ← Cg.guard (in64 v)
    if v = 0 then some (none, 0)
    else
      let w ← (kval r).bind number
      let _ ← Cg.guard (in64 w)
      some (none, boolC (decide (w ≠ 0)))
  | .logor l r => do
    let v ← (kval l).bind number
    let _ ← Cg.guard (in64 v)
    if v ≠ 0 then some (none, 1)
    else
      let w ← (kval r).bind number
      let _ ← Cg.guard (in64 w)
      some (none, boolC (decide (w ≠ 0)))
  | .cast t e => do
    let x ← kval e
    match x with
    | (none, v) =>
      let _ ← Cg.guard (t.scalar && (t != .bool || v == 0 || v == 1))
      some (none, convC t v)
    | (some n, a) =>
      let _ ← Cg.guard (t == .ptr || t == .long true)
      some (some n, a)
  | .addr e => kaddr e
  | .member f e => do
    let _ ← Cg.guard (isArr f.ty && f.bits.isNone)
    let x ← kaddr e
    match x with
    | (some n, a) =>
      let _ ← Cg.guard (in63 a && in63 f.offset && in63 (a + f.offset))
      some (some n, a + f.offset)
    | _ => none
  | .var t v =>
    match v with
    | .glob n => do
      let _ ← Cg.guard (isArr t || t == .func)
      some (some n, 0)
    | _ => none
  | _ => none
def kaddr : Expr → Option KV
  | .var _ v =>
    match v with
    | .glob n => some (some n, 0)
    | _ => none
  | .deref _ e => do
    let x ← kval e
    match x with
    | (some n, a) => some (some n, a)
    | _ => none
  | .member f e => do
    let x ← kaddr e
    match x with
    | (some n, a) =>
      let _ ← Cg.guard (in63 a && in63 f.offset && in63 (a + f.offset))
      some (some n, a + f.offset)
    | _ => none
  | _ => none
end

/-- What a value means at run time: a number is itself, an address is the address of the symbol plus the offset. -/
def meaning (E : CEnv) : KV → Int
  | (none, v) => v
  | (some n, a) => ((E.sym (.sym n) + BitVec.ofInt 64 a).toNat : Int)

end Toycc.Fold
