import Verif.Cg.Model
/-!
Compile-time evaluation of constant expressions: eval, eval2 and eval_rval, parser/common.c:19-192, on the same trees as code
generation (add_type has been run). Floating-point nodes are in Verif.FoldD; ND_LABEL_VAL is not modelled.
-/
namespace Toycc.Fold
open Toycc.Rv Toycc.Cg

/-- Outcomes other than a value: the two diagnostics, undefined behaviour of the compiler itself (signed overflow of `int64_t`,
a shift by an amount out of range, division by zero or overflowing division, which trap), a store through the null `label`
pointer; and the acceptance of a local array as an address constant (common.c:169-176 does not look at `is_local`; the label is then
the name of the local variable, which these trees do not have). -/
inductive FErr where
  | notConst | invalidInit | ub | trap | null | localName
  deriving DecidableEq, Repr

/-- The `int64_t` result of an operation of the compiler whose exact result is `r`; signed overflow is undefined. -/
def i64 (r : Int) : Except FErr W :=
  if -(2 ^ 63) ≤ r ∧ r < 2 ^ 63 then .ok (BitVec.ofInt 64 r) else .error .ub

/-- `a << b`, `a >> b` with `int64_t` operands: the amount must be between 0 and 63. (Left shifts of negative numbers are taken
to be what gcc makes of them.) -/
def amount (b : W) : Except FErr Nat := if b.toNat < 64 then .ok b.toNat else .error .ub

def ofB (b : Bool) : W := if b then 1 else 0

/-- The arithmetic of eval2 on binary nodes, common.c:60-119; `ty` is the type of the node, `lt` that of its left operand. -/
def binF (op : BinOp) (ty lt : Ty) (a b : W) : Except FErr W :=
  match op with
  | .add => i64 (a.toInt + b.toInt)
  | .sub => i64 (a.toInt - b.toInt)
  | .mul => i64 (a.toInt * b.toInt)
  | .div =>
    if b = 0 then .error .trap
    else if ty.unsigned then .ok (a / b)
    else if a = BitVec.intMin 64 ∧ b = -1 then .error .trap
    else .ok (BitVec.sdiv a b)
  | .mod =>
    if b = 0 then .error .trap
    else if ty.unsigned then .ok (a % b)
    else if a = BitVec.intMin 64 ∧ b = -1 then .error .trap
    else .ok (BitVec.srem a b)
  | .and => .ok (a &&& b)
  | .or => .ok (a ||| b)
  | .xor => .ok (a ^^^ b)
  | .shl => (amount b).map fun k => a <<< k
  | .shr => (amount b).map fun k => if ty.unsigned && ty.size == 8 then a >>> k else a.sshiftRight k
  | .eq => .ok (ofB (a == b))
  | .ne => .ok (ofB (a != b))
  | .lt => .ok (ofB (if lt.unsigned then a.ult b else a.slt b))
  | .le => .ok (ofB (if lt.unsigned then a.ule b else a.sle b))

/-- is_integer, type.c:150-158. -/
def isInteger : Ty → Bool
  | .bool | .char _ | .short _ | .int _ | .long _ | .enum => true
  | _ => false

/-- ND_CAST, common.c:141-160. -/
def castF (ty : Ty) (a : W) : W :=
  if isInteger ty then
    match ty.size with
    | 1 => if ty.unsigned then (a.setWidth 8).setWidth 64 else (a.setWidth 8).signExtend 64
    | 2 => if ty.unsigned then (a.setWidth 16).setWidth 64 else (a.setWidth 16).signExtend 64
    | 4 => if ty.unsigned then (a.setWidth 32).setWidth 64 else (a.setWidth 32).signExtend 64
    | _ => a
  else a

/-- `*label = ...`. -/
def setLabel (lab : Bool) (n : String) : Except FErr (W × Option String) :=
  if lab then .ok (0, some n) else .error .null

def isArr : Ty → Bool
  | .arr _ => true
  | _ => false

/-- The sum of an address and a constant (`int64_t` addition). -/
def plus (r : W × Option String) (b : W) : Except FErr (W × Option String) := (i64 (r.1.toInt + b.toInt)).map fun v => (v, r.2)

mutual
/-- eval2, common.c:49-186 (`ad = false`) and eval_rval, common.c:19-41 (`ad = true`). `lab` says whether `label` is non-null; the
result is the value and the label stored, if any. `eval` is `lab = false`. -/
def fold (lab : Bool) : Expr → Except FErr (W × Option String)
  | .num _ v => .ok (BitVec.ofInt 64 v, none)
  | .neg _ e =>
    match fold false e with
    | .error x => .error x
    | .ok (a, _) => (i64 (-a.toInt)).map fun v => (v, none)
  | .bin op ty l r =>
    -- only ND_ADD and ND_SUB pass the label on to their left operand
    match fold (lab && (op == .add || op == .sub)) l with
    | .error x => .error x
    | .ok (a, n) =>
      match fold false r with
      | .error x => .error x
      | .ok (b, _) => (binF op ty l.ty a b).map fun v => (v, n)
  | .cond _ c t e =>
    match fold false c with
    | .error x => .error x
    | .ok (a, _) => if a ≠ 0 then fold lab t else fold lab e
  | .comma _ r => fold lab r
  | .not e =>
    match fold false e with
    | .error x => .error x
    | .ok (a, _) => .ok (ofB (a == 0), none)
  | .bitnot e =>
    match fold false e with
    | .error x => .error x
    | .ok (a, _) => .ok (~~~a, none)
  | .logand l r =>
    match fold false l with
    | .error x => .error x
    | .ok (a, _) =>
      if a = 0 then .ok (0, none)
      else
        match fold false r with
        | .error x => .error x
        | .ok (b, _) => .ok (ofB (b != 0), none)
  | .logor l r =>
    match fold false l with
    | .error x => .error x
    | .ok (a, _) =>
      if a ≠ 0 then .ok (1, none)
      else
        match fold false r with
        | .error x => .error x
        | .ok (b, _) => .ok (ofB (b != 0), none)
  | .cast ty e =>
    match fold lab e with
    | .error x => .error x
    | .ok (a, n) => .ok (castF ty a, n)
  | .addr e => foldAddr lab e
  | .member f e =>
    if !lab then .error .notConst
    else if !isArr f.ty then .error .invalidInit
    else
      match foldAddr lab e with
      | .error x => .error x
      | .ok r => plus r (BitVec.ofInt 64 f.offset)
  | .var ty v =>
    if !lab then .error .notConst
    else if !isArr ty && ty != .func then .error .invalidInit
    else
      match v with
      | .glob n => setLabel lab n
      | _ => .error .localName
  | _ => .error .notConst
/-- eval_rval, common.c:19-41. -/
def foldAddr (lab : Bool) : Expr → Except FErr (W × Option String)
  | .var _ v =>
    match v with
    | .glob n => setLabel lab n
    | _ => .error .notConst
  | .deref _ e => fold lab e
  | .member f e =>
    match foldAddr lab e with
    | .error x => .error x
    | .ok r => plus r (BitVec.ofInt 64 f.offset)
  | _ => .error .invalidInit
end

end Toycc.Fold
