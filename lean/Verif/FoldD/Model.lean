import Verif.Fold.Model
import Verif.Fp.Model
/-!
Compile-time evaluation of constant expressions with floating point: eval_double, parser/common.c:194-241, and eval2 on nodes with floating operands,
common.c:49-186; the scalar part of write_gvar_data, parser/initializer.c:692-708. Subtrees without floating point are those of Verif.Fold.
-/
namespace Toycc.FoldD
open Toycc.Rv Toycc.Fp
open Toycc.Fold (FErr castF ofB i64)
open Toycc.Cg (BinOp)

/-- The arithmetic of the machine toycc runs on (that of `Fpu`) and its long double, of which only the conversions to float and double are used. -/
structure Host extends Fpu where
  L : Type
  round : (p : Prec) → L → Bits p

/-- AST nodes after add_type. -/
inductive CE (L : Type) where
  /-- a tree without floating point -/
  | int (e : Cg.Expr)
  /-- ND_NUM of a floating type; `fval` is a long double that has not been rounded to the type (tokenize.c:510-540) -/
  | num (p : Prec) (fval : L)
  | neg (t : Ty) (e : CE L)
  | bin (op : BinOp) (t : Ty) (l r : CE L)
  | cond (t : Ty) (c a b : CE L)
  | comma (l r : CE L)
  | not (e : CE L)
  | logand (l r : CE L)
  | logor (l r : CE L)
  | cast (t : Ty) (e : CE L)
  /-- any other node of a floating type: a variable, a member, a dereference, an assignment -/
  | obj (p : Prec) (e : Expr)

/-- `node->ty`. -/
def CE.ty {L : Type} : CE L → Ty
  | .int e => .int e.ty
  | .num p _ => .flt p
  | .neg t _ => t
  | .bin _ t _ _ => t
  | .cond t _ _ _ => t
  | .comma _ r => r.ty
  | .not _ => .int (.int false)
  | .logand _ _ => .int (.int false)
  | .logor _ _ => .int (.int false)
  | .cast t _ => t
  | .obj p _ => .flt p

/-- What eval_double (on nodes of floating type) and eval2 (on others) return. -/
inductive V where
  | int (w : W)
  | dbl (b : Bits .d)
  deriving DecidableEq

/-- The conversion of a double to `int64_t` by the host; undefined if it does not fit. -/
def toI64 (F : Fpu) (b : Bits .d) : Except FErr W :=
  match F.trunc .d b with
  | some z => i64 z
  | none => .error .ub

/-- `eval(node)`, common.c:53-54 for nodes of floating type. -/
def asI (F : Fpu) : V → Except FErr W
  | .int w => .ok w
  | .dbl b => toI64 F b

/-- `eval_double(node)`, common.c:198-203 for nodes of integer type. -/
def asD (F : Fpu) (t : Ty) : V → Bits .d
  | .int w => match t with
    | .int t => F.ofInt .d (if t.unsigned then (w.toNat : Int) else w.toInt)
    | .flt _ => F.ofInt .d w.toInt
  | .dbl b => b

/-- The type of the left operand, as far as comparisons look at it. -/
def cmpTy : Ty → Cg.Ty
  | .int t => t
  | .flt _ => .long false

/-- The operators of eval_double, common.c:206-216. -/
def arithD (F : Fpu) (a b : Bits .d) : BinOp → Except FErr V
  | .add => .ok (.dbl (F.arith .d .add a b))
  | .sub => .ok (.dbl (F.arith .d .sub a b))
  | .mul => .ok (.dbl (F.arith .d .mul a b))
  | .div => .ok (.dbl (F.arith .d .div a b))
  | _ => .error .notConst

/-- eval_double, common.c:194-241, and eval2 without a label, common.c:49-186. Not modelled: addresses with floating-point subexpressions. -/
def ev (H : Host) : CE H.L → Except FErr V
  | .int e => (Fold.fold false e).map fun r => .int r.1
  | .num _ f => .ok (.dbl (H.round .d f))
  | .neg t e => do
    let v ← ev H e
    match t with
    | .flt _ => .ok (.dbl (negBits .d (asD H.toFpu e.ty v)))
    | .int _ => (asI H.toFpu v).bind fun w => (i64 (-w.toInt)).map .int
  | .bin op t l r => do
    let x ← ev H l
    let y ← ev H r
    match t with
    | .flt _ => arithD H.toFpu (asD H.toFpu l.ty x) (asD H.toFpu r.ty y) op
    | .int t => (asI H.toFpu x).bind fun a => (asI H.toFpu y).bind fun b => (Fold.binF op t (cmpTy l.ty) a b).map .int
  | .cond t c a b => do
    let v ← ev H c
    match t with
    | .flt _ =>
      if H.rel .d .eq (asD H.toFpu c.ty v) 0 then (ev H b).map fun v => .dbl (asD H.toFpu b.ty v)
      else (ev H a).map fun v => .dbl (asD H.toFpu a.ty v)
    | .int _ => (asI H.toFpu v).bind fun w =>
      if w = 0 then (ev H b).bind fun v => (asI H.toFpu v).map .int else (ev H a).bind fun v => (asI H.toFpu v).map .int
  | .comma _ r => ev H r
  | .not e => do
    let v ← ev H e
    (asI H.toFpu v).map fun w => .int (ofB (w == 0))
  | .logand l r => do
    let v ← ev H l
    (asI H.toFpu v).bind fun a =>
      if a = 0 then .ok (.int 0)
      else (ev H r).bind fun v => (asI H.toFpu v).map fun b => .int (ofB (b != 0))
  | .logor l r => do
    let v ← ev H l
    (asI H.toFpu v).bind fun a =>
      if a ≠ 0 then .ok (.int 1)
      else (ev H r).bind fun v => (asI H.toFpu v).map fun b => .int (ofB (b != 0))
  | .cast t e => do
    let v ← ev H e
    match t with
    | .flt _ => match e.ty with
      | .flt _ => .ok (.dbl (asD H.toFpu e.ty v))
      | .int _ => (asI H.toFpu v).map fun w => .dbl (H.ofInt .d w.toInt)
    | .int t => (asI H.toFpu v).map fun w => .int (castF t w)
  | .obj _ _ => .error .notConst

/-- write_gvar_data on a scalar of type `t`, initializer.c:692-708: the bytes written, as a number of `t`'s size. -/
def image (H : Host) (t : Ty) (e : CE H.L) : Except FErr Nat := do
  let v ← ev H e
  match t with
  | .flt .s => .ok (H.narrow (asD H.toFpu e.ty v)).toNat
  | .flt .d => .ok (asD H.toFpu e.ty v).toNat
  | .int t => (asI H.toFpu v).map fun w => w.toNat % 2 ^ (8 * t.size)

end Toycc.FoldD
