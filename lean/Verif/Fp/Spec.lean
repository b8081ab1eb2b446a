import Verif.Fp.Model
import Verif.Cg.Simple
/-!
Specification: the value of a C expression with floating types, by C11 6.3.1 and 6.5, independent of registers and instructions;
for integer operands that of Verif.Cg.Sem. The operations of a floating type are those of `Fpu` in the precision of the type
(FLT_EVAL_METHOD 0). Operand order as in Verif.Cg.Sem. `none`: undefined behaviour or constraint violation.
-/
namespace Toycc.Fp
open Toycc.Rv
open Toycc.Cg (GS Var BinOp CEnv boolC)

inductive Val where
  | int (v : Int)
  | flt (p : Prec) (b : Bits p)

/-- Compares equal to 0 (C11 6.3.1.2, 6.5.3.3p5, 6.5.13, 6.5.14, 6.5.15). -/
def Val.isZero (F : Fpu) : Val → Bool
  | .int v => decide (v = 0)
  | .flt p b => F.rel p .eq b 0

/-- C11 6.3.1.5. -/
def Fpu.toPrec (F : Fpu) : (p q : Prec) → Bits p → Bits q
  | .s, .s, b => b
  | .d, .d, b => b
  | .s, .d, b => F.widen b
  | .d, .s, b => F.narrow b

/-- C11 6.3.1.2 - 6.3.1.5: conversion of a value to a type. -/
def conv (F : Fpu) : Ty → Val → Option Val
  | .int .void, _ => some (.int 0)
  | .int t, .int v => some (.int (Cg.convC t v))
  | .int .bool, .flt p b => some (.int (boolC (!F.rel p .eq b 0)))
  | .int t, .flt p b => (F.trunc p b).bind fun z => if t.scalar && Cg.inRange t z then some (.int z) else none
  | .flt q, .int v => some (.flt q (F.ofInt q v))
  | .flt q, .flt p b => some (.flt q (F.toPrec p q b))

/-- Arithmetic operators on floating types, C11 6.5.5, 6.5.6. -/
def arithOf : BinOp → Option Arith
  | .add => some .add
  | .sub => some .sub
  | .mul => some .mul
  | .div => some .div
  | _ => none

/-- Relational and equality operators on floating types, C11 6.5.8, 6.5.9. -/
def relOf (F : Fpu) (p : Prec) (a b : Bits p) : BinOp → Option Bool
  | .eq => some (F.rel p .eq a b)
  | .ne => some (!F.rel p .eq a b)
  | .lt => some (F.rel p .lt a b)
  | .le => some (F.rel p .le a b)
  | _ => none

/-- Binary operators: both operands have the same type, or both have an integer type. `t` is the type of the result. -/
def binV (F : Fpu) (op : BinOp) (t : Ty) : Val → Val → Option Val
  | .int x, .int y => match t with
    | .int t => (Cg.binC op t x y).map .int
    | .flt _ => none
  | .flt .s x, .flt .s y => match arithOf op with
    | some o => some (.flt .s (F.arith .s o x y))
    | none => (relOf F .s x y op).map fun b => .int (boolC b)
  | .flt .d x, .flt .d y => match arithOf op with
    | some o => some (.flt .d (F.arith .d o x y))
    | none => (relOf F .d x y op).map fun b => .int (boolC b)
  | _, _ => none

/-- Unary minus. -/
def negV (t : Ty) : Val → Option Val
  | .int v => match t with
    | .int t => (Cg.arithC (Cg.promote t) (-v)).map .int
    | .flt _ => none
  | .flt p b => some (.flt p (negBits p b))

/-- The object of type `t` at `a`. -/
def loadV (E : CEnv) (t : Ty) (m : Mem) (a : W) : Option Val :=
  match t with
  | .int t => (Cg.loadC E t m a).map .int
  | .flt p => if E.ok a p.bytes then some (.flt p (BitVec.ofNat _ (readN m a p.bytes))) else none

/-- Simple assignment of a value of the type `t` to the object at `a`. -/
def assignV (E : CEnv) (t : Ty) (a : W) (v : Val) (m : Mem) : Option (Val × Mem) :=
  match t, v with
  | .int t, .int v => (Cg.assignC E none t a v m).map fun r => (.int r.1, r.2)
  | .flt .s, .flt .s b => if E.ok a 4 then some (.flt .s b, writeN m a 4 b.toNat) else none
  | .flt .d, .flt .d b => if E.ok a 8 then some (.flt .d b, writeN m a 8 b.toNat) else none
  | _, _ => none

/-- An integer. -/
def Val.toI : Val → Option Int
  | .int v => some v
  | .flt _ _ => none

/-- Value (`ad = false`) or address (`ad = true`) of an expression. -/
def eval (F : Fpu) (E : CEnv) (ad : Bool) (d : Nat) : Expr → Mem → Option (Val × Mem)
  | .int e, m => (Cg.evalC E ad d e m).map fun r => (.int r.1, r.2)
  | .lit p b, m => if ad then none else some (.flt p b, m)
  | .neg t e, m =>
    if ad then none
    else do
      let (v, m) ← eval F E false d e m
      let r ← negV t v
      some (r, m)
  | .var t v, m => do
    let a ← Cg.varAddrC E v m
    if ad then some (.int a.toNat, m)
    else
      let v ← loadV E t m a
      some (v, m)
  | .member t off e, m => do
    let (a, m) ← eval F E true d e m
    let a ← a.toI
    let a := Cg.adr a + BitVec.ofInt 64 off
    if ad then some (.int a.toNat, m)
    else
      let v ← loadV E t m a
      some (v, m)
  | .deref t e, m => do
    let (a, m) ← eval F E false d e m
    let a ← a.toI
    if ad then some (.int a, m)
    else
      let v ← loadV E t m (Cg.adr a)
      some (v, m)
  | .addr e, m => if ad then none else eval F E true d e m
  | .assign t l r, m =>
    if ad && !t.isStruct then none
    else do
      let (a, m) ← eval F E true d l m
      let a ← a.toI
      let (v, m) ← eval F E false (d + 1) r m
      assignV E t (Cg.adr a) v m
  | .comma l r, m => do
    let (_, m) ← eval F E false d l m
    eval F E ad d r m
  | .cast t e, m =>
    if ad then none
    else do
      let (v, m) ← eval F E false d e m
      let v ← conv F t v
      some (v, m)
  | .cond t c a b, m =>
    if ad && !t.isStruct then none
    else do
      let (v, m) ← eval F E false d c m
      if v.isZero F then eval F E false d b m else eval F E false d a m
  | .not e, m =>
    if ad then none
    else do
      let (v, m) ← eval F E false d e m
      some (.int (boolC (v.isZero F)), m)
  | .logand l r, m =>
    if ad then none
    else do
      let (v, m) ← eval F E false d l m
      if v.isZero F then some (.int 0, m)
      else
        let (w, m) ← eval F E false d r m
        some (.int (boolC (!w.isZero F)), m)
  | .logor l r, m =>
    if ad then none
    else do
      let (v, m) ← eval F E false d l m
      if v.isZero F then
        let (w, m) ← eval F E false d r m
        some (.int (boolC (!w.isZero F)), m)
      else some (.int 1, m)
  | .bin op t l r, m =>
    if ad then none
    else do
      let (y, m) ← eval F E false d r m
      let (x, m) ← eval F E false (d + 1) l m
      let v ← binV F op t x y
      some (v, m)

/-! ### The expressions the theorem is about -/

/-- Conversions that are compiled correctly. Left out, besides those of Verif.Cg.Simple: from an enumerated type to a floating
type, from a floating type to `_Bool`, `unsigned int` or an enumerated type (see Verif.Fp.Props for what goes wrong). -/
def castOk : Ty → Ty → Bool
  | .int a, .int t => Cg.castOk a t && t != .void
  | .int a, .flt _ => a.scalar && a != .enum && a != .ptr
  | .flt _, .int t => t == .char true || t == .char false || t == .short true || t == .short false || t == .int false ||
      t == .long true || t == .long false
  | .flt _, .flt _ => true

def binOk (op : BinOp) : Ty → Ty → Ty → Bool
  | .int t, .int l, .int r => Cg.binOk op t l r
  | t, .flt p, .flt q => p == q && ((arithOf op).isSome && t == .flt p ||
      (op == .eq || op == .ne || op == .lt || op == .le) && t == .int (.int false))
  | _, _, _ => false

/-- `&&` tests its right operand as if it had the type of the left one. -/
def sameTest : Ty → Ty → Bool
  | .int _, .int _ => true
  | .flt p, .flt q => p == q
  | _, _ => false

def assignOk : Ty → Bool
  | .int t => t.scalar
  | .flt _ => true

def Ty.isPtr : Ty → Bool
  | .int t => t.hasBase || t == .func
  | .flt _ => false

/-- The class; `ad`: used as an lvalue. -/
def simple (ad : Bool) : Expr → Bool
  | .int e => Cg.simple ad e && Cg.usable e
  | .lit _ _ => !ad
  | .neg t e => !ad && simple false e && e.ty == t && (match t with | .int t => Cg.arithTy t | .flt _ => true)
  | .var _ _ => true
  | .member t _ e => simple true e && (ad || t != .int .void)
  | .deref _ e => simple false e && e.ty.isPtr
  | .addr e => !ad && simple true e
  | .assign t l r => !ad && simple true l && !l.isBitfield && simple false r && r.ty == t && assignOk t
  | .comma l r => simple false l && simple ad r
  | .cast t e => !ad && simple false e && castOk e.ty t
  | .cond t c a b => !ad && simple false c && simple false a && simple false b && a.ty == t && b.ty == t
  | .not e => !ad && simple false e
  | .logand l r => !ad && simple false l && simple false r && sameTest l.ty r.ty
  | .logor l r => !ad && simple false l && simple false r
  | .bin op t l r => !ad && simple false l && simple false r && binOk op t l.ty r.ty

/-- Number of stack slots evaluation needs. -/
def need : Expr → Nat
  | .int e => Cg.need e
  | .lit _ _ => 0
  | .neg _ e => need e
  | .var _ _ => 0
  | .member _ _ e => need e
  | .deref _ e => need e
  | .addr e => need e
  | .assign _ l r => max (need l) (need r + 1)
  | .comma l r => max (need l) (need r)
  | .cast _ e => need e
  | .cond _ c a b => max (need c) (max (need a) (need b))
  | .not e => need e
  | .logand l r => max (need l) (need r)
  | .logor l r => max (need l) (need r)
  | .bin _ _ l r => max (need r) (need l + 1)

end Toycc.Fp
