import Verif.Cg.Model
/-!
Specification: the value of a C expression, by the rules of C11 6.5 for the LP64 data model, independent of registers and
instructions. Values of integer and pointer types are mathematical integers (pointers: 0 .. 2^64-1). The value of an array,
structure or function designator is its address. `none` means undefined behaviour (signed overflow, division by zero, shift
count out of range, access outside the live objects) or a constraint violation. Where C leaves the order of evaluation of
operands unspecified, the order is one of the permitted ones: address before value in an assignment, right operand first,
arguments from right to left.
-/
namespace Toycc.Cg
open Toycc.Rv

/-- The program environment an expression is evaluated in. -/
structure CEnv where
  /-- frame address: a local variable lives at a fixed offset from it -/
  fp : W
  /-- addresses of the global objects and functions -/
  sym : Label → W
  /-- the bytes that belong to live objects -/
  valid : W → Bool
  /-- effect of calling the function at an address with a return type and arguments; the second argument is the number of
  stack slots in use, because the addresses of the callee's local objects may depend on it -/
  call : W → Nat → Ty → List (Ty × Int) → Mem → Option (Int × Mem)
  /-- number of stack slots available (used only by the strict evaluation of Verif.Cg.Strict) -/
  room : Nat

def CEnv.ok (E : CEnv) (a : W) (n : Nat) : Bool := (List.range n).all (fun i => E.valid (a + BitVec.ofNat 64 i))

def Ty.bits (t : Ty) : Nat := 8 * t.size

/-- Integer and pointer types. -/
def Ty.scalar : Ty → Bool
  | .bool | .char _ | .short _ | .int _ | .long _ | .enum | .ptr => true
  | _ => false

/-- C11 6.2.5, 6.2.6.2: the values of a type. -/
def inRange (t : Ty) (v : Int) : Bool :=
  match t with
  | .bool => decide (0 ≤ v ∧ v ≤ 1)
  | t => if t.unsigned then decide (0 ≤ v ∧ v < 2 ^ t.bits) else decide (-(2 ^ (t.bits - 1)) ≤ v ∧ v < 2 ^ (t.bits - 1))

/-- C11 6.3.1.2, 6.3.1.3: conversion to an integer type. -/
def convC (t : Ty) (v : Int) : Int :=
  match t with
  | .bool => if v = 0 then 0 else 1
  | t => if t.unsigned then v % 2 ^ t.bits else v.bmod (2 ^ t.bits)

/-- C11 6.3.1.1, 6.3.2.1: integer promotions; an array becomes a pointer. -/
def promote : Ty → Ty
  | .bool | .char _ | .short _ => .int false
  | .arr _ => .ptr
  | t => t

/-- C11 6.5p5, 6.2.5p9: unsigned results wrap, signed results must be representable. -/
def arithC (t : Ty) (r : Int) : Option Int :=
  if t.unsigned then some (r % 2 ^ t.bits) else if inRange t r then some r else none

/-- Bitwise operators, C11 6.5.10-6.5.12, on two's complement. -/
def bitC (f : W → W → W) (t : Ty) (x y : Int) : Int :=
  convC t (f (BitVec.ofInt 64 x) (BitVec.ofInt 64 y)).toInt

def boolC (b : Bool) : Int := if b then 1 else 0

/-- C11 6.5.5-6.5.12. `t` is the type of the result after the usual conversions (of the left operand, for shifts). -/
def binC (op : BinOp) (t : Ty) (x y : Int) : Option Int :=
  let t := promote t
  match op with
  | .add => arithC t (x + y)
  | .sub => arithC t (x - y)
  | .mul => arithC t (x * y)
  | .div => if y = 0 then none else arithC t (x.tdiv y)
  | .mod => if y = 0 then none else (arithC t (x.tdiv y)).bind fun _ => some (x.tmod y)
  | .and => some (bitC (· &&& ·) t x y)
  | .or => some (bitC (· ||| ·) t x y)
  | .xor => some (bitC (· ^^^ ·) t x y)
  | .eq => some (boolC (decide (x = y)))
  | .ne => some (boolC (decide (x ≠ y)))
  | .lt => some (boolC (decide (x < y)))
  | .le => some (boolC (decide (x ≤ y)))
  | .shl =>
    if 0 ≤ y ∧ y < t.bits then
      if t.unsigned then some (x * 2 ^ y.toNat % 2 ^ t.bits)
      else if 0 ≤ x then arithC t (x * 2 ^ y.toNat) else none
    else none
  | .shr => if 0 ≤ y ∧ y < t.bits then some (x / 2 ^ y.toNat) else none

def adr (v : Int) : W := BitVec.ofInt 64 v

/-- The bytes representing a value. -/
def rep (v : Int) : Nat := (BitVec.ofInt 64 v).toNat

/-- Value of the object of type `t` at address `a` (C11 6.3.2.1). A `_Bool` object must hold 0 or 1. -/
def loadC (E : CEnv) (t : Ty) (m : Mem) (a : W) : Option Int :=
  match t with
  | .arr _ | .struc _ | .func => some a.toNat
  | .void => none
  | .bool => if E.ok a 1 && decide (readN m a 1 ≤ 1) then some (readN m a 1) else none
  | t =>
    if E.ok a t.size then
      some (if t.unsigned then (readN m a t.size : Int) else (readN m a t.size : Int).bmod (2 ^ t.bits))
    else none

/-- Value of a bit-field of `w` bits at bit `o` of the storage unit at `a`. -/
def loadBitsC (E : CEnv) (t : Ty) (o w : Nat) (m : Mem) (a : W) : Option Int :=
  if t.scalar && E.ok a t.size then
    let x := readN m a t.size / 2 ^ o % 2 ^ w
    some (if t.unsigned || t == .bool then (x : Int) else (x : Int).bmod (2 ^ w))
  else none

/-- Value of a member. -/
def fieldC (E : CEnv) (f : Field) (m : Mem) (a : W) : Option Int :=
  match f.bits with
  | none => loadC E f.ty m a
  | some (o, w) => loadBitsC E f.ty o w m a

/-- The value of a bit-field after storing `v` (C11 6.5.16p3, 6.3.1.3). -/
def wrapBits (t : Ty) (w : Nat) (v : Int) : Int :=
  if t = .bool then (if v = 0 then 0 else 1) else if t.unsigned then v % 2 ^ w else v.bmod (2 ^ w)

/-- Storage unit `u` with bits `o .. o+w-1` replaced by the low `w` bits of `v`. -/
def mergeBits (o w : Nat) (u : Nat) (v : Int) : Nat :=
  u / 2 ^ (o + w) * 2 ^ (o + w) + (v % 2 ^ w).toNat * 2 ^ o + u % 2 ^ o

/-- Assignment of a structure: the objects are the same or do not overlap (C11 6.5.16.1p3). -/
def copyC (E : CEnv) (n : Nat) (m : Mem) (dst src : W) : Option Mem :=
  if E.ok dst n && E.ok src n && (decide (dst = src) || decide (n ≤ (dst - src).toNat ∧ n ≤ (src - dst).toNat)) then
    some (fun b => if (b - dst).toNat < n then m (src + (b - dst)) else m b)
  else none

/-- Simple assignment of value `v` to the object at `a`: the new value of the expression and the memory. -/
def assignC (E : CEnv) (bf : Option (Field × Nat × Nat)) (t : Ty) (a : W) (v : Int) (m : Mem) : Option (Int × Mem) :=
  match bf with
  | some (f, o, w) =>
    if f.ty.scalar && E.ok a f.ty.size then
      some (wrapBits f.ty w v, writeN m a f.ty.size (mergeBits o w (readN m a f.ty.size) (wrapBits f.ty w v)))
    else none
  | none =>
    match t with
    | .struc n => (copyC E n m a (adr v)).map (v, ·)
    | t => if t.scalar && E.ok a t.size then some (convC t v, writeN m a t.size (rep (convC t v))) else none

/-- Address of a variable. -/
def varAddrC (E : CEnv) (v : Var) (m : Mem) : Option W :=
  match v with
  | .loc off => some (E.fp + BitVec.ofInt 64 off)
  | .vla off =>
    let p := E.fp + BitVec.ofInt 64 off
    if E.ok p 8 then some (BitVec.ofNat 64 (readN m p 8)) else none
  | .glob n => some (E.sym (.sym n))

/-- Number of slots in use at a call with `n` arguments when `d` were in use before: eight arguments are in registers; an even
number of slots is in use at the call. -/
def callSlots (d n : Nat) : Nat := d + (d + (n - 8)) % 2 + (n - 8)

mutual
/-- Value (`ad = false`) or address (`ad = true`) of an expression. -/
def evalC (E : CEnv) (ad : Bool) (d : Nat) : Expr → Mem → Option (Int × Mem)
  | .null, m => if ad then none else some (0, m)
  | .num _ v, m => if ad then none else some (v, m)
  | .neg ty e, m =>
    if ad then none
    else do
      let (v, m) ← evalC E false d e m
      let r ← arithC (promote ty) (-v)
      some (r, m)
  | .var ty v, m => do
    let a ← varAddrC E v m
    if ad then some (a.toNat, m)
    else
      let v ← loadC E ty m a
      some (v, m)
  | .member f e, m => do
    let (a, m) ← evalC E true d e m
    let a := adr a + BitVec.ofInt 64 f.offset
    if ad then some (a.toNat, m)
    else
      let v ← fieldC E f m a
      some (v, m)
  | .deref ty e, m => do
    let (a, m) ← evalC E false d e m
    if ad then some (a, m)
    else
      let v ← loadC E ty m (adr a)
      some (v, m)
  | .addr e, m => if ad then none else evalC E true d e m
  | .assign ty l r, m =>
    if ad && !ty.isStruct then none
    else do
      let (a, m) ← evalC E true d l m
      let (v, m) ← evalC E false (d + 1) r m
      assignC E l.bitfield ty (adr a) v m
  | .comma l r, m => do
    let (_, m) ← evalC E false d l m
    evalC E ad d r m
  | .cast ty e, m =>
    if ad then none
    else do
      let (v, m) ← evalC E false d e m
      some (if ty = .void then 0 else convC ty v, m)
  | .memzero off n, m =>
    if ad then none
    else
      let a := E.fp + BitVec.ofInt 64 off
      if E.ok a n then some (0, writeN m a n 0) else none
  | .cond ty c t e, m =>
    if ad && !ty.isStruct then none
    else do
      let (v, m) ← evalC E false d c m
      if v ≠ 0 then evalC E false d t m else evalC E false d e m
  | .not e, m =>
    if ad then none
    else do
      let (v, m) ← evalC E false d e m
      some (boolC (decide (v = 0)), m)
  | .bitnot e, m =>
    if ad then none
    else do
      let (v, m) ← evalC E false d e m
      some (convC (promote e.ty) (-v - 1), m)
  | .logand l r, m =>
    if ad then none
    else do
      let (v, m) ← evalC E false d l m
      if v = 0 then some (0, m)
      else
        let (w, m) ← evalC E false d r m
        some (boolC (decide (w ≠ 0)), m)
  | .logor l r, m =>
    if ad then none
    else do
      let (v, m) ← evalC E false d l m
      if v ≠ 0 then some (1, m)
      else
        let (w, m) ← evalC E false d r m
        some (boolC (decide (w ≠ 0)), m)
  | .bin op ty l r, m =>
    if ad then none
    else do
      let (y, m) ← evalC E false d r m
      let (x, m) ← evalC E false (d + 1) l m
      let v ← binC op ty x y
      some (v, m)
  | .vlaPtr off, m => if ad then some ((E.fp + BitVec.ofInt 64 off).toNat, m) else none
  | .call ty f args, m =>
    if ad then none
    else do
      let n := args.length
      let d0 := d + (d + (n - 8)) % 2
      let (vs, m) ← evalArgsC E d0 args m
      let (a, m) ← evalC E false (d0 + n) f m
      E.call (adr a) (callSlots d n) ty vs m
def evalArgsC (E : CEnv) (d : Nat) : Exprs → Mem → Option (List (Ty × Int) × Mem)
  | .nil, m => some ([], m)
  | .cons e r, m => do
    let (vs, m) ← evalArgsC E d r m
    let (v, m) ← evalC E false (d + r.length) e m
    some ((e.ty, v) :: vs, m)
end

end Toycc.Cg
