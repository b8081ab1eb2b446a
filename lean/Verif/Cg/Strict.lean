import Verif.Cg.Sem
/-!
Strict evaluation: C evaluation (Verif.Cg.Sem) that additionally tracks what a register holding the value looks like and fails
where the code generator of toycc is known to go wrong, or where the stack is exhausted. `evalS_evalC` (Verif.Cg.StrictLemmas)
shows that it only ever returns C's value; Verif.Cg.Props shows that the generated code computes it.
-/
namespace Toycc.Cg
open Toycc.Rv

/-- How a register represents a value: all 64 bits; the sign-extended low 32 bits (unsigned int results of 32-bit
instructions); only the low 32 bits; not at all. -/
inductive Ext where
  | full | sext | low | junk
  deriving DecidableEq, Repr

def ext32 (t : Ty) (v : Int) : Ext := if t.unsigned ∧ (2 : Int) ^ 31 ≤ v then .sext else .full

def guard (b : Bool) : Option Unit := if b then some () else none

/-- Whether a register can be tested against zero. -/
def Ext.testable (f : Ext) : Bool := f == .full || f == .sext

def in64 (v : Int) : Bool := decide (-(2 ^ 63) ≤ v ∧ v < 2 ^ 64)

/-- Binary operators. `lt` is the type of the left operand. -/
def binS (op : BinOp) (ty lt : Ty) (x : Int) (fx : Ext) (y : Int) (fy : Ext) : Option (Int × Ext) := do
  let v ← binC op ty x y
  let t := promote ty
  match op with
  | .add | .sub | .mul =>
    if lt.isLong then
      let _ ← guard (t.size == 8 && t.scalar && fx == .full && fy == .full)
      some (v, .full)
    else
      let _ ← guard (t.size == 4 && t.scalar && fx != .junk && fy != .junk)
      some (v, ext32 t v)
  | .div | .mod =>
    let _ ← guard (t.unsigned == ty.unsigned && inRange t x && inRange t y)
    if lt.isLong then
      let _ ← guard (t.size == 8 && t.scalar && fx == .full && fy == .full)
      some (v, .full)
    else
      let _ ← guard (t.size == 4 && t.scalar && fx != .junk && fy != .junk)
      some (v, ext32 t v)
  | .and | .or | .xor =>
    let _ ← guard (t.scalar && (t.size == 4 || t.size == 8) && inRange t x && inRange t y && fx != .junk && fy != .junk)
    if fx = .full ∧ fy = .full then some (v, .full)
    else
      let _ ← guard (t == .int true)
      some (v, if fx = .sext ∧ fy = .sext then .sext else .low)
  | .eq | .ne | .lt =>
    let _ ← guard ((lt.scalar || lt.hasBase) && inRange (promote lt) x && inRange (promote lt) y && (op != .lt || promote lt == lt) &&
      ((fx == .full && fy == .full) || (fx == .sext && fy == .sext && lt == .int true)))
    some (v, .full)
  | .le =>
    let _ ← guard (!ty.unsigned && inRange (.long false) x && inRange (.long false) y && fx == .full && fy == .full)
    some (v, .full)
  | .shl =>
    if lt.isLong then
      let _ ← guard (t.size == 8 && t.scalar && fx == .full && fy != .junk)
      some (v, .full)
    else
      let _ ← guard (t.size == 4 && t.scalar && fx != .junk && fy != .junk)
      some (v, ext32 t v)
  | .shr =>
    let _ ← guard (inRange t x && (!ty.unsigned || decide (0 ≤ x)) && (ty.unsigned || !t.unsigned))
    if lt.isLong then
      let _ ← guard (t.size == 8 && t.scalar && fx == .full && fy != .junk)
      some (v, .full)
    else
      let _ ← guard (t.size == 4 && t.scalar && fx != .junk && fy != .junk)
      some (v, ext32 t v)

/-- Conversions. Where the code generator emits nothing, the value must survive that. -/
def castS (from_ to : Ty) (v : Int) (f : Ext) : Option (Int × Ext) :=
  match to with
  | .void => some (0, .junk)
  | .bool => do
    let _ ← guard f.testable
    some (convC .bool v, .full)
  | to => do
    let _ ← guard (to.scalar && f != .junk)
    match castMatrix (typeId from_) (typeId to) with
    | some _ => some (convC to v, .full)
    | none =>
      if f = .full then
        let _ ← guard (BitVec.ofInt 64 (convC to v) == BitVec.ofInt 64 v)
        some (convC to v, .full)
      else
        let _ ← guard (to == .int true)
        some (convC to v, f)

/-- Reading a bit-field. -/
def loadBitsS (E : CEnv) (t : Ty) (o w : Nat) (m : Mem) (a : W) : Option (Int × Ext) := do
  let v ← loadBitsC E t o w m a
  let _ ← guard (decide (0 < w ∧ o + w ≤ t.bits))
  some (v, if t = .bool ∧ v ≠ 0 then .junk else .full)

def fieldS (E : CEnv) (f : Field) (m : Mem) (a : W) : Option (Int × Ext) :=
  match f.bits with
  | none => (loadC E f.ty m a).map (·, Ext.full)
  | some (o, w) => loadBitsS E f.ty o w m a

/-- Assignment. The value of a bit-field assignment is wrong when it does not fit. -/
def assignS (E : CEnv) (bf : Option (Field × Nat × Nat)) (t : Ty) (a : W) (v : Int) (f : Ext) (m : Mem) :
    Option (Int × Ext × Mem) := do
  let (v', m') ← assignC E bf t a v m
  match bf with
  | some (g, o, w) =>
    let _ ← guard (decide (0 < w ∧ w < 64 ∧ o + w ≤ g.ty.bits) && g.ty == t && f != .junk && (f == .full || decide (w ≤ 32)) &&
      (t != .bool || v == 0 || v == 1))
    some (v', if v' = v then f else .junk, m')
  | none =>
    match t with
    | .struc n =>
      let _ ← guard (f == .full && decide (n < 2 ^ 31))
      some (v', f, m')
    | t =>
      let _ ← guard (f != .junk && (f == .full || decide (t.size ≤ 4)) && (v' == v))
      some (v', f, m')

/-- What a register holds after a call. -/
def retExt : Ty → Ext
  | .int true => .low
  | .void | .arr _ | .struc _ | .func => .junk
  | _ => .full

mutual
def evalS (E : CEnv) (ad : Bool) (d : Nat) : Expr → Mem → Option (Int × Ext × Mem)
  | .null, m => if ad then none else some (0, .junk, m)
  | .num _ v, m =>
    if ad then none
    else do
      let _ ← guard (in64 v)
      some (v, .full, m)
  | .neg ty e, m =>
    if ad then none
    else do
      let (v, f, m) ← evalS E false d e m
      let r ← arithC (promote ty) (-v)
      let _ ← guard (ty.scalar && promote ty == ty)
      if ty.size = 8 then
        let _ ← guard (f == .full)
        some (r, .full, m)
      else
        let _ ← guard (f != .junk)
        some (r, ext32 ty r, m)
  | .var ty v, m => do
    let a ← varAddrC E v m
    if ad then some (a.toNat, .full, m)
    else
      let v ← loadC E ty m a
      some (v, .full, m)
  | .member f e, m => do
    let (a, x, m) ← evalS E true d e m
    let _ ← guard (x == .full)
    let a := adr a + BitVec.ofInt 64 f.offset
    if ad then some (a.toNat, .full, m)
    else
      let (v, x) ← fieldS E f m a
      some (v, x, m)
  | .deref ty e, m => do
    let (a, x, m) ← evalS E false d e m
    let _ ← guard (x == .full)
    if ad then some (a, .full, m)
    else
      let v ← loadC E ty m (adr a)
      some (v, .full, m)
  | .addr e, m => if ad then none else evalS E true d e m
  | .assign ty l r, m =>
    if ad && !ty.isStruct then none
    else do
      let (a, x, m) ← evalS E true d l m
      let _ ← guard (x == .full && decide (d < E.room))
      let (v, f, m) ← evalS E false (d + 1) r m
      assignS E l.bitfield ty (adr a) v f m
  | .comma l r, m => do
    let (_, _, m) ← evalS E false d l m
    evalS E ad d r m
  | .cast ty e, m =>
    if ad then none
    else do
      let (v, f, m) ← evalS E false d e m
      let (v, f) ← castS e.ty ty v f
      some (v, f, m)
  | .memzero off n, m =>
    if ad then none
    else
      let a := E.fp + BitVec.ofInt 64 off
      if E.ok a n && decide (n < 2 ^ 31) then some (0, .junk, writeN m a n 0) else none
  | .cond ty c t e, m =>
    if ad && !ty.isStruct then none
    else do
      let (v, f, m) ← evalS E false d c m
      let _ ← guard f.testable
      if v ≠ 0 then evalS E false d t m else evalS E false d e m
  | .not e, m =>
    if ad then none
    else do
      let (v, f, m) ← evalS E false d e m
      let _ ← guard f.testable
      some (boolC (decide (v = 0)), .full, m)
  | .bitnot e, m =>
    if ad then none
    else do
      let (v, f, m) ← evalS E false d e m
      let t := promote e.ty
      let _ ← guard (t.scalar && inRange t v && f != .junk)
      if f = .full ∧ t ≠ .int true then some (convC t (-v - 1), .full, m)
      else
        let _ ← guard (t == .int true)
        some (convC t (-v - 1), .low, m)
  | .logand l r, m =>
    if ad then none
    else do
      let (v, f, m) ← evalS E false d l m
      let _ ← guard f.testable
      if v = 0 then some (0, .full, m)
      else
        let (w, f, m) ← evalS E false d r m
        let _ ← guard f.testable
        some (boolC (decide (w ≠ 0)), .full, m)
  | .logor l r, m =>
    if ad then none
    else do
      let (v, f, m) ← evalS E false d l m
      let _ ← guard f.testable
      if v ≠ 0 then some (1, .full, m)
      else
        let (w, f, m) ← evalS E false d r m
        let _ ← guard f.testable
        some (boolC (decide (w ≠ 0)), .full, m)
  | .bin op ty l r, m =>
    if ad then none
    else do
      let (y, fy, m) ← evalS E false d r m
      let _ ← guard (decide (d < E.room))
      let (x, fx, m) ← evalS E false (d + 1) l m
      let (v, f) ← binS op ty l.ty x fx y fy
      some (v, f, m)
  | .vlaPtr off, m => if ad then some ((E.fp + BitVec.ofInt 64 off).toNat, .full, m) else none
  | .call ty f args, m =>
    if ad || isAlloca f then none
    else do
      let n := args.length
      let d0 := d + (d + (n - 8)) % 2
      let _ ← guard (decide (d0 + n ≤ E.room))
      let (vs, m) ← evalArgsS E d0 args m
      let (a, x, m) ← evalS E false (d0 + n) f m
      let _ ← guard (x == .full)
      let (v, m) ← E.call (adr a) (callSlots d n) ty vs m
      some (v, retExt ty, m)
def evalArgsS (E : CEnv) (d : Nat) : Exprs → Mem → Option (List (Ty × Int) × Mem)
  | .nil, m => some ([], m)
  | .cons e r, m => do
    let (vs, m) ← evalArgsS E d r m
    let (v, f, m) ← evalS E false (d + r.length) e m
    let _ ← guard (f == .full || (f != .junk && decide (e.ty.size ≤ 4)))
    some ((e.ty, v) :: vs, m)
end

end Toycc.Cg
