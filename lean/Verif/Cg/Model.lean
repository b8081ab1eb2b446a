import Verif.Rv.Machine
import Verif.Util.Model
/-!
Code generation for expressions: gen_expr and gen_addr, codegen.c:235-1583, for integer, pointer, array, struct and union
operands. Not modelled: floating-point nodes, statement expressions, thread-local variables, atomics (ND_CAS, ND_EXCH),
`alloca` (modelled in Verif.Cg.Alloca), calls with aggregate arguments or results. `.loc` directives and comments are left
out.
-/
namespace Toycc.Cg
open Toycc.Rv

/-- What codegen.c reads of a `struct Type`: kind, size, is_unsigned, whether `base` is set. -/
inductive Ty where
  | void | bool | char (u : Bool) | short (u : Bool) | int (u : Bool) | long (u : Bool) | enum | ptr | func
  | arr (size : Nat)
  /-- struct or union -/
  | struc (size : Nat)
  deriving DecidableEq, Repr

/-- `size`, type.c:3-73, 250-292. -/
def Ty.size : Ty → Nat
  | .void => 1 | .bool => 1 | .char _ => 1 | .short _ => 2 | .int _ => 4 | .long _ => 8 | .enum => 4 | .ptr => 8 | .func => 0
  | .arr n => n | .struc n => n

/-- `is_unsigned`; pointers have it set (type.c:250-256), `_Bool` and enumerated types not. -/
def Ty.unsigned : Ty → Bool
  | .char u => u | .short u => u | .int u => u | .long u => u | .ptr => true | _ => false

/-- `base != NULL`. -/
def Ty.hasBase : Ty → Bool
  | .ptr => true | .arr _ => true | _ => false

/-- `kind == TY_LONG || base`, codegen.c:1517. -/
def Ty.isLong (t : Ty) : Bool :=
  (match t with | .long _ => true | _ => false) || t.hasBase

def Ty.isStruct : Ty → Bool
  | .struc _ => true | _ => false

/-- struct Member as used by code generation. `bits` is (bit_offset, bit_width) of a bit-field. -/
structure Field where
  ty : Ty
  offset : Int
  bits : Option (Nat × Nat) := none
  deriving DecidableEq, Repr

/-- The object of an ND_VAR node: a local variable at `offset` from fp, a variable-length array whose address is stored
there, a global variable or function. -/
inductive Var where
  | loc (offset : Int) | vla (offset : Int) | glob (name : String)
  deriving DecidableEq, Repr

inductive BinOp where
  | add | sub | mul | div | mod | and | or | xor | eq | ne | lt | le | shl | shr
  deriving DecidableEq, Repr

mutual
/-- AST nodes after add_type (struct Node, toycc.h); the type is that of `node->ty`. -/
inductive Expr where
  | null
  | num (ty : Ty) (val : Int)
  | neg (ty : Ty) (e : Expr)
  | var (ty : Ty) (v : Var)
  | member (f : Field) (e : Expr)
  | deref (ty : Ty) (e : Expr)
  | addr (e : Expr)
  | assign (ty : Ty) (l r : Expr)
  | comma (l r : Expr)
  | cast (ty : Ty) (e : Expr)
  | memzero (offset : Int) (size : Nat)
  | cond (ty : Ty) (c t e : Expr)
  | not (e : Expr)
  | bitnot (e : Expr)
  | logand (l r : Expr)
  | logor (l r : Expr)
  | bin (op : BinOp) (ty : Ty) (l r : Expr)
  | vlaPtr (offset : Int)
  | call (ty : Ty) (f : Expr) (args : Exprs)
inductive Exprs where
  | nil
  | cons (e : Expr) (r : Exprs)
end

def Exprs.length : Exprs → Nat
  | .nil => 0
  | .cons _ r => r.length + 1

/-- `node->ty`. -/
def Expr.ty : Expr → Ty
  | .null => .void
  | .num t _ => t
  | .neg t _ => t
  | .var t _ => t
  | .member f _ => f.ty
  | .deref t _ => t
  | .addr _ => .ptr
  | .assign t _ _ => t
  | .comma _ r => r.ty
  | .cast t _ => t
  | .memzero _ _ => .void
  | .cond t _ _ _ => t
  | .not _ => .int false
  | .bitnot e => e.ty
  | .logand _ _ => .int false
  | .logor _ _ => .int false
  | .bin _ t _ _ => t
  | .vlaPtr _ => .ptr
  | .call t _ _ => t

/-- The bit-field assigned to, if the left operand is an ND_MEMBER with `is_bitfield` (codegen.c:1081-1082). -/
def Expr.bitfield : Expr → Option (Field × Nat × Nat)
  | .member f _ => match f.bits with
    | some (o, w) => some (f, o, w)
    | none => none
  | _ => none

/-- The static counters `count()` and `depth` (codegen.c:29-38). `depth` is a C int; a push precedes every pop. -/
structure GS where
  cnt : Nat
  depth : Nat
  deriving DecidableEq, Repr

/-- __push, codegen.c:74-87. -/
def pushI (r : Reg) : List Instr := [.addi .sp .sp (-8), .store .d r 0 .sp]

/-- __pop, codegen.c:89-101. -/
def popI (r : Reg) : List Instr := [.load .d false r 0 .sp, .addi .sp .sp 8]

def GS.push (s : GS) : GS := { s with depth := s.depth + 1 }
def GS.pop (s : GS) : GS := { s with depth := s.depth - 1 }
def GS.next (s : GS) : GS := { s with cnt := s.cnt + 1 }

/-- The choice of the load or store instruction by size, codegen.c:411-419, 463-470. -/
def widthOf (size : Nat) : Width :=
  if size = 1 then .b else if size = 2 then .h else if size = 4 then .w else .d

/-- load, codegen.c:373-420. Not even an 8-byte load has the suffix "u". -/
def genLoad : Ty → List Instr
  | .arr _ => [] | .struc _ => [] | .func => []
  | t => [.load (widthOf t.size) (t.unsigned && t.size != 8) .a0 0 .a0]

/-- Copying byte `i` of a struct, codegen.c:431-444. -/
def copyByte (i : Nat) : List Instr :=
  if Util.beyondInstructionOffset i then
    [.li .t0 i, .op .add .t0 .a0 .t0, .load .b false .t1 0 .t0, .li .t0 i, .op .add .t0 .a1 .t0, .store .b .t1 0 .t0]
  else [.load .b false .t0 i .a0, .store .b .t0 i .a1]

/-- store, codegen.c:423-471. -/
def genStore : Ty → List Instr
  | .struc n => popI .a1 ++ (List.range n).flatMap copyByte
  | t => popI .a1 ++ [.store (widthOf t.size) .a0 0 .a1]

/-- Adding an offset to a0, codegen.c:248-253, 333-338. -/
def addOffset (base : Reg) (off : Int) : List Instr :=
  if Util.beyondInstructionOffset off then [.li .t0 off, .op .add .a0 base .t0] else [.addi .a0 base off]

/-- gen_addr of ND_VAR, codegen.c:238-324 (variables that are not thread-local). -/
def varAddr (v : Var) (s : GS) : List Instr × GS :=
  match v with
  | .vla off => ([.li .a0 off, .op .add .a0 .a0 .fp, .load .d false .a0 0 .a0], s)
  | .loc off => (addOffset .fp off, s)
  | .glob name => ([.label (.gen ".L.pcrel" s.cnt), .la .a0 (.sym name)], s.next)

/-- getTypeId, codegen.c:480-500. -/
inductive TypeId where
  | i8 | i16 | i32 | i64 | u8 | u16 | u32 | u64
  deriving DecidableEq, Repr

def typeId : Ty → TypeId
  | .char u => if u then .u8 else .i8
  | .short u => if u then .u16 else .i16
  | .int u => if u then .u32 else .i32
  | .long u => if u then .u64 else .i64
  | _ => .u64

/-- TOI8 ... TOU32, codegen.c:504-512. -/
def shiftExt (unsigned : Bool) (n : Nat) : List Instr :=
  [.slli .a0 .a0 n, if unsigned then .srli .a0 .a0 n else .srai .a0 .a0 n]

/-- The integer part of cast_matrix, codegen.c:570-586. -/
def castMatrix : TypeId → TypeId → Option (List Instr)
  | .i8, .u8 => some (shiftExt true 56) | .i8, .u16 => some (shiftExt true 48) | .i8, .u32 => some (shiftExt true 32)
  | .i16, .i8 => some (shiftExt false 56)
  | .i16, .u8 => some (shiftExt true 56) | .i16, .u16 => some (shiftExt true 48) | .i16, .u32 => some (shiftExt true 32)
  | .i32, .i8 => some (shiftExt false 56) | .i32, .i16 => some (shiftExt false 48)
  | .i32, .u8 => some (shiftExt true 56) | .i32, .u16 => some (shiftExt true 48) | .i32, .u32 => some (shiftExt true 32)
  | .i64, .i8 => some (shiftExt false 56) | .i64, .i16 => some (shiftExt false 48) | .i64, .i32 => some (shiftExt false 32)
  | .i64, .u8 => some (shiftExt true 56) | .i64, .u16 => some (shiftExt true 48) | .i64, .u32 => some (shiftExt true 32)
  | .u16, .i8 => some (shiftExt false 56) | .u16, .u8 => some (shiftExt true 56)
  | .u32, .i8 => some (shiftExt false 56) | .u32, .i16 => some (shiftExt false 48)
  | .u32, .u8 => some (shiftExt true 56) | .u32, .u16 => some (shiftExt true 48)
  | .u64, .i8 => some (shiftExt false 56) | .u64, .i16 => some (shiftExt false 48) | .u64, .i32 => some (shiftExt false 32)
  | .u64, .u8 => some (shiftExt true 56) | .u64, .u16 => some (shiftExt true 48) | .u64, .u32 => some (shiftExt true 32)
  | _, _ => none

/-- cast, codegen.c:588-612. -/
def genCast (from_ to : Ty) : List Instr :=
  match to with
  | .void => []
  | .bool => [.snez .a0 .a0]
  | to => (castMatrix (typeId from_) (typeId to)).getD []

/-- cmp_zero, codegen.c:614-640, on integers: a0 becomes 1 if the operand is 0, else 0. -/
def cmpZero : List Instr := [.seqz .a0 .a0]

/-- The final switch of gen_expr, codegen.c:1515-1582. `lt` is `node->lhs->ty`, `ty` is `node->ty`. -/
def binInstrs (op : BinOp) (lt ty : Ty) : List Instr :=
  let w := lt.isLong
  match op with
  | .add => [.op (if w then .add else .addw) .a0 .a0 .a1]
  | .sub => [.op (if w then .sub else .subw) .a0 .a0 .a1]
  | .mul => [.op (if w then .mul else .mulw) .a0 .a0 .a1]
  | .div => if ty.unsigned then [.op (if w then .divu else .divuw) .a0 .a0 .a1] else [.op (if w then .div else .divw) .a0 .a0 .a1]
  | .mod => if ty.unsigned then [.op (if w then .remu else .remuw) .a0 .a0 .a1] else [.op (if w then .rem else .remw) .a0 .a0 .a1]
  | .and => [.op .and .a0 .a0 .a1]
  | .or => [.op .or .a0 .a0 .a1]
  | .xor => [.op .xor .a0 .a0 .a1]
  | .eq => [.op .xor .a0 .a0 .a1, .seqz .a0 .a0]
  | .ne => [.op .xor .a0 .a0 .a1, .snez .a0 .a0]
  | .lt => if lt.unsigned then [.op .sltu .a0 .a0 .a1] else [.op .slt .a0 .a0 .a1]
  | .le => (if ty.unsigned then [.op .sltu .a0 .a1 .a0] else [.op .slt .a0 .a1 .a0]) ++ [.seqz .a0 .a0]
  | .shl => [.op (if w then .sll else .sllw) .a0 .a0 .a1]
  | .shr => if ty.unsigned then [.op (if w then .srl else .srlw) .a0 .a0 .a1] else [.op (if w then .sra else .sraw) .a0 .a0 .a1]

/-- Merging a value into a bit-field at (sp), codegen.c:1084-1117. `t` is `mem->ty`, `ty` is `node->ty`. -/
def storeBits (t ty : Ty) (off width : Nat) : List Instr :=
  [.mv .t2 .a0, .mv .t0 .a0, .li .t1 (2 ^ width - 1), .op .and .t0 .t0 .t1, .slli .t0 .t0 off,
   .load .d false .a0 0 .sp] ++ genLoad t ++
  [.li .t1 (-(((2 : Int) ^ width - 1) * 2 ^ off) - 1), .op .and .a0 .a0 .t1, .op .or .a0 .a0 .t0] ++ genStore ty ++
  [.mv .a0 .t2]

/-- Extracting a bit-field, codegen.c:1052-1061. -/
def extractBits (t : Ty) (off width : Nat) : List Instr :=
  [.slli .a0 .a0 (64 - width - off), if t.unsigned then .srli .a0 .a0 (64 - width) else .srai .a0 .a0 (64 - width)]

/-- ND_MEMZERO of byte `off`, codegen.c:1144-1152. -/
def zeroByte (off : Int) : List Instr :=
  if Util.beyondInstructionOffset off then [.li .t0 off, .op .add .t0 .fp .t0, .store .b .zero 0 .t0]
  else [.store .b .zero off .fp]

/-- argreg, codegen.c:39-48. -/
def argRegs : List Reg := [.a0, .a1, .a2, .a3, .a4, .a5, .a6, .a7]

/-- Clearing the upper bits of a function result, codegen.c:1331-1352. -/
def truncResult : Ty → List Instr
  | .bool => shiftExt false 56
  | .char u => shiftExt u 56
  | .short u => shiftExt u 48
  | _ => []

/-- `alloca` is expanded in line, codegen.c:1213-1219. -/
def isAlloca : Expr → Bool
  | .var _ (.glob n) => n == "alloca"
  | _ => false

/-- The statement kinds of labels in expressions. -/
def lbl (p : String) (n : Nat) : Label := .gen p n

mutual
/-- gen_expr (`ad = false`), codegen.c:964-1583, and gen_addr (`ad = true`), codegen.c:235-368. `none`: error_tok ("not a lvalue",
"invalid expression") or a node outside the modelled part. -/
def gen (ad : Bool) : Expr → GS → Option (List Instr × GS)
  | .null, s => if ad then none else some ([], s)
  | .num _ v, s => if ad then none else some ([.li .a0 v], s)
  | .neg ty e, s =>
    if ad then none
    else do
      let (c, s) ← gen false e s
      some (c ++ [if ty.size = 8 then .neg .a0 .a0 else .negw .a0 .a0], s)
  | .var ty v, s =>
    let (c, s) := varAddr v s
    some (if ad then c else c ++ genLoad ty, s)
  | .member f e, s => do
    let (c, s) ← gen true e s
    let a := c ++ addOffset .a0 f.offset
    if ad then some (a, s)
    else
      match f.bits with
      | none => some (a ++ genLoad f.ty, s)
      | some (o, w) => some (a ++ genLoad f.ty ++ extractBits f.ty o w, s)
  | .deref ty e, s => do
    let (c, s) ← gen false e s
    some (if ad then c else c ++ genLoad ty, s)
  | .addr e, s => if ad then none else gen true e s
  | .assign ty l r, s =>
    if ad && !ty.isStruct then some ([], s)
    else do
      let (c1, s) ← gen true l s
      let (c2, s) ← gen false r s.push
      match l.bitfield with
      | some (f, o, w) => some (c1 ++ pushI .a0 ++ c2 ++ storeBits f.ty ty o w, s.pop)
      | none => some (c1 ++ pushI .a0 ++ c2 ++ genStore ty, s.pop)
  | .comma l r, s => do
    let (c1, s) ← gen false l s
    let (c2, s) ← gen ad r s
    some (c1 ++ c2, s)
  | .cast ty e, s =>
    if ad then none
    else do
      let (c, s) ← gen false e s
      some (c ++ genCast e.ty ty, s)
  | .memzero off n, s => if ad then none else some ((List.range n).flatMap (fun (i : Nat) => zeroByte (off + (i : Int))), s)
  | .cond ty c t e, s =>
    if ad && !ty.isStruct then some ([], s)
    else do
      let k := s.cnt
      let (c0, s) ← gen false c s.next
      let (c1, s) ← gen false t s
      let (c2, s) ← gen false e s
      some (c0 ++ cmpZero ++ [.bnez .a0 (lbl ".L.else" k)] ++ c1 ++ [.j (lbl ".L.end" k), .label (lbl ".L.else" k)] ++ c2 ++
        [.label (lbl ".L.end" k)], s)
  | .not e, s =>
    if ad then none
    else do
      let (c, s) ← gen false e s
      some (c ++ cmpZero, s)
  | .bitnot e, s =>
    if ad then none
    else do
      let (c, s) ← gen false e s
      some (c ++ [.not .a0 .a0], s)
  | .logand l r, s =>
    if ad then none
    else do
      let k := s.cnt
      let (c1, s) ← gen false l s.next
      let (c2, s) ← gen false r s
      some (c1 ++ cmpZero ++ [.bnez .a0 (lbl ".L.false" k)] ++ c2 ++ cmpZero ++ [.bnez .a0 (lbl ".L.false" k), .li .a0 1,
        .j (lbl ".L.end" k), .label (lbl ".L.false" k), .li .a0 0, .label (lbl ".L.end" k)], s)
  | .logor l r, s =>
    if ad then none
    else do
      let k := s.cnt
      let (c1, s) ← gen false l s.next
      let (c2, s) ← gen false r s
      some (c1 ++ cmpZero ++ [.beqz .a0 (lbl ".L.true" k)] ++ c2 ++ cmpZero ++ [.beqz .a0 (lbl ".L.true" k), .li .a0 0,
        .j (lbl ".L.end" k), .label (lbl ".L.true" k), .li .a0 1, .label (lbl ".L.end" k)], s)
  | .bin op ty l r, s =>
    if ad then none
    else do
      let (c1, s) ← gen false r s
      let (c2, s) ← gen false l s.push
      some (c1 ++ pushI .a0 ++ c2 ++ popI .a1 ++ binInstrs op l.ty ty, s.pop)
  | .vlaPtr off, s => if ad then some ([.li .a0 off, .op .add .a0 .a0 .fp], s) else none
  | .call ty f args, s =>
    if ad then some ([], s)
    else if isAlloca f then none
    else do
      let nstack := args.length - 8
      let pad := (s.depth + nstack) % 2
      let s := { s with depth := s.depth + pad }
      let (c1, s) ← genArgs true 0 args s
      let (c2, s) ← genArgs false 0 args s
      let (c3, s) ← gen false f s
      let nreg := min args.length 8
      let stack := nstack + pad
      some ((if pad = 1 then [.addi .sp .sp (-8)] else []) ++ [.mv .t1 .sp, .addi .sp .sp 0] ++ c1 ++ c2 ++ c3 ++
        [.mv .t0 .a0] ++ (argRegs.take nreg).flatMap popI ++ [.jalr .t0] ++
        (if stack = 0 then [] else [.addi .sp .sp (8 * stack)]) ++ truncResult ty,
        { s with depth := s.depth - nreg - stack })
/-- push_args2, codegen.c:675-714: evaluates from right to left and pushes the arguments passed on the stack (`first`; index 8
and up) or in registers. -/
def genArgs (first : Bool) (i : Nat) : Exprs → GS → Option (List Instr × GS)
  | .nil, s => some ([], s)
  | .cons e r, s => do
    let (c1, s) ← genArgs first (i + 1) r s
    if (first && decide (i < 8)) || (!first && decide (8 ≤ i)) then some (c1, s)
    else
      let (c2, s) ← gen false e s
      some (c1 ++ c2 ++ pushI .a0, s.push)
end

end Toycc.Cg
