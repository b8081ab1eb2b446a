import Verif.Fp.Machine
import Verif.Cg.Model
/-!
Code generation for expressions with `float` and `double` operands: the floating-point parts of gen_expr, load, store, cast and
cmp_zero, codegen.c:74-101, 373-640, 964-1499. Subtrees without floating point are those of Verif.Cg.Model (`int`), so that calls,
bit-fields and aggregates may occur in them. Not modelled: floating-point arguments and results of calls (the registers they are
passed in are in Verif.Call), long double (Verif.Ld), statement expressions, atomics.
-/
namespace Toycc.Fp
open Toycc.Rv
open Toycc.Cg (GS Var BinOp)

/-- `node->ty`: float, double, or a type Verif.Cg.Model knows. -/
inductive Ty where
  | int (t : Cg.Ty)
  | flt (p : Prec)
  deriving DecidableEq, Repr

/-- AST nodes after add_type. -/
inductive Expr where
  /-- a tree without floating point -/
  | int (e : Cg.Expr)
  /-- ND_NUM of type float or double. Simplified: the conversion of `fval` by the host compiler is not modelled, the node carries
  the representation. -/
  | lit (p : Prec) (b : Bits p)
  | neg (t : Ty) (e : Expr)
  | var (t : Ty) (v : Var)
  /-- ND_MEMBER that is not a bit-field -/
  | member (t : Ty) (off : Int) (e : Expr)
  | deref (t : Ty) (e : Expr)
  | addr (e : Expr)
  | assign (t : Ty) (l r : Expr)
  | comma (l r : Expr)
  | cast (t : Ty) (e : Expr)
  | cond (t : Ty) (c a b : Expr)
  | not (e : Expr)
  | logand (l r : Expr)
  | logor (l r : Expr)
  | bin (op : BinOp) (t : Ty) (l r : Expr)

/-- `node->ty`. -/
def Expr.ty : Expr → Ty
  | .int e => .int e.ty
  | .lit p _ => .flt p
  | .neg t _ => t
  | .var t _ => t
  | .member t _ _ => t
  | .deref t _ => t
  | .addr _ => .int .ptr
  | .assign t _ _ => t
  | .comma _ r => r.ty
  | .cast t _ => t
  | .cond t _ _ _ => t
  | .not _ => .int (.int false)
  | .logand _ _ => .int (.int false)
  | .logor _ _ => .int (.int false)
  | .bin _ t _ _ => t

/-- Whether the left operand of an assignment is a bit-field, codegen.c:1081-1082. -/
def Expr.isBitfield : Expr → Bool
  | .int e => e.bitfield.isSome
  | _ => false

def lift (c : List Rv.Instr) : List Instr := c.map .int

/-- __push of fa0, codegen.c:74-87. -/
def pushF : List Instr := [.int (.addi .sp .sp (-8)), .fstore .d .fa0 0 .sp]

/-- __pop to fa1, codegen.c:89-101. -/
def popF : List Instr := [.fload .d .fa1 0 .sp, .int (.addi .sp .sp 8)]

/-- load, codegen.c:373-420. -/
def genLoad : Ty → List Instr
  | .flt p => [.fload p .fa0 0 .a0]
  | .int t => lift (Cg.genLoad t)

/-- store, codegen.c:423-471. -/
def genStore : Ty → List Instr
  | .flt p => lift (Cg.popI .a1) ++ [.fstore p .fa0 0 .a1]
  | .int t => lift (Cg.genStore t)

/-- The columns f32 and f64 of cast_matrix in the rows of the integer types, codegen.c:514-527, 574-582. -/
def ofIntKind : Cg.TypeId → IK
  | .i8 | .i16 | .i32 => .w
  | .i64 => .l
  | .u8 | .u16 | .u32 => .wu
  | .u64 => .lu

/-- The rows f32 and f64 of cast_matrix in the columns of the integer types, codegen.c:530-548, 584-585. -/
def toIntCode (p : Prec) : Cg.TypeId → List Instr
  | .i8 => .toInt p .w .a0 .fa0 :: lift (Cg.shiftExt false 56)
  | .i16 => .toInt p .w .a0 .fa0 :: lift (Cg.shiftExt false 48)
  | .i32 => [.toInt p .w .a0 .fa0]
  | .i64 => [.toInt p .l .a0 .fa0]
  | .u8 => .toInt p .wu .a0 .fa0 :: lift (Cg.shiftExt true 56)
  | .u16 => .toInt p .wu .a0 .fa0 :: lift (Cg.shiftExt true 48)
  | .u32 => [.toInt p .wu .a0 .fa0]
  | .u64 => [.toInt p .lu .a0 .fa0]

/-- cast, codegen.c:588-612. -/
def genCast (from_ to : Ty) : List Instr :=
  match to with
  | .int .void => []
  | .int .bool => [.int (.snez .a0 .a0)]
  | .int t => match from_ with
    | .int f => lift (Cg.genCast f t)
    | .flt p => toIntCode p (Cg.typeId t)
  | .flt q => match from_ with
    | .int f => [.ofInt q (ofIntKind (Cg.typeId f)) .fa0 .a0]
    | .flt p => if p = q then [] else [.fcvt q .fa0 .fa0]

/-- cmp_zero, codegen.c:614-640. -/
def cmpZero : Ty → List Instr
  | .flt p => [.fmvX p .fa1 .zero, .frel p .eq .a0 .fa0 .fa1]
  | .int _ => lift Cg.cmpZero

/-- The operators on float and double, codegen.c:1405-1445. `none`: error_tok. -/
def binF (p : Prec) : BinOp → Option (List Instr)
  | .add => some [.farith p .add .fa0 .fa0 .fa1]
  | .sub => some [.farith p .sub .fa0 .fa0 .fa1]
  | .mul => some [.farith p .mul .fa0 .fa0 .fa1]
  | .div => some [.farith p .div .fa0 .fa0 .fa1]
  | .eq => some [.frel p .eq .a0 .fa0 .fa1]
  | .ne => some [.frel p .eq .a0 .fa0 .fa1, .int (.seqz .a0 .a0)]
  | .lt => some [.frel p .lt .a0 .fa0 .fa1]
  | .le => some [.frel p .le .a0 .fa0 .fa1]
  | _ => none

/-- ND_NEG, codegen.c:1017-1044. -/
def genNeg : Ty → List Instr
  | .flt p => [.fneg p .fa0 .fa0]
  | .int t => [.int (if t.size = 8 then .neg .a0 .a0 else .negw .a0 .a0)]

def Ty.isStruct : Ty → Bool
  | .int t => t.isStruct
  | .flt _ => false

/-- gen_expr (`ad = false`), codegen.c:964-1583, and gen_addr (`ad = true`), codegen.c:235-368. `none`: error_tok or a node
outside the modelled part (assignment to a bit-field of a tree with floating point). -/
def gen (ad : Bool) : Expr → GS → Option (List Instr × GS)
  | .int e, s => (Cg.gen ad e s).map fun r => (lift r.1, r.2)
  | .lit p b, s => if ad then none else some ([.int (.li .a0 b.toNat), .fmvX p .fa0 .a0], s)
  | .neg t e, s =>
    if ad then none
    else do
      let (c, s) ← gen false e s
      some (c ++ genNeg t, s)
  | .var t v, s =>
    let (c, s) := Cg.varAddr v s
    some (if ad then lift c else lift c ++ genLoad t, s)
  | .member t off e, s => do
    let (c, s) ← gen true e s
    let a := c ++ lift (Cg.addOffset .a0 off)
    some (if ad then a else a ++ genLoad t, s)
  | .deref t e, s => do
    let (c, s) ← gen false e s
    some (if ad then c else c ++ genLoad t, s)
  | .addr e, s => if ad then none else gen true e s
  | .assign t l r, s =>
    if ad && !t.isStruct then some ([], s)
    else if l.isBitfield then none
    else do
      let (c1, s) ← gen true l s
      let (c2, s) ← gen false r s.push
      some (c1 ++ lift (Cg.pushI .a0) ++ c2 ++ genStore t, s.pop)
  | .comma l r, s => do
    let (c1, s) ← gen false l s
    let (c2, s) ← gen ad r s
    some (c1 ++ c2, s)
  | .cast t e, s =>
    if ad then none
    else do
      let (c, s) ← gen false e s
      some (c ++ genCast e.ty t, s)
  | .cond t c a b, s =>
    if ad && !t.isStruct then some ([], s)
    else do
      let k := s.cnt
      let (c0, s) ← gen false c s.next
      let (c1, s) ← gen false a s
      let (c2, s) ← gen false b s
      some (c0 ++ cmpZero c.ty ++ [.int (.bnez .a0 (Cg.lbl ".L.else" k))] ++ c1 ++
        [.int (.j (Cg.lbl ".L.end" k)), .int (.label (Cg.lbl ".L.else" k))] ++ c2 ++ [.int (.label (Cg.lbl ".L.end" k))], s)
  | .not e, s =>
    if ad then none
    else do
      let (c, s) ← gen false e s
      some (c ++ cmpZero e.ty, s)
  | .logand l r, s =>
    if ad then none
    else do
      let k := s.cnt
      let (c1, s) ← gen false l s.next
      let (c2, s) ← gen false r s
      some (c1 ++ cmpZero l.ty ++ [.int (.bnez .a0 (Cg.lbl ".L.false" k))] ++ c2 ++ cmpZero l.ty ++
        lift [.bnez .a0 (Cg.lbl ".L.false" k), .li .a0 1, .j (Cg.lbl ".L.end" k), .label (Cg.lbl ".L.false" k), .li .a0 0,
          .label (Cg.lbl ".L.end" k)], s)
  | .logor l r, s =>
    if ad then none
    else do
      let k := s.cnt
      let (c1, s) ← gen false l s.next
      let (c2, s) ← gen false r s
      some (c1 ++ cmpZero l.ty ++ [.int (.beqz .a0 (Cg.lbl ".L.true" k))] ++ c2 ++ cmpZero r.ty ++
        lift [.beqz .a0 (Cg.lbl ".L.true" k), .li .a0 0, .j (Cg.lbl ".L.end" k), .label (Cg.lbl ".L.true" k), .li .a0 1,
          .label (Cg.lbl ".L.end" k)], s)
  | .bin op t l r, s =>
    if ad then none
    else do
      let (c1, s) ← gen false r s
      match l.ty with
      | .flt p =>
        let (c2, s) ← gen false l s.push
        let o ← binF p op
        some (c1 ++ pushF ++ c2 ++ popF ++ o, s.pop)
      | .int lt =>
        let (c2, s) ← gen false l s.push
        match t with
        | .int ty => some (c1 ++ lift (Cg.pushI .a0) ++ c2 ++ lift (Cg.popI .a1) ++ lift (Cg.binInstrs op lt ty), s.pop)
        | .flt _ => none

end Toycc.Fp
