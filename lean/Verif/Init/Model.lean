import Verif.Low.Model
/-!
Initialisers after parsing: the tree of struct Initializer, the image of a static object (parser/initializer.c:622-737), and the data directives printed for it
(codegen.c:1891-1952). The evaluation of constant expressions is the subject of C42; here a leaf carries the results of eval2 and eval_double.
-/
namespace Toycc.Init
open Toycc.Cg Toycc.Low Toycc.Rv

mutual
/-- Types as far as initialisers are concerned. `scalar` is an integer, enumerated or pointer type; `struc` and `union` have a size and members. Arrays of
unknown length and flexible array members have got their length by then (initializer, initializer.c:505-530). -/
inductive Ty
  | scalar (t : CTy) | flt | dbl | ldbl
  | arr (b : Ty) (n : Nat)
  | struc (n : Nat) (ms : Mems)
  | union (n : Nat) (ms : Mems)
/-- Members in order (so that the nth has `idx` n, declarator.c:23-81): offset, bit offset and width of a bit-field, type. -/
inductive Mems
  | nil
  | cons (off : Nat) (bits : Option (Nat × Nat)) (t : Ty) (r : Mems)
end

/-- `ty->size`. -/
def Ty.size : Ty → Nat
  | .scalar t => t.size | .flt => 4 | .dbl => 8 | .ldbl => 16
  | .arr b n => b.size * n | .struc n _ => n | .union n _ => n

mutual
/-- struct Initializer (initializer.h): `expr`, `mem` (the index of the initialised member of a union) and `children`. `α` is what an expression is. -/
inductive Ini (α : Type)
  | mk (expr : Option α) (mem : Option Nat) (cs : Inis α)
inductive Inis (α : Type)
  | nil
  | cons (i : Ini α) (r : Inis α)
end

def Ini.expr {α : Type} : Ini α → Option α
  | .mk e _ _ => e

/-- Result of eval2 (parser/common.c:49-186): a number, or the address of a symbol plus a number. -/
inductive IVal
  | num (v : W)
  | sym (label : String) (addend : W)
  deriving DecidableEq

/-- A constant expression: what eval2, and eval_double converted to float and to double, give for it. -/
structure CVal where
  int : IVal
  f32 : BitVec 32 := 0
  f64 : W := 0
  deriving DecidableEq

/-- struct Relocation. -/
structure Reloc where
  offset : Nat
  label : String
  addend : W
  deriving DecidableEq

/-- The buffer malloc'd by gvar_initializer, and the list of relocations. -/
structure St where
  buf : Nat → BitVec 8
  rels : List Reloc

/-- Byte `k` of a number. -/
def byteOf (v : W) (k : Nat) : BitVec 8 := (v >>> (8 * k)).setWidth 8

/-- write_buf, initializer.c:622-634, on the little-endian host toycc is built for. `none`: unreachable(), or a write outside the buffer of `n` bytes. -/
def writeBuf (n : Nat) (buf : Nat → BitVec 8) (o : Nat) (v : W) (sz : Nat) : Option (Nat → BitVec 8) :=
  if (sz = 1 ∨ sz = 2 ∨ sz = 4 ∨ sz = 8) ∧ o + sz ≤ n then
    some (fun i => if o ≤ i ∧ i < o + sz then byteOf v (i - o) else buf i)
  else none

/-- The little-endian number in bytes `o .. o+n-1`. -/
def le (buf : Nat → BitVec 8) (o : Nat) : Nat → W
  | 0 => 0
  | n + 1 => (buf o).setWidth 64 ||| le buf (o + 1) n <<< 8

/-- read_buf, initializer.c:636-647; a single byte is read as a `char`, which is signed. -/
def readBuf (n : Nat) (buf : Nat → BitVec 8) (o sz : Nat) : Option W :=
  if (sz = 1 ∨ sz = 2 ∨ sz = 4 ∨ sz = 8) ∧ o + sz ≤ n then
    some (if sz = 1 then (buf o).signExtend 64 else le buf o sz)
  else none

/-- The bit-field case of write_gvar_data, initializer.c:664-679. `eval` does not accept the address of a symbol (it stores the label through a null pointer), and `1L << 64` is
undefined. -/
def writeBits (n : Nat) (st : St) (o : Nat) (bo bw : Nat) (sz : Nat) (e : CVal) : Option St :=
  match e.int with
  | .sym _ _ => none
  | .num v =>
    if bw < 64 then do
      let old ← readBuf n st.buf o sz
      let buf ← writeBuf n st.buf o (old ||| (v &&& (1#64 <<< bw - 1#64)) <<< bo) sz
      some { st with buf := buf }
    else none

/-- The scalar case of write_gvar_data, initializer.c:694-720. A long double goes the way of the integers, to write_buf with size 16. -/
def writeScalar (n : Nat) (st : St) (o : Nat) (t : Ty) (e : CVal) : Option St :=
  match t with
  | .flt => (writeBuf n st.buf o (e.f32.setWidth 64) 4).map fun b => { st with buf := b }
  | .dbl => (writeBuf n st.buf o e.f64 8).map fun b => { st with buf := b }
  | t =>
    match e.int with
    | .num v => (writeBuf n st.buf o v t.size).map fun b => { st with buf := b }
    | .sym l a => some { st with rels := st.rels ++ [⟨o, l, a⟩] }

mutual
/-- write_gvar_data, initializer.c:649-721, into a buffer of `n` bytes. `none`: a null pointer is used, unreachable() is reached or the buffer exceeded. -/
def write (n : Nat) : Ty → Ini CVal → Nat → St → Option St
  | .arr b k, .mk _ _ cs, o, st => writeArr n b k cs o st
  | .struc _ ms, .mk _ _ cs, o, st => writeMems n ms cs o st
  | .union _ _, .mk _ none _, _, st => some st
  | .union _ ms, .mk _ (some k) cs, o, st => writeNth n k ms cs o st
  | _, .mk none _ _, _, st => some st
  | t, .mk (some e) _ _, o, st => writeScalar n st o t e
/-- The loop over the elements of an array, initializer.c:654-659: `k` elements from offset `o`. -/
def writeArr (n : Nat) : Ty → Nat → Inis CVal → Nat → St → Option St
  | _, 0, _, _, st => some st
  | _, _ + 1, .nil, _, _ => none
  | b, k + 1, .cons c r, o, st => do
    let st ← write n b c o st
    writeArr n b k r (o + b.size) st
/-- The loop over the members of a struct, initializer.c:661-685: a bit-field without a value ends it. -/
def writeMems (n : Nat) : Mems → Inis CVal → Nat → St → Option St
  | .nil, _, _, st => some st
  | .cons _ _ _ _, .nil, _, _ => none
  | .cons off (some (bo, bw)) t r, .cons c cs, o, st =>
    match c.expr with
    | none => some st
    | some e => do
      let st ← writeBits n st (o + off) bo bw t.size e
      writeMems n r cs o st
  | .cons off none t r, .cons c cs, o, st => do
    let st ← write n t c (o + off) st
    writeMems n r cs o st
/-- The member of a union, initializer.c:687-692: written at the offset of the union, bit-field or not. -/
def writeNth (n : Nat) : Nat → Mems → Inis CVal → Nat → St → Option St
  | 0, .cons _ _ t _, .cons c _, o, st => write n t c o st
  | k + 1, .cons _ _ _ r, .cons _ cs, o, st => writeNth n k r cs o st
  | _, _, _, _, _ => none
end

/-- gvar_initializer, initializer.c:727-737, after parsing. `junk` is what malloc returns. -/
def gvarInit (ty : Ty) (ini : Ini CVal) (junk : Nat → BitVec 8) : Option St := write ty.size ty ini 0 ⟨junk, []⟩

/-- A data directive: `.byte` or `.quad label+addend`. -/
inductive Item
  | byte (b : BitVec 8)
  | quad (label : String) (addend : W)
  deriving DecidableEq

/-- The loop of emit_data, codegen.c:1923-1938, from position `pos` on. -/
def emit (size : Nat) (buf : Nat → BitVec 8) (rels : List Reloc) (pos : Nat) : List Item :=
  if _h : pos < size then
    match rels with
    | r :: rs =>
      if r.offset = pos then .quad r.label r.addend :: emit size buf rs (pos + 8)
      else .byte (buf pos) :: emit size buf rels (pos + 1)
    | [] => .byte (buf pos) :: emit size buf [] (pos + 1)
  else []
  termination_by size - pos

end Toycc.Init
