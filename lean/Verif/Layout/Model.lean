import Verif.Util.Model
/-! Struct and union layout: struct_decl and union_decl, parser/declarator.c:174-245. C `int` is `Int` (no overflow). -/
namespace Toycc.Layout
open Toycc.Util

/-- A member as read by struct_members (parser/declarator.c:23-81): size and alignment (`_Alignas` or the type's) and,
for a bit-field, its width. -/
structure Mem where
  size : Int
  align : Int
  width : Option Int := none
  deriving DecidableEq, Repr

/-- `offset` and `bit_offset` of struct Member (zero from calloc). -/
structure Place where
  offset : Int := 0
  bitOffset : Int := 0
  deriving DecidableEq, Repr

/-- The fields of struct Type that the two functions read and write. -/
structure Agg where
  isUnion : Bool := false
  size : Int := 0
  align : Int := 1
  packed : Bool := false
  members : List (Mem × Place)
  deriving DecidableEq, Repr

/-- One iteration over a bit-field, parser/declarator.c:185-209: the new place and the new value of `bits`.
`none` is a division by zero. -/
def placeBits (bits : Int) (m : Mem) (w : Int) (p : Place) : Option (Place × Int) :=
  if w = 0 then
    match alignTo bits (m.size * 8) with
    | none => none
    | some b => some (p, b)
  else if m.size = 0 then none
  else
    let crossing := bits.tdiv (m.size * 8) ≠ (bits + w - 1).tdiv (m.size * 8)
    match (if crossing then alignTo bits (m.size * 8) else some bits) with
    | none => none
    | some b =>
      match alignDown (b.tdiv 8) m.size with
      | none => none
      | some off => some (⟨off, b.tmod (m.size * 8)⟩, b + w)

/-- One iteration over an ordinary member, parser/declarator.c:211-215. -/
def placePlain (packed : Bool) (bits : Int) (m : Mem) (p : Place) : Option (Place × Int) :=
  match (if packed then some bits else alignTo bits (m.align * 8)) with
  | none => none
  | some b => some ({ p with offset := b.tdiv 8 }, b + m.size * 8)

def placeOne (packed : Bool) (bits : Int) (m : Mem) (p : Place) : Option (Place × Int) :=
  match m.width with
  | some w => placeBits bits m w p
  | none => placePlain packed bits m p

/-- The loop of struct_decl, parser/declarator.c:182-220: the placed members, `bits` and `ty->align` at the end. -/
def placeAll (packed : Bool) (bits align : Int) : List (Mem × Place) → Option (List (Mem × Place) × Int × Int)
  | [] => some ([], bits, align)
  | (m, p) :: r =>
    match placeOne packed bits m p with
    | none => none
    | some (p', bits') =>
      match placeAll packed bits' (if packed = false ∧ align < m.align then m.align else align) r with
      | none => none
      | some (r', b, a) => some ((m, p') :: r', b, a)

/-- struct_decl after struct_union_decl returned `t`, parser/declarator.c:176-222. It runs on every mention of the type,
not only on its definition. -/
def structDecl (t : Agg) : Option Agg :=
  if t.size < 0 then some { t with isUnion := false }
  else
    match placeAll t.packed 0 t.align t.members with
    | none => none
    | some (ms, bits, a) =>
      match alignTo bits (a * 8) with
      | none => none
      | some n => some { t with isUnion := false, size := n.tdiv 8, align := a, members := ms }

/-- The loop of union_decl, parser/declarator.c:236-241. -/
def unionMax (align size : Int) : List (Mem × Place) → Int × Int
  | [] => (align, size)
  | (m, _) :: r => unionMax (if align < m.align then m.align else align) (if size < m.size then m.size else size) r

/-- union_decl after struct_union_decl returned `t`, parser/declarator.c:227-245. -/
def unionDecl (t : Agg) : Option Agg :=
  if t.size < 0 then some { t with isUnion := true }
  else
    let (a, s) := unionMax t.align t.size t.members
    match alignTo s a with
    | none => none
    | some n => some { t with isUnion := true, size := n, align := a }

end Toycc.Layout
