import Verif.Layout.Model
/-! What a correct layout is, independent of how it is computed. -/
namespace Toycc.Layout

def Least (P : Int → Prop) (x : Int) : Prop := P x ∧ ∀ y, P y → x ≤ y

/-- A member that the compiler can handle: positive alignment, non-negative size; a bit-field has a type of positive size
and is not wider than it. -/
def Mem.Ok (m : Mem) : Prop :=
  0 ≤ m.size ∧ 0 < m.align ∧ ∀ w, m.width = some w → 0 < m.size ∧ 0 ≤ w ∧ w ≤ 8 * m.size

/-- First bit of a member. -/
def first (m : Mem) (p : Place) : Int :=
  match m.width with
  | none => 8 * p.offset
  | some _ => 8 * p.offset + p.bitOffset

/-- Number of bits of a member. -/
def extent (m : Mem) : Int :=
  match m.width with
  | none => 8 * m.size
  | some w => w

/-- The `w` bits from bit `s` lie in one storage unit of `n` bytes, units being aligned. -/
def InUnit (n s w : Int) : Prop := ∃ k, n * 8 * k ≤ s ∧ s + w ≤ n * 8 * (k + 1)

/-- Where the member `m` has to be put when all before bit `cur` is taken, and the bit after it (`cur'`). -/
inductive Follows (cur : Int) (m : Mem) (p : Place) (cur' : Int) : Prop
  /-- an ordinary member: the lowest aligned address -/
  | plain (h : m.width = none) (least : Least (fun o => m.align ∣ o ∧ cur ≤ 8 * o) p.offset)
      (next : cur' = 8 * (p.offset + m.size))
  /-- a bit-field: the lowest bit such that the field lies in one unit; `offset` is the address of that unit -/
  | bits (w : Int) (h : m.width = some w) (pos : 0 < w)
      (least : Least (fun s => cur ≤ s ∧ InUnit m.size s w) (8 * p.offset + p.bitOffset))
      (unit : m.size ∣ p.offset) (lo : 0 ≤ p.bitOffset) (hi : p.bitOffset + w ≤ 8 * m.size)
      (next : cur' = 8 * p.offset + p.bitOffset + w)
  /-- a bit-field of width 0: only closes the current unit -/
  | close (h : m.width = some 0) (least : Least (fun c => m.size * 8 ∣ c ∧ cur ≤ c) cur')

/-- All members are placed one after the other from bit `cur`; `fin` is the bit after the last. -/
inductive Laid : Int → List (Mem × Place) → Int → Prop
  | nil (cur : Int) : Laid cur [] cur
  | cons {cur mid fin : Int} {m : Mem} {p : Place} {r : List (Mem × Place)} :
      Follows cur m p mid → Laid mid r fin → Laid cur ((m, p) :: r) fin

/-- `a` is the largest of `a0` and the alignments of the members. -/
def MaxAlign (a0 : Int) (ms : List (Mem × Place)) (a : Int) : Prop :=
  a0 ≤ a ∧ (∀ x ∈ ms, x.1.align ≤ a) ∧ (a = a0 ∨ ∃ x ∈ ms, a = x.1.align)

end Toycc.Layout
