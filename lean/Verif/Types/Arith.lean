import Verif.Common
/-! Usual arithmetic conversions: get_common_type, type.c:293-323 (C30). -/
namespace Toycc.Types

/-- Arithmetic types of the compiler (type.c:3-73, 281-284). `u` is `is_unsigned`; an enumerated type is known by its
identity. -/
inductive Arith where
  | bool | char (u : Bool) | short (u : Bool) | int (u : Bool) | long (u : Bool) | enum (tag : Nat)
  | float | double | ldouble
  deriving DecidableEq, Repr

/-- `size`, type.c:3-73, 281-284 (sizes of the RISC-V 64 host; type.c uses the host's `sizeof`). -/
def Arith.size : Arith → Nat
  | .bool => 1 | .char _ => 1 | .short _ => 2 | .int _ => 4 | .long _ => 8 | .enum _ => 4
  | .float => 4 | .double => 8 | .ldouble => 16

/-- `is_unsigned`; `_Bool` and enumerated types have it false. -/
def Arith.unsigned : Arith → Bool
  | .char u => u | .short u => u | .int u => u | .long u => u | _ => false

/-- get_common_type, type.c:293-323, on arithmetic operands (`base` is NULL, the kind is not TY_FUNC). -/
def commonType (t1 t2 : Arith) : Arith :=
  if t1 = .ldouble ∨ t2 = .ldouble then .ldouble
  else if t1 = .double ∨ t2 = .double then .double
  else if t1 = .float ∨ t2 = .float then .float
  else
    let a := if t1.size < 4 then .int false else t1
    let b := if t2.size < 4 then .int false else t2
    if a.size ≠ b.size then (if a.size < b.size then b else a)
    else if b.unsigned then b
    else a

/-! ### Specification: C11 6.3.1.1 and 6.3.1.8 for LP64. -/

/-- Integer conversion rank (enumerated types are compatible with int). -/
def rank : Arith → Nat
  | .bool => 0 | .char _ => 1 | .short _ => 2 | .int _ => 3 | .enum _ => 3 | .long _ => 4 | _ => 5

def isFloating : Arith → Bool
  | .float => true | .double => true | .ldouble => true | _ => false

/-- Largest value of an integer type. -/
def maxValue : Arith → Nat
  | .bool => 1
  | .char u => if u then 2 ^ 8 - 1 else 2 ^ 7 - 1
  | .short u => if u then 2 ^ 16 - 1 else 2 ^ 15 - 1
  | .int u => if u then 2 ^ 32 - 1 else 2 ^ 31 - 1
  | .long u => if u then 2 ^ 64 - 1 else 2 ^ 63 - 1
  | .enum _ => 2 ^ 31 - 1
  | _ => 0

/-- Integer promotion: types of rank at most that of int become int if int holds all their values, else unsigned int. -/
def promote (t : Arith) : Arith :=
  if rank t ≤ 3 then (if maxValue t ≤ maxValue (.int false) then .int false else .int true) else t

/-- The unsigned type corresponding to a promoted type. -/
def toUnsigned : Arith → Arith
  | .int _ => .int true | .long _ => .long true | t => t

def usualArith (t1 t2 : Arith) : Arith :=
  if t1 = .ldouble ∨ t2 = .ldouble then .ldouble
  else if t1 = .double ∨ t2 = .double then .double
  else if t1 = .float ∨ t2 = .float then .float
  else
    let a := promote t1
    let b := promote t2
    if a = b then a
    else if a.unsigned = b.unsigned then (if rank a < rank b then b else a)
    else
      let (u, s) := if a.unsigned then (a, b) else (b, a)
      if rank s ≤ rank u then u
      else if maxValue u ≤ maxValue s then s
      else toUnsigned s

/-- An enumerated type stands for int. -/
def enumAsInt : Arith → Arith
  | .enum _ => .int false
  | t => t

/-- **C30** For operands that are not enumerated the common type is the one of C11, in both orders. -/
theorem C30_common_type (t1 t2 : Arith) (h1 : ∀ n, t1 ≠ .enum n) (h2 : ∀ n, t2 ≠ .enum n) :
    commonType t1 t2 = usualArith t1 t2 ∧ commonType t2 t1 = commonType t1 t2 := by
  cases t1 with
  | enum n => exact absurd rfl (h1 n)
  | bool => cases t2 with
    | enum n => exact absurd rfl (h2 n)
    | bool => decide
    | float => decide
    | double => decide
    | ldouble => decide
    | _ u => cases u <;> decide
  | float => cases t2 with
    | enum n => exact absurd rfl (h2 n)
    | bool => decide
    | float => decide
    | double => decide
    | ldouble => decide
    | _ u => cases u <;> decide
  | double => cases t2 with
    | enum n => exact absurd rfl (h2 n)
    | bool => decide
    | float => decide
    | double => decide
    | ldouble => decide
    | _ u => cases u <;> decide
  | ldouble => cases t2 with
    | enum n => exact absurd rfl (h2 n)
    | bool => decide
    | float => decide
    | double => decide
    | ldouble => decide
    | _ u => cases u <;> decide
  | _ u => cases u <;> cases t2 with
    | enum n => exact absurd rfl (h2 n)
    | bool => decide
    | float => decide
    | double => decide
    | ldouble => decide
    | _ u => cases u <;> decide

/-- **C30** (partial: enumerated operands) With enumerated operands the common type has the size, signedness and
conversion rank of the C11 one; it may be the enumerated type itself instead of int. Missing: that it is exactly int. -/
theorem C30_enum_partial (t1 t2 : Arith) : enumAsInt (commonType t1 t2) = usualArith t1 t2 := by
  have key : ∀ t : Arith, (∃ n, t = .enum n) ∨ ∀ n, t ≠ .enum n := by
    intro t; cases t with
    | enum n => left; exact ⟨n, rfl⟩
    | _ => right; intro n h; cases h
  have ne : ∀ a b : Arith, (∀ n, a ≠ .enum n) → (∀ n, b ≠ .enum n) → enumAsInt (commonType a b) = usualArith a b := by
    intro a b ha hb
    rw [(C30_common_type a b ha hb).1]
    revert ha hb
    cases a <;> cases b <;> intro ha hb <;>
      first
      | exact absurd rfl (ha _)
      | exact absurd rfl (hb _)
      | decide
      | (rename_i u v; cases u <;> cases v <;> decide)
      | (rename_i u; cases u <;> decide)
  rcases key t1 with ⟨n, rfl⟩ | h1 <;> rcases key t2 with ⟨m, rfl⟩ | h2
  · simp [commonType, usualArith, Arith.size, Arith.unsigned, enumAsInt, promote, rank, maxValue]
  · cases t2 <;> first
      | exact absurd rfl (h2 _)
      | (rename_i u; cases u <;> simp [commonType, usualArith, Arith.size, Arith.unsigned, enumAsInt, promote, rank, maxValue, toUnsigned])
      | simp [commonType, usualArith, Arith.size, Arith.unsigned, enumAsInt, promote, rank, maxValue, toUnsigned]
  · cases t1 <;> first
      | exact absurd rfl (h1 _)
      | (rename_i u; cases u <;> simp [commonType, usualArith, Arith.size, Arith.unsigned, enumAsInt, promote, rank, maxValue, toUnsigned])
      | simp [commonType, usualArith, Arith.size, Arith.unsigned, enumAsInt, promote, rank, maxValue, toUnsigned]
  · exact ne t1 t2 h1 h2

example : commonType (.int true) (.long false) = .long false ∧ commonType (.char true) (.short false) = .int false ∧
    commonType (.long false) (.long true) = .long true ∧ commonType (.float) (.long true) = .float := by decide

/-- **C30** is violated with enumerated operands: the result is the enumerated type or int depending on the order. -/
theorem C30_violated (n : Nat) : commonType (.enum n) (.int false) = .enum n ∧ commonType (.int false) (.enum n) = .int false ∧
    usualArith (.enum n) (.int false) = .int false := by
  simp [commonType, usualArith, Arith.size, Arith.unsigned, promote, rank, maxValue]

end Toycc.Types
