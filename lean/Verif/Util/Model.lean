import Verif.Common
/-
Models of string.c (string array), utils.c (equal, skip, llog2), and the alignment helpers of
codegen.c / parser/declarator.c. C `int` is modelled by `Int` without overflow.
-/
namespace Toycc.Util

/-! ### strarray_push -/

/-- struct StringArray: `cells` is the allocated array (`capacity` = its length, `data == NULL` is `[]`);
an unassigned cell is `none`. Freshly malloc'ed cells are also `none` (indeterminate in C; never read below `len`). -/
structure StrArray (S : Type) where
  cells : List (Option S)
  len : Nat
  deriving Repr

def StrArray.new {S : Type} : StrArray S := ⟨[], 0⟩

/-- strarray_push, string.c:23-39. `none` is the out-of-bounds store of line 38 (proved impossible). -/
def push {S : Type} (a : StrArray S) (s : S) : Option (StrArray S) :=
  let cells1 := if a.cells = [] then List.replicate 8 none else a.cells
  let cells2 := if cells1.length = a.len then cells1 ++ List.replicate cells1.length none else cells1
  if a.len < cells2.length then some ⟨cells2.set a.len (some s), a.len + 1⟩ else none

def pushAll {S : Type} (a : StrArray S) : List S → Option (StrArray S)
  | [] => some a
  | s :: r =>
    match push a s with
    | none => none
    | some a' => pushAll a' r

/-! ### alignment -/

/-- align_to, codegen.c:172-175. C division truncates towards zero; division by zero is `none`. -/
def alignTo (n align : Int) : Option Int :=
  if align = 0 then none else some ((n + align - 1).tdiv align * align)

/-- align_down, parser/declarator.c:168-171. -/
def alignDown (n align : Int) : Option Int := alignTo (n - align + 1) align

/-- The loop of llog2, utils.c:83-87, for `n` non-negative. `none` is the call of `error`. -/
def llog2Loop (n ret : Nat) : Option Nat :=
  if 1 < n then
    if n % 2 = 1 then none else llog2Loop (n / 2) (ret + 1)
  else some ret
termination_by n

/-- llog2, utils.c:79-90: a non-positive argument leaves the loop at once. -/
def llog2 (num : Int) : Option Nat := llog2Loop num.toNat 0

/-- beyond_instruction_offset, codegen.c:177-181. -/
def beyondInstructionOffset (off : Int) : Bool := decide (off > 2047 ∨ off < -2048)

/-! ### token comparison -/

/-- `memcmp(a, b, n) == 0`, reading byte by byte up to the first difference; `none` is a read outside
one of the two objects. -/
def memcmpEq : Nat → List UInt8 → List UInt8 → Option Bool
  | 0, _, _ => some true
  | n + 1, x :: a, y :: b => if x = y then memcmpEq n a b else some false
  | _ + 1, _, _ => none

/-- equal, utils.c:14-17: `!memcmp(tok->loc, op, tok->len) && !op[tok->len]`.
`buf` is the source buffer from `tok->loc` on, `op` a string without its terminating NUL. -/
def equal (buf : List UInt8) (len : Nat) (op : List UInt8) : Option Bool :=
  match memcmpEq len buf (op ++ [0]) with
  | none => none
  | some false => some false
  | some true =>
    match (op ++ [0])[len]? with
    | none => none
    | some c => some (c == 0)

end Toycc.Util
