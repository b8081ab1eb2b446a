import Verif.Ety.Proof
/-! C91: the types of expressions. -/
namespace Toycc.Ety
open Toycc.Types (Arith)

/-- **C91** (partial: without the exceptions of `Tame`). An expression that satisfies the constraints of C gets the type C gives it, whatever its depth: no diagnostic, no
crash, no other type. -/
theorem C91_types_partial (e : E) (t : Ty) (hc : cType e = some t) (ht : Tame e = true) : addType e = .ok t := addType_ok e t ht hc

/-- **C91** `sizeof e` is the size of the type of `e` in C. -/
theorem C91_sizeof_partial (e : E) (t : Ty) (hc : cType e = some t) (ht : Tame e = true) : sizeofE e = some t.size := by
  unfold sizeofE
  rw [addType_ok e t ht hc]

/-! ### Where the code differs from C -/

def charT : Ty := .arith (.char false)

/-- `+c`, `~c` and `c << 1` have type char for a char `c`, not int: `sizeof(~c)` is 1. -/
theorem C91_violated_promotion : (sizeofE (.pos (.var charT)) = some 1 ∧ sizeofE (.bitnot (.var charT)) = some 1 ∧ sizeofE (.shift (.var charT) (.num (.int false) false)) = some 1) ∧
    cType (.pos (.var charT)) = some int ∧ cType (.bitnot (.var charT)) = some int ∧ cType (.shift (.var charT) (.num (.int false) false)) = some int := by decide

/-- `s.b - 5` has type unsigned int for an unsigned bit-field of 3 bits; in C it is an int. -/
theorem C91_violated_bitfield : addType (.sub (.bits (.var (.struc 0 4)) true 3) (.num (.int false) false)) = .ok (.arith (.int true)) ∧
    cType (.sub (.bits (.var (.struc 0 4)) true 3) (.num (.int false) false)) = some int := by decide

/-- `(0, a)` is an array for an array `a`: `sizeof` gives the size of the array, not that of a pointer. -/
theorem C91_violated_comma (n : Nat) : sizeofE (.comma (.num (.int false) true) (.var (.arr charT n))) = some n ∧
    cType (.comma (.num (.int false) true) (.var (.arr charT n))) = some (.ptr charT) := by
  refine ⟨?_, rfl⟩
  show some (1 * n) = some n
  rw [Nat.one_mul]

/-- `&a` points to an element, so that `sizeof *&a` is the size of an element. -/
theorem C91_violated_addr (n : Nat) : sizeofE (.deref (.addr (.var (.arr charT n)))) = some 1 ∧ cType (.deref (.addr (.var (.arr charT n)))) = some (.arr charT n) := ⟨rfl, rfl⟩

/-- `c ? s : s` is an int for a structure of fewer than four bytes. -/
theorem C91_violated_struct : addType (.cond (.num (.int false) false) (.var (.struc 0 2)) (.var (.struc 0 2))) = .ok int ∧
    cType (.cond (.num (.int false) false) (.var (.struc 0 2)) (.var (.struc 0 2))) = some (.struc 0 2) := by decide

/-- `c ? 0 : a` is an int for an array of three characters, an array for one of nine. -/
theorem C91_violated_null_array : addType (.cond (.num (.int false) false) (.num (.int false) true) (.var (.arr charT 3))) = .ok int ∧
    addType (.cond (.num (.int false) false) (.num (.int false) true) (.var (.arr charT 9))) = .ok (.arr charT 9) ∧
    cType (.cond (.num (.int false) false) (.num (.int false) true) (.var (.arr charT 3))) = some (.ptr charT) := by decide

/-- `c ? (void *)0 : p` has type `void *`, and `c ? p : v` the type of `p`, for `int *p; void *v`; in C they have types `int *` and `void *`. -/
theorem C91_violated_void_pointer : addType (.cond (.num (.int false) false) (.cast (.ptr .void) (.num (.int false) true)) (.var (.ptr int))) = .ok (.ptr .void) ∧
    cType (.cond (.num (.int false) false) (.cast (.ptr .void) (.num (.int false) true)) (.var (.ptr int))) = some (.ptr int) ∧
    addType (.cond (.num (.int false) false) (.var (.ptr int)) (.var (.ptr .void))) = .ok (.ptr int) ∧
    cType (.cond (.num (.int false) false) (.var (.ptr int)) (.var (.ptr .void))) = some (.ptr .void) := by decide

/-- `&*v` is rejected for `void *v`. -/
theorem C91_violated_void_deref : addType (.addr (.deref (.var (.ptr .void)))) = .err ∧ cType (.addr (.deref (.var (.ptr .void)))) = some (.ptr .void) := by decide

/-- Violations of constraints that are not diagnosed: `1 - p`, `p + 1.5`; and the compiler uses a null pointer on `s + 1` and `s - 1` for a structure `s`. -/
theorem C91_unchecked : cType (.sub (.num (.int false) false) (.var (.ptr int))) = none ∧ addType (.sub (.num (.int false) false) (.var (.ptr int))) = .ok (.ptr int) ∧
    cType (.add (.var (.ptr int)) (.num .double false)) = none ∧ addType (.add (.var (.ptr int)) (.num .double false)) = .ok (.ptr int) ∧
    addType (.add (.var (.struc 0 8)) (.num (.int false) false)) = .crash ∧ addType (.sub (.var (.struc 0 8)) (.num (.int false) false)) = .crash := by decide

/-! ### The hypotheses are met -/

/-- `*(c ? a + i : 0) * 1.5f - -u`, for `int a[4]; long i; unsigned char u`: a float. -/
example :
    let e : E := .sub (.bin .mul (.deref (.cond (.var int) (.add (.var (.arr int 4)) (.var (.arith (.long false)))) (.num (.int false) true))) (.num .float false)) (.neg (.var (.arith (.char true))))
    cType e = some (.arith .float) ∧ Tame e = true ∧ sizeofE e = some 4 := by decide

/-- `(*f)()`, `f()` and `(&f)()` for a function that returns a pointer to a structure; `(p - q) / 2` is a long; `sizeof a`. -/
example :
    let f : E := .var (.fn (.ptr (.struc 3 24)) 7)
    let e : E := .bin .div (.sub (.var (.ptr int)) (.var (.arr int 5))) (.num (.int false) false)
    (∀ g ∈ [f, .deref f, .addr f], cType (.call g) = some (.ptr (.struc 3 24)) ∧ Tame (.call g) = true) ∧
    cType e = some (.arith (.long false)) ∧ Tame e = true ∧ sizeofE (.deref (.call f)) = some 24 ∧ sizeofE (.var (.arr int 5)) = some 20 := by decide

end Toycc.Ety
