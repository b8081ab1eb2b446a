import Verif.Common
/-! Type compatibility: is_compatible, type.c:183-240 (C31). -/
namespace Toycc.Types

inductive Basic where
  | void | bool | char (u : Bool) | short (u : Bool) | int (u : Bool) | long (u : Bool) | float | double | ldouble
  deriving DecidableEq, Repr

mutual
/-- A `struct Type` object with its address `id`. `copy` is the result of copy_type (type.c:242-248): a new object with
`origin` set; is_compatible looks only at its origin. `tagged` are structs, unions and enumerated types, `vla`
variable-length arrays (no structural comparison in is_compatible: `default`). -/
inductive Ty where
  | basic (id : Nat) (b : Basic)
  | ptr (id : Nat) (base : Ty)
  | func (id : Nat) (ret : Ty) (params : Tys) (variadic : Bool)
  | array (id : Nat) (base : Ty) (len : Int)
  | vla (id : Nat) (base : Ty)
  | tagged (id : Nat)
  | copy (id : Nat) (origin : Ty)
/-- The parameter list (`next` links). -/
inductive Tys where
  | nil
  | cons (t : Ty) (r : Tys)
end

def Ty.id : Ty → Nat
  | .basic i _ => i | .ptr i _ => i | .func i _ _ _ => i | .array i _ _ => i | .vla i _ => i | .tagged i => i | .copy i _ => i

/-- The switch of type.c:199-207 for kinds without components; `void`, `_Bool` fall in `default`. -/
def basicCompat : Basic → Basic → Bool
  | .char u, .char v => u == v
  | .short u, .short v => u == v
  | .int u, .int v => u == v
  | .long u, .long v => u == v
  | .float, .float => true
  | .double, .double => true
  | .ldouble, .ldouble => true
  | _, _ => false

mutual
/-- is_compatible, type.c:183-240. -/
def compat (t1 t2 : Ty) : Bool :=
  if t1.id = t2.id then true
  else match t1, t2 with
    | .copy _ o, t2 => compat o t2
    | t1, .copy _ o => compat t1 o
    | .basic _ b1, .basic _ b2 => basicCompat b1 b2
    | .ptr _ b1, .ptr _ b2 => compat b1 b2
    | .func _ r1 p1 v1, .func _ r2 p2 v2 =>
      if !compat r1 r2 then false else if v1 ≠ v2 then false else compatParams p1 p2
    | .array _ b1 n1, .array _ b2 n2 =>
      if !compat b1 b2 then false else decide (n1 ≥ 0) && decide (n2 ≥ 0) && decide (n1 = n2)
    | _, _ => false
termination_by sizeOf t1 + sizeOf t2
/-- The parameter loop, type.c:220-226. -/
def compatParams (p1 p2 : Tys) : Bool :=
  match p1, p2 with
  | .cons a r, .cons b s => if !compat a b then false else compatParams r s
  | .nil, .nil => true
  | _, _ => false
termination_by sizeOf p1 + sizeOf p2
end

/-! ### Specification: what a C type is, without addresses. -/

mutual
/-- A C type. Structs, unions, enumerated types are identified by their declaration; so are incomplete and
variable-length array types. -/
inductive CType where
  | basic (b : Basic)
  | ptr (base : CType)
  | func (ret : CType) (params : CTypes) (variadic : Bool)
  | array (base : CType) (len : Nat)
  | declared (id : Nat)
inductive CTypes where
  | nil
  | cons (t : CType) (r : CTypes)
end

mutual
/-- The C type an object stands for. -/
def erase : Ty → CType
  | .basic _ b => .basic b
  | .ptr _ b => .ptr (erase b)
  | .func _ r p v => .func (erase r) (eraseParams p) v
  | .array i b n => if 0 ≤ n then .array (erase b) n.toNat else .declared i
  | .vla i _ => .declared i
  | .tagged i => .declared i
  | .copy _ o => erase o
def eraseParams : Tys → CTypes
  | .nil => .nil
  | .cons t r => .cons (erase t) (eraseParams r)
end

mutual
/-- All type objects reachable from `t` (through origin, base, return and parameter links) are in `S`. -/
def Within (S : Ty → Prop) : Ty → Prop
  | .basic i b => S (.basic i b)
  | .ptr i b => S (.ptr i b) ∧ Within S b
  | .func i r p v => S (.func i r p v) ∧ Within S r ∧ WithinParams S p
  | .array i b n => S (.array i b n) ∧ Within S b
  | .vla i b => S (.vla i b) ∧ Within S b
  | .tagged i => S (.tagged i)
  | .copy i o => S (.copy i o) ∧ Within S o
def WithinParams (S : Ty → Prop) : Tys → Prop
  | .nil => True
  | .cons t r => Within S t ∧ WithinParams S r
end

/-- Type objects of one compilation: an address determines the object, and there is one object each for `void` and
`_Bool` (p_ty_void, p_ty_bool). -/
structure Heap (S : Ty → Prop) : Prop where
  addr : ∀ a b, S a → S b → a.id = b.id → a = b
  void : ∀ i j, S (.basic i .void) → S (.basic j .void) → i = j
  bool : ∀ i j, S (.basic i .bool) → S (.basic j .bool) → i = j

theorem Within.self {S : Ty → Prop} {t : Ty} (h : Within S t) : S t := by
  cases t <;> simp only [Within] at h
  · exact h
  · exact h.1
  · exact h.1
  · exact h.1
  · exact h.1
  · exact h
  · exact h.1

theorem basicCompat_iff (a b : Basic) : basicCompat a b = true ↔ a = b ∧ a ≠ .void ∧ a ≠ .bool := by
  cases a <;> cases b <;> simp [basicCompat]

mutual
theorem compat_iff {S : Ty → Prop} (H : Heap S) (t1 t2 : Ty) (h1 : Within S t1) (h2 : Within S t2) :
    compat t1 t2 = true ↔ erase t1 = erase t2 := by
  rw [compat.eq_def]
  by_cases hid : t1.id = t2.id
  · rw [if_pos hid]
    have := H.addr _ _ h1.self h2.self hid
    simp [this]
  rw [if_neg hid]
  match t1, t2 with
  | .copy i o, t2 =>
    simp only [Within] at h1
    simp only [erase]
    exact compat_iff H o t2 h1.2 h2
  | .basic i b, .copy j o =>
    simp only [Within] at h2
    simp only [erase]
    simpa only [erase] using compat_iff H (.basic i b) o h1 h2.2
  | .ptr i b, .copy j o =>
    simp only [Within] at h2
    simpa only [erase] using compat_iff H (.ptr i b) o h1 h2.2
  | .func i r p v, .copy j o =>
    simp only [Within] at h2
    simpa only [erase] using compat_iff H (.func i r p v) o h1 h2.2
  | .array i b n, .copy j o =>
    simp only [Within] at h2
    simpa only [erase] using compat_iff H (.array i b n) o h1 h2.2
  | .vla i b, .copy j o =>
    simp only [Within] at h2
    simpa only [erase] using compat_iff H (.vla i b) o h1 h2.2
  | .tagged i, .copy j o =>
    simp only [Within] at h2
    simpa only [erase] using compat_iff H (.tagged i) o h1 h2.2
  | .basic i b, .basic j c =>
    simp only [erase, CType.basic.injEq]
    rw [basicCompat_iff]
    constructor
    · exact fun h => h.1
    · rintro rfl
      refine ⟨rfl, ?_, ?_⟩
      · rintro rfl; exact hid (H.void i j h1.self h2.self)
      · rintro rfl; exact hid (H.bool i j h1.self h2.self)
  | .ptr i b, .ptr j c =>
    simp only [Within] at h1 h2
    simp only [erase, CType.ptr.injEq]
    exact compat_iff H b c h1.2 h2.2
  | .func i r p v, .func j s q w =>
    simp only [Within] at h1 h2
    simp only [erase, CType.func.injEq]
    have ih1 := compat_iff H r s h1.2.1 h2.2.1
    have ih2 := compatParams_iff H p q h1.2.2 h2.2.2
    cases hr : compat r s with
    | false =>
      rw [hr] at ih1
      simp only [Bool.not_false, if_true]
      constructor
      · intro h; cases h
      · rintro ⟨h, _⟩; exact absurd (ih1.mpr h) (by simp)
    | true =>
      simp only [Bool.not_true, Bool.false_eq_true, if_false]
      have e1 := ih1.mp hr
      by_cases hv : v = w
      · rw [if_neg (by simp [hv]), ih2]
        exact ⟨fun h => ⟨e1, h, hv⟩, fun h => h.2.1⟩
      · rw [if_pos hv]
        constructor
        · intro h; cases h
        · rintro ⟨_, _, h⟩; exact absurd h hv
  | .array i b n, .array j c m =>
    simp only [Within] at h1 h2
    have ih := compat_iff H b c h1.2 h2.2
    simp only [erase]
    cases hb : compat b c with
    | false =>
      rw [hb] at ih
      simp only [Bool.not_false, if_true]
      constructor
      · intro h; cases h
      · intro h
        split at h <;> split at h
        · simp only [CType.array.injEq] at h; exact absurd (ih.mpr h.1) (by simp)
        · cases h
        · cases h
        · simp only [CType.declared.injEq] at h; exact absurd h hid
    | true =>
      have e1 := ih.mp hb
      simp only [Bool.not_true, Bool.false_eq_true, if_false, Bool.and_eq_true, decide_eq_true_eq]
      constructor
      · rintro ⟨⟨a1, a2⟩, rfl⟩; rw [if_pos a1, e1]; simp [a1]
      · intro h
        split at h <;> split at h
        · simp only [CType.array.injEq] at h; omega
        · cases h
        · cases h
        · simp only [CType.declared.injEq] at h; exact absurd h hid
  | .vla i b, .vla j c => simp only [erase, CType.declared.injEq, Bool.false_eq_true, false_iff]; exact hid
  | .vla i b, .tagged j => simp only [erase, CType.declared.injEq, Bool.false_eq_true, false_iff]; exact hid
  | .tagged i, .vla j c => simp only [erase, CType.declared.injEq, Bool.false_eq_true, false_iff]; exact hid
  | .tagged i, .tagged j => simp only [erase, CType.declared.injEq, Bool.false_eq_true, false_iff]; exact hid
  | .array i b n, .vla j c =>
    simp only [erase]; split <;> simp only [CType.declared.injEq, reduceCtorEq, Bool.false_eq_true, false_iff, not_false_eq_true]
    exact hid
  | .array i b n, .tagged j =>
    simp only [erase]; split <;> simp only [CType.declared.injEq, reduceCtorEq, Bool.false_eq_true, false_iff, not_false_eq_true]
    exact hid
  | .vla i b, .array j c m =>
    simp only [erase]; split <;> simp only [CType.declared.injEq, reduceCtorEq, Bool.false_eq_true, false_iff, not_false_eq_true]
    exact hid
  | .tagged i, .array j c m =>
    simp only [erase]; split <;> simp only [CType.declared.injEq, reduceCtorEq, Bool.false_eq_true, false_iff, not_false_eq_true]
    exact hid
  | .array i b n, .basic j c => simp only [erase]; split <;> simp
  | .array i b n, .ptr j c => simp only [erase]; split <;> simp
  | .array i b n, .func j r p v => simp only [erase]; split <;> simp
  | .basic j c, .array i b n => simp only [erase]; split <;> simp
  | .ptr j c, .array i b n => simp only [erase]; split <;> simp
  | .func j r p v, .array i b n => simp only [erase]; split <;> simp
  | .basic i b, .ptr j c => simp [erase]
  | .basic i b, .func j r p v => simp [erase]
  | .basic i b, .vla j c => simp [erase]
  | .basic i b, .tagged j => simp [erase]
  | .ptr i b, .basic j c => simp [erase]
  | .ptr i b, .func j r p v => simp [erase]
  | .ptr i b, .vla j c => simp [erase]
  | .ptr i b, .tagged j => simp [erase]
  | .func i r p v, .basic j c => simp [erase]
  | .func i r p v, .ptr j c => simp [erase]
  | .func i r p v, .vla j c => simp [erase]
  | .func i r p v, .tagged j => simp [erase]
  | .vla i b, .basic j c => simp [erase]
  | .vla i b, .ptr j c => simp [erase]
  | .vla i b, .func j r p v => simp [erase]
  | .tagged i, .basic j c => simp [erase]
  | .tagged i, .ptr j c => simp [erase]
  | .tagged i, .func j r p v => simp [erase]
termination_by sizeOf t1 + sizeOf t2
theorem compatParams_iff {S : Ty → Prop} (H : Heap S) (p q : Tys) (h1 : WithinParams S p) (h2 : WithinParams S q) :
    compatParams p q = true ↔ eraseParams p = eraseParams q := by
  rw [compatParams.eq_def]
  match p, q with
  | .nil, .nil => simp [eraseParams]
  | .nil, .cons b s => simp [eraseParams]
  | .cons a r, .nil => simp [eraseParams]
  | .cons a r, .cons b s =>
    simp only [WithinParams] at h1 h2
    have ih1 := compat_iff H a b h1.1 h2.1
    have ih2 := compatParams_iff H r s h1.2 h2.2
    simp only [eraseParams, CTypes.cons.injEq]
    cases hc : compat a b with
    | false =>
      rw [hc] at ih1
      simp only [Bool.not_false, if_true]
      constructor
      · intro h; cases h
      · rintro ⟨h, _⟩; exact absurd (ih1.mpr h) (by simp)
    | true =>
      simp only [Bool.not_true, Bool.false_eq_true, if_false]
      rw [ih2]
      exact ⟨fun h => ⟨ih1.mp hc, h⟩, fun h => h.2⟩
termination_by sizeOf p + sizeOf q
end

/-- **C31** Two type objects of a compilation are compatible exactly if they denote the same C type. -/
theorem C31_compatible_iff {S : Ty → Prop} (H : Heap S) (t1 t2 : Ty) (h1 : Within S t1) (h2 : Within S t2) :
    compat t1 t2 = true ↔ erase t1 = erase t2 := compat_iff H t1 t2 h1 h2

/-- **C31** Compatibility is an equivalence relation on the type objects of a compilation. -/
theorem C31_equivalence {S : Ty → Prop} (H : Heap S) :
    (∀ t, Within S t → compat t t = true) ∧
    (∀ a b, Within S a → Within S b → compat a b = true → compat b a = true) ∧
    (∀ a b c, Within S a → Within S b → Within S c → compat a b = true → compat b c = true → compat a c = true) := by
  refine ⟨fun t h => (compat_iff H t t h h).mpr rfl, ?_, ?_⟩
  · intro a b ha hb h
    exact (compat_iff H b a hb ha).mpr ((compat_iff H a b ha hb).mp h).symm
  · intro a b c ha hb hc h1 h2
    exact (compat_iff H a c ha hc).mpr (((compat_iff H a b ha hb).mp h1).trans ((compat_iff H b c hb hc).mp h2))

/-- Non-vacuity: `int (*)(struct S, _Bool)` built twice, once through a copied `int`. -/
example : ∃ S, Heap S ∧ ∃ a b, Within S a ∧ Within S b ∧ a ≠ b ∧ compat a b = true := by
  let i := Ty.basic 1 (.int false)
  let s := Ty.tagged 2
  let bl := Ty.basic 3 .bool
  let ps := Tys.cons s (.cons bl .nil)
  let a := Ty.ptr 5 (.func 4 i ps false)
  let ci := Ty.copy 6 i
  let b := Ty.ptr 8 (.func 7 ci ps false)
  refine ⟨fun t => t = i ∨ t = s ∨ t = bl ∨ t = .func 4 i ps false ∨ t = a ∨ t = ci ∨ t = .func 7 ci ps false ∨ t = b, ⟨?_, ?_, ?_⟩, a, b, ?_, ?_, ?_, ?_⟩
  · rintro x y (rfl | rfl | rfl | rfl | rfl | rfl | rfl | rfl) (rfl | rfl | rfl | rfl | rfl | rfl | rfl | rfl) h <;>
      first | rfl | (simp [Ty.id, i, s, bl, a, b, ci] at h)
  · intro x y; simp [i, s, bl, a, b, ci]
  · intro x y; simp [i, s, bl, a, b, ci]; intro h1 h2; rw [h1, h2]
  · simp [Within, WithinParams, i, s, bl, a, b, ci, ps]
  · simp [Within, WithinParams, i, s, bl, a, b, ci, ps]
  · simp [a, b]
  · simp [a, b, ci, i, s, bl, ps, compat, compatParams, Ty.id]

end Toycc.Types
