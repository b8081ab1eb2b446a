import Verif.Low.Plain
import Verif.Low.Model
/-! Types: what toycc computes against C. -/
namespace Toycc.Low
open Toycc.Cg

/-- Common type of two types at least as wide as int. -/
def cm : CTy → CTy → CTy
  | .long u, .long v => .long (u || v)
  | .long u, _ => .long u
  | _, .long u => .long u
  | .int u, .int v => .int (u || v)
  | t, _ => t

def ints : List CTy :=
  [.bool, .char false, .char true, .short false, .short true, .int false, .int true, .long false, .long true, .enum]

theorem mem_ints {t : CTy} (h : t.isInt = true) : t ∈ ints := by
  cases t <;> simp [CTy.isInt] at h <;> (try (rename_i u; cases u)) <;> simp [ints]

theorem common_ints : ∀ t1 ∈ ints, ∀ t2 ∈ ints,
    (common t1 t2).wide = cm t1.wide t2.wide ∧ (common t1 t2).isInt = true ∧ (common t1 t2).narrow = false := by decide +kernel

theorem usual_ints : ∀ t1 ∈ ints, ∀ t2 ∈ ints, usual t1 t2 = some (cm t1.wide t2.wide) ∧ (cm t1.wide t2.wide).isInt = true ∧
    (cm t1.wide t2.wide).wide = cm t1.wide t2.wide ∧ (cm t1.wide t2.wide).narrow = false := by decide +kernel

theorem prom_ints : ∀ t ∈ ints, prom t = some t.wide ∧ t.wide.isInt = true ∧ t.wide.wide = t.wide ∧ t.wide.narrow = false ∧ t.base = none ∧ t.decay = t ∧
    t ≠ .void ∧ t.low ≠ .void ∧ t.low.scalar = true := by decide +kernel

theorem prom_some {t c : CTy} (h : prom t = some c) : t.isInt = true ∧ c = t.wide := by
  have : t.isInt = true := by cases t <;> simp [prom, CTy.arith] at h <;> rfl
  exact ⟨this, by have := (prom_ints t (mem_ints this)).1; rw [h] at this; exact Option.some.inj this⟩

theorem usual_some {t1 t2 c : CTy} (h : usual t1 t2 = some c) : t1.isInt = true ∧ t2.isInt = true ∧ c = cm t1.wide t2.wide := by
  have h1 : t1.isInt = true := by cases t1 <;> simp [usual, CTy.arith] at h <;> rfl
  have h2 : t2.isInt = true := by cases t2 <;> cases t1 <;> simp [usual, CTy.arith] at h <;> rfl
  exact ⟨h1, h2, by have := (usual_ints t1 (mem_ints h1) t2 (mem_ints h2)).1; rw [h] at this; exact Option.some.inj this⟩

theorem conv_wide {t : CTy} (h : t.isInt = true) (hn : t.narrow = false) (v : Int) : convC t.low v = convC t.wide.low v := by
  cases t <;> simp [CTy.isInt, CTy.narrow] at h hn <;> rfl

theorem binC_wide {t : CTy} (h : t.isInt = true) (op : BinOp) (x y : Int) : binC op t.low x y = binC op t.wide.low x y := by
  cases t <;> simp [CTy.isInt] at h <;> cases op <;> rfl

theorem binC_int (op : BinOp) (h : BinOp.cmp op = true) (t t' : Ty) (x y : Int) : binC op t x y = binC op t' x y := by
  cases op <;> simp [BinOp.cmp] at h <;> rfl

theorem arithC_wide {t : CTy} (h : t.isInt = true) (x : Int) : arithC (promote t.low) x = arithC t.wide.low x := by
  cases t <;> simp [CTy.isInt] at h <;> rfl

theorem convP_wide {t : CTy} (h : t.isInt = true) (x : Int) : convC (promote t.low) x = convC t.wide.low x := by
  cases t <;> simp [CTy.isInt] at h <;> rfl

/-- The relation between the types. -/
def Rel (t c : CTy) : Prop := t = c ∨ (t.isInt = true ∧ c.isInt = true ∧ t.wide = c.wide)

theorem Rel.refl (t : CTy) : Rel t t := .inl rfl

theorem relB_iff {t c : CTy} : relB t c = true ↔ Rel t c := by
  simp [relB, Rel, and_assoc]

theorem Rel.int {t c : CTy} (h : Rel t c) : t.isInt = c.isInt := by
  rcases h with rfl | ⟨h1, h2, -⟩
  · rfl
  · rw [h1, h2]

theorem Rel.wide {t c : CTy} (h : Rel t c) : t.wide = c.wide := by
  rcases h with rfl | ⟨-, -, h⟩
  · rfl
  · exact h

theorem Rel.eq {t c : CTy} (h : Rel t c) (hn : t.isInt = false ∨ c.isInt = false) : t = c := by
  rcases h with h | ⟨h1, h2, -⟩
  · exact h
  · rcases hn with hn | hn
    · rw [hn] at h1; cases h1
    · rw [hn] at h2; cases h2

theorem Rel.of_int {t c : CTy} (h1 : t.isInt = true) (h2 : c.isInt = true) (h : t.wide = c.wide) : Rel t c := .inr ⟨h1, h2, h⟩

theorem base_int {t : CTy} (h : t.isInt = true) : t.base = none := (prom_ints t (mem_ints h)).2.2.2.2.1
theorem decay_int {t : CTy} (h : t.isInt = true) : t.decay = t := (prom_ints t (mem_ints h)).2.2.2.2.2.1
theorem low_int {t : CTy} (h : t.isInt = true) : t.low ≠ .void ∧ t.low.scalar = true := (prom_ints t (mem_ints h)).2.2.2.2.2.2.2

theorem Rel.base {t c : CTy} (h : Rel t c) : t.base = c.base := by
  rcases h with rfl | ⟨h1, h2, -⟩
  · rfl
  · rw [base_int h1, base_int h2]

theorem common_base {t1 t2 b : CTy} (h : t1.base = some b) : common t1 t2 = .ptr b := by
  unfold common; rw [h]

theorem common_int_ptr {t b : CTy} (h : t.isInt = true) : common t (.ptr b) = .ptr b := by
  have hb := base_int h
  unfold common
  rw [hb]
  cases t <;> simp [CTy.isInt] at h <;> rfl

theorem common_int_func {t r : CTy} (h : t.isInt = true) : common t (.func r) = .ptr (.func r) := by
  have hb := base_int h
  unfold common
  rw [hb]
  cases t <;> simp [CTy.isInt] at h <;> rfl

theorem common_func {t r : CTy} : common (.func r) t = .ptr (.func r) := by
  cases t <;> rfl

theorem scalar_cases {t : CTy} (h : t.scalar = true) : t.isInt = true ∨ ∃ b, t = .ptr b := by
  cases t <;> simp [CTy.scalar, CTy.isInt] at h ⊢

theorem scalar_low {t : CTy} (h : t.scalar = true) : t.low.scalar = true ∧ t.low ≠ .void ∧ t ≠ .void := by
  rcases scalar_cases h with h | ⟨b, rfl⟩
  · exact ⟨(low_int h).2, (low_int h).1, by rintro rfl; cases h⟩
  · exact ⟨rfl, by simp [CTy.low], by simp⟩

theorem decay_scalar {t : CTy} (h : t.decay.scalar = true) : t.isInt = true ∨ (∃ b, t = .ptr b) ∨ (∃ b n, t = .arr b n) ∨ ∃ r, t = .func r := by
  cases t <;> simp [CTy.decay, CTy.scalar, CTy.isInt] at h ⊢

end Toycc.Low
