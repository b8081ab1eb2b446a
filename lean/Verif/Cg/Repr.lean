import Verif.Cg.StrictLemmas
/-! Registers representing values, and the arithmetic instructions on them. -/
namespace Toycc.Cg
open Toycc.Rv

/-- Register content `x` represents the value `v` in the manner `f`. -/
def Rep (f : Ext) (v : Int) (x : W) : Prop :=
  match f with
  | .full => x = BitVec.ofInt 64 v ∧ -(2 ^ 63) ≤ v ∧ v < 2 ^ 64
  | .sext => x = sext32 (BitVec.ofInt 32 v) ∧ 0 ≤ v ∧ v < 2 ^ 32
  | .low => lo x = BitVec.ofInt 32 v ∧ 0 ≤ v ∧ v < 2 ^ 32
  | .junk => True

theorem range4 {t : Ty} (ht : t.scalar = true) (hs : t.size = 4) {a : Int} (h : inRange t a = true) :
    if t.unsigned then 0 ≤ a ∧ a < 2 ^ 32 else -(2 ^ 31) ≤ a ∧ a < 2 ^ 31 := by
  cases t with
  | int u => cases u <;> exact of_decide_eq_true h
  | enum => exact of_decide_eq_true h
  | _ => simp [Ty.size, Ty.scalar] at ht hs

theorem range8 {t : Ty} (ht : t.scalar = true) (hs : t.size = 8) {a : Int} (h : inRange t a = true) :
    if t.unsigned then 0 ≤ a ∧ a < 2 ^ 64 else -(2 ^ 63) ≤ a ∧ a < 2 ^ 63 := by
  cases t with
  | long u => cases u <;> exact of_decide_eq_true h
  | ptr => exact of_decide_eq_true h
  | _ => simp [Ty.size, Ty.scalar] at ht hs

theorem ofInt_congr {n : Nat} {a b : Int} (h : a % (2 ^ n : Nat) = b % (2 ^ n : Nat)) : BitVec.ofInt n a = BitVec.ofInt n b := by
  apply BitVec.eq_of_toNat_eq
  rw [BitVec.toNat_ofInt, BitVec.toNat_ofInt, h]

theorem ofInt_sub {n : Nat} (a b : Int) : BitVec.ofInt n (a - b) = BitVec.ofInt n a - BitVec.ofInt n b := by
  rw [Int.sub_eq_add_neg, BitVec.ofInt_add, BitVec.ofInt_neg, BitVec.sub_eq_add_neg]

theorem toInt_ofInt_of_range {n : Nat} {v : Int} (h1 : -((2 ^ n : Nat) / 2 : Int) ≤ v) (h2 : v < ((2 ^ n : Nat) + 1 : Int) / 2) :
    (BitVec.ofInt n v).toInt = v := by
  rw [BitVec.toInt_ofInt]; exact Int.bmod_eq_of_le h1 h2

theorem toInt64 {v : Int} (h1 : -(2 ^ 63) ≤ v) (h2 : v < 2 ^ 63) : (BitVec.ofInt 64 v).toInt = v :=
  toInt_ofInt_of_range (by omega) (by omega)

theorem toInt32 {v : Int} (h1 : -(2 ^ 31) ≤ v) (h2 : v < 2 ^ 31) : (BitVec.ofInt 32 v).toInt = v :=
  toInt_ofInt_of_range (by omega) (by omega)

theorem toNat64 {v : Int} (h1 : 0 ≤ v) (h2 : v < 2 ^ 64) : ((BitVec.ofInt 64 v).toNat : Int) = v := by
  rw [BitVec.toNat_ofInt]; omega

theorem toNat32 {v : Int} (h1 : 0 ≤ v) (h2 : v < 2 ^ 32) : ((BitVec.ofInt 32 v).toNat : Int) = v := by
  rw [BitVec.toNat_ofInt]; omega

theorem lo_ofInt (v : Int) : lo (BitVec.ofInt 64 v) = BitVec.ofInt 32 v := by
  apply BitVec.eq_of_toNat_eq
  rw [lo, BitVec.toNat_setWidth, BitVec.toNat_ofInt, BitVec.toNat_ofInt]
  omega

theorem lo_sext32 (x : BitVec 32) : lo (sext32 x) = x := by
  apply BitVec.eq_of_getLsbD_eq
  intro i hi
  rw [lo, BitVec.getLsbD_setWidth, sext32, BitVec.getLsbD_signExtend]
  simp only [hi, decide_true, if_true, Bool.true_and]
  rw [decide_eq_true (by omega), Bool.true_and]

theorem sext32_ofInt {v : Int} (h1 : -(2 ^ 31) ≤ v) (h2 : v < 2 ^ 31) : sext32 (BitVec.ofInt 32 v) = BitVec.ofInt 64 v := by
  apply BitVec.eq_of_toInt_eq
  rw [sext32, BitVec.toInt_signExtend_of_le (by omega), toInt32 h1 h2, toInt64 (by omega) (by omega)]

theorem Rep.lo {f : Ext} {v : Int} {x : W} (h : Rep f v x) (hf : f ≠ .junk) : Rv.lo x = BitVec.ofInt 32 v := by
  cases f <;> simp only [Rep] at h
  · rw [h.1, lo_ofInt]
  · rw [h.1, lo_sext32]
  · exact h.1
  · exact absurd rfl hf

theorem Rep.full {v : Int} {x : W} (h : Rep .full v x) : x = BitVec.ofInt 64 v := h.1

/-- A register that can be tested is zero exactly if the value is. -/
theorem Rep.zero {f : Ext} {v : Int} {x : W} (h : Rep f v x) (hf : f.testable = true) : x = 0 ↔ v = 0 := by
  have key : ∀ {n : Nat} (v : Int), -((2 ^ n : Nat) : Int) < v → v < (2 ^ n : Nat) → (BitVec.ofInt n v = 0 ↔ v = 0) := by
    intro n v h1 h2
    constructor
    · intro e
      have e := congrArg BitVec.toNat e
      rw [BitVec.toNat_ofInt] at e
      simp only [BitVec.ofNat_eq_ofNat, BitVec.toNat_ofNat, Nat.zero_mod] at e
      have hp : (0 : Int) < (2 ^ n : Nat) := by
        have := Nat.two_pow_pos n; omega
      have := Int.emod_nonneg v (Int.ne_of_gt hp)
      have h0 : v % (2 ^ n : Nat) = 0 := by omega
      have := Int.dvd_of_emod_eq_zero h0
      obtain ⟨k, hk⟩ := this
      rcases Int.lt_trichotomy k 0 with hk0 | hk0 | hk0
      · exfalso
        have : (2 ^ n : Nat) * k ≤ (2 ^ n : Nat) * (-1 : Int) := Int.mul_le_mul_of_nonneg_left (by omega) (Int.le_of_lt hp)
        omega
      · rw [hk, hk0]; simp
      · exfalso
        have : ((2 ^ n : Nat) : Int) * 1 ≤ (2 ^ n : Nat) * k := Int.mul_le_mul_of_nonneg_left (by omega) (Int.le_of_lt hp)
        omega
    · intro e; subst e; rfl
  cases f <;> simp only [Rep, Ext.testable] at h hf
  · rw [h.1]; exact key v (by omega) (by omega)
  · have := key (n := 32) v (by omega) (by omega)
    rw [h.1, ← this]
    constructor
    · intro e
      have := congrArg Rv.lo e
      rw [lo_sext32] at this
      rw [this]; decide
    · intro e; rw [e]; decide
  · simp at hf
  · simp at hf

/-- The result of a 32-bit instruction. -/
theorem Rep.w {t : Ty} (ht : t.scalar = true) (hs : t.size = 4) {a v : Int} (h : arithC t a = some v) :
    Rep (ext32 t v) v (sext32 (BitVec.ofInt 32 a)) := by
  have key : t.unsigned = false → inRange t a = true → v = a → Rep (ext32 t v) v (sext32 (BitVec.ofInt 32 a)) := by
    intro hu hr hv
    subst hv
    have := range4 ht hs hr
    simp only [hu, Bool.false_eq_true, if_false] at this
    simp only [ext32, hu, Bool.false_eq_true, false_and, if_false]
    exact ⟨sext32_ofInt this.1 this.2, by omega, by omega⟩
  unfold arithC at h
  split at h
  · rename_i hu
    have hb : t.bits = 32 := by simp [Ty.bits, hs]
    rw [hb] at h
    simp only [Option.some.injEq] at h
    have e : BitVec.ofInt 32 a = BitVec.ofInt 32 v := ofInt_congr (by omega)
    unfold ext32
    split
    · refine ⟨by rw [e], by omega, by omega⟩
    · rename_i hn
      simp only [hu, true_and, Int.not_le] at hn
      refine ⟨?_, by omega, by omega⟩
      rw [e]; exact sext32_ofInt (by omega) (by omega)
  · rename_i hu
    split at h
    · exact key (by simpa using hu) (by assumption) (by simp_all)
    · simp at h

/-- The result of a 64-bit instruction. -/
theorem Rep.d {t : Ty} (ht : t.scalar = true) (hs : t.size = 8) {a v : Int} (h : arithC t a = some v) :
    Rep .full v (BitVec.ofInt 64 a) := by
  unfold arithC at h
  have hb : t.bits = 64 := by simp [Ty.bits, hs]
  rw [hb] at h
  split at h
  · simp only [Option.some.injEq] at h
    exact ⟨ofInt_congr (by omega), by omega, by omega⟩
  · split at h
    · rename_i hu hr
      have := range8 ht hs hr
      simp only [hu, Bool.false_eq_true, if_false] at this
      simp only [Option.some.injEq] at h
      subst h
      exact ⟨rfl, by omega, by omega⟩
    · simp at h

theorem Rep.of_bool (b : Bool) : Rep .full (boolC b) (ofBool b) := by
  cases b
  · refine ⟨by rfl, by decide, by decide⟩
  · refine ⟨by rfl, by decide, by decide⟩

end Toycc.Cg
