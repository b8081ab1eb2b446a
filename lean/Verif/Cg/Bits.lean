import Verif.Cg.UnCorrect
/-! Bit-fields: reading and merging. -/
namespace Toycc.Cg
open Toycc.Rv

/-- a0 after `extractBits`. -/
def extractVal (t : Ty) (o w : Nat) (X : W) : W :=
  if t.unsigned then (X <<< (64 - w - o)) >>> (64 - w) else (X <<< (64 - w - o)).sshiftRight (64 - w)

theorem field_of_shl {x o w : Nat} (h : o + w ≤ 64) :
    x * 2 ^ (64 - w - o) % 2 ^ 64 = 2 ^ (64 - w) * (x / 2 ^ o % 2 ^ w) + 2 ^ (64 - w - o) * (x % 2 ^ o) := by
  have e1 : (2 : Nat) ^ 64 = 2 ^ (64 - w - o) * 2 ^ (o + w) := by rw [← Nat.pow_add]; congr 1; omega
  have e2 : (2 : Nat) ^ (64 - w) = 2 ^ (64 - w - o) * 2 ^ o := by rw [← Nat.pow_add]; congr 1; omega
  rw [e1, Nat.mul_comm x, Nat.mul_mod_mul_left, e2, Nat.pow_add, Nat.mod_mul, Nat.mul_add, Nat.mul_assoc, Nat.add_comm]

theorem low_lt {x o w : Nat} (h : o + w ≤ 64) : 2 ^ (64 - w - o) * (x % 2 ^ o) < 2 ^ (64 - w) := by
  have e2 : (2 : Nat) ^ (64 - w) = 2 ^ (64 - w - o) * 2 ^ o := by rw [← Nat.pow_add]; congr 1; omega
  rw [e2]
  exact Nat.mul_lt_mul_of_pos_left (Nat.mod_lt _ (Nat.two_pow_pos o)) (Nat.two_pow_pos _)

theorem extractVal_eq {t : Ty} {o w : Nat} {X : W} (h0 : 0 < w) (h : o + w ≤ 64) :
    extractVal t o w X = BitVec.ofInt 64 (if t.unsigned then ((X.toNat / 2 ^ o % 2 ^ w : Nat) : Int)
      else ((X.toNat / 2 ^ o % 2 ^ w : Nat) : Int).bmod (2 ^ w)) := by
  have hf := field_of_shl (x := X.toNat) h
  have hl := low_lt (x := X.toNat) h
  have hp : 0 < 2 ^ (64 - w) := Nat.two_pow_pos _
  unfold extractVal
  cases hu : t.unsigned
  · simp only [Bool.false_eq_true, if_false]
    have hz : X.toNat / 2 ^ o % 2 ^ w < 2 ^ w := Nat.mod_lt _ (Nat.two_pow_pos w)
    generalize X.toNat / 2 ^ o % 2 ^ w = z at *
    generalize 2 ^ (64 - w - o) * (X.toNat % 2 ^ o) = l at *
    have e64 : (2 : Nat) ^ 64 = 2 ^ (64 - w) * 2 ^ w := by rw [← Nat.pow_add]; congr 1; omega
    have ew : (2 : Nat) ^ w = 2 * 2 ^ (w - 1) := by rw [← Nat.pow_succ']; congr 1; omega
    have hb : ((z : Int).bmod (2 ^ w)) = if z < 2 ^ (w - 1) then (z : Int) else (z : Int) - (2 ^ w : Nat) := by
      rw [Int.bmod_def, Int.emod_eq_of_lt (by omega) (by omega)]
      by_cases hc : z < 2 ^ (w - 1)
      · rw [if_pos hc, if_pos (by omega)]
      · rw [if_neg hc, if_neg (by omega)]
    rw [← BitVec.ofInt_toInt (x := BitVec.sshiftRight _ _), BitVec.toInt_sshiftRight, Int.shiftRight_eq_div_pow,
      BitVec.toInt_eq_toNat_cond, BitVec.toNat_shiftLeft, Nat.shiftLeft_eq, hf, hb]
    congr 1
    have hlt : z < 2 ^ (w - 1) ↔ 2 * (2 ^ (64 - w) * z + l) < 2 ^ 64 := by
      rw [e64, ew]
      constructor
      · intro hc
        have : 2 ^ (64 - w) * (z + 1) ≤ 2 ^ (64 - w) * 2 ^ (w - 1) := Nat.mul_le_mul_left _ hc
        rw [Nat.mul_left_comm]
        rw [Nat.mul_add, Nat.mul_one] at this
        omega
      · intro hc
        rw [Nat.mul_left_comm] at hc
        apply Nat.lt_of_mul_lt_mul_left (a := 2 ^ (64 - w))
        omega
    have hnn : ((2 ^ (64 - w) : Nat) : Int) ≠ 0 := by omega
    by_cases hc : z < 2 ^ (w - 1)
    · rw [if_pos hc, if_pos (hlt.mp hc)]
      rw [Int.natCast_add, Int.natCast_mul, Int.add_comm, Int.add_mul_ediv_left _ _ hnn, Int.ediv_eq_zero_of_lt (by omega) (by omega)]
      omega
    · rw [if_neg hc, if_neg (fun h => hc (hlt.mpr h)), e64]
      rw [Int.natCast_add, Int.natCast_mul, Int.natCast_mul, Int.add_comm, Int.add_sub_assoc, ← Int.mul_sub,
        Int.add_mul_ediv_left _ _ hnn, Int.ediv_eq_zero_of_lt (by omega) (by omega)]
      omega
  · simp only [if_true]
    apply ofInt_eq_of_toNat
    congr 1
    rw [BitVec.toNat_ushiftRight, Nat.shiftRight_eq_div_pow, BitVec.toNat_shiftLeft, Nat.shiftLeft_eq, hf,
      Nat.mul_add_div hp, Nat.div_eq_of_lt hl, Nat.add_zero]

theorem field_congr {x u o w n : Nat} (h : o + w ≤ n) (hx : x % 2 ^ n = u) : x / 2 ^ o % 2 ^ w = u / 2 ^ o % 2 ^ w := by
  have e : (2 : Nat) ^ n = 2 ^ o * (2 ^ w * 2 ^ (n - o - w)) := by
    rw [← Nat.pow_add, ← Nat.pow_add]; congr 1; omega
  rw [← hx, e, Nat.mod_mul_right_div_self, Nat.mod_mod_of_dvd _ (Nat.dvd_mul_right _ _)]

theorem loadVal_mod {t : Ty} (ht : t.scalar = true) (m : Mem) (a : W) :
    (loadVal t m a).toNat % 2 ^ t.bits = readN m a t.size := by
  have hl := readN_lt m a t.size
  rw [loadVal_scalar ht, extend_eq ht hl, BitVec.toNat_ofInt]
  rw [pow256] at hl
  cases hu : t.unsigned
  · simp only [Bool.false_eq_true, if_false]
    rcases scalar_size ht with hs | hs | hs | hs <;> simp only [Ty.bits, hs] at hl ⊢ <;> (rw [Int.bmod_def]; split <;> omega)
  · simp only [if_true]
    rcases scalar_size ht with hs | hs | hs | hs <;> simp only [Ty.bits, hs] at hl ⊢ <;> omega

theorem extract_correct {E : CEnv} {t o w m mm a v f} (h : loadBitsS E t o w m a = some (v, f))
    (hm : ∀ b, E.valid b = true → mm b = m b) : Rep f v (extractVal t o w (loadVal t mm a)) := by
  simp only [loadBitsS, bindSome, guard_eq, decide_eq_true_eq, Option.some.injEq, Prod.mk.injEq] at h
  obtain ⟨v', h1, _, ⟨h2, h3⟩, rfl, rfl⟩ := h
  unfold loadBitsC at h1
  split at h1
  case isFalse => simp at h1
  rename_i hc
  simp only [Bool.and_eq_true] at hc
  obtain ⟨ht, hok⟩ := hc
  have hb : t.bits ≤ 64 := by rcases scalar_size ht with hs | hs | hs | hs <;> simp [Ty.bits, hs]
  have hrd : readN mm a t.size = readN m a t.size := readN_congr (fun i hi => hm _ (ok_iff.mp hok i hi))
  rw [extractVal_eq h2 (by omega), field_congr h3 (loadVal_mod ht mm a), hrd]
  have hz : readN m a t.size / 2 ^ o % 2 ^ w < 2 ^ w := Nat.mod_lt _ (Nat.two_pow_pos w)
  have hw : (2 : Nat) ^ w ≤ 2 ^ 64 := Nat.pow_le_pow_right (by omega) (by omega)
  have ew : (2 : Nat) ^ w = 2 * 2 ^ (w - 1) := by rw [← Nat.pow_succ']; congr 1; omega
  simp only [Option.some.injEq] at h1
  generalize readN m a t.size / 2 ^ o % 2 ^ w = z at *
  by_cases hbool : t = .bool
  · subst hbool
    simp only [Ty.unsigned, beq_self_eq_true, Bool.or_true, if_true] at h1
    subst h1
    simp only [true_and, Ty.unsigned, Bool.false_eq_true, if_false]
    split
    · trivial
    · rename_i hz0
      have hz0 : (z : Int) = 0 := by omega
      rw [hz0, Int.zero_bmod]
      exact ⟨rfl, by omega, by omega⟩
  · rw [if_neg (by simp [hbool])]
    have : (t == Ty.bool) = false := by simpa using hbool
    simp only [this, Bool.or_false] at h1
    rw [h1]
    refine ⟨rfl, ?_⟩
    rw [← h1]
    split
    · omega
    · have hb : ((z : Int).bmod (2 ^ w)) = if z < 2 ^ (w - 1) then (z : Int) else (z : Int) - (2 ^ w : Nat) := by
        rw [Int.bmod_def, Int.emod_eq_of_lt (by omega) (by omega)]
        by_cases hc : z < 2 ^ (w - 1)
        · rw [if_pos hc, if_pos (by omega)]
        · rw [if_neg hc, if_neg (by omega)]
      rw [hb]
      split <;> omega

/-- The register stored by a bit-field assignment: `X` is the storage unit, `V` the value. -/
def mergeVal (o w : Nat) (X V : W) : W :=
  (X &&& BitVec.ofInt 64 (-(((2 : Int) ^ w - 1) * 2 ^ o) - 1)) ||| ((V &&& BitVec.ofInt 64 (2 ^ w - 1)) <<< o)

theorem mask_bit (w i : Nat) (hw : w < 64) : (BitVec.ofInt 64 ((2 : Int) ^ w - 1)).getLsbD i = decide (i < w) := by
  have hp := Nat.two_pow_pos w
  have e : (2 : Int) ^ w - 1 = ((2 ^ w - 1 : Nat) : Int) := by
    rw [Int.natCast_sub hp, Int.natCast_pow]; simp
  rw [e, BitVec.ofInt_natCast, BitVec.getLsbD_ofNat, Nat.testBit_two_pow_sub_one]
  by_cases h : i < w
  · simp [h]; omega
  · simp [h]

theorem notmask_bit (o w i : Nat) (h : o + w ≤ 64) (hi : i < 64) :
    (BitVec.ofInt 64 (-(((2 : Int) ^ w - 1) * 2 ^ o) - 1)).getLsbD i = !(decide (o ≤ i) && decide (i < o + w)) := by
  have hp := Nat.two_pow_pos w
  have e : ((2 : Int) ^ w - 1) * 2 ^ o = (((2 ^ w - 1) * 2 ^ o : Nat) : Int) := by
    rw [Int.natCast_mul, Int.natCast_sub hp, Int.natCast_pow, Int.natCast_pow]; simp
  have hlt : (2 ^ w - 1) * 2 ^ o < 2 ^ 64 := by
    have h1 : (2 ^ w - 1) * 2 ^ o < 2 ^ w * 2 ^ o := Nat.mul_lt_mul_of_pos_right (by omega) (Nat.two_pow_pos o)
    have h2 : 2 ^ w * 2 ^ o ≤ 2 ^ 64 := by rw [← Nat.pow_add]; exact Nat.pow_le_pow_right (by omega) (by omega)
    omega
  have hn : BitVec.ofInt 64 (-(((2 : Int) ^ w - 1) * 2 ^ o) - 1) = ~~~ BitVec.ofNat 64 ((2 ^ w - 1) * 2 ^ o) := by
    apply BitVec.eq_of_toNat_eq
    rw [e, BitVec.toNat_ofInt, BitVec.toNat_not, BitVec.toNat_ofNat]
    omega
  rw [hn, BitVec.getLsbD_not, BitVec.getLsbD_ofNat, ← Nat.shiftLeft_eq, Nat.testBit_shiftLeft, Nat.testBit_two_pow_sub_one]
  simp only [hi, decide_true, Bool.true_and]
  by_cases h1 : o ≤ i
  · by_cases h2 : i < o + w
    · simp [h1, h2]; omega
    · simp [h1, h2]; omega
  · simp [h1]

theorem mergeBits_testBit {o w u i : Nat} {v : Int} :
    (mergeBits o w u v).testBit i = if o ≤ i ∧ i < o + w then (v % 2 ^ w).toNat.testBit (i - o) else u.testBit i := by
  have hv : (v % 2 ^ w).toNat < 2 ^ w := by
    have hp : (0 : Int) < 2 ^ w := Int.pow_pos (by omega)
    have h1 := Int.emod_lt_of_pos v hp
    have h2 := Int.emod_nonneg v (Int.ne_of_gt hp)
    have : ((v % 2 ^ w).toNat : Int) < ((2 ^ w : Nat) : Int) := by rw [Int.natCast_pow]; simpa [Int.toNat_of_nonneg h2] using h1
    omega
  have hu : u % 2 ^ o < 2 ^ o := Nat.mod_lt _ (Nat.two_pow_pos o)
  unfold mergeBits
  generalize (v % 2 ^ w).toNat = z at *
  have hin : (2 ^ o * z + u % 2 ^ o) < 2 ^ (o + w) := by
    have : 2 ^ o * (z + 1) ≤ 2 ^ o * 2 ^ w := Nat.mul_le_mul_left _ hv
    rw [Nat.mul_add, Nat.mul_one] at this
    rw [Nat.pow_add]; omega
  rw [Nat.add_assoc, Nat.mul_comm _ (2 ^ (o + w)), Nat.mul_comm _ (2 ^ o), Nat.testBit_two_pow_mul_add _ hin]
  by_cases h1 : i < o + w
  · rw [if_pos h1, Nat.testBit_two_pow_mul_add _ hu]
    by_cases h2 : i < o
    · rw [if_pos h2, if_neg (by omega), Nat.testBit_mod_two_pow, decide_eq_true h2, Bool.true_and]
    · rw [if_neg h2, if_pos (by omega)]
  · rw [if_neg h1, if_neg (by omega), Nat.testBit_div_two_pow]
    congr 1; omega

theorem merge_correct {o w n u : Nat} {v : Int} {X V : W} (hw : w < 64) (h : o + w ≤ n) (hn : n ≤ 64)
    (hX : X.toNat % 2 ^ n = u) (hV : V.toNat % 2 ^ w = (v % 2 ^ w).toNat) :
    (mergeVal o w X V).toNat % 2 ^ n = mergeBits o w u v % 2 ^ n := by
  apply Nat.eq_of_testBit_eq
  intro i
  rw [Nat.testBit_mod_two_pow, Nat.testBit_mod_two_pow]
  by_cases hi : i < n
  · simp only [hi, decide_true, Bool.true_and]
    rw [BitVec.testBit_toNat, mergeVal, BitVec.getLsbD_or, BitVec.getLsbD_and, notmask_bit o w i (by omega) (by omega),
      BitVec.getLsbD_shiftLeft, BitVec.getLsbD_and, mask_bit w _ hw, mergeBits_testBit]
    have hx : u.testBit i = X.getLsbD i := by
      rw [← hX, Nat.testBit_mod_two_pow, decide_eq_true hi, Bool.true_and, BitVec.testBit_toNat]
    rw [← hV, hx, Nat.testBit_mod_two_pow, BitVec.testBit_toNat]
    by_cases h1 : o ≤ i
    · by_cases h2 : i < o + w
      · have h3 : i - o < w := by omega
        have h4 : i < 64 := by omega
        simp [h1, h2, h3, h4]
      · have h3 : ¬ i - o < w := by omega
        simp [h1, h2, h3]
    · have h3 : i < o := by omega
      simp [h1, h3]
  · simp [hi]

end Toycc.Cg
