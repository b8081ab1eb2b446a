import Verif.FoldD.Proof
/-!
IEEE arithmetic is `Sane`: no integer other than 0 is converted to a zero.
-/
namespace Toycc.FoldD
open Toycc.Rv Toycc.Fp
open Float.Model Float.Model.UnpackedFloat

theorem log2_eq {m k : Nat} (h1 : 2 ^ k ≤ m) (h2 : m < 2 ^ (k + 1)) : m.log2 = k := by
  have hm : m ≠ 0 := by have := Nat.two_pow_pos k; omega
  have a := (Nat.le_log2 hm).mpr h1
  have b := (Nat.log2_lt hm).mpr h2
  omega

theorem repeat_mantissa (n : Nat) (em : ExtendedMantissa) : (n.repeat ExtendedMantissa.shiftRightOne em).mantissa = em.mantissa / 2 ^ n := by
  induction n generalizing em with
  | zero => simp [Nat.repeat]
  | succ n ih => rw [Nat.repeat]; show _ / 2 = _; rw [ih, Nat.div_div_eq_div_mul, Nat.pow_succ]

theorem rounded_le (em : ExtendedMantissa) : em.mantissa ≤ em.roundedMantissa ∧ em.roundedMantissa ≤ em.mantissa + 1 := by
  obtain ⟨m, r, s⟩ := em
  cases r <;> cases s <;> simp only [ExtendedMantissa.roundedMantissa, ExtendedMantissa.accuracy, Accuracy.roundToNearestEven] <;> omega

theorem target (t : Int) (h1 : 1 ≤ t) : Format.binary64.targetExponent t = t - 53 := by
  unfold Format.targetExponent Format.minExponent Format.mantissaBits
  simp only
  omega

/-- Shifting to the exponent a mantissa should have. -/
theorem shift_exact {m k : Nat} {e : Int} (h1 : 2 ^ k ≤ m) (h2 : m < 2 ^ (k + 1)) (hk : 52 ≤ k) (he : 1 ≤ k + 1 + e) :
    (shiftToTargetExponent .binary64 m e .exact).1.mantissa = m / 2 ^ (k - 52) ∧ (shiftToTargetExponent .binary64 m e .exact).2 = e + ((k - 52 : Nat) : Int) := by
  have hs : (Format.binary64.targetExponent (totalExponent m e) - e).toNat = k - 52 := by
    unfold totalExponent
    rw [log2_eq h1 h2, target _ (by omega)]
    omega
  unfold shiftToTargetExponent shiftToExponent
  simp only [hs]
  exact ⟨repeat_mantissa _ _, trivial⟩

theorem div_range {m k : Nat} (h1 : 2 ^ k ≤ m) (h2 : m < 2 ^ (k + 1)) (hk : 52 ≤ k) : 2 ^ 52 ≤ m / 2 ^ (k - 52) ∧ m / 2 ^ (k - 52) < 2 ^ 53 := by
  have hp := Nat.two_pow_pos (k - 52)
  constructor
  · rw [Nat.le_div_iff_mul_le hp, ← Nat.pow_add]
    rwa [show 52 + (k - 52) = k by omega]
  · rw [Nat.div_lt_iff_lt_mul hp, ← Nat.pow_add]
    rwa [show 53 + (k - 52) = k + 1 by omega]

theorem round_normal (s : Sign) {m k : Nat} {e : Int} (h1 : 2 ^ k ≤ m) (h2 : m < 2 ^ (k + 1)) (hk : 52 ≤ k) (hk2 : k ≤ 100) (he : -100 ≤ e) (he2 : e ≤ 100) (he3 : 1 ≤ k + 1 + e) :
    ∃ m' e' h, roundWithAccuracy .binary64 s m e .exact = .finite s m' e' h ∧ 2 ^ 52 ≤ m' ∧ m' < 2 ^ 53 ∧ -200 ≤ e' ∧ e' ≤ 400 := by
  obtain ⟨a1, a2⟩ := shift_exact h1 h2 hk he3
  obtain ⟨b1, b2⟩ := div_range h1 h2 hk
  obtain ⟨r1, r2⟩ := rounded_le (shiftToTargetExponent .binary64 m e .exact).1
  rw [a1] at r1 r2
  unfold roundWithAccuracy
  generalize shiftToTargetExponent .binary64 m e .exact = p at *
  obtain ⟨em, e1⟩ := p
  simp only at a1 a2 r1 r2 ⊢
  have hr1 : 2 ^ 52 ≤ em.roundedMantissa := Nat.le_trans b1 r1
  have hr2 : em.roundedMantissa ≤ 2 ^ 53 := by omega
  generalize em.roundedMantissa = r at *
  have key : ∃ k', 52 ≤ k' ∧ k' ≤ 53 ∧ 2 ^ k' ≤ r ∧ r < 2 ^ (k' + 1) := by
    by_cases h : r = 2 ^ 53
    · exact ⟨53, by omega, by omega, by omega, by rw [h]; decide⟩
    · exact ⟨52, by omega, by omega, by omega, by have : (2 : Nat) ^ (52 + 1) = 2 ^ 53 := rfl; omega⟩
  obtain ⟨k', k1, k2, k3, k4⟩ := key
  obtain ⟨c1, c2⟩ := shift_exact (e := e1) k3 k4 k1 (by omega)
  obtain ⟨d1, d2⟩ := div_range k3 k4 k1
  generalize shiftToTargetExponent .binary64 r e1 .exact = q at *
  obtain ⟨em2, e2⟩ := q
  simp only at c1 c2 ⊢
  have hne : ¬ em2.mantissa = 0 := by omega
  exact ⟨em2.mantissa, e2, Nat.pos_of_ne_zero hne, by rw [dif_neg hne], by omega, by omega, by omega, by omega⟩

theorem round_nat (s : Sign) {n : Nat} (h0 : 0 < n) (hn : n < 2 ^ 65) :
    ∃ m' e' h, round .binary64 s n 0 = .finite s m' e' h ∧ 2 ^ 52 ≤ m' ∧ m' < 2 ^ 53 ∧ -200 ≤ e' ∧ e' ≤ 400 := by
  have l1 : 2 ^ n.log2 ≤ n := Nat.log2_self_le (by omega)
  have l2 : n < 2 ^ (n.log2 + 1) := Nat.lt_log2_self
  have l3 : n.log2 < 65 := (Nat.log2_lt (by omega)).mpr hn
  unfold round
  have ht : Format.binary64.targetExponent (totalExponent n 0) = n.log2 - 52 := by
    unfold totalExponent
    rw [target _ (by omega)]
    omega
  rw [ht]
  unfold decreaseExponent
  simp only
  by_cases hk : 52 ≤ n.log2
  · rw [show ((0 : Int) - (n.log2 - 52)).toNat = 0 by omega]
    exact round_normal s (by simpa using l1) (by simpa using l2) hk (by omega) (by omega) (by omega) (by omega)
  · rw [show ((0 : Int) - (n.log2 - 52)).toNat = 52 - n.log2 by omega, Nat.shiftLeft_eq]
    have p1 : 2 ^ 52 ≤ n * 2 ^ (52 - n.log2) := by
      have := Nat.mul_le_mul_right (2 ^ (52 - n.log2)) l1
      rwa [← Nat.pow_add, show n.log2 + (52 - n.log2) = 52 by omega] at this
    have p2 : n * 2 ^ (52 - n.log2) < 2 ^ (52 + 1) := by
      have := Nat.mul_lt_mul_of_pos_right l2 (Nat.two_pow_pos (52 - n.log2))
      rwa [← Nat.pow_add, show n.log2 + 1 + (52 - n.log2) = 52 + 1 by omega] at this
    exact round_normal s p1 p2 (Nat.le_refl _) (by omega) (by omega) (by omega) (by omega)

theorem unpack_pack {s : Sign} {m : Nat} {e : Int} {h : 0 < m} (h1 : 2 ^ 52 ≤ m) (h2 : m < 2 ^ 53) (h3 : -200 ≤ e) (h4 : e ≤ 400) :
    ∃ s' m' e' h', unpack .binary64 (pack .binary64 (.finite s m e h)) = .finite s' m' e' h' := by
  have hb : (e + (Format.binary64.exponentBias : Int) + (52 : Nat)).toNat = (e + 1075).toNat := by
    unfold Format.exponentBias; simp only; omega
  unfold UnpackedFloat.pack
  simp only
  rw [hb, if_neg (by omega), if_pos (by rw [log2_eq h1 h2]; rfl)]
  unfold UnpackedFloat.unpack
  simp only [unpackMantissa_packComponents, unpackExponent_packComponents]
  rw [if_neg, if_neg]
  · exact ⟨_, _, _, by rw [BitVec.toNat_append]; exact Nat.lt_of_lt_of_le (by decide) Nat.left_le_or, rfl⟩
  · intro hh
    have := congrArg BitVec.toNat hh
    simp only [BitVec.toNat_ofNat] at this
    omega
  · intro hh
    have := congrArg BitVec.toNat hh
    rw [show (-1#11 : BitVec 11) = 2047#11 by decide] at this
    simp only [BitVec.toNat_ofNat] at this
    omega

theorem beq_finite {s m e h} : UnpackedFloat.beq (.finite s m e h) (unpackBits .d 0) = false := by
  rw [show unpackBits .d 0 = .zero .positive by rfl]
  cases s <;> rfl

theorem ieee_sane : Sane ieee := by
  intro v hv
  have hv := of_decide_eq_true hv
  show (unpackBits .d (packBits .d (UnpackedFloat.ofInt .binary64 v))).beq (unpackBits .d 0) = _
  unfold UnpackedFloat.ofInt normalize
  rcases Int.lt_trichotomy v 0 with h | h | h
  · rw [show compare v 0 = .lt by simp [compare, compareOfLessAndEq, h]]
    obtain ⟨m', e', hm, r, r1, r2, r3, r4⟩ := round_nat .negative (n := (-v).toNat) (by omega) (by omega)
    simp only [r]
    obtain ⟨s2, m2, e2, h2, q⟩ := unpack_pack (s := .negative) (h := hm) r1 r2 r3 r4
    show (UnpackedFloat.unpack .binary64 (UnpackedFloat.pack .binary64 _)).beq _ = _
    rw [q, beq_finite]
    exact (decide_eq_false (by omega)).symm
  · subst h
    decide +kernel
  · rw [show compare v 0 = .gt by
      simp only [compare, compareOfLessAndEq]
      rw [if_neg (by omega), if_neg (by omega)]]
    obtain ⟨m', e', hm, r, r1, r2, r3, r4⟩ := round_nat .positive (n := v.toNat) (by omega) (by omega)
    simp only [r]
    obtain ⟨s2, m2, e2, h2, q⟩ := unpack_pack (s := .positive) (h := hm) r1 r2 r3 r4
    show (UnpackedFloat.unpack .binary64 (UnpackedFloat.pack .binary64 _)).beq _ = _
    rw [q, beq_finite]
    exact (decide_eq_false (by omega)).symm

end Toycc.FoldD
