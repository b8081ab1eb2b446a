import Verif.Cg.BinCorrect
/-! Casts, loads, stores and bit-fields on registers and memory. -/
namespace Toycc.Cg
open Toycc.Rv

/-! ### casts -/

def shiftVal (u : Bool) (n : Nat) (X : W) : W := if u then (X <<< n) >>> n else (X <<< n).sshiftRight n

/-- a0 after the instructions of `genCast`. -/
def castVal (from_ to : Ty) (X : W) : W :=
  match to with
  | .void => X
  | .bool => ofBool (X != 0)
  | to =>
    match castMatrix (typeId from_) (typeId to) with
    | some _ => shiftVal to.unsigned (64 - to.bits) X
    | none => X

theorem castMatrix_some {from_ to : Ty} {c} (ht : to.scalar = true) (hb : to ≠ .bool)
    (h : castMatrix (typeId from_) (typeId to) = some c) :
    c = shiftExt to.unsigned (64 - to.bits) ∧ (to.size = 1 ∨ to.size = 2 ∨ to.size = 4) := by
  cases to with
  | char u => cases u <;> cases hf : typeId from_ <;> simp_all [typeId, castMatrix, Ty.bits, Ty.size, Ty.unsigned]
  | short u => cases u <;> cases hf : typeId from_ <;> simp_all [typeId, castMatrix, Ty.bits, Ty.size, Ty.unsigned]
  | int u => cases u <;> cases hf : typeId from_ <;> simp_all [typeId, castMatrix, Ty.bits, Ty.size, Ty.unsigned]
  | long u => cases u <;> cases hf : typeId from_ <;> simp_all [typeId, castMatrix, Ty.bits, Ty.size, Ty.unsigned]
  | enum => cases hf : typeId from_ <;> simp_all [typeId, castMatrix, Ty.bits, Ty.size, Ty.unsigned]
  | ptr => cases hf : typeId from_ <;> simp_all [typeId, castMatrix, Ty.bits, Ty.size, Ty.unsigned]
  | bool => exact absurd rfl hb
  | _ => simp [Ty.scalar] at ht

theorem shiftVal_eq {t : Ty} (hs : t.size = 1 ∨ t.size = 2 ∨ t.size = 4) {v : Int} {X : W}
    (h : lo X = BitVec.ofInt 32 v) :
    shiftVal t.unsigned (64 - t.bits) X = BitVec.ofInt 64 (if t.unsigned then v % 2 ^ t.bits else v.bmod (2 ^ t.bits)) := by
  have h := congrArg BitVec.toNat h
  rw [lo, BitVec.toNat_setWidth, BitVec.toNat_ofInt] at h
  cases hu : t.unsigned
  · simp only [shiftVal, Bool.false_eq_true, if_false]
    apply ofInt_eq_of_toInt
    rw [BitVec.toInt_sshiftRight, Int.shiftRight_eq_div_pow, BitVec.toInt_eq_toNat_cond, BitVec.toNat_shiftLeft,
      Nat.shiftLeft_eq]
    rcases hs with hs | hs | hs <;> simp only [Ty.bits, hs]
    · rw [Int.bmod_eq_of_le (m := 2 ^ 64) (by rw [Int.bmod_def]; split <;> omega) (by rw [Int.bmod_def]; split <;> omega), Int.bmod_def]
      split <;> split <;> omega
    · rw [Int.bmod_eq_of_le (m := 2 ^ 64) (by rw [Int.bmod_def]; split <;> omega) (by rw [Int.bmod_def]; split <;> omega), Int.bmod_def]
      split <;> split <;> omega
    · rw [Int.bmod_eq_of_le (m := 2 ^ 64) (by rw [Int.bmod_def]; split <;> omega) (by rw [Int.bmod_def]; split <;> omega), Int.bmod_def]
      split <;> split <;> omega
  · simp only [shiftVal, if_true]
    apply ofInt_eq_of_toNat
    rw [BitVec.toNat_ushiftRight, Nat.shiftRight_eq_div_pow, BitVec.toNat_shiftLeft, Nat.shiftLeft_eq]
    rcases hs with hs | hs | hs <;> simp only [Ty.bits, hs] <;> omega

theorem convC_range {t : Ty} (ht : t.scalar = true) (v : Int) : -(2 ^ 63) ≤ convC t v ∧ convC t v < 2 ^ 64 := by
  have hb : t = .bool ∨ (convC t v = if t.unsigned then v % 2 ^ t.bits else v.bmod (2 ^ t.bits)) := by
    cases t <;> simp [convC]
  rcases hb with hb | hb
  · subst hb; simp only [convC]; split <;> omega
  · rw [hb]
    have hs : t.size = 1 ∨ t.size = 2 ∨ t.size = 4 ∨ t.size = 8 := by cases t <;> simp_all [Ty.scalar, Ty.size]
    cases hu : t.unsigned
    · simp only [Bool.false_eq_true, if_false]
      rcases hs with hs | hs | hs | hs <;> simp only [Ty.bits, hs] <;> (rw [Int.bmod_def]; split <;> omega)
    · simp only [if_true]
      rcases hs with hs | hs | hs | hs <;> simp only [Ty.bits, hs] <;> omega

theorem cast_correct {a t v f w g X} (h : castS a t v f = some (w, g)) (hX : Rep f v X) : Rep g w (castVal a t X) := by
  unfold castS at h
  split at h
  · simp only [Option.some.injEq, Prod.mk.injEq] at h
    obtain ⟨_, rfl⟩ := h
    trivial
  · simp only [bindSome, guard_eq, Option.some.injEq, Prod.mk.injEq] at h
    obtain ⟨_, hf, rfl, rfl⟩ := h
    have := hX.zero hf
    have e : (X != 0) = decide (v ≠ 0) := by
      by_cases hv : v = 0
      · rw [decide_eq_false (by simp [hv]), this.mpr hv]; rfl
      · rw [decide_eq_true hv]; exact bne_iff_ne.mpr (fun e => hv (this.mp e))
    have e2 : convC .bool v = boolC (decide (v ≠ 0)) := by
      simp only [convC, boolC]
      by_cases hv : v = 0 <;> simp [hv]
    rw [castVal, e, e2]
    exact Rep.of_bool _
  · rename_i hv hb
    simp only [bindSome, guard_eq, Bool.and_eq_true, bne_iff_ne] at h
    obtain ⟨_, ⟨ht, hf⟩, h⟩ := h
    have hc : convC t v = if t.unsigned then v % 2 ^ t.bits else v.bmod (2 ^ t.bits) := by
      cases t <;> simp_all [convC]
    have hr := convC_range ht v
    split at h
    · rename_i c hm
      have e : castVal a t X = shiftVal t.unsigned (64 - t.bits) X := by
        cases t <;> simp_all [castVal]
      simp only [Option.some.injEq, Prod.mk.injEq] at h
      obtain ⟨rfl, rfl⟩ := h
      rw [e, shiftVal_eq (castMatrix_some ht hb hm).2 (hX.lo hf), ← hc]
      exact ⟨rfl, hr.1, hr.2⟩
    · rename_i hm
      have e : castVal a t X = X := by
        cases t <;> simp_all [castVal]
      rw [e]
      split at h
      · rename_i hfull
        simp only [bindSome, guard_eq, beq_iff_eq, Option.some.injEq, Prod.mk.injEq] at h
        obtain ⟨_, h1, rfl, rfl⟩ := h
        rw [hfull] at hX
        exact ⟨by rw [h1]; exact hX.full, hr.1, hr.2⟩
      · rename_i hfull
        simp only [bindSome, guard_eq, beq_iff_eq, Option.some.injEq, Prod.mk.injEq] at h
        obtain ⟨_, rfl, rfl, rfl⟩ := h
        have : convC (.int true) v = v := by
          cases f <;> simp_all only [Rep, ne_eq, not_true_eq_false, convC, Ty.unsigned, Ty.bits, Ty.size, if_true] <;> omega
        rw [this]; exact hX

/-! ### memory -/

theorem readN_lt (m : Mem) (a : W) (n : Nat) : readN m a n < 256 ^ n := by
  induction n with
  | zero => simp [readN]
  | succ n ih =>
    have := (m (a + BitVec.ofNat 64 n)).isLt
    rw [readN, Nat.pow_succ]
    have : (m (a + BitVec.ofNat 64 n)).toNat * 256 ^ n ≤ 255 * 256 ^ n := Nat.mul_le_mul_right _ (by omega)
    omega

theorem readN_congr {m m' : Mem} {a : W} {n : Nat} (h : ∀ i, i < n → m (a + BitVec.ofNat 64 i) = m' (a + BitVec.ofNat 64 i)) :
    readN m a n = readN m' a n := by
  induction n with
  | zero => rfl
  | succ n ih => rw [readN, readN, ih (fun i hi => h i (by omega)), h n (by omega)]

theorem ok_iff {E : CEnv} {a : W} {n : Nat} : E.ok a n = true ↔ ∀ i, i < n → E.valid (a + BitVec.ofNat 64 i) = true := by
  simp [CEnv.ok]

theorem writeN_congr {m : Mem} {a : W} {n x y : Nat} (h : x % 256 ^ n = y % 256 ^ n) : writeN m a n x = writeN m a n y := by
  funext b
  unfold writeN
  split
  · rename_i hb
    generalize (b - a).toNat = i at *
    apply BitVec.eq_of_toNat_eq
    rw [BitVec.toNat_ofNat, BitVec.toNat_ofNat]
    have key : ∀ z, z / 256 ^ i % 2 ^ 8 = z % 256 ^ n / 256 ^ i % 2 ^ 8 := by
      intro z
      have e : n = i + (n - i - 1) + 1 := by omega
      have e2 : 256 ^ n = 256 ^ i * (256 * 256 ^ (n - i - 1)) := by
        conv => lhs; rw [e]
        rw [Nat.pow_succ, Nat.pow_add, Nat.mul_assoc, Nat.mul_comm (256 ^ (n - i - 1))]
      rw [e2, Nat.mod_mul_right_div_self, Nat.mod_mod_of_dvd _ (Nat.dvd_mul_right _ _)]
    rw [key x, key y, h]
  · rfl

theorem sub_ofNat (a : W) {i : Nat} (h : i < 2 ^ 64) : (a + BitVec.ofNat 64 i - a).toNat = i := by
  have : a + BitVec.ofNat 64 i - a = BitVec.ofNat 64 i := by
    rw [BitVec.add_comm, BitVec.add_sub_cancel]
  rw [this, BitVec.toNat_ofNat]; omega

/-- Reading back what was written. -/
theorem readN_writeN (m : Mem) (a : W) (n x : Nat) (hn : n < 2 ^ 64) : ∀ k, k ≤ n → readN (writeN m a n x) a k = x % 256 ^ k := by
  intro k hk
  induction k with
  | zero => simp [readN, Nat.mod_one]
  | succ k ih =>
    rw [readN, ih (by omega)]
    have : writeN m a n x (a + BitVec.ofNat 64 k) = BitVec.ofNat 8 (x / 256 ^ k) := by
      unfold writeN
      rw [sub_ofNat a (by omega), if_pos (by omega)]
    rw [this, BitVec.toNat_ofNat, Nat.pow_succ (n := 256), Nat.mod_mul (x := x) (a := 256 ^ k) (b := 256), Nat.mul_comm]

theorem bytes_widthOf {n : Nat} (h : n = 1 ∨ n = 2 ∨ n = 4 ∨ n = 8) : (widthOf n).bytes = n := by
  rcases h with h | h | h | h <;> subst h <;> rfl

theorem scalar_size {t : Ty} (h : t.scalar = true) : t.size = 1 ∨ t.size = 2 ∨ t.size = 4 ∨ t.size = 8 := by
  cases t <;> simp_all [Ty.scalar, Ty.size]

theorem pow256 (n : Nat) : 256 ^ n = 2 ^ (8 * n) := by rw [Nat.pow_mul]

theorem extend_signed {n r : Nat} (hn : n = 1 ∨ n = 2 ∨ n = 4 ∨ n = 8) :
    extend false n r = BitVec.ofInt 64 ((r : Int).bmod (2 ^ (8 * n))) := by
  simp only [extend, Bool.false_eq_true, if_false]
  apply ofInt_eq_of_toInt
  rcases hn with hs | hs | hs | hs <;> subst hs <;>
    (rw [BitVec.toInt_signExtend_of_le (by omega), BitVec.toInt_ofNat']; symm; apply Int.bmod_eq_of_le) <;>
    (rw [Int.bmod_def]; split <;> omega)

/-- What a load leaves in the register. -/
theorem extend_eq {t : Ty} (ht : t.scalar = true) {r : Nat} (_hr : r < 256 ^ t.size) :
    extend (t.unsigned && t.size != 8) t.size r =
      BitVec.ofInt 64 (if t.unsigned then (r : Int) else (r : Int).bmod (2 ^ t.bits)) := by
  cases hu : t.unsigned
  · simp only [Bool.false_and, Bool.false_eq_true, if_false]
    exact extend_signed (scalar_size ht)
  · simp only [Bool.true_and, if_true]
    by_cases h8 : t.size = 8
    · simp only [h8, bne_self_eq_false]
      rw [extend_signed (by simp)]
      apply ofInt_congr
      rw [Int.bmod_emod]
    · rw [bne_iff_ne.mpr h8, BitVec.ofInt_natCast]
      rfl

/-- a0 after `genLoad`, from the address `X`. -/
def loadVal (t : Ty) (m : Mem) (X : W) : W :=
  match t with
  | .arr _ => X | .struc _ => X | .func => X
  | t => extend (t.unsigned && t.size != 8) (widthOf t.size).bytes (readN m X (widthOf t.size).bytes)

theorem loadVal_scalar {t : Ty} (ht : t.scalar = true) (m : Mem) (X : W) :
    loadVal t m X = extend (t.unsigned && t.size != 8) t.size (readN m X t.size) := by
  have := bytes_widthOf (scalar_size ht)
  cases t <;> simp_all [loadVal, Ty.scalar]

theorem load_correct {E : CEnv} {t m mm a v} (h : loadC E t m a = some v) (hm : ∀ b, E.valid b = true → mm b = m b) :
    Rep .full v (loadVal t mm a) := by
  have agg : v = (a.toNat : Int) → Rep .full v a := by
    intro e
    subst e
    have := a.isLt
    exact ⟨ofInt_eq_of_toNat rfl, by omega, by omega⟩
  have key : t.scalar = true → E.ok a t.size = true →
      v = (if t.unsigned then (readN m a t.size : Int) else (readN m a t.size : Int).bmod (2 ^ t.bits)) →
      Rep .full v (loadVal t mm a) := by
    intro ht hok e
    rw [loadVal_scalar ht]
    have hc : readN mm a t.size = readN m a t.size := readN_congr (fun i hi => hm _ (ok_iff.mp hok i hi))
    have hl := readN_lt m a t.size
    rw [hc, extend_eq ht hl, ← e]
    refine ⟨rfl, ?_⟩
    rw [pow256] at hl
    rw [e]
    cases hu : t.unsigned
    · simp only [Bool.false_eq_true, if_false]
      rcases scalar_size ht with hs | hs | hs | hs <;> simp only [Ty.bits, hs] at hl ⊢ <;> (rw [Int.bmod_def]; split <;> omega)
    · simp only [if_true]
      rcases scalar_size ht with hs | hs | hs | hs <;> simp only [hs] at hl ⊢ <;> omega
  unfold loadC at h
  split at h
  · simp at h; exact agg h.symm
  · simp at h; exact agg h.symm
  · simp at h; exact agg h.symm
  · simp at h
  · split at h
    · rename_i hc
      simp only [Bool.and_eq_true, decide_eq_true_eq] at hc
      simp only [Option.some.injEq] at h
      refine key rfl hc.1 ?_
      rw [← h]
      simp only [Ty.unsigned, Ty.size, Ty.bits, Bool.false_eq_true, if_false]
      rw [Int.bmod_eq_of_le (by omega) (by omega)]
    · simp at h
  · split at h
    · rename_i h1 h2 h3 h4 h5 hok
      simp only [Option.some.injEq] at h
      refine key ?_ hok h.symm
      cases t <;> simp_all [Ty.scalar]
    · simp at h

end Toycc.Cg
