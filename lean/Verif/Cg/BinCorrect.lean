import Verif.Cg.Repr
/-! The instructions for binary operators compute C's value. -/
namespace Toycc.Cg
open Toycc.Rv

/-- a0 after the instructions of `binInstrs`, from a0 = `X` and a1 = `Y`. -/
def binVal (op : BinOp) (lt ty : Ty) (X Y : W) : W :=
  let w := lt.isLong
  match op with
  | .add => (if w then Alu.add else .addw).eval X Y
  | .sub => (if w then Alu.sub else .subw).eval X Y
  | .mul => (if w then Alu.mul else .mulw).eval X Y
  | .div => if ty.unsigned then (if w then Alu.divu else .divuw).eval X Y else (if w then Alu.div else .divw).eval X Y
  | .mod => if ty.unsigned then (if w then Alu.remu else .remuw).eval X Y else (if w then Alu.rem else .remw).eval X Y
  | .and => X &&& Y
  | .or => X ||| Y
  | .xor => X ^^^ Y
  | .eq => ofBool (X ^^^ Y == 0)
  | .ne => ofBool (X ^^^ Y != 0)
  | .lt => if lt.unsigned then Alu.sltu.eval X Y else Alu.slt.eval X Y
  | .le => ofBool ((if ty.unsigned then Alu.sltu.eval Y X else Alu.slt.eval Y X) == 0)
  | .shl => (if w then Alu.sll else .sllw).eval X Y
  | .shr => if ty.unsigned then (if w then Alu.srl else .srlw).eval X Y else (if w then Alu.sra else .sraw).eval X Y

theorem ofInt_eq_of_toInt {n : Nat} {x : BitVec n} {a : Int} (h : x.toInt = a.bmod (2 ^ n)) : x = BitVec.ofInt n a := by
  apply BitVec.eq_of_toInt_eq; rw [h, BitVec.toInt_ofInt]

theorem ofInt_eq_of_toNat {n : Nat} {x : BitVec n} {a : Int} (h : (x.toNat : Int) = a) : x = BitVec.ofInt n a := by
  rw [← h, BitVec.ofInt_natCast, BitVec.ofNat_toNat, BitVec.setWidth_eq]

theorem ofInt_ne_zero64 {y : Int} (h1 : -(2 ^ 63) ≤ y) (h2 : y < 2 ^ 64) (h : y ≠ 0) : BitVec.ofInt 64 y ≠ 0 := by
  intro e
  exact h ((Rep.zero (f := .full) ⟨rfl, h1, h2⟩ rfl).mp e)

theorem ofInt_ne_zero32 {y : Int} (h1 : -(2 ^ 31) ≤ y) (h2 : y < 2 ^ 32) (h : y ≠ 0) : BitVec.ofInt 32 y ≠ 0 := by
  intro e
  have e := congrArg BitVec.toNat e
  rw [BitVec.toNat_ofInt] at e
  simp only [BitVec.ofNat_eq_ofNat, BitVec.toNat_ofNat, Nat.zero_mod] at e
  omega

theorem sdiv_ofInt {n : Nat} {x y : Int} (hx : (BitVec.ofInt n x).toInt = x) (hy : (BitVec.ofInt n y).toInt = y) :
    (BitVec.ofInt n x).sdiv (BitVec.ofInt n y) = BitVec.ofInt n (x.tdiv y) := by
  apply ofInt_eq_of_toInt
  rw [BitVec.toInt_sdiv, hx, hy]

theorem srem_ofInt {n : Nat} {x y : Int} (hx : (BitVec.ofInt n x).toInt = x) (hy : (BitVec.ofInt n y).toInt = y) :
    (BitVec.ofInt n x).srem (BitVec.ofInt n y) = BitVec.ofInt n (x.tmod y) := by
  rw [← hx, ← hy]
  simp only [BitVec.ofInt_toInt]
  rw [← BitVec.toInt_srem, BitVec.ofInt_toInt]

theorem udiv_ofInt {n : Nat} {x y : Int} (hx : ((BitVec.ofInt n x).toNat : Int) = x) (hy : ((BitVec.ofInt n y).toNat : Int) = y) :
    BitVec.ofInt n x / BitVec.ofInt n y = BitVec.ofInt n (x.tdiv y) := by
  apply ofInt_eq_of_toNat
  rw [BitVec.toNat_udiv, Int.natCast_ediv, hx, hy, Int.tdiv_eq_ediv_of_nonneg (by omega)]

theorem umod_ofInt {n : Nat} {x y : Int} (hx : ((BitVec.ofInt n x).toNat : Int) = x) (hy : ((BitVec.ofInt n y).toNat : Int) = y) :
    BitVec.ofInt n x % BitVec.ofInt n y = BitVec.ofInt n (x.tmod y) := by
  apply ofInt_eq_of_toNat
  rw [BitVec.toNat_umod, Int.natCast_emod, hx, hy, Int.tmod_eq_emod_of_nonneg (by omega)]

theorem emod_le_self {a : Int} (b : Int) (h : 0 ≤ a) : a % b ≤ a := by
  obtain ⟨n, rfl⟩ := Int.eq_ofNat_of_zero_le h
  have : (n : Int) % b = ((n % b.natAbs : Nat) : Int) := by
    rw [Int.natCast_emod]
    rcases Int.natAbs_eq b with hb | hb
    · rw [← hb]
    · rw [show ((b.natAbs : Nat) : Int) = -b by omega, Int.emod_neg]
  rw [this]
  exact Int.ofNat_le.mpr (Nat.mod_le _ _)

/-- Remainders stay in the range of the dividend. -/
theorem tmod_range {x y lo hi : Int} (h0 : lo ≤ 0) (h1 : 0 < hi) (hx : lo ≤ x ∧ x < hi) : lo ≤ x.tmod y ∧ x.tmod y < hi := by
  have h := Int.tmod_eq_emod (a := x) (b := y)
  rcases Int.le_total 0 x with hp | hn
  · have h2 := Int.tmod_nonneg y hp
    have h3 : x.tmod y ≤ x := by
      rw [Int.tmod_eq_emod_of_nonneg hp]
      exact emod_le_self y hp
    omega
  · have h2 : (-x).tmod y = -(x.tmod y) := Int.neg_tmod x y
    have h3 := Int.tmod_nonneg (a := -x) y (by omega)
    have h4 : (-x).tmod y ≤ -x := by
      rw [Int.tmod_eq_emod_of_nonneg (by omega)]
      exact emod_le_self y (by omega)
    omega

theorem mod_rep4 {t : Ty} (ht : t.scalar = true) (hs : t.size = 4) {x y : Int} (hx : inRange t x = true) :
    Rep (ext32 t (x.tmod y)) (x.tmod y) (sext32 (BitVec.ofInt 32 (x.tmod y))) := by
  have h := range4 ht hs hx
  unfold ext32
  cases hu : t.unsigned
  · simp only [hu, Bool.false_eq_true, if_false] at h
    have := tmod_range (y := y) (by omega) (by omega) h
    simp only [Bool.false_eq_true, false_and, if_false]
    exact ⟨sext32_ofInt this.1 this.2, by omega, by omega⟩
  · simp only [hu, if_true] at h
    have := tmod_range (y := y) (by omega) (by omega) h
    simp only [true_and]
    split
    · exact ⟨rfl, by omega, by omega⟩
    · exact ⟨sext32_ofInt (by omega) (by omega), by omega, by omega⟩

theorem mod_rep8 {t : Ty} (ht : t.scalar = true) (hs : t.size = 8) {x y : Int} (hx : inRange t x = true) :
    Rep .full (x.tmod y) (BitVec.ofInt 64 (x.tmod y)) := by
  have h := range8 ht hs hx
  cases hu : t.unsigned
  · simp only [hu, Bool.false_eq_true, if_false] at h
    have := tmod_range (y := y) (by omega) (by omega) h
    exact ⟨rfl, by omega, by omega⟩
  · simp only [hu, if_true] at h
    have := tmod_range (y := y) (by omega) (by omega) h
    exact ⟨rfl, by omega, by omega⟩

/-- Division and remainder on the operands as the instructions see them. -/
theorem div_eval {t : Ty} (ht : t.scalar = true) {x y : Int} {X Y : W} (hx : inRange t x = true) (hy : inRange t y = true)
    (h0 : y ≠ 0) :
    (t.size = 8 → X = BitVec.ofInt 64 x → Y = BitVec.ofInt 64 y →
      (if t.unsigned then Alu.divu else .div).eval X Y = BitVec.ofInt 64 (x.tdiv y) ∧
      (if t.unsigned then Alu.remu else .rem).eval X Y = BitVec.ofInt 64 (x.tmod y)) ∧
    (t.size = 4 → lo X = BitVec.ofInt 32 x → lo Y = BitVec.ofInt 32 y →
      (if t.unsigned then Alu.divuw else .divw).eval X Y = sext32 (BitVec.ofInt 32 (x.tdiv y)) ∧
      (if t.unsigned then Alu.remuw else .remw).eval X Y = sext32 (BitVec.ofInt 32 (x.tmod y))) := by
  constructor
  · intro hs hX hY
    have h1 := range8 ht hs hx
    have h2 := range8 ht hs hy
    cases hu : t.unsigned
    · simp only [hu, Bool.false_eq_true, if_false] at h1 h2
      have hn : Y ≠ 0 := by rw [hY]; exact ofInt_ne_zero64 (by omega) (by omega) h0
      simp only [Bool.false_eq_true, if_false, Alu.eval, if_neg hn]
      rw [hX, hY]
      exact ⟨sdiv_ofInt (toInt64 (by omega) (by omega)) (toInt64 (by omega) (by omega)),
        srem_ofInt (toInt64 (by omega) (by omega)) (toInt64 (by omega) (by omega))⟩
    · simp only [hu, if_true] at h1 h2
      have hn : Y ≠ 0 := by rw [hY]; exact ofInt_ne_zero64 (by omega) (by omega) h0
      simp only [if_true, Alu.eval, if_neg hn]
      rw [hX, hY]
      exact ⟨udiv_ofInt (toNat64 (by omega) (by omega)) (toNat64 (by omega) (by omega)),
        umod_ofInt (toNat64 (by omega) (by omega)) (toNat64 (by omega) (by omega))⟩
  · intro hs hX hY
    have h1 := range4 ht hs hx
    have h2 := range4 ht hs hy
    cases hu : t.unsigned
    · simp only [hu, Bool.false_eq_true, if_false] at h1 h2
      have hn : lo Y ≠ 0 := by rw [hY]; exact ofInt_ne_zero32 (by omega) (by omega) h0
      simp only [Bool.false_eq_true, if_false, Alu.eval, if_neg hn]
      rw [hX, hY]
      exact ⟨congrArg sext32 (sdiv_ofInt (toInt32 (by omega) (by omega)) (toInt32 (by omega) (by omega))),
        congrArg sext32 (srem_ofInt (toInt32 (by omega) (by omega)) (toInt32 (by omega) (by omega)))⟩
    · simp only [hu, if_true] at h1 h2
      have hn : lo Y ≠ 0 := by rw [hY]; exact ofInt_ne_zero32 (by omega) (by omega) h0
      simp only [if_true, Alu.eval, if_neg hn]
      rw [hX, hY]
      exact ⟨congrArg sext32 (udiv_ofInt (toNat32 (by omega) (by omega)) (toNat32 (by omega) (by omega))),
        congrArg sext32 (umod_ofInt (toNat32 (by omega) (by omega)) (toNat32 (by omega) (by omega)))⟩

/-! ### bitwise operators -/

/-- A bitwise operator at the two widths. -/
structure Bitwise (f : W → W → W) (g : BitVec 32 → BitVec 32 → BitVec 32) : Prop where
  lo : ∀ x y, Rv.lo (f x y) = g (Rv.lo x) (Rv.lo y)
  sx : ∀ x y, f (sext32 x) (sext32 y) = sext32 (g x y)
  zx : ∀ x y : BitVec 32, f (x.setWidth 64) (y.setWidth 64) = (g x y).setWidth 64

theorem bitwise_and : Bitwise (· &&& ·) (· &&& ·) :=
  ⟨fun _ _ => BitVec.setWidth_and, fun _ _ => BitVec.signExtend_and.symm, fun _ _ => BitVec.setWidth_and.symm⟩
theorem bitwise_or : Bitwise (· ||| ·) (· ||| ·) :=
  ⟨fun _ _ => BitVec.setWidth_or, fun _ _ => BitVec.signExtend_or.symm, fun _ _ => BitVec.setWidth_or.symm⟩
theorem bitwise_xor : Bitwise (· ^^^ ·) (· ^^^ ·) :=
  ⟨fun _ _ => BitVec.setWidth_xor, fun _ _ => BitVec.signExtend_xor.symm, fun _ _ => BitVec.setWidth_xor.symm⟩

theorem lo_toInt (z : W) : ((lo z).toNat : Int) = z.toInt % 2 ^ 32 := by
  rw [lo, BitVec.toNat_setWidth, BitVec.toInt_eq_toNat_cond]
  have := z.isLt
  split <;> omega

theorem zx_ofInt {v : Int} (h1 : 0 ≤ v) (h2 : v < 2 ^ 32) : (BitVec.ofInt 32 v).setWidth 64 = BitVec.ofInt 64 v := by
  apply BitVec.eq_of_toNat_eq
  rw [BitVec.toNat_setWidth, BitVec.toNat_ofInt, BitVec.toNat_ofInt]; omega

theorem bit_full {f g} (B : Bitwise f g) {t : Ty} (ht : t.scalar = true) (hs : t.size = 4 ∨ t.size = 8) {x y : Int}
    (hx : inRange t x = true) (hy : inRange t y = true) :
    Rep .full (bitC f t x y) (f (BitVec.ofInt 64 x) (BitVec.ofInt 64 y)) := by
  have hc : convC t (f (BitVec.ofInt 64 x) (BitVec.ofInt 64 y)).toInt = if t.unsigned then
      (f (BitVec.ofInt 64 x) (BitVec.ofInt 64 y)).toInt % 2 ^ t.bits
      else (f (BitVec.ofInt 64 x) (BitVec.ofInt 64 y)).toInt.bmod (2 ^ t.bits) := by
    unfold convC
    split
    · simp [Ty.size] at hs
    · rfl
  unfold bitC
  rw [hc]
  rcases hs with hs | hs
  · have h1 := range4 ht hs hx
    have h2 := range4 ht hs hy
    have hb : t.bits = 32 := by simp [Ty.bits, hs]
    rw [hb]
    cases hu : t.unsigned
    · simp only [hu, Bool.false_eq_true, if_false] at h1 h2 ⊢
      rw [← sext32_ofInt h1.1 h1.2, ← sext32_ofInt h2.1 h2.2, B.sx, sext32, BitVec.toInt_signExtend_of_le (by omega)]
      generalize g _ _ = z
      have hz := BitVec.toInt_lt (x := z)
      have hz2 := BitVec.le_toInt (x := z)
      rw [Int.bmod_eq_of_le (by omega) (by omega)]
      refine ⟨?_, by omega, by omega⟩
      rw [← sext32_ofInt (by omega) (by omega), BitVec.ofInt_toInt, sext32]
    · simp only [hu, if_true] at h1 h2 ⊢
      rw [← zx_ofInt h1.1 h1.2, ← zx_ofInt h2.1 h2.2, B.zx]
      generalize g _ _ = z
      have hz := z.isLt
      have : (z.setWidth 64).toInt = z.toNat := by
        rw [BitVec.toInt_eq_toNat_of_lt, BitVec.toNat_setWidth]
        · omega
        · rw [BitVec.toNat_setWidth]; omega
      rw [this]
      rw [Int.emod_eq_of_lt (by omega) (by omega)]
      refine ⟨?_, by omega, by omega⟩
      apply ofInt_eq_of_toNat
      rw [BitVec.toNat_setWidth]; omega
  · have hb : t.bits = 64 := by simp [Ty.bits, hs]
    rw [hb]
    generalize f _ _ = z
    have hz := BitVec.toInt_lt (x := z)
    have hz2 := BitVec.le_toInt (x := z)
    cases hu : t.unsigned
    · simp only [Bool.false_eq_true, if_false]
      rw [Int.bmod_eq_of_le (by omega) (by omega)]
      exact ⟨BitVec.ofInt_toInt.symm, by omega, by omega⟩
    · simp only [if_true]
      refine ⟨?_, by omega, by omega⟩
      rw [← BitVec.ofInt_toInt (x := z)]
      rw [BitVec.ofInt_toInt]
      conv => lhs; rw [← BitVec.ofInt_toInt (x := z)]
      exact ofInt_congr (by omega)

theorem bit_low {f g} (B : Bitwise f g) {x y : Int} {X Y : W} (hX : lo X = BitVec.ofInt 32 x) (hY : lo Y = BitVec.ofInt 32 y) :
    Rep .low (bitC f (.int true) x y) (f X Y) ∧
    (X = sext32 (BitVec.ofInt 32 x) → Y = sext32 (BitVec.ofInt 32 y) → Rep .sext (bitC f (.int true) x y) (f X Y)) := by
  have hc : bitC f (.int true) x y = (f (BitVec.ofInt 64 x) (BitVec.ofInt 64 y)).toInt % 2 ^ 32 := rfl
  rw [hc, ← lo_toInt, B.lo, lo_ofInt, lo_ofInt]
  have hz := (g (BitVec.ofInt 32 x) (BitVec.ofInt 32 y)).isLt
  have e : BitVec.ofInt 32 ((g (BitVec.ofInt 32 x) (BitVec.ofInt 32 y)).toNat : Int) = g (BitVec.ofInt 32 x) (BitVec.ofInt 32 y) :=
    (ofInt_eq_of_toNat rfl).symm
  refine ⟨⟨?_, by omega, by omega⟩, fun h1 h2 => ⟨?_, by omega, by omega⟩⟩
  · rw [e, B.lo, hX, hY]
  · rw [e, h1, h2, B.sx]

/-! ### comparisons -/

theorem range_promote {t : Ty} (ht : t.scalar = true ∨ t.hasBase = true) {x : Int} (h : inRange (promote t) x = true) :
    if (promote t).unsigned then 0 ≤ x ∧ x < 2 ^ 64 else -(2 ^ 63) ≤ x ∧ x < 2 ^ 63 := by
  have h4 : (promote t).scalar = true ∧ ((promote t).size = 4 ∨ (promote t).size = 8) := by
    cases t <;> simp_all [promote, Ty.scalar, Ty.hasBase, Ty.size]
  rcases h4.2 with h5 | h5
  · have := range4 h4.1 h5 h
    cases hu : (promote t).unsigned
    · simp only [hu, Bool.false_eq_true, if_false] at this ⊢; omega
    · simp only [hu, if_true] at this ⊢; omega
  · exact range8 h4.1 h5 h

theorem ofInt64_inj {x y : Int} (u : Bool) (hx : if u then 0 ≤ x ∧ x < 2 ^ 64 else -(2 ^ 63) ≤ x ∧ x < 2 ^ 63)
    (hy : if u then 0 ≤ y ∧ y < 2 ^ 64 else -(2 ^ 63) ≤ y ∧ y < 2 ^ 63) : BitVec.ofInt 64 x = BitVec.ofInt 64 y ↔ x = y := by
  constructor
  · intro e
    cases u
    · simp only [Bool.false_eq_true, if_false] at hx hy
      rw [← toInt64 hx.1 hx.2, ← toInt64 hy.1 hy.2, e]
    · simp only [if_true] at hx hy
      rw [← toNat64 hx.1 hx.2, ← toNat64 hy.1 hy.2, e]
  · intro e; rw [e]

theorem ofInt32_inj {x y : Int} (hx : 0 ≤ x ∧ x < 2 ^ 32) (hy : 0 ≤ y ∧ y < 2 ^ 32) :
    sext32 (BitVec.ofInt 32 x) = sext32 (BitVec.ofInt 32 y) ↔ x = y := by
  constructor
  · intro e
    have := congrArg lo e
    rw [lo_sext32, lo_sext32] at this
    rw [← toNat32 hx.1 hx.2, ← toNat32 hy.1 hy.2, this]
  · intro e; rw [e]

theorem sext32_toNat (x : BitVec 32) : (sext32 x).toNat = if x.toNat < 2 ^ 31 then x.toNat else x.toNat + (2 ^ 64 - 2 ^ 32) := by
  rw [sext32, BitVec.toNat_signExtend, BitVec.toNat_setWidth, BitVec.msb_eq_decide]
  have := x.isLt
  by_cases h : x.toNat < 2 ^ 31
  · rw [if_pos h, if_neg (by simp; omega)]; omega
  · rw [if_neg h, if_pos (by simp; omega)]; omega

theorem sltu_sext {x y : Int} (hx : 0 ≤ x ∧ x < 2 ^ 32) (hy : 0 ≤ y ∧ y < 2 ^ 32) :
    (sext32 (BitVec.ofInt 32 x)).ult (sext32 (BitVec.ofInt 32 y)) = decide (x < y) := by
  rw [BitVec.ult_eq_decide, sext32_toNat, sext32_toNat]
  have h1 := toNat32 hx.1 hx.2
  have h2 := toNat32 hy.1 hy.2
  apply decide_eq_decide.mpr
  split <;> split <;> omega

theorem xor_eq_zero' {X Y : W} : (X ^^^ Y == 0) = decide (X = Y) := by
  by_cases h : X = Y
  · rw [decide_eq_true h, h]; simp
  · rw [decide_eq_false h]
    apply beq_eq_false_iff_ne.mpr
    exact fun e => h (BitVec.xor_eq_zero_iff.mp e)

/-! ### shifts -/

theorem shift_amount {y : Int} {Y : W} (hY : lo Y = BitVec.ofInt 32 y) (h0 : 0 ≤ y) :
    (y < 64 → Y.toNat % 64 = y.toNat) ∧ (y < 32 → Y.toNat % 32 = y.toNat) := by
  have := congrArg BitVec.toNat hY
  rw [lo, BitVec.toNat_setWidth, BitVec.toNat_ofInt] at this
  constructor <;> intro h <;> omega

theorem shl_ofInt {n : Nat} (x : Int) (k : Nat) : BitVec.ofInt n x <<< k = BitVec.ofInt n (x * 2 ^ k) := by
  rw [BitVec.shiftLeft_eq_mul_twoPow, BitVec.ofInt_mul]
  congr 1
  rw [show ((2 : Int) ^ k) = ((2 ^ k : Nat) : Int) by simp, BitVec.ofInt_natCast]
  apply BitVec.eq_of_toNat_eq
  simp [BitVec.toNat_twoPow]

theorem sra_ofInt {n : Nat} {x : Int} (h : (BitVec.ofInt n x).toInt = x) (k : Nat) :
    (BitVec.ofInt n x).sshiftRight k = BitVec.ofInt n (x / 2 ^ k) := by
  rw [← BitVec.ofInt_toInt (x := (BitVec.ofInt n x).sshiftRight k), BitVec.toInt_sshiftRight, h, Int.shiftRight_eq_div_pow]
  simp

theorem srl_ofInt {n : Nat} {x : Int} (h : ((BitVec.ofInt n x).toNat : Int) = x) (k : Nat) :
    BitVec.ofInt n x >>> k = BitVec.ofInt n (x / 2 ^ k) := by
  apply ofInt_eq_of_toNat
  rw [BitVec.toNat_ushiftRight, Nat.shiftRight_eq_div_pow, Int.natCast_ediv, h]
  simp

theorem div_pow_range {x lo hi : Int} (h0 : lo ≤ 0) (h1 : 0 < hi) (hx : lo ≤ x ∧ x < hi) (k : Nat) :
    lo ≤ x / 2 ^ k ∧ x / 2 ^ k < hi := by
  have hp : (0 : Int) < 2 ^ k := Int.pow_pos (by omega)
  rcases Int.le_total 0 x with h | h
  · have := Int.ediv_nonneg h (Int.le_of_lt hp)
    have := Int.ediv_le_self (2 ^ k) h
    omega
  · have h2 : x / 2 ^ k ≤ 0 := by
      have := Int.ediv_le_ediv (a := x) (b := 0) hp h
      simpa using this
    have h3 : lo ≤ x / 2 ^ k := by
      rw [Int.le_ediv_iff_mul_le hp]
      have : lo * 2 ^ k ≤ lo * 1 := Int.mul_le_mul_of_nonpos_left h0 (by omega)
      omega
    omega

theorem in4_arith {t : Ty} (ht : t.scalar = true) (hs : t.size = 4) {v : Int}
    (h : if t.unsigned then 0 ≤ v ∧ v < 2 ^ 32 else -(2 ^ 31) ≤ v ∧ v < 2 ^ 31) : arithC t v = some v := by
  unfold arithC
  have hb : t.bits = 32 := by simp [Ty.bits, hs]
  cases hu : t.unsigned
  · simp only [hu, Bool.false_eq_true, if_false] at h ⊢
    have : inRange t v = true := by
      cases t with
      | int u => cases u <;> first | exact decide_eq_true h | simp [Ty.unsigned] at hu
      | enum => exact decide_eq_true h
      | _ => simp [Ty.size, Ty.scalar] at ht hs
    rw [if_pos this]
  · simp only [hu, if_true] at h ⊢
    rw [hb, Int.emod_eq_of_lt h.1 h.2]

theorem in8_arith {t : Ty} (ht : t.scalar = true) (hs : t.size = 8) {v : Int}
    (h : if t.unsigned then 0 ≤ v ∧ v < 2 ^ 64 else -(2 ^ 63) ≤ v ∧ v < 2 ^ 63) : arithC t v = some v := by
  unfold arithC
  have hb : t.bits = 64 := by simp [Ty.bits, hs]
  cases hu : t.unsigned
  · simp only [hu, Bool.false_eq_true, if_false] at h ⊢
    have : inRange t v = true := by
      cases t with
      | long u => cases u <;> first | exact decide_eq_true h | simp [Ty.unsigned] at hu
      | ptr => simp [Ty.unsigned] at hu
      | _ => simp [Ty.size, Ty.scalar] at ht hs
    rw [if_pos this]
  · simp only [hu, if_true] at h ⊢
    rw [hb, Int.emod_eq_of_lt h.1 h.2]

theorem shl_arith {t : Ty} {x y v : Int}
    (h : (if 0 ≤ y ∧ y < t.bits then
      if t.unsigned then some (x * 2 ^ y.toNat % 2 ^ t.bits)
      else if 0 ≤ x then arithC t (x * 2 ^ y.toNat) else none
    else none) = some v) : (0 ≤ y ∧ y < t.bits) ∧ arithC t (x * 2 ^ y.toNat) = some v := by
  split at h
  · refine ⟨by assumption, ?_⟩
    split at h
    · rename_i hu; simp only [arithC, hu, if_true]; exact h
    · split at h
      · exact h
      · simp at h
  · simp at h

/-! ### all binary operators -/

theorem bin_correct {op ty lt x fx y fy v f X Y} (h : binS op ty lt x fx y fy = some (v, f)) (hX : Rep fx x X) (hY : Rep fy y Y) :
    Rep f v (binVal op lt ty X Y) := by
  simp only [binS, bindSome] at h
  obtain ⟨w, h1, h2⟩ := h
  have hlx : fx ≠ .junk → lo X = BitVec.ofInt 32 x := fun h => hX.lo h
  have hly : fy ≠ .junk → lo Y = BitVec.ofInt 32 y := fun h => hY.lo h
  have hfx : fx = .full → X = BitVec.ofInt 64 x := fun h => by subst h; exact hX.full
  have hfy : fy = .full → Y = BitVec.ofInt 64 y := fun h => by subst h; exact hY.full
  have hsx : fx = .sext → X = sext32 (BitVec.ofInt 32 x) := fun h => by subst h; exact hX.1
  have hsy : fy = .sext → Y = sext32 (BitVec.ofInt 32 y) := fun h => by subst h; exact hY.1
  cases op
  case add =>
    simp only [binC] at h1
    simp only [binVal]
    simp only at h2
    split at h2
    · rename_i hl
      simp only [bindSome, guard_eq, Bool.and_eq_true, beq_iff_eq, Option.some.injEq, Prod.mk.injEq] at h2
      obtain ⟨_, ⟨⟨⟨hs, ht⟩, h3⟩, h4⟩, rfl, rfl⟩ := h2
      rw [if_pos hl, Alu.eval, hfx h3, hfy h4, ← BitVec.ofInt_add]
      exact Rep.d ht hs h1
    · rename_i hl
      simp only [bindSome, guard_eq, Bool.and_eq_true, beq_iff_eq, bne_iff_ne, Option.some.injEq, Prod.mk.injEq] at h2
      obtain ⟨_, ⟨⟨⟨hs, ht⟩, h3⟩, h4⟩, rfl, rfl⟩ := h2
      rw [if_neg hl, Alu.eval, hlx h3, hly h4, ← BitVec.ofInt_add]
      exact Rep.w ht hs h1
  case sub =>
    simp only [binC] at h1
    simp only [binVal]
    simp only at h2
    split at h2
    · rename_i hl
      simp only [bindSome, guard_eq, Bool.and_eq_true, beq_iff_eq, Option.some.injEq, Prod.mk.injEq] at h2
      obtain ⟨_, ⟨⟨⟨hs, ht⟩, h3⟩, h4⟩, rfl, rfl⟩ := h2
      rw [if_pos hl, Alu.eval, hfx h3, hfy h4, ← ofInt_sub]
      exact Rep.d ht hs h1
    · rename_i hl
      simp only [bindSome, guard_eq, Bool.and_eq_true, beq_iff_eq, bne_iff_ne, Option.some.injEq, Prod.mk.injEq] at h2
      obtain ⟨_, ⟨⟨⟨hs, ht⟩, h3⟩, h4⟩, rfl, rfl⟩ := h2
      rw [if_neg hl, Alu.eval, hlx h3, hly h4, ← ofInt_sub]
      exact Rep.w ht hs h1
  case mul =>
    simp only [binC] at h1
    simp only [binVal]
    simp only at h2
    split at h2
    · rename_i hl
      simp only [bindSome, guard_eq, Bool.and_eq_true, beq_iff_eq, Option.some.injEq, Prod.mk.injEq] at h2
      obtain ⟨_, ⟨⟨⟨hs, ht⟩, h3⟩, h4⟩, rfl, rfl⟩ := h2
      rw [if_pos hl, Alu.eval, hfx h3, hfy h4, ← BitVec.ofInt_mul]
      exact Rep.d ht hs h1
    · rename_i hl
      simp only [bindSome, guard_eq, Bool.and_eq_true, beq_iff_eq, bne_iff_ne, Option.some.injEq, Prod.mk.injEq] at h2
      obtain ⟨_, ⟨⟨⟨hs, ht⟩, h3⟩, h4⟩, rfl, rfl⟩ := h2
      rw [if_neg hl, Alu.eval, hlx h3, hly h4, ← BitVec.ofInt_mul]
      exact Rep.w ht hs h1
  case div =>
    simp only [binC] at h1
    simp only [binVal]
    simp only [bindSome, guard_eq, Bool.and_eq_true, beq_iff_eq] at h2
    obtain ⟨_, ⟨⟨hu, hx⟩, hy⟩, h2⟩ := h2
    split at h1
    · simp at h1
    rename_i hy0
    rw [← hu]
    split at h2
    · rename_i hl
      simp only [bindSome, guard_eq, Bool.and_eq_true, beq_iff_eq, Option.some.injEq, Prod.mk.injEq] at h2
      obtain ⟨_, ⟨⟨⟨hs, ht⟩, h3⟩, h4⟩, rfl, rfl⟩ := h2
      have := ((div_eval ht hx hy hy0).1 hs (hfx h3) (hfy h4)).1
      simp only [hl, if_true]
      have e : (if (promote ty).unsigned = true then Alu.divu.eval X Y else Alu.div.eval X Y) = BitVec.ofInt 64 (x.tdiv y) := by
        rw [← this]; split <;> rfl
      rw [e]
      exact Rep.d ht hs h1
    · rename_i hl
      simp only [bindSome, guard_eq, Bool.and_eq_true, beq_iff_eq, bne_iff_ne, Option.some.injEq, Prod.mk.injEq] at h2
      obtain ⟨_, ⟨⟨⟨hs, ht⟩, h3⟩, h4⟩, rfl, rfl⟩ := h2
      have := ((div_eval ht hx hy hy0).2 hs (hlx h3) (hly h4)).1
      simp only [hl, if_false]
      have e : (if (promote ty).unsigned = true then Alu.divuw.eval X Y else Alu.divw.eval X Y) =
          sext32 (BitVec.ofInt 32 (x.tdiv y)) := by
        rw [← this]; split <;> rfl
      simp only [Bool.false_eq_true, if_false]
      rw [e]
      exact Rep.w ht hs h1
  case mod =>
    simp only [binC] at h1
    simp only [binVal]
    simp only [bindSome, guard_eq, Bool.and_eq_true, beq_iff_eq] at h2
    obtain ⟨_, ⟨⟨hu, hx⟩, hy⟩, h2⟩ := h2
    split at h1
    · simp at h1
    rename_i hy0
    rw [Option.bind_eq_some_iff] at h1
    obtain ⟨_, _, h1⟩ := h1
    simp only [Option.some.injEq] at h1
    subst h1
    rw [← hu]
    split at h2
    · rename_i hl
      simp only [bindSome, guard_eq, Bool.and_eq_true, beq_iff_eq, Option.some.injEq, Prod.mk.injEq] at h2
      obtain ⟨_, ⟨⟨⟨hs, ht⟩, h3⟩, h4⟩, rfl, rfl⟩ := h2
      have := ((div_eval ht hx hy hy0).1 hs (hfx h3) (hfy h4)).2
      simp only [hl, if_true]
      have e : (if (promote ty).unsigned = true then Alu.remu.eval X Y else Alu.rem.eval X Y) = BitVec.ofInt 64 (x.tmod y) := by
        rw [← this]; split <;> rfl
      rw [e]
      exact mod_rep8 ht hs hx
    · rename_i hl
      simp only [bindSome, guard_eq, Bool.and_eq_true, beq_iff_eq, bne_iff_ne, Option.some.injEq, Prod.mk.injEq] at h2
      obtain ⟨_, ⟨⟨⟨hs, ht⟩, h3⟩, h4⟩, rfl, rfl⟩ := h2
      have := ((div_eval ht hx hy hy0).2 hs (hlx h3) (hly h4)).2
      simp only [hl, if_false]
      have e : (if (promote ty).unsigned = true then Alu.remuw.eval X Y else Alu.remw.eval X Y) =
          sext32 (BitVec.ofInt 32 (x.tmod y)) := by
        rw [← this]; split <;> rfl
      simp only [Bool.false_eq_true, if_false]
      rw [e]
      exact mod_rep4 ht hs hx
  case and =>
    simp only [binC, Option.some.injEq] at h1
    subst h1
    simp only [bindSome, guard_eq, Bool.and_eq_true, Bool.or_eq_true, beq_iff_eq, bne_iff_ne] at h2
    obtain ⟨_, ⟨⟨⟨⟨⟨ht, hs⟩, hx⟩, hy⟩, h3⟩, h4⟩, h2⟩ := h2
    simp only [binVal]
    split at h2
    · rename_i hf
      simp only [Option.some.injEq, Prod.mk.injEq] at h2
      obtain ⟨rfl, rfl⟩ := h2
      rw [hfx hf.1, hfy hf.2]
      exact bit_full bitwise_and ht hs hx hy
    · simp only [bindSome, guard_eq, beq_iff_eq, Option.some.injEq, Prod.mk.injEq] at h2
      obtain ⟨_, h5, rfl, rfl⟩ := h2
      rw [h5]
      have := bit_low bitwise_and (hlx h3) (hly h4)
      split
      · rename_i hf; exact this.2 (hsx hf.1) (hsy hf.2)
      · exact this.1
  case or =>
    simp only [binC, Option.some.injEq] at h1
    subst h1
    simp only [bindSome, guard_eq, Bool.and_eq_true, Bool.or_eq_true, beq_iff_eq, bne_iff_ne] at h2
    obtain ⟨_, ⟨⟨⟨⟨⟨ht, hs⟩, hx⟩, hy⟩, h3⟩, h4⟩, h2⟩ := h2
    simp only [binVal]
    split at h2
    · rename_i hf
      simp only [Option.some.injEq, Prod.mk.injEq] at h2
      obtain ⟨rfl, rfl⟩ := h2
      rw [hfx hf.1, hfy hf.2]
      exact bit_full bitwise_or ht hs hx hy
    · simp only [bindSome, guard_eq, beq_iff_eq, Option.some.injEq, Prod.mk.injEq] at h2
      obtain ⟨_, h5, rfl, rfl⟩ := h2
      rw [h5]
      have := bit_low bitwise_or (hlx h3) (hly h4)
      split
      · rename_i hf; exact this.2 (hsx hf.1) (hsy hf.2)
      · exact this.1
  case xor =>
    simp only [binC, Option.some.injEq] at h1
    subst h1
    simp only [bindSome, guard_eq, Bool.and_eq_true, Bool.or_eq_true, beq_iff_eq, bne_iff_ne] at h2
    obtain ⟨_, ⟨⟨⟨⟨⟨ht, hs⟩, hx⟩, hy⟩, h3⟩, h4⟩, h2⟩ := h2
    simp only [binVal]
    split at h2
    · rename_i hf
      simp only [Option.some.injEq, Prod.mk.injEq] at h2
      obtain ⟨rfl, rfl⟩ := h2
      rw [hfx hf.1, hfy hf.2]
      exact bit_full bitwise_xor ht hs hx hy
    · simp only [bindSome, guard_eq, beq_iff_eq, Option.some.injEq, Prod.mk.injEq] at h2
      obtain ⟨_, h5, rfl, rfl⟩ := h2
      rw [h5]
      have := bit_low bitwise_xor (hlx h3) (hly h4)
      split
      · rename_i hf; exact this.2 (hsx hf.1) (hsy hf.2)
      · exact this.1
  case eq =>
    simp only [binC, Option.some.injEq] at h1
    subst h1
    simp only [bindSome, guard_eq, Bool.and_eq_true, Bool.or_eq_true, beq_iff_eq, Option.some.injEq, Prod.mk.injEq] at h2
    obtain ⟨_, ⟨⟨⟨⟨ht, hx⟩, hy⟩, -⟩, h3⟩, rfl, rfl⟩ := h2
    have e : decide (X = Y) = decide (x = y) := by
      apply decide_eq_decide.mpr
      rcases h3 with h3 | ⟨⟨h3, h4⟩, h5⟩
      · rw [hfx h3.1, hfy h3.2]
        exact ofInt64_inj _ (range_promote ht hx) (range_promote ht hy)
      · rw [hsx h3, hsy h4]
        rw [h3] at hX; rw [h4] at hY
        exact ofInt32_inj hX.2 hY.2
    simp only [binVal, xor_eq_zero']
    rw [e]
    exact Rep.of_bool _
  case ne =>
    simp only [binC, Option.some.injEq] at h1
    subst h1
    simp only [bindSome, guard_eq, Bool.and_eq_true, Bool.or_eq_true, beq_iff_eq, Option.some.injEq, Prod.mk.injEq] at h2
    obtain ⟨_, ⟨⟨⟨⟨ht, hx⟩, hy⟩, -⟩, h3⟩, rfl, rfl⟩ := h2
    have e : decide (X = Y) = decide (x = y) := by
      apply decide_eq_decide.mpr
      rcases h3 with h3 | ⟨⟨h3, h4⟩, h5⟩
      · rw [hfx h3.1, hfy h3.2]
        exact ofInt64_inj _ (range_promote ht hx) (range_promote ht hy)
      · rw [hsx h3, hsy h4]
        rw [h3] at hX; rw [h4] at hY
        exact ofInt32_inj hX.2 hY.2
    simp only [binVal, bne, xor_eq_zero']
    rw [e, ← decide_not]
    exact Rep.of_bool _
  case lt =>
    simp only [binC, Option.some.injEq] at h1
    subst h1
    simp only [bindSome, guard_eq, Bool.and_eq_true, Bool.or_eq_true, beq_iff_eq, Option.some.injEq, Prod.mk.injEq] at h2
    obtain ⟨_, ⟨⟨⟨⟨ht, hx⟩, hy⟩, hp⟩, h3⟩, rfl, rfl⟩ := h2
    have hp : promote lt = lt := by simpa using hp
    have r1 := range_promote ht hx
    have r2 := range_promote ht hy
    rw [hp] at r1 r2
    have e : (if lt.unsigned then Alu.sltu.eval X Y else Alu.slt.eval X Y) = ofBool (decide (x < y)) := by
      rcases h3 with h3 | ⟨⟨h3, h4⟩, h5⟩
      · rw [hfx h3.1, hfy h3.2]
        cases hu : lt.unsigned
        · simp only [hu, Bool.false_eq_true, if_false] at r1 r2 ⊢
          rw [Alu.eval, BitVec.slt_eq_decide, toInt64 r1.1 r1.2, toInt64 r2.1 r2.2]
        · simp only [hu, if_true] at r1 r2 ⊢
          rw [Alu.eval, BitVec.ult_eq_decide]
          have := toNat64 r1.1 r1.2
          have := toNat64 r2.1 r2.2
          congr 1
          apply decide_eq_decide.mpr
          omega
      · rw [hsx h3, hsy h4, h5]
        rw [h3] at hX; rw [h4] at hY
        simp only [Ty.unsigned, if_true, Alu.eval]
        rw [sltu_sext hX.2 hY.2]
    simp only [binVal]
    rw [e]
    exact Rep.of_bool _
  case le =>
    simp only [binC, Option.some.injEq] at h1
    subst h1
    simp only [bindSome, guard_eq, Bool.and_eq_true, beq_iff_eq, Bool.not_eq_true', Option.some.injEq, Prod.mk.injEq] at h2
    obtain ⟨_, ⟨⟨⟨⟨hu, hx⟩, hy⟩, h3⟩, h4⟩, rfl, rfl⟩ := h2
    have r1 := range8 (t := .long false) rfl rfl hx
    have r2 := range8 (t := .long false) rfl rfl hy
    simp only [Ty.unsigned, Bool.false_eq_true, if_false] at r1 r2
    simp only [binVal, hu, Bool.false_eq_true, if_false, Alu.eval]
    rw [hfx h3, hfy h4, BitVec.slt_eq_decide, toInt64 r1.1 r1.2, toInt64 r2.1 r2.2]
    have : (ofBool (decide (y < x)) == 0) = decide (x ≤ y) := by
      by_cases hc : y < x
      · rw [decide_eq_true hc, decide_eq_false (by omega)]; rfl
      · rw [decide_eq_false hc, decide_eq_true (by omega)]; rfl
    rw [this]
    exact Rep.of_bool _
  case shl =>
    simp only [binC] at h1
    obtain ⟨hr, h1⟩ := shl_arith h1
    simp only [binVal]
    simp only at h2
    split at h2
    · rename_i hl
      simp only [bindSome, guard_eq, Bool.and_eq_true, beq_iff_eq, bne_iff_ne, Option.some.injEq, Prod.mk.injEq] at h2
      obtain ⟨_, ⟨⟨⟨hs, ht⟩, h3⟩, h4⟩, rfl, rfl⟩ := h2
      have hb : (promote ty).bits = 64 := by simp [Ty.bits, hs]
      rw [hb] at hr
      rw [if_pos hl, Alu.eval, hfx h3, (shift_amount (hly h4) hr.1).1 hr.2, shl_ofInt]
      exact Rep.d ht hs h1
    · rename_i hl
      simp only [bindSome, guard_eq, Bool.and_eq_true, beq_iff_eq, bne_iff_ne, Option.some.injEq, Prod.mk.injEq] at h2
      obtain ⟨_, ⟨⟨⟨hs, ht⟩, h3⟩, h4⟩, rfl, rfl⟩ := h2
      have hb : (promote ty).bits = 32 := by simp [Ty.bits, hs]
      rw [hb] at hr
      rw [if_neg hl, Alu.eval, hlx h3, (shift_amount (hly h4) hr.1).2 hr.2, shl_ofInt]
      exact Rep.w ht hs h1
  case shr =>
    simp only [binC] at h1
    split at h1
    case isFalse => simp at h1
    rename_i hr
    simp only [Option.some.injEq] at h1
    subst h1
    simp only [binVal]
    simp only [bindSome, guard_eq, Bool.and_eq_true, Bool.or_eq_true, Bool.not_eq_true', decide_eq_true_eq] at h2
    obtain ⟨_, ⟨⟨hx, hpos⟩, hun⟩, h2⟩ := h2
    split at h2
    · rename_i hl
      simp only [bindSome, guard_eq, Bool.and_eq_true, beq_iff_eq, bne_iff_ne, Option.some.injEq, Prod.mk.injEq] at h2
      obtain ⟨_, ⟨⟨⟨hs, ht⟩, h3⟩, h4⟩, rfl, rfl⟩ := h2
      have hb : (promote ty).bits = 64 := by simp [Ty.bits, hs]
      rw [hb] at hr
      have hrg := range8 ht hs hx
      simp only [hl, if_true, Alu.eval]
      rw [hfx h3, (shift_amount (hly h4) hr.1).1 hr.2]
      have hgoal : Rep .full (x / 2 ^ y.toNat) (BitVec.ofInt 64 (x / 2 ^ y.toNat)) := by
        refine Rep.d ht hs (in8_arith ht hs ?_)
        split at hrg
        · rename_i hu; simp only [hu, if_true]; exact div_pow_range (by omega) (by omega) hrg _
        · rename_i hu; simp only [hu]; exact div_pow_range (by omega) (by omega) hrg _
      cases hu : ty.unsigned
      · have : (promote ty).unsigned = false := by simpa [hu] using hun
        simp only [this, Bool.false_eq_true, if_false] at hrg ⊢
        rw [sra_ofInt (toInt64 hrg.1 hrg.2)]
        exact hgoal
      · have hp : 0 ≤ x := by simpa [hu] using hpos
        simp only [if_true]
        rw [srl_ofInt (toNat64 hp (by split at hrg <;> omega))]
        exact hgoal
    · rename_i hl
      simp only [bindSome, guard_eq, Bool.and_eq_true, beq_iff_eq, bne_iff_ne, Option.some.injEq, Prod.mk.injEq] at h2
      obtain ⟨_, ⟨⟨⟨hs, ht⟩, h3⟩, h4⟩, rfl, rfl⟩ := h2
      have hb : (promote ty).bits = 32 := by simp [Ty.bits, hs]
      rw [hb] at hr
      have hrg := range4 ht hs hx
      simp only [hl, Alu.eval, Bool.false_eq_true, if_false]
      rw [hlx h3, (shift_amount (hly h4) hr.1).2 hr.2]
      have hgoal : Rep (ext32 (promote ty) (x / 2 ^ y.toNat)) (x / 2 ^ y.toNat) (sext32 (BitVec.ofInt 32 (x / 2 ^ y.toNat))) := by
        refine Rep.w ht hs (in4_arith ht hs ?_)
        split at hrg
        · rename_i hu; simp only [hu, if_true]; exact div_pow_range (by omega) (by omega) hrg _
        · rename_i hu; simp only [hu]; exact div_pow_range (by omega) (by omega) hrg _
      cases hu : ty.unsigned
      · have : (promote ty).unsigned = false := by simpa [hu] using hun
        simp only [this, Bool.false_eq_true, if_false] at hrg ⊢
        rw [sra_ofInt (toInt32 hrg.1 hrg.2)]
        exact hgoal
      · have hp : 0 ≤ x := by simpa [hu] using hpos
        simp only [if_true]
        rw [srl_ofInt (toNat32 hp (by split at hrg <;> omega))]
        exact hgoal

end Toycc.Cg
