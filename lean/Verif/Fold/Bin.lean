import Verif.Fold.Sem
/-! The arithmetic of the evaluator on the values of constants. -/
namespace Toycc.Fold
open Toycc.Rv Toycc.Cg

theorem toInt_s64 (x : Int) : (BitVec.ofInt 64 x).toInt = s64 x := BitVec.toInt_ofInt ..

theorem ofInt_s64 (x : Int) : BitVec.ofInt 64 (s64 x) = BitVec.ofInt 64 x := by
  rw [← toInt_s64, BitVec.ofInt_toInt]

theorem s64_eq {x : Int} (h1 : -(2 ^ 63) ≤ x) (h2 : x < 2 ^ 63) : s64 x = x := by rw [← toInt_s64, toInt64 h1 h2]

/-- The types arithmetic is done in. -/
theorem arith_types {t : Ty} (ht : t.scalar = true) (hp : promote t = t) :
    t = .int false ∨ t = .int true ∨ t = .long false ∨ t = .long true ∨ t = .enum ∨ t = .ptr := by
  cases t with
  | int u => cases u <;> simp
  | long u => cases u <;> simp
  | _ => simp_all [Ty.scalar, promote]

theorem arith_size {t : Ty} (ht : t.scalar = true) (hp : promote t = t) : t.size = 4 ∨ t.size = 8 := by
  rcases arith_types ht hp with h | h | h | h | h | h <;> subst h <;> simp [Ty.size]

theorem i64_arith {t : Ty} {r s v : Int} (ht : t.scalar = true) (hp : promote t = t) (h : arithC t r = some v)
    (he : exact t r s = true) (hc : BitVec.ofInt 64 s = BitVec.ofInt 64 r) (hs : (t.unsigned = true ∧ t.size = 8) ∨ s = r) :
    i64 s = .ok (BitVec.ofInt 64 v) := by
  unfold arithC at h
  unfold exact at he
  cases hu : t.unsigned
  · simp only [hu, Bool.false_eq_true, if_false, false_and, false_or] at h he hs
    subst hs
    split at h <;> cases h
    rename_i hr
    unfold i64
    have : -(2 ^ 63) ≤ s ∧ s < 2 ^ 63 := by
      rcases arith_size ht hp with h4 | h8
      · have := range4 ht h4 hr; simp only [hu, Bool.false_eq_true, if_false] at this; omega
      · have := range8 ht h8 hr; simp only [hu, Bool.false_eq_true, if_false] at this; omega
    rw [if_pos this]
  · simp only [hu, if_true, true_and, Option.some.injEq] at h he hs
    rcases arith_size ht hp with h4 | h8
    · simp only [h4] at hs he
      rcases hs with hs | hs
      · exact absurd hs (by decide)
      · subst hs
        replace he : inRange t s = true := he
        have := range4 ht h4 he
        simp only [hu, if_true] at this
        have hb : t.bits = 32 := by simp [Ty.bits, h4]
        rw [hb, Int.emod_eq_of_lt this.1 this.2] at h
        unfold i64
        rw [if_pos (by omega), h]
    · simp only [h8] at he
      replace he : in63 s = true := he
      have he := of_decide_eq_true he
      unfold i64
      rw [if_pos he, hc, ← h]
      have hb : t.bits = 64 := by simp [Ty.bits, h8]
      rw [hb]
      exact congrArg _ (ofInt_congr (by omega))

/-- Operands of a type other than the unsigned 64-bit ones are themselves in the compiler's arithmetic. -/
theorem s64_self {t : Ty} (ht : t.scalar = true) {x : Int} (hx : inRange t x = true) :
    (t.unsigned = true ∧ t.size = 8) ∨ s64 x = x := by
  cases t with
  | int u => cases u <;> exact .inr (have := of_decide_eq_true hx; s64_eq (by simp [Ty.bits, Ty.size] at this; omega) (by simp [Ty.bits, Ty.size] at this; omega))
  | char u => cases u <;> exact .inr (have := of_decide_eq_true hx; s64_eq (by simp [Ty.bits, Ty.size] at this; omega) (by simp [Ty.bits, Ty.size] at this; omega))
  | short u => cases u <;> exact .inr (have := of_decide_eq_true hx; s64_eq (by simp [Ty.bits, Ty.size] at this; omega) (by simp [Ty.bits, Ty.size] at this; omega))
  | long u =>
    cases u
    · exact .inr (have := of_decide_eq_true hx; s64_eq (by simp [Ty.bits, Ty.size] at this; omega) (by simp [Ty.bits, Ty.size] at this; omega))
    · exact .inl ⟨rfl, rfl⟩
  | bool => exact .inr (have := of_decide_eq_true hx; s64_eq (by omega) (by omega))
  | enum => exact .inr (have := of_decide_eq_true hx; s64_eq (by simp [Ty.bits, Ty.size] at this; omega) (by simp [Ty.bits, Ty.size] at this; omega))
  | ptr => exact .inl ⟨rfl, rfl⟩
  | _ => simp [Ty.scalar] at ht

theorem ofB_bool (b : Bool) : ofB b = BitVec.ofInt 64 (boolC b) := by cases b <;> rfl

/-- Ranges as seen by the comparisons. -/
theorem range_cmp {t : Ty} (ht : t.scalar = true) {x : Int} (h : inRange t x = true) :
    if t.unsigned then 0 ≤ x ∧ x < 2 ^ 64 else -(2 ^ 63) ≤ x ∧ x < 2 ^ 63 := by
  cases t with
  | int u => cases u <;> have := of_decide_eq_true h <;> simp [Ty.bits, Ty.size] at this <;> simp [Ty.unsigned] <;> omega
  | char u => cases u <;> have := of_decide_eq_true h <;> simp [Ty.bits, Ty.size] at this <;> simp [Ty.unsigned] <;> omega
  | short u => cases u <;> have := of_decide_eq_true h <;> simp [Ty.bits, Ty.size] at this <;> simp [Ty.unsigned] <;> omega
  | long u => cases u <;> have := of_decide_eq_true h <;> simp [Ty.bits, Ty.size] at this <;> simp [Ty.unsigned] <;> omega
  | bool => have := of_decide_eq_true h; simp [Ty.unsigned]; omega
  | enum => have := of_decide_eq_true h; simp [Ty.bits, Ty.size] at this; simp [Ty.unsigned]; omega
  | ptr => have := of_decide_eq_true h; simp [Ty.bits, Ty.size] at this; simp [Ty.unsigned]; omega
  | _ => simp [Ty.scalar] at ht

theorem lt_cmp {t : Ty} (ht : t.scalar = true) {x y : Int} (hx : inRange t x = true) (hy : inRange t y = true) :
    (if t.unsigned then (BitVec.ofInt 64 x).ult (BitVec.ofInt 64 y) else (BitVec.ofInt 64 x).slt (BitVec.ofInt 64 y)) = decide (x < y) := by
  have h1 := range_cmp ht hx
  have h2 := range_cmp ht hy
  cases hu : t.unsigned
  · simp only [hu, Bool.false_eq_true, if_false] at h1 h2 ⊢
    rw [BitVec.slt_eq_decide, toInt64 h1.1 h1.2, toInt64 h2.1 h2.2]
  · simp only [hu, if_true] at h1 h2 ⊢
    rw [BitVec.ult_eq_decide]
    have a1 := toNat64 h1.1 h1.2
    have a2 := toNat64 h2.1 h2.2
    exact decide_eq_decide.mpr (by omega)

theorem le_cmp {t : Ty} (ht : t.scalar = true) {x y : Int} (hx : inRange t x = true) (hy : inRange t y = true) :
    (if t.unsigned then (BitVec.ofInt 64 x).ule (BitVec.ofInt 64 y) else (BitVec.ofInt 64 x).sle (BitVec.ofInt 64 y)) = decide (x ≤ y) := by
  have h1 := range_cmp ht hx
  have h2 := range_cmp ht hy
  cases hu : t.unsigned
  · simp only [hu, Bool.false_eq_true, if_false] at h1 h2 ⊢
    rw [BitVec.sle_eq_decide, toInt64 h1.1 h1.2, toInt64 h2.1 h2.2]
  · simp only [hu, if_true] at h1 h2 ⊢
    rw [BitVec.ule_eq_decide]
    have a1 := toNat64 h1.1 h1.2
    have a2 := toNat64 h2.1 h2.2
    exact decide_eq_decide.mpr (by omega)

theorem eq_cmp {t : Ty} (ht : t.scalar = true) {x y : Int} (hx : inRange t x = true) (hy : inRange t y = true) :
    (BitVec.ofInt 64 x == BitVec.ofInt 64 y) = decide (x = y) := by
  have h1 := range_cmp ht hx
  have h2 := range_cmp ht hy
  by_cases h : x = y
  · subst h; simp
  · rw [decide_eq_false h]
    apply beq_eq_false_iff_ne.mpr
    intro e
    apply h
    have e := congrArg BitVec.toNat e
    rw [BitVec.toNat_ofInt, BitVec.toNat_ofInt] at e
    cases hu : t.unsigned
    · simp only [hu, Bool.false_eq_true, if_false] at h1 h2; omega
    · simp only [hu, if_true] at h1 h2; omega

/-- The type a bitwise operator or division works in. -/
theorem div_pair {t : Ty} (ht : t.scalar = true) (hp : promote t = t) {x y q : Int} (hx : inRange t x = true)
    (hy : inRange t y = true) (h0 : y ≠ 0) (hq : arithC t (x.tdiv y) = some q) :
    BitVec.ofInt 64 y ≠ 0 ∧
    (t.unsigned = true → BitVec.ofInt 64 x / BitVec.ofInt 64 y = BitVec.ofInt 64 (x.tdiv y) ∧
      BitVec.ofInt 64 x % BitVec.ofInt 64 y = BitVec.ofInt 64 (x.tmod y)) ∧
    (t.unsigned = false → ¬(BitVec.ofInt 64 x = BitVec.intMin 64 ∧ BitVec.ofInt 64 y = -1) ∧
      BitVec.sdiv (BitVec.ofInt 64 x) (BitVec.ofInt 64 y) = BitVec.ofInt 64 (x.tdiv y) ∧
      BitVec.srem (BitVec.ofInt 64 x) (BitVec.ofInt 64 y) = BitVec.ofInt 64 (x.tmod y)) ∧
    BitVec.ofInt 64 q = BitVec.ofInt 64 (x.tdiv y) := by
  have h1 := range_cmp ht hx
  have h2 := range_cmp ht hy
  refine ⟨ofInt_ne_zero64 (by split at h2 <;> omega) (by split at h2 <;> omega) h0, ?_, ?_, ?_⟩
  · intro hu
    simp only [hu, if_true] at h1 h2
    exact ⟨udiv_ofInt (toNat64 (by omega) (by omega)) (toNat64 (by omega) (by omega)),
      umod_ofInt (toNat64 (by omega) (by omega)) (toNat64 (by omega) (by omega))⟩
  · intro hu
    simp only [hu, Bool.false_eq_true, if_false] at h1 h2
    refine ⟨?_, sdiv_ofInt (toInt64 (by omega) (by omega)) (toInt64 (by omega) (by omega)),
      srem_ofInt (toInt64 (by omega) (by omega)) (toInt64 (by omega) (by omega))⟩
    intro ⟨e1, e2⟩
    have e1 := congrArg BitVec.toInt e1
    have e2 := congrArg BitVec.toInt e2
    rw [toInt64 h1.1 h1.2] at e1
    rw [toInt64 h2.1 h2.2] at e2
    replace e1 : x = -(2 ^ 63) := e1
    replace e2 : y = -1 := e2
    subst e1 e2
    unfold arithC at hq
    simp only [hu, Bool.false_eq_true, if_false] at hq
    split at hq <;> cases hq
    rename_i hr
    rcases arith_types ht hp with h | h | h | h | h | h <;> subst h <;>
      first | (exact absurd hr (by decide)) | (exact absurd hu (by decide)) | (exact absurd hx (by decide))
  · unfold arithC at hq
    cases hu : t.unsigned
    · simp only [hu, Bool.false_eq_true, if_false] at hq
      split at hq <;> cases hq
      rfl
    · simp only [hu, if_true, Option.some.injEq] at hq
      simp only [hu, if_true] at h1 h2
      have ha : 0 ≤ x.tdiv y := Int.tdiv_nonneg h1.1 h2.1
      have hb : x.tdiv y ≤ x := by rw [Int.tdiv_eq_ediv_of_nonneg h1.1]; exact Int.ediv_le_self _ h1.1
      rcases arith_size ht hp with h4 | h8
      · have := range4 ht h4 hx
        simp only [hu, if_true] at this
        rw [Int.emod_eq_of_lt ha (by simp only [Ty.bits, h4]; omega)] at hq
        rw [hq]
      · rw [Int.emod_eq_of_lt ha (by simp only [Ty.bits, h8]; omega)] at hq
        rw [hq]

theorem amount_ofInt {y : Int} (h0 : 0 ≤ y) (h1 : y < 64) : amount (BitVec.ofInt 64 y) = .ok y.toNat := by
  have : (BitVec.ofInt 64 y).toNat = y.toNat := by rw [BitVec.toNat_ofInt]; omega
  unfold amount
  rw [this, if_pos (by omega)]

theorem bits_le {t : Ty} (ht : t.scalar = true) (hp : promote t = t) : (t.bits : Int) = 32 ∨ (t.bits : Int) = 64 := by
  rcases arith_size ht hp with h | h <;> simp [Ty.bits, h]

theorem binF_correct {op ty lt x y v} (h : binK op ty lt x y = some v) :
    binF op ty lt (BitVec.ofInt 64 x) (BitVec.ofInt 64 y) = .ok (BitVec.ofInt 64 v) := by
  unfold binK at h
  simp only [bindSome] at h
  obtain ⟨w, hc, h⟩ := h
  unfold binC at hc
  cases op <;> simp only [bindSome, guard_eq, exists_const, Bool.and_eq_true, beq_iff_eq, Option.some.injEq] at h hc <;>
    obtain ⟨hg, rfl⟩ := h
  case add =>
    obtain ⟨⟨⟨⟨ht, hp⟩, hx⟩, hy⟩, he⟩ := hg
    rw [hp] at hc
    simp only [binF, toInt_s64]
    refine i64_arith ht hp hc he ?_ ?_
    · rw [BitVec.ofInt_add, BitVec.ofInt_add, ofInt_s64, ofInt_s64]
    · rcases s64_self ht hx with h | h
      · exact .inl h
      · rcases s64_self ht hy with h' | h'
        · exact .inl h'
        · rw [h, h']; exact .inr rfl
  case sub =>
    obtain ⟨⟨⟨⟨ht, hp⟩, hx⟩, hy⟩, he⟩ := hg
    rw [hp] at hc
    simp only [binF, toInt_s64]
    refine i64_arith ht hp hc he ?_ ?_
    · rw [ofInt_sub, ofInt_sub, ofInt_s64, ofInt_s64]
    · rcases s64_self ht hx with h | h
      · exact .inl h
      · rcases s64_self ht hy with h' | h'
        · exact .inl h'
        · rw [h, h']; exact .inr rfl
  case mul =>
    obtain ⟨⟨⟨⟨ht, hp⟩, hx⟩, hy⟩, he⟩ := hg
    rw [hp] at hc
    simp only [binF, toInt_s64]
    refine i64_arith ht hp hc he ?_ ?_
    · rw [BitVec.ofInt_mul, BitVec.ofInt_mul, ofInt_s64, ofInt_s64]
    · rcases s64_self ht hx with h | h
      · exact .inl h
      · rcases s64_self ht hy with h' | h'
        · exact .inl h'
        · rw [h, h']; exact .inr rfl
  case div =>
    obtain ⟨⟨⟨ht, hp⟩, hx⟩, hy⟩ := hg
    rw [hp] at hc
    split at hc
    · exact absurd hc (by simp)
    rename_i h0
    obtain ⟨hn, hu, hs, he⟩ := div_pair ht hp hx hy h0 hc
    simp only [binF]
    rw [if_neg hn, he]
    cases ht : ty.unsigned
    · rw [if_neg (by decide), if_neg (hs ht).1, (hs ht).2.1]
    · rw [if_pos rfl, (hu ht).1]
  case mod =>
    obtain ⟨⟨⟨ht, hp⟩, hx⟩, hy⟩ := hg
    rw [hp] at hc
    split at hc
    · exact absurd hc (by simp)
    rename_i h0
    simp only [Option.bind_eq_some_iff, Option.some.injEq] at hc
    obtain ⟨q, hc, rfl⟩ := hc
    obtain ⟨hn, hu, hs, he⟩ := div_pair ht hp hx hy h0 hc
    simp only [binF]
    rw [if_neg hn]
    cases ht : ty.unsigned
    · rw [if_neg (by decide), if_neg (hs ht).1, (hs ht).2.2]
    · rw [if_pos rfl, (hu ht).2]
  case and =>
    obtain ⟨⟨⟨ht, hp⟩, hx⟩, hy⟩ := hg
    rw [hp] at hc
    have := (bit_full bitwise_and ht (arith_size ht hp) hx hy).1
    rw [← hc, ← this]; rfl
  case or =>
    obtain ⟨⟨⟨ht, hp⟩, hx⟩, hy⟩ := hg
    rw [hp] at hc
    have := (bit_full bitwise_or ht (arith_size ht hp) hx hy).1
    rw [← hc, ← this]; rfl
  case xor =>
    obtain ⟨⟨⟨ht, hp⟩, hx⟩, hy⟩ := hg
    rw [hp] at hc
    have := (bit_full bitwise_xor ht (arith_size ht hp) hx hy).1
    rw [← hc, ← this]; rfl
  case eq =>
    simp only [binF]
    rw [eq_cmp hg.1.1 hg.1.2 hg.2, ofB_bool, hc]
  case ne =>
    simp only [binF, bne]
    rw [eq_cmp hg.1.1 hg.1.2 hg.2, ofB_bool, ← hc]
    simp
  case lt =>
    simp only [binF]
    rw [lt_cmp hg.1.1 hg.1.2 hg.2, ofB_bool, hc]
  case le =>
    simp only [binF]
    rw [le_cmp hg.1.1 hg.1.2 hg.2, ofB_bool, hc]
  case shl =>
    obtain ⟨⟨⟨ht, hp⟩, hx⟩, he⟩ := hg
    rw [hp] at hc
    split at hc
    · rename_i hy
      have hb := bits_le ht hp
      simp only [binF]
      rw [amount_ofInt hy.1 (by omega)]
      simp only [Except.map]
      rw [shl_ofInt]
      split at hc
      · rename_i hu
        simp only [Option.some.injEq] at hc
        subst hc
        rcases arith_size ht hp with h4 | h8
        · simp only [hu, h4] at he
          replace he : inRange ty (x * 2 ^ y.toNat) = true := by simpa using he
          have := range4 ht h4 he
          simp only [hu, if_true] at this
          rw [Int.emod_eq_of_lt this.1 (by simp only [Ty.bits, h4]; omega)]
        · exact congrArg _ (ofInt_congr (by simp only [Ty.bits, h8]; omega))
      · split at hc
        · rename_i hu _
          unfold arithC at hc
          rw [if_neg hu] at hc
          split at hc <;> cases hc
          rfl
        · cases hc
    · cases hc
  case shr =>
    obtain ⟨⟨ht, hp⟩, hx⟩ := hg
    rw [hp] at hc
    split at hc <;> cases hc
    rename_i hy
    have hb := bits_le ht hp
    simp only [binF]
    rw [amount_ofInt hy.1 (by omega)]
    simp only [Except.map]
    have h1 := range_cmp ht hx
    cases hu : (ty.unsigned && ty.size == 8)
    · rw [if_neg (by decide)]
      have : -(2 ^ 63) ≤ x ∧ x < 2 ^ 63 := by
        cases hu' : ty.unsigned
        · simp only [hu', Bool.false_eq_true, if_false] at h1; exact h1
        · rcases arith_size ht hp with h4 | h8
          · have := range4 ht h4 hx; simp only [hu', if_true] at this; omega
          · rw [hu', h8] at hu; exact absurd hu (by decide)
      rw [sra_ofInt (toInt64 this.1 this.2)]
    · rw [if_pos rfl]
      simp only [Bool.and_eq_true] at hu
      simp only [hu.1, if_true] at h1
      rw [srl_ofInt (toNat64 h1.1 h1.2)]

/-- Conversions (common.c:141-160), except to `_Bool`. -/
theorem castF_correct {t : Ty} {v : Int} (ht : t.scalar = true) (hb : t ≠ .bool ∨ v = 0 ∨ v = 1) :
    castF t (BitVec.ofInt 64 v) = BitVec.ofInt 64 (convC t v) := by
  have key : ∀ w, w = 8 ∨ w = 16 ∨ w = 32 → ∀ u : Bool, (if u then ((BitVec.ofInt 64 v).setWidth w).setWidth 64 else ((BitVec.ofInt 64 v).setWidth w).signExtend 64)
      = BitVec.ofInt 64 (if u then v % 2 ^ w else v.bmod (2 ^ w)) := by
    intro w hw u
    cases u
    · rw [if_neg (by decide), if_neg (by decide)]
      apply BitVec.eq_of_toInt_eq
      rw [BitVec.toInt_signExtend_of_le (by omega), BitVec.toInt_ofInt, BitVec.toInt_setWidth]
      rw [BitVec.toNat_ofInt]
      rcases hw with h | h | h <;> subst h <;> simp only [Int.bmod_def] <;> omega
    · rw [if_pos rfl, if_pos rfl]
      apply BitVec.eq_of_toNat_eq
      rw [BitVec.toNat_setWidth, BitVec.toNat_setWidth, BitVec.toNat_ofInt, BitVec.toNat_ofInt]
      rcases hw with h | h | h <;> subst h <;> omega
  cases t with
  | bool =>
    rcases hb with hb | rfl | rfl
    · exact absurd rfl hb
    · rfl
    · rfl
  | char u => exact key 8 (by simp) u
  | short u => exact key 16 (by simp) u
  | int u => exact key 32 (by simp) u
  | enum => exact key 32 (by simp) false
  | long u => exact (ofInt_conv8 rfl rfl v).symm
  | ptr => exact (ofInt_conv8 rfl rfl v).symm
  | _ => simp [Ty.scalar] at ht

theorem bitnot_correct {t : Ty} {v : Int} (ht : t.scalar = true) (hv : inRange t v = true) (hu : t ≠ .int true) :
    ~~~(BitVec.ofInt 64 v) = BitVec.ofInt 64 (convC (promote t) (-v - 1)) := by
  have e : ~~~(BitVec.ofInt 64 v) = BitVec.ofInt 64 (-v - 1) := by
    apply BitVec.eq_of_toNat_eq
    rw [BitVec.toNat_not, BitVec.toNat_ofInt, BitVec.toNat_ofInt]
    omega
  rw [e]
  by_cases h8 : (promote t).size = 8
  · rw [ofInt_conv8 (by cases t <;> simp_all [promote, Ty.scalar]) h8]
  · have hp : promote t = .int false ∨ promote t = .enum := by
      cases t with
      | int u => cases u <;> simp_all [promote]
      | _ => simp_all [promote, Ty.size, Ty.scalar]
    have hr : -(2 ^ 31) ≤ v ∧ v < 2 ^ 31 := by
      cases t with
      | bool => have := of_decide_eq_true hv; omega
      | char u => cases u <;> have := of_decide_eq_true hv <;> simp [Ty.bits, Ty.size] at this <;> omega
      | short u => cases u <;> have := of_decide_eq_true hv <;> simp [Ty.bits, Ty.size] at this <;> omega
      | int u => cases u <;> first | exact absurd rfl hu | (have := of_decide_eq_true hv; simp [Ty.bits, Ty.size] at this; omega)
      | enum => have := of_decide_eq_true hv; simp [Ty.bits, Ty.size] at this; omega
      | long u => exact absurd rfl h8
      | ptr => exact absurd rfl h8
      | _ => simp [Ty.scalar] at ht
    have : inRange (promote t) (-v - 1) = true := by
      rcases hp with h | h <;> rw [h] <;> apply decide_eq_true <;> simp [Ty.bits, Ty.size] <;> omega
    rw [convC_id (by rcases hp with h | h <;> rw [h] <;> rfl) this]

end Toycc.Fold
