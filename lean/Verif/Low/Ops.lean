import Verif.Low.Mem
/-! Binary operators. -/
namespace Toycc.Low
open Toycc.Cg Toycc.Rv

variable {E : CEnv}

theorem ev_cast {d : Nat} {e : Expr} {t : Ty} {m m' : Mem} {v : Int} (h : evalC E false d e m = some (v, m')) (ht : t ≠ .void) :
    evalC E false d (.cast t e) m = some (convC t v, m') := by
  simp [evalC, h, ht]

theorem ev_bin {d : Nat} {l r : Expr} {op : BinOp} {t : Ty} {m m1 m2 : Mem} {x y z : Int} (hr : evalC E false d r m = some (y, m1))
    (hl : evalC E false (d + 1) l m1 = some (x, m2)) (hz : binC op t x y = some z) : evalC E false d (.bin op t l r) m = some (z, m2) := by
  simp [evalC, hr, hl, hz]

theorem ev_num {d : Nat} {t : Ty} {v : Int} {m : Mem} : evalC E false d (.num t v) m = some (v, m) := by simp [evalC]

/-- Integer operands. -/
theorem bin_int (op : BinOp) (L R : Node) (c1 c2 c : CTy) (h1 : Rel L.ty c1) (h2 : Rel R.ty c2) (i1 : c1.isInt = true) (i2 : c2.isInt = true)
    (ht : opT op c1 c2 = some c) :
    mkBin op L R = some ⟨op, L, R⟩ ∧ ∀ L2 : Node, L2.ty = L.ty → Rel (binN op L2 R).ty c ∧
      ∀ (d : Nat) (m m1 m2 : Mem) (x y z : Int), evalC E false d R.e m = some (y, m1) → evalC E false (d + 1) L2.e m1 = some (x, m2) →
        opC op c1 c2 x y = some z → evalC E false d (binN op L2 R).e m = some (z, m2) := by
  have j1 : L.ty.isInt = true := by rw [h1.int]; exact i1
  have j2 : R.ty.isInt = true := by rw [h2.int]; exact i2
  have hd1 := decay_int i1
  have hd2 := decay_int i2
  constructor
  · cases op <;> simp [mkBin, newAdd, newSub, j1, j2]
  · intro L2 hL
    obtain ⟨hw, hi, hn⟩ := common_ints L.ty (mem_ints j1) R.ty (mem_ints j2)
    obtain ⟨hu, hui, huw, hun⟩ := usual_ints c1 (mem_ints i1) c2 (mem_ints i2)
    rw [h1.wide, h2.wide] at hw
    have hlow := (low_int hi).1
    -- operators with the usual conversions
    have arith : ∀ op' : BinOp, op = op' → (binN op L2 R) = ⟨.bin op (common L.ty R.ty).low (castN L2 (common L.ty R.ty)).e (castN R (common L.ty R.ty)).e, common L.ty R.ty⟩ →
        opT op c1 c2 = usual c1 c2 → (∀ x y, opC op c1 c2 x y = (usual c1 c2).bind fun t => binC op t.low (convC t.low x) (convC t.low y)) →
        Rel (binN op L2 R).ty c ∧ ∀ (d : Nat) (m m1 m2 : Mem) (x y z : Int), evalC E false d R.e m = some (y, m1) → evalC E false (d + 1) L2.e m1 = some (x, m2) →
          opC op c1 c2 x y = some z → evalC E false d (binN op L2 R).e m = some (z, m2) := by
      intro op' _ hb hT hC
      rw [hT, hu] at ht
      cases ht
      rw [hb]
      refine ⟨.inr ⟨hi, hui, by rw [hw, huw]⟩, ?_⟩
      intro d m m1 m2 x y z hr hl hz
      rw [hC, hu] at hz
      refine ev_bin (ev_cast hr hlow) (ev_cast hl hlow) ?_
      rw [binC_wide hi, hw, conv_wide hi hn, conv_wide hi hn, hw]
      exact hz
    have cmp : ∀ op' : BinOp, op = op' → BinOp.cmp op = true → (binN op L2 R) = ⟨.bin op (.int false) (castN L2 (common L.ty R.ty)).e (castN R (common L.ty R.ty)).e, .int false⟩ →
        (opT op c1 c2 = some c → c = .int false) → (∀ x y, opC op c1 c2 x y = (usual c1 c2).bind fun t => binC op t.low (convC t.low x) (convC t.low y)) →
        Rel (binN op L2 R).ty c ∧ ∀ (d : Nat) (m m1 m2 : Mem) (x y z : Int), evalC E false d R.e m = some (y, m1) → evalC E false (d + 1) L2.e m1 = some (x, m2) →
          opC op c1 c2 x y = some z → evalC E false d (binN op L2 R).e m = some (z, m2) := by
      intro op' _ hcm hb hT hC
      cases hT ht
      rw [hb]
      refine ⟨.inl rfl, ?_⟩
      intro d m m1 m2 x y z hr hl hz
      rw [hC, hu] at hz
      refine ev_bin (ev_cast hr hlow) (ev_cast hl hlow) ?_
      rw [binC_int op hcm _ (cm c1.wide c2.wide).low, conv_wide hi hn, conv_wide hi hn, hw]
      exact hz
    have sh : ∀ op' : BinOp, op = op' → (binN op L2 R) = ⟨.bin op L2.ty.low L2.e R.e, L2.ty⟩ → opT op c1 c2 = prom c1 →
        (∀ x y, opC op c1 c2 x y = (prom c1).bind fun t => binC op t.low x y) →
        Rel (binN op L2 R).ty c ∧ ∀ (d : Nat) (m m1 m2 : Mem) (x y z : Int), evalC E false d R.e m = some (y, m1) → evalC E false (d + 1) L2.e m1 = some (x, m2) →
          opC op c1 c2 x y = some z → evalC E false d (binN op L2 R).e m = some (z, m2) := by
      intro op' _ hb hT hC
      have hp := prom_ints c1 (mem_ints i1)
      rw [hT, hp.1] at ht
      cases ht
      rw [hb, hL]
      refine ⟨.inr ⟨j1, hp.2.1, by rw [hp.2.2.1, h1.wide]⟩, ?_⟩
      intro d m m1 m2 x y z hr hl hz
      rw [hC, hp.1] at hz
      refine ev_bin hr hl ?_
      rw [binC_wide j1, h1.wide]
      exact hz
    have nb1 : ∀ b, c1 ≠ .ptr b := by rintro b rfl; cases i1
    have nb2 : ∀ b, c2 ≠ .ptr b := by rintro b rfl; cases i2
    cases op with
    | shl => exact sh .shl rfl rfl (by simp [opT, hd1, hd2, i2]) (by intro x y; simp [opC, hd1])
    | shr => exact sh .shr rfl rfl (by simp [opT, hd1, hd2, i2]) (by intro x y; simp [opC, hd1])
    | eq | ne | lt | le =>
      refine cmp _ rfl rfl (by simp only [binN, hL]) (by
        intro h; simp only [opT] at h; split at h
        · exact (Option.some.inj h).symm
        · cases h) ?_
      intro x y
      simp only [opC, hd1, hd2]
    | add | sub =>
      refine arith _ rfl (by simp only [binN, hL]) ?_ ?_
      · simp only [opT, hd1, hd2]
        try (split <;> first | rfl | exact absurd rfl (nb2 _) | exact absurd rfl (nb1 _))
      · intro x y
        simp only [opC, hd1, hd2]
        try (split <;> first | rfl | exact absurd rfl (nb2 _) | exact absurd rfl (nb1 _))
    | _ =>
      exact arith _ rfl (by simp only [binN, hL]) (by simp [opT, hd1, hd2]) (by intro x y; simp only [opC, hd1, hd2])

/-- An integer scaled by a size, modulo 2^64. -/
theorem scaled (R : Node) (c2 : CTy) (h2 : Rel R.ty c2) (i2 : c2.isInt = true) (size : Nat) (d : Nat) (m m1 : Mem) (y : Int)
    (hr : evalC E false (d + 1) R.e m = some (y, m1)) (hlo : -(2 ^ 63) < y * size) (hhi : y * size < 2 ^ 63) :
    ∃ s : Int, (2 ^ 64 : Int) ∣ s - y * size ∧ evalC E false d (binN .mul R ⟨.num (.long false) size, .long false⟩).e m = some (s, m1) := by
  have j2 : R.ty.isInt = true := by rw [h2.int]; exact i2
  have hc : common R.ty (.long false) = .long false ∨ common R.ty (.long false) = .long true := by
    have : ∀ t ∈ ints, common t (.long false) = .long false ∨ common t (.long false) = .long true := by decide +kernel
    exact this _ (mem_ints j2)
  have hb : binN .mul R ⟨.num (.long false) size, .long false⟩ = ⟨.bin .mul (common R.ty (.long false)).low (castN R (common R.ty (.long false))).e
      (.cast (common R.ty (.long false)).low (.num (.long false) size)), common R.ty (.long false)⟩ := rfl
  rw [hb]
  rcases hc with hc | hc
  · rw [hc]
    refine ⟨y * size, ⟨0, by omega⟩, ?_⟩
    refine ev_bin (x := convC (CTy.low (.long false)) y) (y := convC (CTy.low (.long false)) (size : Int)) (ev_cast ev_num (by simp [CTy.low])) (ev_cast hr (by simp [CTy.low])) ?_
    have hbm : ∀ v : Int, -(2 ^ 63) ≤ v → v < 2 ^ 63 → convC (CTy.low (.long false)) v = v := by
      intro v h1 h2
      exact convC_id rfl (decide_eq_true ⟨h1, h2⟩)
    have hprod : convC (CTy.low (.long false)) y * convC (CTy.low (.long false)) (size : Int) = y * size := by
      by_cases hs : size = 0
      · subst hs
        have : convC (CTy.low (.long false)) ((0 : Nat) : Int) = 0 := by decide
        rw [this]; simp
      · by_cases hy : y = 0
        · subst hy
          have : convC (CTy.low (.long false)) 0 = 0 := by decide
          rw [this]; simp
        · have hsz : (1 : Int) ≤ size := by omega
          have b1 : -(2 ^ 63) ≤ y ∧ y < 2 ^ 63 := by
            constructor
            · rcases Int.le_total 0 y with h | h
              · omega
              · have := Int.mul_le_mul_of_nonpos_left h hsz
                omega
            · rcases Int.le_total 0 y with h | h
              · have := Int.mul_le_mul_of_nonneg_left hsz h
                omega
              · omega
          have b2 : (size : Int) < 2 ^ 63 := by
            rcases Int.lt_or_gt_of_ne hy with h | h
            · have := Int.mul_le_mul_of_nonneg_right (show y ≤ -1 by omega) (show (0 : Int) ≤ size by omega)
              omega
            · have := Int.mul_le_mul_of_nonneg_right (show 1 ≤ y by omega) (show (0 : Int) ≤ size by omega)
              omega
          rw [hbm y b1.1 b1.2, hbm size (by omega) b2]
    show arithC (.long false) (convC (CTy.low (.long false)) y * convC (CTy.low (.long false)) (size : Int)) = _
    rw [hprod]
    have hrg : inRange (.long false) (y * size) = true := decide_eq_true ⟨show -(2 ^ 63 : Int) ≤ y * size by omega, show y * size < (2 ^ 63 : Int) by omega⟩
    simp only [arithC, Ty.unsigned, Bool.false_eq_true, if_false, hrg, if_true]
  · rw [hc]
    refine ⟨(y % 2 ^ 64) * ((size : Int) % 2 ^ 64) % 2 ^ 64, ?_, ?_⟩
    · apply Int.dvd_of_emod_eq_zero
      apply Int.emod_eq_zero_of_dvd
      rw [← Int.mul_emod]
      exact ⟨-(y * size / 2 ^ 64), by have := Int.emod_add_mul_ediv (y * size) (2 ^ 64); omega⟩
    · refine ev_bin (ev_cast ev_num (by simp [CTy.low])) (ev_cast hr (by simp [CTy.low])) ?_
      rfl

/-- Pointer plus or minus integer. -/
theorem bin_ptr (sub : Bool) (L R : Node) (b c2 : CTy) (h1 : L.ty.base = some b) (h2 : Rel R.ty c2) (i2 : c2.isInt = true) :
    (sub = false → newAdd L R = some ⟨.add, L, binN .mul R ⟨.num (.long false) b.size, .long false⟩⟩) ∧
    (sub = false → newAdd R L = some ⟨.add, L, binN .mul R ⟨.num (.long false) b.size, .long false⟩⟩) ∧
    (sub = true → newSub L R = some ⟨.sub, L, binN .mul R ⟨.num (.long false) b.size, .long false⟩⟩) ∧
    ∀ L2 : Node, L2.ty = L.ty →
      (binN (if sub then .sub else .add) L2 (binN .mul R ⟨.num (.long false) b.size, .long false⟩)).ty = .ptr b ∧
      ∀ (d : Nat) (m m1 m2 : Mem) (x y z : Int), evalC E false (d + 1) R.e m = some (y, m1) → evalC E false (d + 1) L2.e m1 = some (x, m2) →
        ptrAdd x (if sub then -y else y) b.size = some z →
        evalC E false d (binN (if sub then .sub else .add) L2 (binN .mul R ⟨.num (.long false) b.size, .long false⟩)).e m = some (z, m2) := by
  have j2 : R.ty.isInt = true := by rw [h2.int]; exact i2
  have jn : L.ty.isInt = false := by
    cases h : L.ty.isInt with
    | false => rfl
    | true => rw [base_int h] at h1; cases h1
  have rb := base_int j2
  refine ⟨?_, ?_, ?_, ?_⟩
  · intro _; simp [newAdd, jn, h1, rb]
  · intro _; simp [newAdd, jn, h1, rb]
  · intro _; simp [newSub, jn, h1, rb, j2]
  · intro L2 hL
    have hcm : common L2.ty (binN .mul R ⟨.num (.long false) b.size, .long false⟩).ty = .ptr b := by rw [hL]; exact common_base h1
    constructor
    · cases sub <;> simp only [binN, Bool.false_eq_true, if_false, if_true] <;> exact hcm
    · intro d m m1 m2 x y z hr hl hz
      unfold ptrAdd at hz
      by_cases hc : -(2 ^ 63) < (if sub then -y else y) * (b.size : Int) ∧ (if sub then -y else y) * (b.size : Int) < 2 ^ 63 ∧
          0 ≤ x + (if sub then -y else y) * (b.size : Int) ∧ x + (if sub then -y else y) * (b.size : Int) < 2 ^ 64
      · rw [if_pos hc] at hz
        obtain ⟨a1, a2, a3, a4⟩ := hc
        have hz := (Option.some.inj hz).symm
        subst hz
        cases sub with
        | false =>
          simp only [Bool.false_eq_true, if_false] at *
          obtain ⟨s, ⟨q, hq⟩, hs⟩ := scaled R c2 h2 i2 b.size d m m1 y hr a1 a2
          show evalC E false d (Expr.bin .add (common _ _).low (castN _ _).e (castN _ _).e) m = _
          rw [hcm]
          refine ev_bin (ev_cast hs (by simp [CTy.low])) (ev_cast hl (by simp [CTy.low])) ?_
          show some ((x % 2 ^ 64 + s % 2 ^ 64) % 2 ^ 64) = _
          congr 1
          have : (x % 2 ^ 64 + s % 2 ^ 64) % 2 ^ 64 = (x + s) % 2 ^ 64 := by rw [← Int.add_emod]
          rw [this]
          have e : x + s = x + y * b.size + 2 ^ 64 * q := by omega
          rw [e, Int.add_mul_emod_self_left]
          exact Int.emod_eq_of_lt a3 a4
        | true =>
          simp only [if_true] at *
          have hneg : -y * (b.size : Int) = -(y * b.size) := by rw [Int.neg_mul]
          rw [hneg] at a1 a2 a3 a4 ⊢
          obtain ⟨s, ⟨q, hq⟩, hs⟩ := scaled R c2 h2 i2 b.size d m m1 y hr (by omega) (by omega)
          show evalC E false d (Expr.bin .sub (common _ _).low (castN _ _).e (castN _ _).e) m = _
          rw [hcm]
          refine ev_bin (ev_cast hs (by simp [CTy.low])) (ev_cast hl (by simp [CTy.low])) ?_
          show some ((x % 2 ^ 64 - s % 2 ^ 64) % 2 ^ 64) = _
          congr 1
          have : (x % 2 ^ 64 - s % 2 ^ 64) % 2 ^ 64 = (x - s) % 2 ^ 64 := by rw [← Int.sub_emod]
          rw [this]
          have e : x - s = x + -(y * b.size) + 2 ^ 64 * (-q) := by omega
          rw [e, Int.add_mul_emod_self_left]
          exact Int.emod_eq_of_lt a3 a4
      · rw [if_neg hc] at hz; cases hz

/-- Pointer minus pointer. -/
theorem bin_diff (L R : Node) (b b' : CTy) (h1 : L.ty.base = some b) (h2 : R.ty.base = some b') :
    ∃ B, newSub L R = some B ∧ B.node.ty = .long false ∧ ∀ (d : Nat) (m m1 m2 : Mem) (x y z : Int),
      evalC E false (d + 1) R.e m = some (y, m1) → evalC E false (d + 2) L.e m1 = some (x, m2) → ptrDiff x y b.size = some z →
        evalC E false d B.node.e m = some (z, m2) := by
  have jn : L.ty.isInt = false := by
    cases h : L.ty.isInt with
    | false => rfl
    | true => rw [base_int h] at h1; cases h1
  refine ⟨_, by simp [newSub, jn, h1, h2]; rfl, rfl, ?_⟩
  intro d m m1 m2 x y z hr hl hz
  unfold ptrDiff at hz
  split at hz
  · rename_i hc
    obtain ⟨s0, s1, r1, r2, hdv⟩ := hc
    cases hz
    have hbm : ∀ v : Int, -(2 ^ 63) ≤ v → v < 2 ^ 63 → convC (CTy.low (.long false)) v = v := by
      intro v h1 h2
      exact convC_id rfl (decide_eq_true ⟨h1, h2⟩)
    have hrg : ∀ v : Int, -(2 ^ 63) ≤ v → v < 2 ^ 63 → arithC (.long false) v = some v := by
      intro v h1 h2
      have hrg : inRange (.long false) v = true := decide_eq_true ⟨h1, h2⟩
      simp only [arithC, Ty.unsigned, Bool.false_eq_true, if_false, hrg, if_true]
    have hsub : evalC E false (d + 1) (Expr.bin .sub (.long false) L.e R.e) m = some (x - y, m2) := ev_bin hr hl (hrg _ r1 r2)
    refine ev_bin (t := .long false) (x := x - y) (y := (b.size : Int)) (m1 := m) ?_ ?_ ?_
    · have := ev_cast (E := E) (d := d) (t := .long false) (m := m) (m' := m) (e := .num (.int false) b.size) (v := (b.size : Int)) ev_num (by simp)
      rw [show convC (.long false) (b.size : Int) = b.size from hbm _ (by omega) (by omega)] at this
      exact this
    · have := ev_cast (t := .long false) hsub (by simp)
      rw [show convC (.long false) (x - y) = x - y from hbm _ r1 r2] at this
      exact this
    · have hne : (b.size : Int) ≠ 0 := by omega
      show (if (b.size : Int) = 0 then none else arithC (.long false) ((x - y).tdiv b.size)) = _
      rw [if_neg hne, Int.tdiv_eq_ediv_of_dvd hdv]
      apply hrg
      · obtain ⟨q, hq⟩ := hdv
        rw [hq, Int.mul_ediv_cancel_left _ hne]
        rcases Int.le_total 0 q with h | h
        · omega
        · have := Int.mul_le_mul_of_nonpos_right (show (1 : Int) ≤ b.size by omega) h
          omega
      · obtain ⟨q, hq⟩ := hdv
        rw [hq, Int.mul_ediv_cancel_left _ hne]
        rcases Int.le_total 0 q with h | h
        · have := Int.mul_le_mul_of_nonneg_right (show (1 : Int) ≤ b.size by omega) h
          omega
        · omega
  · cases hz

/-- Comparisons with a pointer. -/
theorem bin_cmp (op : BinOp) (ho : BinOp.cmp op = true) (L R : Node) (b : CTy) (hc : common L.ty R.ty = .ptr b) :
    mkBin op L R = some ⟨op, L, R⟩ ∧ (binN op L R).ty = .int false ∧
    ∀ (d : Nat) (m m1 m2 : Mem) (x y z : Int), evalC E false d R.e m = some (y, m1) → evalC E false (d + 1) L.e m1 = some (x, m2) →
      binC op .ptr (convC .ptr x) (convC .ptr y) = some z → evalC E false d (binN op L R).e m = some (z, m2) := by
  refine ⟨by cases op <;> simp [BinOp.cmp] at ho <;> rfl, by cases op <;> simp [BinOp.cmp] at ho <;> rfl, ?_⟩
  intro d m m1 m2 x y z hr hl hz
  have hb : (binN op L R).e = .bin op (.int false) (.cast (common L.ty R.ty).low L.e) (.cast (common L.ty R.ty).low R.e) := by
    cases op <;> simp [BinOp.cmp] at ho <;> rfl
  rw [hb, hc]
  refine ev_bin (ev_cast hr (by simp [CTy.low])) (ev_cast hl (by simp [CTy.low])) ?_
  rw [binC_int op ho _ .ptr]
  exact hz

end Toycc.Low
