import Verif.Fold.Bin
/-! The evaluator computes the values of constants; the values of constants are those of C. -/
namespace Toycc.Fold
open Toycc.Rv Toycc.Cg

theorem number_eq {o : Option KV} {v : Int} : o.bind number = some v ↔ o = some (none, v) := by
  rcases o with _ | ⟨_ | n, w⟩ <;> simp [number]

theorem i64_sum {a y : Int} (ha : in63 a = true) (hy : in63 y = true) (hs : in63 (a + y) = true) :
    i64 ((BitVec.ofInt 64 a).toInt + (BitVec.ofInt 64 y).toInt) = .ok (BitVec.ofInt 64 (a + y)) := by
  have ha := of_decide_eq_true ha
  have hy := of_decide_eq_true hy
  have hs := of_decide_eq_true hs
  rw [toInt64 ha.1 ha.2, toInt64 hy.1 hy.2]
  unfold i64
  rw [if_pos hs]

theorem i64_diff {a y : Int} (ha : in63 a = true) (hy : in63 y = true) (hs : in63 (a - y) = true) :
    i64 ((BitVec.ofInt 64 a).toInt - (BitVec.ofInt 64 y).toInt) = .ok (BitVec.ofInt 64 (a - y)) := by
  have ha := of_decide_eq_true ha
  have hy := of_decide_eq_true hy
  have hs := of_decide_eq_true hs
  rw [toInt64 ha.1 ha.2, toInt64 hy.1 hy.2]
  unfold i64
  rw [if_pos hs]

theorem zero_iff {v : Int} (h : in64 v = true) : BitVec.ofInt 64 v = 0 ↔ v = 0 := by
  have h := of_decide_eq_true h
  constructor
  · intro e
    exact Decidable.byContradiction fun n => ofInt_ne_zero64 h.1 h.2 n e
  · intro e; subst e; rfl

mutual
theorem fold_kval : ∀ (e : Expr) (lab : Bool) (n : Option String) (v : Int), lab = true ∨ n = none →
    kval e = some (n, v) → fold lab e = .ok (BitVec.ofInt 64 v, n)
  | .num t w, lab, n, v, hl, h => by
    simp only [kval, bindSome, Option.some.injEq, Prod.mk.injEq] at h
    obtain ⟨_, _, rfl, rfl⟩ := h
    rfl
  | .neg t e, lab, n, v, hl, h => by
    simp only [kval, bindSome, number_eq, guard_eq, Bool.and_eq_true, beq_iff_eq, Option.some.injEq, Prod.mk.injEq, exists_const] at h
    obtain ⟨x, hx, r, hr, ⟨⟨⟨ht, hp⟩, hi⟩, he⟩, rfl, rfl⟩ := h
    simp only [fold, fold_kval e false none x (.inr rfl) hx]
    rw [hp] at hr
    rw [toInt_s64, i64_arith ht hp hr he]
    · rfl
    · rw [BitVec.ofInt_neg, BitVec.ofInt_neg, ofInt_s64]
    · rcases s64_self ht hi with h | h
      · exact .inl h
      · rw [h]; exact .inr rfl
  | .bin op t l r, lab, n, v, hl, h => by
    simp only [kval, bindSome, number_eq] at h
    obtain ⟨y, hy, ⟨n', x⟩, hx, h⟩ := h
    have hr := fold_kval r false none y (.inr rfl) hy
    cases n' with
    | none =>
      simp only [bindSome, Option.some.injEq, Prod.mk.injEq] at h
      obtain ⟨w, hw, rfl, rfl⟩ := h
      have hl' := fold_kval l (lab && (op == .add || op == .sub)) none x (.inr rfl) hx
      simp only [fold, hl', hr, binF_correct hw, Except.map]
    | some m =>
      simp only [bindSome, guard_eq, exists_const, Bool.and_eq_true] at h
      obtain ⟨⟨⟨_, ha⟩, hb⟩, h⟩ := h
      cases op <;> simp only [bindSome, guard_eq, exists_const, Option.some.injEq, Prod.mk.injEq, reduceCtorEq] at h
      case add =>
        obtain ⟨hs, rfl, rfl⟩ := h
        have hlab : lab = true := by rcases hl with h | h <;> simp_all
        subst hlab
        have hl' := fold_kval l true (some m) x (.inl rfl) hx
        simp only [fold, show (true && (BinOp.add == BinOp.add || BinOp.add == BinOp.sub)) = true from rfl, hl', hr, binF,
          i64_sum ha hb hs, Except.map]
      case sub =>
        obtain ⟨hs, rfl, rfl⟩ := h
        have hlab : lab = true := by rcases hl with h | h <;> simp_all
        subst hlab
        have hl' := fold_kval l true (some m) x (.inl rfl) hx
        simp only [fold, show (true && (BinOp.sub == BinOp.add || BinOp.sub == BinOp.sub)) = true from rfl, hl', hr, binF,
          i64_diff ha hb hs, Except.map]
  | .cond t c a b, lab, n, v, hl, h => by
    simp only [kval, bindSome, number_eq, guard_eq, exists_const] at h
    obtain ⟨x, hx, hi, h⟩ := h
    simp only [fold, fold_kval c false none x (.inr rfl) hx]
    by_cases h0 : x = 0
    · rw [if_neg (by simpa using h0)] at h
      rw [if_neg (by simpa using (zero_iff hi).mpr h0)]
      exact fold_kval b lab n v hl h
    · rw [if_pos h0] at h
      rw [if_pos (fun e => h0 ((zero_iff hi).mp e))]
      exact fold_kval a lab n v hl h
  | .comma l r, lab, n, v, hl, h => by
    simp only [kval, bindSome] at h
    obtain ⟨_, _, h⟩ := h
    rw [fold]
    exact fold_kval r lab n v hl h
  | .not e, lab, n, v, hl, h => by
    simp only [kval, bindSome, number_eq, guard_eq, exists_const, Option.some.injEq, Prod.mk.injEq] at h
    obtain ⟨x, hx, hi, rfl, rfl⟩ := h
    simp only [fold, fold_kval e false none x (.inr rfl) hx]
    rw [show (BitVec.ofInt 64 x == 0) = decide (x = 0) by
      rw [Bool.eq_iff_iff]; simp only [beq_iff_eq, decide_eq_true_eq]; exact zero_iff hi, ofB_bool]
  | .bitnot e, lab, n, v, hl, h => by
    simp only [kval, bindSome, number_eq, guard_eq, exists_const, Option.some.injEq, Prod.mk.injEq, Bool.and_eq_true,
      bne_iff_ne] at h
    obtain ⟨x, hx, ⟨⟨ht, hi⟩, hu⟩, rfl, rfl⟩ := h
    simp only [fold, fold_kval e false none x (.inr rfl) hx]
    rw [bitnot_correct ht hi hu]
  | .logand l r, lab, n, v, hl, h => by
    simp only [kval, bindSome, number_eq, guard_eq, exists_const] at h
    obtain ⟨x, hx, hi, h⟩ := h
    simp only [fold, fold_kval l false none x (.inr rfl) hx]
    by_cases h0 : x = 0
    · rw [if_pos h0] at h
      rw [if_pos ((zero_iff hi).mpr h0)]
      simp only [Option.some.injEq, Prod.mk.injEq] at h
      obtain ⟨rfl, rfl⟩ := h
      rfl
    · rw [if_neg h0] at h
      rw [if_neg (fun e => h0 ((zero_iff hi).mp e))]
      simp only [bindSome, number_eq, guard_eq, exists_const, Option.some.injEq, Prod.mk.injEq] at h
      obtain ⟨w, hw, hj, rfl, rfl⟩ := h
      simp only [fold_kval r false none w (.inr rfl) hw]
      rw [show (BitVec.ofInt 64 w != 0) = decide (w ≠ 0) by
        rw [Bool.eq_iff_iff]; simp only [bne_iff_ne, decide_eq_true_eq]; exact not_congr (zero_iff hj), ofB_bool]
  | .logor l r, lab, n, v, hl, h => by
    simp only [kval, bindSome, number_eq, guard_eq, exists_const] at h
    obtain ⟨x, hx, hi, h⟩ := h
    simp only [fold, fold_kval l false none x (.inr rfl) hx]
    by_cases h0 : x = 0
    · rw [if_neg (by simpa using h0)] at h
      rw [if_neg (by simpa using (zero_iff hi).mpr h0)]
      simp only [bindSome, number_eq, guard_eq, exists_const, Option.some.injEq, Prod.mk.injEq] at h
      obtain ⟨w, hw, hj, rfl, rfl⟩ := h
      simp only [fold_kval r false none w (.inr rfl) hw]
      rw [show (BitVec.ofInt 64 w != 0) = decide (w ≠ 0) by
        rw [Bool.eq_iff_iff]; simp only [bne_iff_ne, decide_eq_true_eq]; exact not_congr (zero_iff hj), ofB_bool]
    · rw [if_pos h0] at h
      rw [if_pos (fun e => h0 ((zero_iff hi).mp e))]
      simp only [Option.some.injEq, Prod.mk.injEq] at h
      obtain ⟨rfl, rfl⟩ := h
      rfl
  | .cast t e, lab, n, v, hl, h => by
    simp only [kval, bindSome] at h
    obtain ⟨⟨n', x⟩, hx, h⟩ := h
    cases n' with
    | none =>
      simp only [bindSome, guard_eq, exists_const, Option.some.injEq, Prod.mk.injEq, Bool.and_eq_true, Bool.or_eq_true,
        bne_iff_ne, beq_iff_eq] at h
      obtain ⟨⟨ht, hb⟩, rfl, rfl⟩ := h
      simp only [fold, fold_kval e lab none x (.inr rfl) hx]
      rw [castF_correct ht (by rcases hb with (h | h) | h <;> simp [h])]
    | some m =>
      simp only [bindSome, guard_eq, exists_const, Option.some.injEq, Prod.mk.injEq, Bool.or_eq_true, beq_iff_eq] at h
      obtain ⟨ht, rfl, rfl⟩ := h
      simp only [fold, fold_kval e lab (some m) x hl hx]
      rcases ht with rfl | rfl <;> rfl
  | .addr e, lab, n, v, hl, h => by
    rw [kval] at h
    rw [fold]
    exact fold_kaddr e lab n v hl h
  | .member f e, lab, n, v, hl, h => by
    simp only [kval, bindSome, guard_eq, exists_const, Bool.and_eq_true] at h
    obtain ⟨⟨ha, _⟩, ⟨n', x⟩, hx, h⟩ := h
    cases n' with
    | none => simp at h
    | some m =>
      simp only [bindSome, guard_eq, exists_const, Option.some.injEq, Prod.mk.injEq, Bool.and_eq_true] at h
      obtain ⟨⟨⟨h1, h2⟩, h3⟩, rfl, rfl⟩ := h
      have hlab : lab = true := by rcases hl with h | h <;> simp_all
      subst hlab
      simp only [fold, ha, fold_kaddr e true (some m) x (.inl rfl) hx, plus, i64_sum h1 h2 h3, Except.map]
      rfl
  | .var t w, lab, n, v, hl, h => by
    cases w with
    | glob m =>
      simp only [kval, bindSome, guard_eq, exists_const, Option.some.injEq, Prod.mk.injEq, Bool.or_eq_true, beq_iff_eq] at h
      obtain ⟨ht, rfl, rfl⟩ := h
      have hlab : lab = true := by rcases hl with h | h <;> simp_all
      subst hlab
      simp only [fold, setLabel, if_true]
      rcases ht with ht | rfl
      · simp [ht]
      · rfl
    | _ => simp [kval] at h
  | .null, lab, n, v, hl, h => by simp [kval] at h
  | .deref _ _, lab, n, v, hl, h => by simp [kval] at h
  | .assign _ _ _, lab, n, v, hl, h => by simp [kval] at h
  | .memzero _ _, lab, n, v, hl, h => by simp [kval] at h
  | .vlaPtr _, lab, n, v, hl, h => by simp [kval] at h
  | .call _ _ _, lab, n, v, hl, h => by simp [kval] at h
theorem fold_kaddr : ∀ (e : Expr) (lab : Bool) (n : Option String) (v : Int), lab = true ∨ n = none →
    kaddr e = some (n, v) → foldAddr lab e = .ok (BitVec.ofInt 64 v, n)
  | .var t w, lab, n, v, hl, h => by
    cases w with
    | glob m =>
      simp only [kaddr, Option.some.injEq, Prod.mk.injEq] at h
      obtain ⟨rfl, rfl⟩ := h
      have hlab : lab = true := by rcases hl with h | h <;> simp_all
      subst hlab
      rfl
    | _ => simp [kaddr] at h
  | .deref t e, lab, n, v, hl, h => by
    simp only [kaddr, bindSome] at h
    obtain ⟨⟨n', x⟩, hx, h⟩ := h
    cases n' with
    | none => simp at h
    | some m =>
      simp only [Option.some.injEq, Prod.mk.injEq] at h
      obtain ⟨rfl, rfl⟩ := h
      rw [foldAddr]
      exact fold_kval e lab (some m) x hl hx
  | .member f e, lab, n, v, hl, h => by
    simp only [kaddr, bindSome] at h
    obtain ⟨⟨n', x⟩, hx, h⟩ := h
    cases n' with
    | none => simp at h
    | some m =>
      simp only [bindSome, guard_eq, exists_const, Option.some.injEq, Prod.mk.injEq, Bool.and_eq_true] at h
      obtain ⟨⟨⟨h1, h2⟩, h3⟩, rfl, rfl⟩ := h
      simp only [foldAddr, fold_kaddr e lab (some m) x hl hx, plus, i64_sum h1 h2 h3, Except.map]
  | .null, lab, n, v, hl, h => by simp [kaddr] at h
  | .num _ _, lab, n, v, hl, h => by simp [kaddr] at h
  | .neg _ _, lab, n, v, hl, h => by simp [kaddr] at h
  | .addr _, lab, n, v, hl, h => by simp [kaddr] at h
  | .comma _ _, lab, n, v, hl, h => by simp [kaddr] at h
  | .cast _ _, lab, n, v, hl, h => by simp [kaddr] at h
  | .cond _ _ _ _, lab, n, v, hl, h => by simp [kaddr] at h
  | .not _, lab, n, v, hl, h => by simp [kaddr] at h
  | .bitnot _, lab, n, v, hl, h => by simp [kaddr] at h
  | .logand _ _, lab, n, v, hl, h => by simp [kaddr] at h
  | .logor _ _, lab, n, v, hl, h => by simp [kaddr] at h
  | .bin _ _ _ _, lab, n, v, hl, h => by simp [kaddr] at h
  | .assign _ _ _, lab, n, v, hl, h => by simp [kaddr] at h
  | .memzero _ _, lab, n, v, hl, h => by simp [kaddr] at h
  | .vlaPtr _, lab, n, v, hl, h => by simp [kaddr] at h
  | .call _ _ _, lab, n, v, hl, h => by simp [kaddr] at h
end

/-! ### the values are those of C -/

theorem adr_toNat (a : W) : adr (a.toNat : Int) = a := (ofInt_eq_of_toNat rfl).symm

theorem binK_binC {op ty lt x y v} (h : binK op ty lt x y = some v) : binC op ty x y = some v := by
  simp only [binK, bindSome] at h
  obtain ⟨w, hw, h⟩ := h
  cases op <;> simp only [bindSome, Option.some.injEq] at h <;> obtain ⟨_, _, rfl⟩ := h <;> exact hw

theorem move (s : W) (a y : Int) : ((s + BitVec.ofInt 64 a).toNat + y) % 2 ^ 64 = ((s + BitVec.ofInt 64 (a + y)).toNat : Int) := by
  rw [BitVec.toNat_add, BitVec.toNat_add, BitVec.toNat_ofInt, BitVec.toNat_ofInt]
  omega

mutual
theorem eval_kval (E : CEnv) : ∀ (e : Expr) (k : KV) (d : Nat) (m : Mem),
    kval e = some k → evalC E false d e m = some (meaning E k, m)
  | .num t w, k, d, m, h => by
    simp only [kval, bindSome, Option.some.injEq] at h
    obtain ⟨_, _, rfl⟩ := h
    rfl
  | .neg t e, k, d, m, h => by
    simp only [kval, bindSome, number_eq, Option.some.injEq] at h
    obtain ⟨x, hx, r, hr, _, _, rfl⟩ := h
    have := eval_kval E e _ d m hx
    simp only [evalC, this, meaning, bindSome]
    simp [hr]
  | .bin op t l r, k, d, m, h => by
    simp only [kval, bindSome, number_eq] at h
    obtain ⟨y, hy, ⟨n', x⟩, hx, h⟩ := h
    have hr := eval_kval E r _ d m hy
    have hl := eval_kval E l _ (d + 1) m hx
    cases n' with
    | none =>
      simp only [bindSome, Option.some.injEq] at h
      obtain ⟨w, hw, rfl⟩ := h
      simp only [evalC, Bool.false_eq_true, if_false, bindSome]
      exact ⟨_, hr, _, hl, w, binK_binC hw, rfl⟩
    | some s =>
      simp only [bindSome, guard_eq, exists_const, Bool.and_eq_true, beq_iff_eq] at h
      obtain ⟨⟨⟨rfl, ha⟩, hb⟩, h⟩ := h
      have hp : ∀ z : Int, arithC (promote .ptr) z = some (z % 2 ^ 64) := fun _ => rfl
      cases op <;> simp only [bindSome, guard_eq, exists_const, Option.some.injEq, reduceCtorEq] at h
      case add =>
        obtain ⟨hs, rfl⟩ := h
        simp only [evalC, Bool.false_eq_true, if_false, bindSome]
        exact ⟨_, hr, _, hl, _, hp _, by simp only [meaning, move]⟩
      case sub =>
        obtain ⟨hs, rfl⟩ := h
        simp only [evalC, Bool.false_eq_true, if_false, bindSome]
        have := move (E.sym (.sym s)) x (-y)
        simp only [← Int.sub_eq_add_neg] at this
        exact ⟨_, hr, _, hl, _, hp _, by simp only [meaning, this]⟩
  | .cond t c a b, k, d, m, h => by
    simp only [kval, bindSome, number_eq, guard_eq, exists_const] at h
    obtain ⟨x, hx, hi, h⟩ := h
    have := eval_kval E c _ d m hx
    simp only [evalC, Bool.false_and, Bool.false_eq_true, if_false, bindSome]
    refine ⟨_, this, ?_⟩
    simp only [show meaning E (none, x) = x from rfl]
    by_cases h0 : x = 0
    · rw [if_neg (by simpa using h0)] at h ⊢
      exact eval_kval E b _ d m h
    · rw [if_pos h0] at h ⊢
      exact eval_kval E a _ d m h
  | .comma l r, k, d, m, h => by
    simp only [kval, bindSome] at h
    obtain ⟨w, hw, h⟩ := h
    have := eval_kval E l _ d m hw
    simp only [evalC, this, bindSome]
    exact ⟨_, rfl, eval_kval E r _ d m h⟩
  | .not e, k, d, m, h => by
    simp only [kval, bindSome, number_eq, guard_eq, exists_const, Option.some.injEq] at h
    obtain ⟨x, hx, hi, rfl⟩ := h
    have := eval_kval E e _ d m hx
    simp only [evalC, this, meaning, bindSome]
    simp
  | .bitnot e, k, d, m, h => by
    simp only [kval, bindSome, number_eq, guard_eq, exists_const, Option.some.injEq] at h
    obtain ⟨x, hx, hi, rfl⟩ := h
    have := eval_kval E e _ d m hx
    simp only [evalC, this, meaning, bindSome]
    simp
  | .logand l r, k, d, m, h => by
    simp only [kval, bindSome, number_eq, guard_eq, exists_const] at h
    obtain ⟨x, hx, hi, h⟩ := h
    have := eval_kval E l _ d m hx
    simp only [evalC, this, meaning, bindSome, Bool.false_eq_true, if_false]
    refine ⟨_, rfl, ?_⟩
    simp only
    by_cases h0 : x = 0
    · rw [if_pos h0] at h
      simp only [Option.some.injEq] at h
      subst h
      simp [h0]
    · rw [if_neg h0] at h
      simp only [bindSome, number_eq, guard_eq, exists_const, Option.some.injEq] at h
      obtain ⟨w, hw, hj, rfl⟩ := h
      have := eval_kval E r _ d m hw
      simp only [if_neg h0, this, meaning, bindSome]
      simp
  | .logor l r, k, d, m, h => by
    simp only [kval, bindSome, number_eq, guard_eq, exists_const] at h
    obtain ⟨x, hx, hi, h⟩ := h
    have := eval_kval E l _ d m hx
    simp only [evalC, this, meaning, bindSome, Bool.false_eq_true, if_false]
    refine ⟨_, rfl, ?_⟩
    simp only
    by_cases h0 : x = 0
    · subst h0
      simp only [ne_eq, not_true_eq_false, if_false] at h ⊢
      simp only [bindSome, number_eq, guard_eq, exists_const, Option.some.injEq] at h
      obtain ⟨w, hw, hj, rfl⟩ := h
      have := eval_kval E r _ d m hw
      simp only [this, meaning, bindSome]
      simp
    · rw [if_pos h0] at h
      simp only [Option.some.injEq] at h
      subst h
      simp [h0]
  | .cast t e, k, d, m, h => by
    simp only [kval, bindSome] at h
    obtain ⟨⟨n', x⟩, hx, h⟩ := h
    have := eval_kval E e _ d m hx
    cases n' with
    | none =>
      simp only [bindSome, guard_eq, exists_const, Option.some.injEq, Bool.and_eq_true] at h
      obtain ⟨⟨ht, hb⟩, rfl⟩ := h
      have hv : t ≠ .void := by rintro rfl; simp [Ty.scalar] at ht
      simp only [evalC, this, meaning, bindSome]
      simp [hv]
    | some s =>
      simp only [bindSome, guard_eq, exists_const, Option.some.injEq, Bool.or_eq_true, beq_iff_eq] at h
      obtain ⟨ht, rfl⟩ := h
      have hv : t ≠ .void := by rintro rfl; simp at ht
      have hc : convC t ((E.sym (.sym s) + BitVec.ofInt 64 x).toNat : Int) = ((E.sym (.sym s) + BitVec.ofInt 64 x).toNat : Int) := by
        have := (E.sym (.sym s) + BitVec.ofInt 64 x).isLt
        rcases ht with rfl | rfl <;> exact Int.emod_eq_of_lt (by omega) (by simp [Ty.bits, Ty.size]; omega)
      simp only [evalC, Bool.false_eq_true, if_false, bindSome, if_neg hv]
      exact ⟨_, this, by simp only [meaning, hc]⟩
  | .addr e, k, d, m, h => by
    rw [kval] at h
    simp only [evalC]
    exact eval_kaddr E e k d m h
  | .member f e, k, d, m, h => by
    simp only [kval, bindSome, guard_eq, exists_const, Bool.and_eq_true, Option.isNone_iff_eq_none] at h
    obtain ⟨⟨ha, hb⟩, ⟨n', x⟩, hx, h⟩ := h
    cases n' with
    | none => simp at h
    | some s =>
      simp only [bindSome, guard_eq, exists_const, Option.some.injEq, Bool.and_eq_true] at h
      obtain ⟨⟨⟨h1, h2⟩, h3⟩, rfl⟩ := h
      have := eval_kaddr E e _ d m hx
      have hf : ∀ a, fieldC E f m a = some (a.toNat : Int) := by
        intro a
        simp only [fieldC, hb]
        cases hty : f.ty <;> simp_all [isArr, loadC]
      simp only [evalC, bindSome, Bool.false_eq_true, if_false]
      refine ⟨_, this, _, hf _, ?_⟩
      simp only [meaning, adr_toNat]
      rw [BitVec.ofInt_add, BitVec.add_assoc]
  | .var t w, k, d, m, h => by
    cases w with
    | glob s =>
      simp only [kval, bindSome, guard_eq, exists_const, Option.some.injEq, Bool.or_eq_true, beq_iff_eq] at h
      obtain ⟨ht, rfl⟩ := h
      have hf : ∀ a, loadC E t m a = some (a.toNat : Int) := by
        intro a
        cases hty : t <;> simp_all [isArr, loadC]
      simp only [evalC, varAddrC, bindSome, Bool.false_eq_true, if_false, hf, meaning]
      exact ⟨_, rfl, _, rfl, by simp⟩
    | _ => simp [kval] at h
  | .null, k, d, m, h => by simp [kval] at h
  | .deref _ _, k, d, m, h => by simp [kval] at h
  | .assign _ _ _, k, d, m, h => by simp [kval] at h
  | .memzero _ _, k, d, m, h => by simp [kval] at h
  | .vlaPtr _, k, d, m, h => by simp [kval] at h
  | .call _ _ _, k, d, m, h => by simp [kval] at h
theorem eval_kaddr (E : CEnv) : ∀ (e : Expr) (k : KV) (d : Nat) (m : Mem),
    kaddr e = some k → evalC E true d e m = some (meaning E k, m)
  | .var t w, k, d, m, h => by
    cases w with
    | glob s =>
      simp only [kaddr, Option.some.injEq] at h
      subst h
      simp only [evalC, varAddrC, bindSome, meaning]
      exact ⟨_, rfl, by simp⟩
    | _ => simp [kaddr] at h
  | .deref t e, k, d, m, h => by
    simp only [kaddr, bindSome] at h
    obtain ⟨⟨n', x⟩, hx, h⟩ := h
    cases n' with
    | none => simp at h
    | some s =>
      simp only [Option.some.injEq] at h
      subst h
      have := eval_kval E e _ d m hx
      simp only [evalC, this, bindSome]
      exact ⟨_, rfl, by simp⟩
  | .member f e, k, d, m, h => by
    simp only [kaddr, bindSome] at h
    obtain ⟨⟨n', x⟩, hx, h⟩ := h
    cases n' with
    | none => simp at h
    | some s =>
      simp only [bindSome, guard_eq, exists_const, Option.some.injEq, Bool.and_eq_true] at h
      obtain ⟨⟨⟨h1, h2⟩, h3⟩, rfl⟩ := h
      have := eval_kaddr E e _ d m hx
      simp only [evalC, bindSome, if_true]
      refine ⟨_, this, ?_⟩
      simp only [meaning, adr_toNat]
      rw [BitVec.ofInt_add, BitVec.add_assoc]
  | .null, k, d, m, h => by simp [kaddr] at h
  | .num _ _, k, d, m, h => by simp [kaddr] at h
  | .neg _ _, k, d, m, h => by simp [kaddr] at h
  | .addr _, k, d, m, h => by simp [kaddr] at h
  | .comma _ _, k, d, m, h => by simp [kaddr] at h
  | .cast _ _, k, d, m, h => by simp [kaddr] at h
  | .cond _ _ _ _, k, d, m, h => by simp [kaddr] at h
  | .not _, k, d, m, h => by simp [kaddr] at h
  | .bitnot _, k, d, m, h => by simp [kaddr] at h
  | .logand _ _, k, d, m, h => by simp [kaddr] at h
  | .logor _ _, k, d, m, h => by simp [kaddr] at h
  | .bin _ _ _ _, k, d, m, h => by simp [kaddr] at h
  | .assign _ _ _, k, d, m, h => by simp [kaddr] at h
  | .memzero _ _, k, d, m, h => by simp [kaddr] at h
  | .vlaPtr _, k, d, m, h => by simp [kaddr] at h
  | .call _ _ _, k, d, m, h => by simp [kaddr] at h
end

end Toycc.Fold
