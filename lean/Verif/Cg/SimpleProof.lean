import Verif.Cg.Simple
import Verif.Cg.BinCorrect
/-! On the simple class strict evaluation succeeds whenever C evaluation does. -/
namespace Toycc.Cg
open Toycc.Rv

variable {E : CEnv}

theorem loadC_inV {t : Ty} {m a v} (h : loadC E t m a = some v) : inV t v := by
  have hr := readN_lt m a
  have rng : ∀ n : Nat, 0 < n → t.size = n → t.scalar = true → t ≠ .bool →
      v = (if t.unsigned then (readN m a t.size : Int) else (readN m a t.size : Int).bmod (2 ^ t.bits)) → inV t v := by
    intro n _ hn ht hb hv
    rw [inV_scalar ht]
    have hc : convC t (readN m a t.size) = v := by
      rw [hv]
      have hl := hr t.size
      rw [pow256] at hl
      have : ((readN m a t.size : Nat) : Int) < 2 ^ t.bits := by
        have : ((readN m a t.size : Nat) : Int) < ((2 ^ (8 * t.size) : Nat) : Int) := by exact_mod_cast hl
        simpa [Ty.bits] using this
      cases hu : t.unsigned
      · cases t <;> simp_all [convC]
      · have : ((readN m a t.size : Nat) : Int) % 2 ^ t.bits = readN m a t.size := Int.emod_eq_of_lt (by omega) this
        cases t <;> simp_all [convC]
    rw [← hc]; exact convC_inRange ht _
  have addr : v = (a.toNat : Int) → 0 ≤ v ∧ v < 2 ^ 64 := by
    intro e; have := a.isLt; omega
  cases t with
  | void => simp [loadC] at h
  | arr n => simp only [loadC, Option.some.injEq] at h; exact addr h.symm
  | struc n => simp only [loadC, Option.some.injEq] at h; exact addr h.symm
  | func => simp only [loadC, Option.some.injEq] at h; exact addr h.symm
  | bool =>
    simp only [loadC] at h
    split at h
    · rename_i hc
      simp only [Bool.and_eq_true, decide_eq_true_eq] at hc
      simp only [Option.some.injEq] at h
      exact decide_eq_true (by omega)
    · simp at h
  | _ =>
    simp only [loadC] at h
    split at h
    · simp only [Option.some.injEq] at h
      exact rng _ (by simp [Ty.size]) rfl rfl (by simp) h.symm
    · simp at h

theorem ofInt_conv8 {t : Ty} (ht : t.scalar = true) (h8 : t.size = 8) (v : Int) : BitVec.ofInt 64 (convC t v) = BitVec.ofInt 64 v := by
  have e : convC t v = if t.unsigned then v % 2 ^ 64 else v.bmod (2 ^ 64) := by
    cases t <;> simp_all [convC, Ty.size, Ty.bits, Ty.scalar]
  rw [e]
  apply ofInt_congr
  split
  · omega
  · rw [Int.bmod_emod]

theorem castOk_sub {a t : Ty} {v : Int} (hc : castOk a t = true) (hm : castMatrix (typeId a) (typeId t) = none) (ht : t.scalar = true)
    (hb : t ≠ .bool) (h8 : t.size ≠ 8) (hv : inV a v) : inRange t v = true := by
  cases t with
  | char u =>
    cases u
    · cases a with
      | char u => cases u <;> simp_all [castOk, inV, Ty.scalar]
      | short u => cases u <;> simp [castMatrix, typeId] at hm
      | int u => cases u <;> simp [castMatrix, typeId] at hm
      | long u => cases u <;> simp [castMatrix, typeId] at hm
      | bool => simp [castMatrix, typeId] at hm
      | enum => simp [castMatrix, typeId] at hm
      | ptr => simp [castMatrix, typeId] at hm
      | _ => simp [castOk, Ty.scalar] at hc
    · cases a with
      | char u => cases u <;> simp_all [castMatrix, typeId, inV]
      | short u => cases u <;> simp [castMatrix, typeId] at hm
      | int u => cases u <;> simp [castMatrix, typeId] at hm
      | long u => cases u <;> simp [castMatrix, typeId] at hm
      | bool => simp [castMatrix, typeId] at hm
      | enum => simp [castMatrix, typeId] at hm
      | ptr => simp [castMatrix, typeId] at hm
      | _ => simp [castOk, Ty.scalar] at hc
  | short u =>
    cases u
    · cases a with
      | char u =>
        cases u
        · have hv : -(2 ^ 7) ≤ v ∧ v < 2 ^ 7 := of_decide_eq_true hv
          exact decide_eq_true (by simp only [Ty.bits, Ty.size]; omega)
        · have hv : 0 ≤ v ∧ v < 2 ^ 8 := of_decide_eq_true hv
          exact decide_eq_true (by simp only [Ty.bits, Ty.size]; omega)
      | short u => cases u <;> simp_all [castOk, inV, Ty.scalar]
      | int u => cases u <;> simp [castMatrix, typeId] at hm
      | long u => cases u <;> simp [castMatrix, typeId] at hm
      | bool => simp [castMatrix, typeId] at hm
      | enum => simp [castMatrix, typeId] at hm
      | ptr => simp [castMatrix, typeId] at hm
      | _ => simp [castOk, Ty.scalar] at hc
    · cases a with
      | char u =>
        cases u
        · simp [castMatrix, typeId] at hm
        · have hv : 0 ≤ v ∧ v < 2 ^ 8 := of_decide_eq_true hv
          exact decide_eq_true (by simp only [Ty.bits, Ty.size]; omega)
      | short u => cases u <;> simp_all [castMatrix, typeId, inV]
      | int u => cases u <;> simp [castMatrix, typeId] at hm
      | long u => cases u <;> simp [castMatrix, typeId] at hm
      | bool => simp [castMatrix, typeId] at hm
      | enum => simp [castMatrix, typeId] at hm
      | ptr => simp [castMatrix, typeId] at hm
      | _ => simp [castOk, Ty.scalar] at hc
  | int u =>
    cases u
    · cases a with
      | char u =>
        cases u
        · have hv : -(2 ^ 7) ≤ v ∧ v < 2 ^ 7 := of_decide_eq_true hv
          exact decide_eq_true (by simp only [Ty.bits, Ty.size]; omega)
        · have hv : 0 ≤ v ∧ v < 2 ^ 8 := of_decide_eq_true hv
          exact decide_eq_true (by simp only [Ty.bits, Ty.size]; omega)
      | short u =>
        cases u
        · have hv : -(2 ^ 15) ≤ v ∧ v < 2 ^ 15 := of_decide_eq_true hv
          exact decide_eq_true (by simp only [Ty.bits, Ty.size]; omega)
        · have hv : 0 ≤ v ∧ v < 2 ^ 16 := of_decide_eq_true hv
          exact decide_eq_true (by simp only [Ty.bits, Ty.size]; omega)
      | int u => cases u <;> simp_all [castOk, inV, Ty.scalar]
      | long u => cases u <;> simp [castMatrix, typeId] at hm
      | bool => simp [castMatrix, typeId] at hm
      | enum => simp [castMatrix, typeId] at hm
      | ptr => simp [castMatrix, typeId] at hm
      | _ => simp [castOk, Ty.scalar] at hc
    · cases a with
      | char u =>
        cases u
        · simp [castMatrix, typeId] at hm
        · have hv : 0 ≤ v ∧ v < 2 ^ 8 := of_decide_eq_true hv
          exact decide_eq_true (by simp only [Ty.bits, Ty.size]; omega)
      | short u =>
        cases u
        · simp [castMatrix, typeId] at hm
        · have hv : 0 ≤ v ∧ v < 2 ^ 16 := of_decide_eq_true hv
          exact decide_eq_true (by simp only [Ty.bits, Ty.size]; omega)
      | int u => cases u <;> simp_all [castMatrix, typeId, inV]
      | long u => cases u <;> simp [castMatrix, typeId] at hm
      | bool => simp [castMatrix, typeId] at hm
      | enum => simp [castMatrix, typeId] at hm
      | ptr => simp [castMatrix, typeId] at hm
      | _ => simp [castOk, Ty.scalar] at hc
  | enum =>
    cases a with
    | bool => have hv : 0 ≤ v ∧ v ≤ 1 := of_decide_eq_true hv
              exact decide_eq_true (by simp only [Ty.bits, Ty.size]; omega)
    | char u =>
      cases u
      · have hv : -(2 ^ 7) ≤ v ∧ v < 2 ^ 7 := of_decide_eq_true hv
        exact decide_eq_true (by simp only [Ty.bits, Ty.size]; omega)
      · have hv : 0 ≤ v ∧ v < 2 ^ 8 := of_decide_eq_true hv
        exact decide_eq_true (by simp only [Ty.bits, Ty.size]; omega)
    | short u =>
      cases u
      · have hv : -(2 ^ 15) ≤ v ∧ v < 2 ^ 15 := of_decide_eq_true hv
        exact decide_eq_true (by simp only [Ty.bits, Ty.size]; omega)
      · have hv : 0 ≤ v ∧ v < 2 ^ 16 := of_decide_eq_true hv
        exact decide_eq_true (by simp only [Ty.bits, Ty.size]; omega)
    | int u => cases u
               · have hv : -(2 ^ 31) ≤ v ∧ v < 2 ^ 31 := of_decide_eq_true hv
                 exact decide_eq_true (by simp only [Ty.bits, Ty.size]; omega)
               · simp [castOk] at hc
    | enum => exact hv
    | _ => simp [castOk] at hc
  | bool => exact absurd rfl hb
  | long u => exact absurd rfl h8
  | ptr => exact absurd rfl h8
  | _ => simp [Ty.scalar] at ht

theorem castS_ok {a t : Ty} {v : Int} (hc : castOk a t = true) (hv : inV a v) (ht : t ≠ .void) :
    castS a t v .full = some (convC t v, .full) ∧ t.scalar = true := by
  have hs : t.scalar = true := by
    cases t with
    | void => exact absurd rfl ht
    | arr n => simp [castOk, Ty.scalar] at hc
    | struc n => simp [castOk, Ty.scalar] at hc
    | func => simp [castOk, Ty.scalar] at hc
    | _ => rfl
  refine ⟨?_, hs⟩
  by_cases hb : t = .bool
  · subst hb; simp [castS, guard, Ext.testable]
  have e : castS a t v .full = (do
      let _ ← guard (t.scalar && Ext.full != .junk)
      match castMatrix (typeId a) (typeId t) with
      | some _ => some (convC t v, .full)
      | none =>
        if Ext.full = .full then
          let _ ← guard (BitVec.ofInt 64 (convC t v) == BitVec.ofInt 64 v)
          some (convC t v, .full)
        else
          let _ ← guard (t == .int true)
          some (convC t v, .full)) := by
    cases t <;> first | rfl | exact absurd rfl ht | exact absurd rfl hb
  rw [e]
  have g1 : guard (t.scalar && Ext.full != .junk) = some () := by rw [hs]; rfl
  rw [g1]
  cases hm : castMatrix (typeId a) (typeId t) with
  | some x => rfl
  | none =>
    have : BitVec.ofInt 64 (convC t v) = BitVec.ofInt 64 v := by
      by_cases h8 : t.size = 8
      · exact ofInt_conv8 hs h8 v
      · rw [convC_id hs (castOk_sub hc hm hs hb h8 hv)]
    simp [guard, this]

theorem arithC_inRange {t : Ty} {x v : Int} (ht : t.scalar = true) (h : arithC t x = some v) : inRange t v = true := by
  unfold arithC at h
  split at h
  · rename_i hu
    simp only [Option.some.injEq] at h
    subst h
    have := convC_inRange ht x
    cases t <;> simp_all [convC, Ty.unsigned]
  · split at h
    · simp_all
    · simp at h

theorem arithTy_cases {t : Ty} (h : arithTy t = true) : t = .int false ∨ t = .long false ∨ t = .long true := by
  simpa [arithTy, or_assoc] using h

theorem bool_inRange (b : Bool) : inRange (.int false) (boolC b) = true := by cases b <;> decide

theorem tmod_bounds (x y : Int) : (0 ≤ x → 0 ≤ x.tmod y ∧ x.tmod y ≤ x) ∧ (x ≤ 0 → x ≤ x.tmod y ∧ x.tmod y ≤ 0) := by
  have key : ∀ a b : Int, 0 ≤ a → 0 ≤ a.tmod b ∧ a.tmod b ≤ a := by
    intro a b ha
    refine ⟨Int.tmod_nonneg b ha, ?_⟩
    rw [Int.tmod_eq_emod_of_nonneg ha]
    exact emod_le_self _ ha
  refine ⟨key x y, fun hx => ?_⟩
  have := key (-x) y (by omega)
  rw [Int.neg_tmod] at this
  omega

theorem range_between {t : Ty} (ht : t = .int false ∨ t = .long false ∨ t = .long true) {x v : Int} (h : inRange t x = true)
    (h1 : 0 ≤ x → 0 ≤ v ∧ v ≤ x) (h2 : x ≤ 0 → x ≤ v ∧ v ≤ 0) : inRange t v = true := by
  rcases Int.le_total 0 x with hx | hx
  · have := h1 hx
    rcases ht with rfl | rfl | rfl <;> (have h := of_decide_eq_true h; exact decide_eq_true (by omega))
  · have := h2 hx
    rcases ht with rfl | rfl | rfl <;> (have h := of_decide_eq_true h; exact decide_eq_true (by omega))

theorem shr_bounds (x : Int) (k : Nat) : (0 ≤ x → 0 ≤ x / 2 ^ k ∧ x / 2 ^ k ≤ x) ∧ (x ≤ 0 → x ≤ x / 2 ^ k ∧ x / 2 ^ k ≤ 0) := by
  have hp : (0 : Int) < 2 ^ k := Int.pow_pos (by decide)
  constructor
  · intro hx
    exact ⟨Int.ediv_nonneg hx (Int.le_of_lt hp), Int.ediv_le_self _ hx⟩
  · intro hx
    constructor
    · apply Int.le_ediv_of_mul_le hp
      have : x * 2 ^ k ≤ x * 1 := Int.mul_le_mul_of_nonpos_left hx (by omega)
      omega
    · have h0 : x / 2 ^ k ≤ 0 / 2 ^ k := Int.ediv_le_ediv hp hx
      simpa using h0

theorem binS_ok {op ty l r x y v} (hb : binOk op ty l r = true) (hx : inV l x) (hy : inV r y) (h : binC op ty x y = some v) :
    binS op ty l x .full y .full = some (v, .full) ∧ inV ty v := by
  simp only [binS, h, Option.bind_eq_bind, Option.bind_some]
  have arith : ∀ (w : Int), arithC (promote ty) w = some v → (l.isLong = true → (arithTy ty && ty.size == 8 || ty.hasBase) = true) →
      (l.isLong = false → ty = .int false) →
      (if l.isLong = true then
          (guard ((promote ty).size == 8 && (promote ty).scalar && Ext.full == .full && Ext.full == .full)).bind fun _ => some (v, Ext.full)
        else
          (guard ((promote ty).size == 4 && (promote ty).scalar && Ext.full != .junk && Ext.full != .junk)).bind fun _ =>
            some (v, ext32 (promote ty) v)) = some (v, .full) ∧ inV ty v := by
    intro w hw h1 h2
    cases hl : l.isLong
    · rw [h2 hl] at hw ⊢
      exact ⟨rfl, arithC_inRange rfl hw⟩
    · have h1 := h1 hl
      simp only [if_true]
      have : (∃ u, ty = .long u) ∨ ty = .ptr ∨ ∃ n, ty = .arr n := by
        cases ty with
        | long u => exact Or.inl ⟨u, rfl⟩
        | ptr => exact Or.inr (Or.inl rfl)
        | arr n => exact Or.inr (Or.inr ⟨n, rfl⟩)
        | int u => cases u <;> simp [arithTy, Ty.hasBase, Ty.size] at h1
        | _ => simp [arithTy, Ty.hasBase] at h1
      rcases this with ⟨u, rfl⟩ | rfl | ⟨n, rfl⟩
      · exact ⟨rfl, arithC_inRange (t := .long u) rfl hw⟩
      · exact ⟨rfl, arithC_inRange (t := .ptr) rfl hw⟩
      · have hq := arithC_inRange (t := .ptr) rfl hw
        have hq : 0 ≤ v ∧ v < 2 ^ 64 := of_decide_eq_true hq
        exact ⟨rfl, hq⟩
  cases op with
  | add | sub | mul =>
    simp only [binOk] at hb
    simp only [binC] at h
    refine arith _ h (fun hl => ?_) (fun hl => ?_)
    · rw [if_pos hl] at hb; exact hb
    · rw [if_neg (by simp [hl])] at hb; simpa using hb
  | div | mod =>
    simp only [binOk, Bool.and_eq_true, beq_iff_eq] at hb
    obtain ⟨⟨ha, rfl⟩, hr2⟩ := hb
    rw [hr2] at hy
    have ha := arithTy_cases ha
    have hp : promote l = l := by rcases ha with rfl | rfl | rfl <;> rfl
    have hs : l.scalar = true := by rcases ha with rfl | rfl | rfl <;> rfl
    rw [inV_scalar hs] at *
    have hr : inRange l v = true := by
      simp only [binC, hp] at h
      split at h
      · simp at h
      · first
        | exact arithC_inRange hs h
        | (simp only [Option.bind_eq_some_iff, Option.some.injEq] at h
           obtain ⟨_, _, rfl⟩ := h
           exact range_between ha hx (tmod_bounds x y).1 (tmod_bounds x y).2)
    have hg : guard ((promote l).unsigned == l.unsigned && inRange (promote l) x && inRange (promote l) y) = some () := by
      rw [hp, hx, hy]; simp [guard]
    simp only [hg, Option.bind_some]
    refine ⟨?_, hr⟩
    rcases ha with rfl | rfl | rfl <;> rfl
  | and | or | xor =>
    simp only [binOk, Bool.and_eq_true, beq_iff_eq, Bool.or_eq_true] at hb
    obtain ⟨⟨ha, rfl⟩, hr2⟩ := hb
    rw [hr2] at hy
    have ha : l = .int false ∨ l = .long false ∨ l = .long true ∨ l = .int true := by
      rcases ha with ha | ha
      · rcases arithTy_cases ha with h | h | h <;> simp [h]
      · simp [ha]
    have hp : promote l = l := by rcases ha with rfl | rfl | rfl | rfl <;> rfl
    have hs : l.scalar = true := by rcases ha with rfl | rfl | rfl | rfl <;> rfl
    have h48 : (l.size == 4 || l.size == 8) = true := by rcases ha with rfl | rfl | rfl | rfl <;> rfl
    rw [inV_scalar hs] at *
    simp only [binC, Option.some.injEq, hp] at h
    have hg : guard ((promote l).scalar && ((promote l).size == 4 || (promote l).size == 8) && inRange (promote l) x &&
        inRange (promote l) y && Ext.full != .junk && Ext.full != .junk) = some () := by
      rw [hp, hx, hy, hs, h48]; rfl
    simp only [hg, Option.bind_some, and_self, if_true, true_and]
    rw [← h]; exact convC_inRange hs _
  | eq | ne | lt =>
    simp only [binOk, Bool.and_eq_true, beq_iff_eq] at hb
    obtain ⟨⟨⟨rfl, rfl⟩, hs⟩, hp⟩ := hb
    rw [inV_scalar hs] at hx hy
    simp only [binC, Option.some.injEq] at h
    refine ⟨?_, by rw [← h]; exact bool_inRange _⟩
    rw [hp, hx, hy, hs]
    simp [guard]
  | le =>
    simp only [binOk, Bool.and_eq_true, beq_iff_eq, Bool.or_eq_true] at hb
    obtain ⟨⟨rfl, rfl⟩, hl⟩ := hb
    simp only [binC, Option.some.injEq] at h
    refine ⟨?_, by rw [← h]; exact bool_inRange _⟩
    have key : ∀ z, inV l z → inRange (.long false) z = true := by
      intro z hz
      rcases hl with ((rfl | rfl) | rfl) | rfl <;>
        (have hz := of_decide_eq_true hz
         simp only [Ty.bits, Ty.size] at hz
         exact decide_eq_true (by simp only [Ty.bits, Ty.size]; omega))
    rw [key x hx, key y hy]
    rfl
  | shl =>
    simp only [binOk, Bool.and_eq_true, beq_iff_eq] at hb
    obtain ⟨ha, rfl⟩ := hb
    have ha := arithTy_cases ha
    have hp : promote l = l := by rcases ha with rfl | rfl | rfl <;> rfl
    have hs : l.scalar = true := by rcases ha with rfl | rfl | rfl <;> rfl
    have hr : inRange l v = true := by
      simp only [binC, hp] at h
      split at h
      · split at h
        · rename_i hu
          simp only [Option.some.injEq] at h
          refine arithC_inRange hs (x := x * 2 ^ y.toNat) ?_
          simp only [arithC, hu, if_true, h]
        · split at h
          · exact arithC_inRange hs h
          · simp at h
      · simp at h
    rw [inV_scalar hs]
    refine ⟨?_, hr⟩
    rcases ha with rfl | rfl | rfl <;> rfl
  | shr =>
    simp only [binOk, Bool.and_eq_true, beq_iff_eq] at hb
    obtain ⟨ha, rfl⟩ := hb
    have ha := arithTy_cases ha
    have hp : promote l = l := by rcases ha with rfl | rfl | rfl <;> rfl
    have hs : l.scalar = true := by rcases ha with rfl | rfl | rfl <;> rfl
    rw [inV_scalar hs] at *
    have hr : inRange l v = true := by
      simp only [binC, hp] at h
      split at h
      · simp only [Option.some.injEq] at h
        rw [← h]
        exact range_between ha hx (shr_bounds x _).1 (shr_bounds x _).2
      · simp at h
    have hpos : (!l.unsigned || decide (0 ≤ x)) = true := by
      rcases ha with rfl | rfl | rfl
      · rfl
      · rfl
      · have := of_decide_eq_true hx
        simp only [Ty.unsigned, Bool.not_true, Bool.false_or]
        exact decide_eq_true this.1
    have hg : guard (inRange (promote l) x && (!l.unsigned || decide (0 ≤ x)) && (l.unsigned || !(promote l).unsigned)) = some () := by
      rw [hp, hx, hpos]; simp [guard]
    simp only [hg, Option.bind_some]
    refine ⟨?_, hr⟩
    rcases ha with rfl | rfl | rfl <;> rfl

theorem bits_range {t : Ty} {o w : Nat} {m : Mem} {a : W} {v : Int} (h : loadBitsC E t o w m a = some v) (hb : t ≠ .bool)
    (ht : t.scalar = true) (hw : 0 < w) (ho : o + w ≤ t.bits) : inRange t v = true := by
  unfold loadBitsC at h
  split at h
  case isFalse => simp at h
  have hbe : (t == .bool) = false := by simpa using hb
  simp only [hbe, Bool.or_false, Option.some.injEq] at h
  have hlt : readN m a t.size / 2 ^ o % 2 ^ w < 2 ^ w := Nat.mod_lt _ (Nat.two_pow_pos w)
  generalize readN m a t.size / 2 ^ o % 2 ^ w = x at *
  have e : inRange t v = if t.unsigned then decide (0 ≤ v ∧ v < 2 ^ t.bits) else decide (-(2 ^ (t.bits - 1)) ≤ v ∧ v < 2 ^ (t.bits - 1)) := by
    cases t <;> first | rfl | exact absurd rfl hb
  rw [e]
  cases hu : t.unsigned
  · simp only [hu, Bool.false_eq_true, if_false, decide_eq_true_eq] at *
    have hp : 0 < 2 ^ w := Nat.two_pow_pos w
    have h1 := Int.le_bmod (x := (x : Int)) hp
    have h2 := Int.bmod_lt (x := (x : Int)) hp
    rw [h] at h1 h2
    have e2 : (2 : Nat) ^ w = 2 * 2 ^ (w - 1) := by rw [← Nat.pow_succ']; congr 1; omega
    have e2' : ((2 ^ w : Nat) : Int) = 2 * 2 ^ (w - 1) := by rw [e2]; simp
    rw [e2'] at h1 h2
    have e3 : (2 : Int) ^ (w - 1) ≤ 2 ^ (t.bits - 1) := by
      have : (2 : Nat) ^ (w - 1) ≤ 2 ^ (t.bits - 1) := Nat.pow_le_pow_right (by decide) (by omega)
      exact_mod_cast this
    omega
  · simp only [hu, if_true, decide_eq_true_eq] at *
    have : (2 : Nat) ^ w ≤ 2 ^ t.bits := Nat.pow_le_pow_right (by decide) (by omega)
    have h3 : ((2 : Int) ^ t.bits) = ((2 ^ t.bits : Nat) : Int) := by simp
    rw [h3]
    omega

theorem adr_range (a : W) : 0 ≤ (a.toNat : Int) ∧ (a.toNat : Int) < 2 ^ 64 := by have := a.isLt; omega

theorem fieldS_ok {f : Field} {m a v} (hf : fieldOk f = true) (h : fieldC E f m a = some v) :
    fieldS E f m a = some (v, .full) ∧ inV f.ty v := by
  unfold fieldOk at hf
  unfold fieldC at h
  unfold fieldS
  cases hb : f.bits with
  | none =>
    simp only [hb] at h ⊢
    rw [h]; exact ⟨rfl, loadC_inV h⟩
  | some q =>
    obtain ⟨o, w⟩ := q
    simp only [hb, Bool.and_eq_true, decide_eq_true_eq, bne_iff_ne] at hf h ⊢
    obtain ⟨⟨h1, h2⟩, h3⟩ := hf
    refine ⟨?_, (inV_scalar h3).mpr (bits_range h h2 h3 h1.1 h1.2)⟩
    simp [loadBitsS, h, guard, h1, h2]

theorem assignS_ok {bf t a v m v' m'} (hok : assignOk bf t = true) (hv : inV t v) (h : assignC E bf t a v m = some (v', m')) :
    ∃ f, assignS E bf t a v .full m = some (v', f, m') ∧ (bf = none → f = .full ∧ inV t v') := by
  unfold assignOk at hok
  cases bf with
  | some q =>
    obtain ⟨g, o, w⟩ := q
    simp only [Bool.and_eq_true, decide_eq_true_eq, beq_iff_eq] at hok
    obtain ⟨⟨h1, rfl⟩, h3⟩ := hok
    simp only [assignS, h, Option.bind_eq_bind, Option.bind_some]
    have hb : (g.ty != .bool || v == 0 || v == 1) = true := by
      by_cases e : g.ty = .bool
      · rw [e] at hv
        have hv : 0 ≤ v ∧ v ≤ 1 := of_decide_eq_true hv
        rcases (by omega : v = 0 ∨ v = 1) with rfl | rfl <;> simp
      · simp [e]
    have hg : guard (decide (0 < w ∧ w < 64 ∧ o + w ≤ g.ty.bits) && g.ty == g.ty && Ext.full != .junk &&
        (Ext.full == .full || decide (w ≤ 32)) && (g.ty != .bool || v == 0 || v == 1)) = some () := by
      rw [hb]; simp [guard, h1]
    exact ⟨_, by rw [hg]; rfl, by simp⟩
  | none =>
    by_cases hst : ∃ n, t = .struc n
    · obtain ⟨n, rfl⟩ := hst
      simp only [decide_eq_true_eq] at hok
      simp only [assignS, h, Option.bind_eq_bind, Option.bind_some]
      refine ⟨.full, ?_, fun _ => ⟨rfl, ?_⟩⟩
      · simp [guard, hok]
      · simp only [assignC, Option.map_eq_some_iff, Prod.mk.injEq] at h
        obtain ⟨_, _, rfl, _⟩ := h
        exact hv
    · have hs : t.scalar = true := by
        cases t <;> first | exact hok | exact absurd ⟨_, rfl⟩ hst
      rw [inV_scalar hs] at *
      have hc := convC_id hs hv
      have hvv : v' = v := by
        have h' : (if t.scalar && E.ok a t.size then some (convC t v, writeN m a t.size (rep (convC t v))) else none) = some (v', m') := by
          cases t <;> first | exact h | exact absurd ⟨_, rfl⟩ hst
        split at h'
        · simp only [Option.some.injEq, Prod.mk.injEq] at h'; rw [← h'.1, hc]
        · simp at h'
      subst hvv
      refine ⟨.full, ?_, fun _ => ⟨rfl, hv⟩⟩
      simp only [assignS, h, Option.bind_eq_bind, Option.bind_some]
      cases t <;> first | rfl | (simp [guard]; done) | exact absurd ⟨_, rfl⟩ hst

theorem guard_true : guard true = some () := rfl

mutual
/-- On the simple class nothing is lost by strictness. -/
theorem evalS_of_evalC (ht : E.CallsTyped) : ∀ (e : Expr) (ad : Bool) (d : Nat) (m : Mem) (v : Int) (m' : Mem), simple ad e = true →
    d + need e ≤ E.room → evalC E ad d e m = some (v, m') →
    ∃ f, evalS E ad d e m = some (v, f, m') ∧ (usable e = true → f = .full ∧ (if ad then 0 ≤ v ∧ v < 2 ^ 64 else inV e.ty v))
  | .null, ad, d, m, v, m', hs, hn, h => by
    cases ad
    · simp only [evalC, Bool.false_eq_true, if_false, Option.some.injEq, Prod.mk.injEq] at h
      obtain ⟨rfl, rfl⟩ := h
      exact ⟨.junk, rfl, by simp [usable]⟩
    · simp [simple] at hs
  | .num t x, ad, d, m, v, m', hs, hn, h => by
    cases ad
    · simp only [evalC, Bool.false_eq_true, if_false, Option.some.injEq, Prod.mk.injEq] at h
      obtain ⟨rfl, rfl⟩ := h
      simp only [simple, Bool.not_false, Bool.true_and, Bool.and_eq_true] at hs
      refine ⟨.full, ?_, fun _ => ⟨rfl, ?_⟩⟩
      · have := range_lt hs.1 hs.2
        have hg : guard (in64 x) = some () := by
          have h2 : in64 x = true := decide_eq_true this
          rw [h2]; rfl
        simp [evalS, hg]
      · exact (inV_scalar hs.1).mpr hs.2
    · simp [simple] at hs
  | .neg t e, ad, d, m, v, m', hs, hn, h => by
    cases ad
    · simp only [evalC, Bool.false_eq_true, if_false, bindSome] at h
      obtain ⟨⟨x, m1⟩, h1, r, h2, h3⟩ := h
      simp only [Option.some.injEq, Prod.mk.injEq] at h3
      obtain ⟨rfl, rfl⟩ := h3
      simp only [simple, Bool.not_false, Bool.true_and, Bool.and_eq_true] at hs
      obtain ⟨f, i1, i2⟩ := evalS_of_evalC ht e _ _ _ _ _ hs.1.2 hn h1
      obtain ⟨rfl, _⟩ := i2 hs.2
      have ha := arithTy_cases hs.1.1
      have hr : inRange t r = true := by
        have hp : promote t = t := by rcases ha with rfl | rfl | rfl <;> rfl
        rw [hp] at h2
        exact arithC_inRange (by rcases ha with rfl | rfl | rfl <;> rfl) h2
      refine ⟨.full, ?_, fun _ => ⟨rfl, ?_⟩⟩
      · simp only [evalS, Bool.false_eq_true, if_false, i1, Option.bind_eq_bind, Option.bind_some, h2]
        rcases ha with rfl | rfl | rfl <;> rfl
      · exact (inV_scalar (by rcases ha with rfl | rfl | rfl <;> rfl)).mpr hr
    · simp [simple] at hs
  | .var t x, ad, d, m, v, m', hs, hn, h => by
    simp only [evalC, bindSome] at h
    obtain ⟨a, h1, h2⟩ := h
    cases ad
    · simp only [Bool.false_eq_true, if_false, bindSome, Option.some.injEq, Prod.mk.injEq] at h2
      obtain ⟨w, h2, rfl, rfl⟩ := h2
      refine ⟨.full, by simp [evalS, h1, h2], fun _ => ⟨rfl, loadC_inV h2⟩⟩
    · simp only [if_true, Option.some.injEq, Prod.mk.injEq] at h2
      obtain ⟨rfl, rfl⟩ := h2
      exact ⟨.full, by simp [evalS, h1], fun _ => ⟨rfl, adr_range a⟩⟩
  | .member fl e, ad, d, m, v, m', hs, hn, h => by
    simp only [evalC, bindSome] at h
    obtain ⟨⟨a, m1⟩, h1, h2⟩ := h
    simp only [simple, Bool.and_eq_true, Bool.or_eq_true] at hs
    obtain ⟨f, i1, i2⟩ := evalS_of_evalC ht e _ _ _ _ _ hs.1.2 hn h1
    obtain ⟨rfl, _⟩ := i2 hs.2
    have hg : guard (Ext.full == .full) = some () := rfl
    cases ad
    · simp only [Bool.false_eq_true, if_false, bindSome, Option.some.injEq, Prod.mk.injEq] at h2
      obtain ⟨w, h2, rfl, rfl⟩ := h2
      obtain ⟨j1, j2⟩ := fieldS_ok (by simpa using hs.1.1) h2
      refine ⟨.full, by simp [evalS, i1, guard_true, j1], fun _ => ⟨rfl, j2⟩⟩
    · simp only [if_true, Option.some.injEq, Prod.mk.injEq] at h2
      obtain ⟨rfl, rfl⟩ := h2
      exact ⟨.full, by simp [evalS, i1, guard_true], fun _ => ⟨rfl, adr_range _⟩⟩
  | .deref t e, ad, d, m, v, m', hs, hn, h => by
    simp only [evalC, bindSome] at h
    obtain ⟨⟨a, m1⟩, h1, h2⟩ := h
    simp only [simple, Bool.and_eq_true] at hs
    obtain ⟨f, i1, i2⟩ := evalS_of_evalC ht e _ _ _ _ _ hs.1.1 hn h1
    obtain ⟨rfl, i3⟩ := i2 hs.1.2
    have hg : guard (Ext.full == .full) = some () := rfl
    cases ad
    · simp only [Bool.false_eq_true, if_false, bindSome, Option.some.injEq, Prod.mk.injEq] at h2
      obtain ⟨w, h2, rfl, rfl⟩ := h2
      refine ⟨.full, by simp [evalS, i1, guard_true, h2], fun _ => ⟨rfl, loadC_inV h2⟩⟩
    · simp only [if_true, Option.some.injEq, Prod.mk.injEq] at h2
      obtain ⟨rfl, rfl⟩ := h2
      refine ⟨.full, by simp [evalS, i1, guard_true], fun _ => ⟨rfl, ?_⟩⟩
      simp only [Bool.false_eq_true, if_false] at i3
      rw [if_pos rfl]
      have hty := hs.2
      revert hty i3
      cases e.ty <;> first | exact fun h _ => of_decide_eq_true h | exact fun h _ => h | (intro _ h; exact absurd h (by simp [Ty.hasBase]))
  | .addr e, ad, d, m, v, m', hs, hn, h => by
    cases ad
    · simp only [evalC, Bool.false_eq_true, if_false] at h
      simp only [simple, Bool.not_false, Bool.true_and, Bool.and_eq_true] at hs
      obtain ⟨f, i1, i2⟩ := evalS_of_evalC ht e _ _ _ _ _ hs.1 hn h
      obtain ⟨rfl, i3⟩ := i2 hs.2
      refine ⟨.full, by simpa [evalS] using i1, fun _ => ⟨rfl, ?_⟩⟩
      exact decide_eq_true i3
    · simp [simple] at hs
  | .assign t l r, ad, d, m, v, m', hs, hn, h => by
    simp only [simple, Bool.and_eq_true, beq_iff_eq] at hs
    obtain ⟨⟨⟨⟨⟨⟨h0, h1⟩, h2⟩, h3⟩, h4⟩, h5⟩, h6⟩ := hs
    simp only [need] at hn
    have hc : (ad && !t.isStruct) = false := by revert h0; cases ad <;> cases t.isStruct <;> simp
    simp only [evalC, hc, Bool.false_eq_true, if_false, bindSome] at h
    obtain ⟨⟨a, m1⟩, e1, ⟨x, m2⟩, e2, e3⟩ := h
    obtain ⟨f1, i1, i2⟩ := evalS_of_evalC ht l _ _ _ _ _ h1 (by omega) e1
    obtain ⟨rfl, _⟩ := i2 h2
    obtain ⟨f2, j1, j2⟩ := evalS_of_evalC ht r _ _ _ _ _ h3 (by omega) e2
    obtain ⟨rfl, j3⟩ := j2 h4
    simp only [Bool.false_eq_true, if_false, h5] at j3
    obtain ⟨f, k1, k2⟩ := assignS_ok h6 j3 e3
    have hg : guard (Ext.full == .full && decide (d < E.room)) = some () := by
      simp [guard, show d < E.room by omega]
    refine ⟨f, by simp only [evalS, hc, Bool.false_eq_true, if_false, i1, j1, hg, k1, Option.bind_eq_bind, Option.bind_some], ?_⟩
    intro hu
    obtain ⟨rfl, k3⟩ := k2 (by simpa [usable] using hu)
    refine ⟨rfl, ?_⟩
    cases ad
    · exact k3
    · have : ∃ n, t = .struc n := by
        cases t <;> simp_all [Ty.isStruct]
      obtain ⟨n, rfl⟩ := this
      exact k3
  | .comma l r, ad, d, m, v, m', hs, hn, h => by
    simp only [simple, Bool.and_eq_true] at hs
    simp only [need] at hn
    simp only [evalC, bindSome] at h
    obtain ⟨⟨x, m1⟩, e1, e2⟩ := h
    obtain ⟨f1, i1, i2⟩ := evalS_of_evalC ht l _ _ _ _ _ hs.1 (by omega) e1
    obtain ⟨f2, j1, j2⟩ := evalS_of_evalC ht r _ _ _ _ _ hs.2 (by omega) e2
    refine ⟨f2, by simp [evalS, i1, j1], ?_⟩
    simpa [usable, Expr.ty] using j2
  | .cast t e, ad, d, m, v, m', hs, hn, h => by
    simp only [simple, Bool.or_eq_true, Bool.and_eq_true, beq_iff_eq] at hs
    have hs' : ad = false ∧ simple false e = true ∧ (t = .void ∨ (usable e = true ∧ castOk e.ty t = true)) := by
      rcases hs with hs | hs
      · exact ⟨by simpa using hs.1.1.1, hs.1.1.2, Or.inr ⟨hs.1.2, hs.2⟩⟩
      · exact ⟨by simpa using hs.1.1, hs.1.2, Or.inl hs.2⟩
    obtain ⟨rfl, hse, hs⟩ := hs'
    simp only [evalC, Bool.false_eq_true, if_false, bindSome, Option.some.injEq, Prod.mk.injEq] at h
    obtain ⟨⟨x, m1⟩, e1, rfl, rfl⟩ := h
    obtain ⟨f1, i1, i2⟩ := evalS_of_evalC ht e _ _ _ _ _ hse hn e1
    by_cases hv : t = .void
    · subst hv
      exact ⟨.junk, by simp [evalS, i1, castS], by simp [usable]⟩
    · rcases hs with hs | hs
      · exact absurd hs hv
      obtain ⟨rfl, i3⟩ := i2 hs.1
      obtain ⟨k1, k2⟩ := castS_ok hs.2 i3 hv
      refine ⟨.full, by simp [evalS, i1, k1, hv], fun _ => ⟨rfl, ?_⟩⟩
      rw [if_neg hv]
      exact (inV_scalar k2).mpr (convC_inRange k2 _)
  | .memzero off n, ad, d, m, v, m', hs, hn, h => by
    simp only [simple, Bool.and_eq_true, Bool.not_eq_true', decide_eq_true_eq] at hs
    obtain ⟨rfl, hn'⟩ := hs
    simp only [evalC, Bool.false_eq_true, if_false] at h
    split at h
    · rename_i hok
      simp only [Option.some.injEq, Prod.mk.injEq] at h
      obtain ⟨rfl, rfl⟩ := h
      exact ⟨.junk, by simp [evalS, hok, hn'], by simp [usable]⟩
    · simp at h
  | .cond t c a b, ad, d, m, v, m', hs, hn, h => by
    simp only [simple, Bool.and_eq_true, Bool.or_eq_true, beq_iff_eq] at hs
    obtain ⟨⟨⟨⟨⟨h0, h1⟩, h2⟩, h3⟩, h4⟩, h5⟩ := hs
    simp only [need] at hn
    have hc : (ad && !t.isStruct) = false := by revert h0; cases ad <;> cases t.isStruct <;> simp
    simp only [evalC, hc, Bool.false_eq_true, if_false, bindSome] at h
    obtain ⟨⟨x, m1⟩, e1, e2⟩ := h
    obtain ⟨f1, i1, i2⟩ := evalS_of_evalC ht c _ _ _ _ _ h1 (by omega) e1
    obtain ⟨rfl, _⟩ := i2 h2
    have hg : guard Ext.full.testable = some () := rfl
    have fin : ∀ (q : Expr) (f : Ext), ((a.ty = t ∧ b.ty = t) ∨ t = .void → t = .void ∨ q.ty = t) →
        (usable (.cond t c a b) = true → usable q = true) →
        (usable q = true → f = .full ∧ (if false = true then 0 ≤ v ∧ v < 2 ^ 64 else inV q.ty v)) →
        usable (.cond t c a b) = true → f = .full ∧ (if ad = true then 0 ≤ v ∧ v < 2 ^ 64 else inV (Expr.cond t c a b).ty v) := by
      intro q f hq hu hf hU
      obtain ⟨rfl, hf'⟩ := hf (hu hU)
      refine ⟨rfl, ?_⟩
      clear hf
      have htv : t ≠ .void := by simp only [usable, Bool.and_eq_true, bne_iff_ne] at hU; exact hU.1.1
      have hqt : q.ty = t := (hq h5).resolve_left htv
      simp only [Bool.false_eq_true, if_false, hqt] at hf'
      cases ad
      · exact hf'
      · have : ∃ n, t = .struc n := by
          cases t <;> simp_all [Ty.isStruct]
        obtain ⟨n, rfl⟩ := this
        exact hf'
    split at e2
    · rename_i hx
      obtain ⟨f2, j1, j2⟩ := evalS_of_evalC ht a _ _ _ _ _ h3 (by omega) e2
      refine ⟨f2, ?_, fin a f2 (fun h => h.elim (fun h => Or.inr h.1) Or.inl) ?_ j2⟩
      · simp only [evalS, hc, Bool.false_eq_true, if_false, i1, hg, Option.bind_eq_bind, Option.bind_some, if_pos hx, j1]
      · simp +contextual [usable]
    · rename_i hx
      obtain ⟨f2, j1, j2⟩ := evalS_of_evalC ht b _ _ _ _ _ h4 (by omega) e2
      refine ⟨f2, ?_, fin b f2 (fun h => h.elim (fun h => Or.inr h.2) Or.inl) ?_ j2⟩
      · simp only [evalS, hc, Bool.false_eq_true, if_false, i1, hg, Option.bind_eq_bind, Option.bind_some, if_neg hx, j1]
      · simp +contextual [usable]
  | .not e, ad, d, m, v, m', hs, hn, h => by
    simp only [simple, Bool.and_eq_true, Bool.not_eq_true'] at hs
    obtain ⟨⟨rfl, h1⟩, h2⟩ := hs
    simp only [evalC, Bool.false_eq_true, if_false, bindSome, Option.some.injEq, Prod.mk.injEq] at h
    obtain ⟨⟨x, m1⟩, e1, rfl, rfl⟩ := h
    obtain ⟨f1, i1, i2⟩ := evalS_of_evalC ht e _ _ _ _ _ h1 hn e1
    obtain ⟨rfl, _⟩ := i2 h2
    have hg : guard Ext.full.testable = some () := rfl
    exact ⟨.full, by simp only [evalS, Bool.false_eq_true, if_false, i1, hg, Option.bind_eq_bind, Option.bind_some], fun _ => ⟨rfl, bool_inRange _⟩⟩
  | .bitnot e, ad, d, m, v, m', hs, hn, h => by
    simp only [simple, Bool.and_eq_true, Bool.not_eq_true'] at hs
    obtain ⟨⟨⟨rfl, h1⟩, h2⟩, h3⟩ := hs
    simp only [evalC, Bool.false_eq_true, if_false, bindSome, Option.some.injEq, Prod.mk.injEq] at h
    obtain ⟨⟨x, m1⟩, e1, rfl, rfl⟩ := h
    obtain ⟨f1, i1, i2⟩ := evalS_of_evalC ht e _ _ _ _ _ h1 hn e1
    obtain ⟨rfl, i3⟩ := i2 h2
    simp only [Bool.false_eq_true, if_false] at i3
    have ha := arithTy_cases h3
    refine ⟨.full, ?_, fun _ => ⟨rfl, ?_⟩⟩
    · simp only [evalS, Bool.false_eq_true, if_false, i1, Option.bind_eq_bind, Option.bind_some]
      have hr : inRange (promote e.ty) x = true := by
        rcases ha with ha | ha | ha <;> rw [ha] at i3 ⊢ <;> exact i3
      have hg : guard ((promote e.ty).scalar && inRange (promote e.ty) x && Ext.full != .junk) = some () := by
        rw [hr]; rcases ha with ha | ha | ha <;> rw [ha] <;> rfl
      rw [hg, Option.bind_some, if_pos (by rcases ha with ha | ha | ha <;> rw [ha] <;> decide)]
    · have hsc : e.ty.scalar = true := by rcases ha with ha | ha | ha <;> rw [ha] <;> rfl
      have hp : promote e.ty = e.ty := by rcases ha with ha | ha | ha <;> rw [ha] <;> rfl
      rw [hp]
      exact (inV_scalar hsc).mpr (convC_inRange hsc _)
  | .logand l r, ad, d, m, v, m', hs, hn, h => by
    simp only [simple, Bool.and_eq_true, Bool.not_eq_true'] at hs
    obtain ⟨⟨⟨⟨rfl, h1⟩, h2⟩, h3⟩, h4⟩ := hs
    simp only [need] at hn
    simp only [evalC, Bool.false_eq_true, if_false, bindSome] at h
    obtain ⟨⟨x, m1⟩, e1, e2⟩ := h
    obtain ⟨f1, i1, i2⟩ := evalS_of_evalC ht l _ _ _ _ _ h1 (by omega) e1
    obtain ⟨rfl, _⟩ := i2 h2
    have hg : guard Ext.full.testable = some () := rfl
    split at e2
    · rename_i hx
      simp only [Option.some.injEq, Prod.mk.injEq] at e2
      obtain ⟨rfl, rfl⟩ := e2
      refine ⟨.full, ?_, fun _ => ⟨rfl, bool_inRange false⟩⟩
      simp only [evalS, Bool.false_eq_true, if_false, i1, hg, Option.bind_eq_bind, Option.bind_some, if_pos hx]
    · rename_i hx
      simp only [bindSome, Option.some.injEq, Prod.mk.injEq] at e2
      obtain ⟨⟨y, m2⟩, e2, rfl, rfl⟩ := e2
      obtain ⟨f2, j1, j2⟩ := evalS_of_evalC ht r _ _ _ _ _ h3 (by omega) e2
      obtain ⟨rfl, _⟩ := j2 h4
      refine ⟨.full, ?_, fun _ => ⟨rfl, bool_inRange _⟩⟩
      simp only [evalS, Bool.false_eq_true, if_false, i1, hg, Option.bind_eq_bind, Option.bind_some, if_neg hx, j1]
  | .logor l r, ad, d, m, v, m', hs, hn, h => by
    simp only [simple, Bool.and_eq_true, Bool.not_eq_true'] at hs
    obtain ⟨⟨⟨⟨rfl, h1⟩, h2⟩, h3⟩, h4⟩ := hs
    simp only [need] at hn
    simp only [evalC, Bool.false_eq_true, if_false, bindSome] at h
    obtain ⟨⟨x, m1⟩, e1, e2⟩ := h
    obtain ⟨f1, i1, i2⟩ := evalS_of_evalC ht l _ _ _ _ _ h1 (by omega) e1
    obtain ⟨rfl, _⟩ := i2 h2
    have hg : guard Ext.full.testable = some () := rfl
    split at e2
    · rename_i hx
      simp only [Option.some.injEq, Prod.mk.injEq] at e2
      obtain ⟨rfl, rfl⟩ := e2
      refine ⟨.full, ?_, fun _ => ⟨rfl, bool_inRange true⟩⟩
      simp only [evalS, Bool.false_eq_true, if_false, i1, hg, Option.bind_eq_bind, Option.bind_some, if_pos hx]
    · rename_i hx
      simp only [bindSome, Option.some.injEq, Prod.mk.injEq] at e2
      obtain ⟨⟨y, m2⟩, e2, rfl, rfl⟩ := e2
      obtain ⟨f2, j1, j2⟩ := evalS_of_evalC ht r _ _ _ _ _ h3 (by omega) e2
      obtain ⟨rfl, _⟩ := j2 h4
      refine ⟨.full, ?_, fun _ => ⟨rfl, bool_inRange _⟩⟩
      simp only [evalS, Bool.false_eq_true, if_false, i1, hg, Option.bind_eq_bind, Option.bind_some, if_neg hx, j1]
  | .bin op t l r, ad, d, m, v, m', hs, hn, h => by
    simp only [simple, Bool.and_eq_true, Bool.not_eq_true'] at hs
    obtain ⟨⟨⟨⟨⟨rfl, h1⟩, h2⟩, h3⟩, h4⟩, h5⟩ := hs
    simp only [need] at hn
    simp only [evalC, Bool.false_eq_true, if_false, bindSome, Option.some.injEq, Prod.mk.injEq] at h
    obtain ⟨⟨y, m1⟩, e1, ⟨x, m2⟩, e2, w, e3, rfl, rfl⟩ := h
    obtain ⟨f1, i1, i2⟩ := evalS_of_evalC ht r _ _ _ _ _ h3 (by omega) e1
    obtain ⟨rfl, i3⟩ := i2 h4
    obtain ⟨f2, j1, j2⟩ := evalS_of_evalC ht l _ _ _ _ _ h1 (by omega) e2
    obtain ⟨rfl, j3⟩ := j2 h2
    obtain ⟨k1, k2⟩ := binS_ok h5 j3 i3 e3
    have hg : guard (decide (d < E.room)) = some () := by simp [guard, show d < E.room by omega]
    exact ⟨.full, by simp [evalS, i1, j1, k1, hg], fun _ => ⟨rfl, k2⟩⟩
  | .vlaPtr off, ad, d, m, v, m', hs, hn, h => by
    simp only [simple] at hs
    subst hs
    simp only [evalC, if_true, Option.some.injEq, Prod.mk.injEq] at h
    obtain ⟨rfl, rfl⟩ := h
    exact ⟨.full, by simp [evalS], fun _ => ⟨rfl, adr_range _⟩⟩
  | .call t f args, ad, d, m, v, m', hs, hn, h => by
    simp only [simple, Bool.and_eq_true, Bool.not_eq_true', Bool.or_eq_true, beq_iff_eq, bne_iff_ne] at hs
    obtain ⟨⟨⟨⟨⟨rfl, h0⟩, h1⟩, h2⟩, h3⟩, h4⟩ := hs
    simp only [need] at hn
    simp only [evalC, Bool.false_eq_true, if_false, bindSome] at h
    obtain ⟨⟨vs, m1⟩, e1, ⟨a, m2⟩, e2, e3⟩ := h
    obtain i1 := evalArgsS_of_evalArgsC ht args _ _ _ _ h4 (by omega) e1
    obtain ⟨f2, j1, j2⟩ := evalS_of_evalC ht f _ _ _ _ _ h2 (by omega) e2
    obtain ⟨rfl, _⟩ := j2 h3
    have hg : guard (decide (d + (d + (args.length - 8)) % 2 + args.length ≤ E.room)) = some () := by
      simp only [guard]; rw [if_pos (decide_eq_true (by omega))]
    have hg2 : guard (Ext.full == .full) = some () := rfl
    refine ⟨retExt t, ?_, ?_⟩
    · simp only [evalS, h0, Bool.or_self, Bool.false_eq_true, if_false, hg, Option.bind_eq_bind, Option.bind_some, i1, j1, hg2, e3]
    · intro hu
      have htv : t ≠ .void := by simpa [usable] using hu
      rcases h1 with h1 | h1
      · exact absurd h1 htv
      · refine ⟨?_, (inV_scalar h1.1).mpr (ht _ _ _ _ _ _ _ e3 h1.1)⟩
        cases t with
        | int u => cases u <;> simp_all [retExt]
        | _ => simp_all [retExt, Ty.scalar]
theorem evalArgsS_of_evalArgsC (ht : E.CallsTyped) : ∀ (a : Exprs) (d : Nat) (m : Mem) (vs : List (Ty × Int)) (m' : Mem), simples a = true →
    d + needs a ≤ E.room → evalArgsC E d a m = some (vs, m') → evalArgsS E d a m = some (vs, m')
  | .nil, d, m, vs, m', hs, hn, h => by simpa [evalArgsC, evalArgsS] using h
  | .cons e r, d, m, vs, m', hs, hn, h => by
    simp only [simples, Bool.and_eq_true] at hs
    simp only [needs] at hn
    simp only [evalArgsC, bindSome, Option.some.injEq, Prod.mk.injEq] at h
    obtain ⟨⟨ws, m1⟩, e1, ⟨x, m2⟩, e2, rfl, rfl⟩ := h
    have i1 := evalArgsS_of_evalArgsC ht r _ _ _ _ hs.2 (by omega) e1
    obtain ⟨f2, j1, j2⟩ := evalS_of_evalC ht e _ _ _ _ _ hs.1.1 (by omega) e2
    obtain ⟨rfl, _⟩ := j2 hs.1.2
    have hg : guard (Ext.full == .full || (Ext.full != .junk && decide (e.ty.size ≤ 4))) = some () := rfl
    simp only [evalArgsS, i1, j1, Option.bind_eq_bind, Option.bind_some, hg]
end

end Toycc.Cg
