import Verif.Ety.Spec
/-! C91: lemmas. -/
namespace Toycc.Ety
open Toycc.Types (Arith usualArith promote isFloating commonType C30_common_type)

theorem common_commonType (a b : Arith) : common (.arith a) (.arith b) = .arith (commonType a b) := by
  unfold common commonType
  simp only [Ty.base, Ty.arith.injEq]
  by_cases h1 : a = .ldouble ∨ b = .ldouble
  · rw [if_pos h1, if_pos h1]
  rw [if_neg h1, if_neg h1]
  by_cases h2 : a = .double ∨ b = .double
  · rw [if_pos h2, if_pos h2]
  rw [if_neg h2, if_neg h2]
  by_cases h3 : a = .float ∨ b = .float
  · rw [if_pos h3, if_pos h3]
  rw [if_neg h3, if_neg h3]
  have key : ∀ c : Arith, (if (Ty.arith c).size < 4 then Ty.arith (.int false) else Ty.arith c) = Ty.arith (if c.size < 4 then .int false else c) := by
    intro c
    by_cases h : c.size < 4
    · rw [if_pos h, if_pos (show (Ty.arith c).size < 4 from h)]
    · rw [if_neg h, if_neg (show ¬ (Ty.arith c).size < 4 from h)]
  rw [key a, key b]
  generalize (if a.size < 4 then Arith.int false else a) = x
  generalize (if b.size < 4 then Arith.int false else b) = y
  by_cases h4 : x.size ≠ y.size
  · rw [if_pos h4, if_pos (show (Ty.arith x).size ≠ (Ty.arith y).size from h4)]
    by_cases h5 : x.size < y.size
    · rw [if_pos h5, if_pos (show (Ty.arith x).size < (Ty.arith y).size from h5)]
    · rw [if_neg h5, if_neg (show ¬ (Ty.arith x).size < (Ty.arith y).size from h5)]
  · rw [if_neg h4, if_neg (show ¬ (Ty.arith x).size ≠ (Ty.arith y).size from h4)]
    by_cases h5 : y.unsigned = true
    · rw [if_pos h5, if_pos (show (Ty.arith y).unsigned = true from h5)]
    · rw [if_neg h5, if_neg (show ¬ (Ty.arith y).unsigned = true from h5)]

def NoEnum (a : Arith) : Prop := ∀ n, a ≠ .enum n

theorem common_arith {a b : Arith} (ha : NoEnum a) (hb : NoEnum b) : common (.arith a) (.arith b) = .arith (usualArith a b) := by
  rw [common_commonType, (C30_common_type a b ha hb).1]

theorem common_base {t1 : Ty} (t2 : Ty) {b : Ty} (h : t1.base = some b) : common t1 t2 = .ptr b := by unfold common; rw [h]

theorem usual_int {a : Arith} (ha : NoEnum a) : usualArith (.int false) a = if isFloating a then a else promote a := by
  cases a with
  | enum n => exact absurd rfl (ha n)
  | char u => cases u <;> decide
  | short u => cases u <;> decide
  | int u => cases u <;> decide
  | long u => cases u <;> decide
  | _ => decide

theorem promote_wide {a : Arith} (ha : NoEnum a) (h : 4 ≤ a.size) : (if isFloating a then a else promote a) = a := by
  cases a with
  | enum n => exact absurd rfl (ha n)
  | bool => exact absurd h (by decide)
  | char u => exact absurd h (by simp [Arith.size])
  | short u => exact absurd h (by simp [Arith.size])
  | int u => cases u <;> decide
  | long u => cases u <;> decide
  | _ => decide

theorem plain_operand {e : E} {t : Ty} (h : plainOperand e = true) (ht : cType e = some t) : operand e t = decay t ∧ ∀ a, t = .arith a → NoEnum a := by
  unfold plainOperand at h
  rw [ht] at h
  simp only [Bool.and_eq_true] at h
  refine ⟨?_, ?_⟩
  · unfold operand
    split
    · rename_i x w
      simp only [Bool.not_eq_true', decide_eq_false_iff_not] at h
      rw [if_neg h.1]
      unfold cType at ht
      cases hx : cType x with
      | none => rw [hx] at ht; cases ht
      | some y => rw [hx] at ht; cases y <;> cases ht; rfl
    · rfl
  · rintro a rfl n rfl
    simp at h

theorem decay_arith {t : Ty} {a : Arith} (h : decay t = .arith a) : t = .arith a := by
  cases t <;> simp [decay] at h ⊢
  exact h

theorem decay_ptr {t b : Ty} (h : decay t = .ptr b) : t.base = some b ∨ ∃ r p, t = .fn r p ∧ b = .fn r p := by
  cases t <;> simp [decay, Ty.base] at h ⊢
  · exact h
  · exact h
  · exact ⟨_, _, ⟨rfl, rfl⟩, h.symm⟩

/-- A pointer operand. -/
theorem decay_object {t b : Ty} (h : decay t = .ptr b) (hb : isObject b = true) : t.base = some b := by
  rcases decay_ptr h with h | ⟨r, p, rfl, rfl⟩
  · exact h
  · cases hb

theorem numeric_base {t b : Ty} (h : t.base = some b) : t.numeric = false := by cases t <;> simp [Ty.base, Ty.numeric] at h ⊢

theorem common_null {a : Arith} {b : Ty} (ha : NoEnum a) (hi : isInt a = true) : common (.arith a) (.ptr b) = .ptr b := by
  unfold common
  cases a with
  | enum n => exact absurd rfl (ha n)
  | char u => simp [Ty.base, Ty.size, Arith.size]
  | short u => simp [Ty.base, Ty.size, Arith.size]
  | int u => simp [Ty.base, Ty.size, Arith.size]
  | long u => simp [Ty.base, Ty.size, Arith.size, Ty.unsigned]
  | bool => simp [Ty.base, Ty.size, Arith.size]
  | _ => simp [isInt, isFloating] at hi

theorem null_int {e : E} {a : Arith} (hn : isNull e = true) (ht : cType e = some (.arith a)) : isInt a = true := by
  unfold isNull at hn
  split at hn
  · unfold cType at ht
    cases ht
    simp only [Bool.and_eq_true] at hn
    exact hn.1
  · unfold cType at ht
    simp only [Option.bind_eq_bind, Option.bind_eq_some_iff] at ht
    obtain ⟨t, -, ht⟩ := ht
    split at ht <;> cases ht
  · cases hn

theorem add_ok {s t r : Ty} (hs : ∀ a, s = .arith a → NoEnum a) (ht : ∀ a, t = .arith a → NoEnum a) (h : plusTy (decay s) (decay t) = some r) : addTy s t = .ok r := by
  unfold plusTy at h
  split at h
  · rename_i a b e1 e2
    cases decay_arith e1
    cases decay_arith e2
    cases h
    unfold addTy
    rw [if_pos (by rfl), common_arith (hs _ rfl) (ht _ rfl)]
  · rename_i a b e1 e2
    cases decay_arith e2
    split at h
    · rename_i ho
      cases h
      have hb := decay_object e1 ho.1
      unfold addTy
      rw [numeric_base hb, hb]
      simp only [Bool.false_and, Bool.false_eq_true, if_false, Ty.base]
      rw [common_base _ hb]
    · cases h
  · rename_i a b e1 e2
    cases decay_arith e1
    split at h
    · rename_i ho
      cases h
      have hb := decay_object e2 ho.1
      unfold addTy
      rw [numeric_base hb, hb]
      simp only [Bool.and_false, Bool.false_eq_true, if_false, Ty.base]
      rw [common_base _ hb]
    · cases h
  · cases h

theorem sub_ok {s t r : Ty} (hs : ∀ a, s = .arith a → NoEnum a) (ht : ∀ a, t = .arith a → NoEnum a) (h : minusTy (decay s) (decay t) = some r) : subTy s t = .ok r := by
  unfold minusTy at h
  split at h
  · rename_i a b e1 e2
    cases decay_arith e1
    cases decay_arith e2
    cases h
    unfold subTy
    rw [if_pos (by rfl), common_arith (hs _ rfl) (ht _ rfl)]
  · rename_i a b e1 e2
    cases decay_arith e2
    split at h
    · rename_i ho
      cases h
      have hb := decay_object e1 ho.1
      unfold subTy
      rw [numeric_base hb, hb]
      have : (Ty.arith b).integer = true := by
        have := ho.2
        revert this
        cases b <;> simp [isInt, isFloating, Ty.integer]
      simp only [Bool.false_and, Bool.false_eq_true, if_false, Ty.base, this, if_true]
      rw [common_base _ hb]
    · cases h
  · rename_i a b e1 e2
    split at h
    · rename_i ho
      cases h
      have hb := decay_object e1 ho.2
      have hb' := decay_object e2 (ho.1 ▸ ho.2)
      unfold subTy
      rw [numeric_base hb, hb, hb']
      simp only [Bool.false_and, Bool.false_eq_true, if_false]
      rfl
    · cases h
  · cases h

theorem promoted_arith {t r : Ty} (h : promoted t = some r) : ∃ a, t = .arith a ∧ r = .arith (if isFloating a then a else promote a) := by
  unfold promoted at h
  split at h
  · cases h; exact ⟨_, rfl, rfl⟩
  · cases h

theorem cond_ok {a b : E} {s t r : Ty} (ha : cType a = some s) (hb : cType b = some t) (hs : ∀ a, s = .arith a → NoEnum a) (ht : ∀ a, t = .arith a → NoEnum a)
    (hp : plainCond a b = true) (h : condTy (decay s) (decay t) (isNull a) (isNull b) = some r) : (if s = .void ∨ t = .void then Res.ok .void else .ok (common s t)) = .ok r := by
  unfold plainCond at hp
  rw [ha, hb] at hp
  have nv : ∀ {x y : Ty}, decay x = y → y ≠ .void → x ≠ .void := by
    rintro x y rfl hy rfl
    exact hy rfl
  unfold condTy at h
  split at h
  · rename_i x y e1 e2
    cases decay_arith e1
    cases decay_arith e2
    cases h
    rw [if_neg (by rintro (h | h) <;> cases h), common_arith (hs _ rfl) (ht _ rfl)]
  · rename_i e1 e2
    cases h
    rw [if_pos]
    left
    cases s <;> simp [decay] at e1 ⊢
  · rename_i i k j l e1 e2
    split at h
    · rename_i hh
      cases h
      obtain ⟨rfl, rfl⟩ := hh
      have e3 : s = .struc i k := by cases s <;> simp [decay] at e1 ⊢; exact e1
      have e4 : t = .struc i k := by cases t <;> simp [decay] at e2 ⊢; exact e2
      subst e3
      subst e4
      simp only [decide_eq_true_eq] at hp
      rw [if_neg (by rintro (h | h) <;> cases h)]
      unfold common
      simp [Ty.base, Ty.size, show ¬ k < 4 by omega, Ty.unsigned]
    · cases h
  · rename_i x y e1 e2
    split at h
    · cases h
      cases decay_arith e2
      rw [if_neg (by rintro (h | h); exact nv e1 (by simp) h; cases h)]
      rcases decay_ptr e1 with h | ⟨q, p, rfl, rfl⟩
      · rw [common_base _ h]
      · rfl
    · cases h
  · rename_i x y e1 e2
    split at h
    · rename_i hn
      cases h
      cases decay_arith e1
      rw [if_neg (by rintro (h | h); cases h; exact nv e2 (by simp) h)]
      have hi := null_int hn ha
      rcases decay_ptr e2 with h | ⟨q, p, rfl, rfl⟩
      · cases t <;> simp [Ty.base] at h
        · subst h; rw [common_null (hs _ rfl) hi]
        · simp at hp
      · rfl
    · cases h
  · rename_i x y e1 e2
    rw [if_neg (by rintro (h | h); exact nv e1 (by simp) h; exact nv e2 (by simp) h)]
    have hc : common s t = .ptr x := by
      rcases decay_ptr e1 with h | ⟨q, p, rfl, rfl⟩
      · exact common_base _ h
      · rfl
    rw [hc]
    have hp' : decay s = decay t ∨ (decay s = .ptr .void ∧ isNull a = false) := by
      cases s <;> simp [decay] at e1 <;> cases t <;> simp [decay] at e2 <;> simpa [decay] using hp
    rw [e1, e2] at hp'
    split at h
    · cases h; rfl
    · rename_i hne
      rcases hp' with hp' | ⟨hp1, hp2⟩
      · exact absurd (by cases hp'; rfl) hne
      · cases hp1
        rw [hp2] at h
        simp only [Bool.false_eq_true, if_false, true_or, if_true] at h
        split at h <;> cases h <;> rfl
  · cases h

theorem addType_ok : ∀ (e : E) (t : Ty), Tame e = true → cType e = some t → addType e = .ok t
  | .num _ _, t, _, h => by cases h; rfl
  | .var _, t, _, h => by cases h; rfl
  | .bin op a b, r, ht, h => by
    simp only [Tame, Bool.and_eq_true] at ht
    simp only [cType, Option.bind_eq_bind, Option.bind_eq_some_iff] at h
    obtain ⟨s, h1, t, h2, h⟩ := h
    obtain ⟨e1, n1⟩ := plain_operand ht.1.2 h1
    obtain ⟨e2, n2⟩ := plain_operand ht.2 h2
    rw [e1, e2] at h
    simp only [addType, addType_ok a s ht.1.1.1 h1, addType_ok b t ht.1.1.2 h2, Res.bind]
    unfold binTy at h
    split at h
    · rename_i x y d1 d2
      cases decay_arith d1
      cases decay_arith d2
      rw [common_arith (n1 _ rfl) (n2 _ rfl)]
      split at h
      · cases h; rfl
      · split at h <;> cases h
        rfl
    · cases h
  | .add a b, r, ht, h => by
    simp only [Tame, Bool.and_eq_true] at ht
    simp only [cType, Option.bind_eq_bind, Option.bind_eq_some_iff] at h
    obtain ⟨s, h1, t, h2, h⟩ := h
    obtain ⟨e1, n1⟩ := plain_operand ht.1.2 h1
    obtain ⟨e2, n2⟩ := plain_operand ht.2 h2
    rw [e1, e2] at h
    simp only [addType, addType_ok a s ht.1.1.1 h1, addType_ok b t ht.1.1.2 h2, Res.bind]
    exact add_ok n1 n2 h
  | .sub a b, r, ht, h => by
    simp only [Tame, Bool.and_eq_true] at ht
    simp only [cType, Option.bind_eq_bind, Option.bind_eq_some_iff] at h
    obtain ⟨s, h1, t, h2, h⟩ := h
    obtain ⟨e1, n1⟩ := plain_operand ht.1.2 h1
    obtain ⟨e2, n2⟩ := plain_operand ht.2 h2
    rw [e1, e2] at h
    simp only [addType, addType_ok a s ht.1.1.1 h1, addType_ok b t ht.1.1.2 h2, Res.bind]
    exact sub_ok n1 n2 h
  | .cmp a b, r, ht, h => by
    simp only [Tame, Bool.and_eq_true] at ht
    simp only [cType, Option.bind_eq_bind, Option.bind_eq_some_iff] at h
    obtain ⟨s, h1, t, h2, h⟩ := h
    simp only [addType, addType_ok a s ht.1 h1, addType_ok b t ht.2 h2, Res.bind]
    split at h <;> cases h
    rfl
  | .logic a b, r, ht, h => by
    simp only [Tame, Bool.and_eq_true] at ht
    simp only [cType, Option.bind_eq_bind, Option.bind_eq_some_iff] at h
    obtain ⟨s, h1, t, h2, h⟩ := h
    simp only [addType, addType_ok a s ht.1 h1, addType_ok b t ht.2 h2, Res.bind]
    split at h <;> cases h
    rfl
  | .shift a b, r, ht, h => by
    simp only [Tame, Bool.and_eq_true] at ht
    simp only [cType, Option.bind_eq_bind, Option.bind_eq_some_iff] at h
    obtain ⟨s, h1, t, h2, h⟩ := h
    simp only [addType, addType_ok a s ht.1.1.1 h1, addType_ok b t ht.1.1.2 h2, Res.bind]
    split at h
    · obtain ⟨e1, n1⟩ := plain_operand ht.1.2 h1
      rw [e1] at h
      obtain ⟨x, e2, rfl⟩ := promoted_arith h
      cases decay_arith e2
      have hw := ht.2
      unfold wide at hw
      rw [h1] at hw
      rw [promote_wide (n1 _ rfl) (of_decide_eq_true hw)]
    · cases h
  | .neg e, r, ht, h => by
    simp only [Tame, Bool.and_eq_true] at ht
    simp only [cType, Option.bind_eq_bind, Option.bind_eq_some_iff] at h
    obtain ⟨s, h1, h⟩ := h
    simp only [addType, addType_ok e s ht.1 h1, Res.bind]
    obtain ⟨e1, n1⟩ := plain_operand ht.2 h1
    rw [e1] at h
    obtain ⟨x, e2, rfl⟩ := promoted_arith h
    cases decay_arith e2
    unfold int
    rw [common_arith (by intro n; simp) (n1 _ rfl), usual_int (n1 _ rfl)]
  | .pos e, r, ht, h => by
    simp only [Tame, Bool.and_eq_true] at ht
    simp only [cType, Option.bind_eq_bind, Option.bind_eq_some_iff] at h
    obtain ⟨s, h1, h⟩ := h
    simp only [addType, addType_ok e s ht.1.1 h1]
    obtain ⟨e1, n1⟩ := plain_operand ht.1.2 h1
    rw [e1] at h
    obtain ⟨x, e2, rfl⟩ := promoted_arith h
    cases decay_arith e2
    have hw := ht.2
    unfold wide at hw
    rw [h1] at hw
    rw [promote_wide (n1 _ rfl) (of_decide_eq_true hw)]
  | .bitnot e, r, ht, h => by
    simp only [Tame, Bool.and_eq_true] at ht
    simp only [cType, Option.bind_eq_bind, Option.bind_eq_some_iff] at h
    obtain ⟨s, h1, h⟩ := h
    simp only [addType, addType_ok e s ht.1.1 h1]
    split at h
    · obtain ⟨e1, n1⟩ := plain_operand ht.1.2 h1
      rw [e1] at h
      obtain ⟨x, e2, rfl⟩ := promoted_arith h
      cases decay_arith e2
      have hw := ht.2
      unfold wide at hw
      rw [h1] at hw
      rw [promote_wide (n1 _ rfl) (of_decide_eq_true hw)]
    · cases h
  | .not e, r, ht, h => by
    simp only [cType, Option.bind_eq_bind, Option.bind_eq_some_iff] at h
    obtain ⟨s, h1, h⟩ := h
    simp only [addType, addType_ok e s ht h1, Res.bind]
    split at h <;> cases h
    rfl
  | .assign l e, r, ht, h => by
    simp only [Tame, Bool.and_eq_true] at ht
    simp only [cType, Option.bind_eq_bind, Option.bind_eq_some_iff] at h
    obtain ⟨s, h1, t, h2, h⟩ := h
    simp only [addType, addType_ok l s ht.1 h1, addType_ok e t ht.2 h2, Res.bind]
    split at h
    · rename_i hs
      cases h
      cases r <;> first | rfl | (unfold assignable at hs; cases hs)
    · cases h
  | .cond c a b, r, ht, h => by
    simp only [Tame, Bool.and_eq_true] at ht
    obtain ⟨⟨⟨⟨⟨t1, t2⟩, t3⟩, t4⟩, t5⟩, t6⟩ := ht
    simp only [cType, Option.bind_eq_bind, Option.bind_eq_some_iff] at h
    obtain ⟨u, h0, s, h1, t, h2, h⟩ := h
    simp only [addType, addType_ok c u t1 h0, addType_ok a s t2 h1, addType_ok b t t3 h2, Res.bind]
    split at h
    · obtain ⟨e1, n1⟩ := plain_operand t4 h1
      obtain ⟨e2, n2⟩ := plain_operand t5 h2
      rw [e1, e2] at h
      exact cond_ok h1 h2 n1 n2 t6 h
    · cases h
  | .comma a b, r, ht, h => by
    simp only [Tame, Bool.and_eq_true] at ht
    simp only [cType, Option.bind_eq_bind, Option.bind_eq_some_iff, Option.pure_def, Option.some.injEq] at h
    obtain ⟨s, h1, t, h2, h⟩ := h
    simp only [addType, addType_ok a s ht.1.1 h1, addType_ok b t ht.1.2 h2, Res.bind]
    have hr := ht.2
    rw [h2] at hr
    subst h
    cases t <;> first | rfl | simp at hr
  | .member e _, r, ht, h => by
    simp only [cType, Option.bind_eq_bind, Option.bind_eq_some_iff] at h
    obtain ⟨s, h1, h⟩ := h
    simp only [addType, addType_ok e s ht h1, Res.bind]
    split at h <;> cases h
    rfl
  | .bits e _ _, r, ht, h => by
    simp only [cType, Option.bind_eq_bind, Option.bind_eq_some_iff] at h
    obtain ⟨s, h1, h⟩ := h
    simp only [addType, addType_ok e s ht h1, Res.bind]
    split at h <;> cases h
    rfl
  | .addr e, r, ht, h => by
    simp only [Tame, Bool.and_eq_true] at ht
    simp only [cType, Option.bind_eq_bind, Option.bind_eq_some_iff, Option.pure_def, Option.some.injEq] at h
    obtain ⟨s, h1, rfl⟩ := h
    simp only [addType, addType_ok e s ht.1 h1, Res.bind]
    have hr := ht.2
    rw [h1] at hr
    cases s <;> first | rfl | simp at hr
  | .deref e, r, ht, h => by
    simp only [Tame, Bool.and_eq_true] at ht
    simp only [cType, Option.bind_eq_bind, Option.bind_eq_some_iff] at h
    obtain ⟨s, h1, h⟩ := h
    simp only [addType, addType_ok e s ht.1 h1, Res.bind]
    have hr := ht.2
    rw [h1] at hr
    cases s with
    | ptr b => cases h; cases r <;> first | rfl | simp at hr
    | arr b n => cases h; cases r <;> first | rfl | simp at hr
    | fn q p => cases h; rfl
    | _ => cases h
  | .call e, r, ht, h => by
    simp only [cType, Option.bind_eq_bind, Option.bind_eq_some_iff] at h
    obtain ⟨s, h1, h⟩ := h
    simp only [addType, addType_ok e s ht h1, Res.bind]
    cases s with
    | ptr b => cases b <;> first | (cases h; done) | (cases h; rfl)
    | fn q p => cases h; rfl
    | _ => cases h
  | .cast _ e, r, ht, h => by
    simp only [cType, Option.bind_eq_bind, Option.bind_eq_some_iff] at h
    obtain ⟨s, h1, h⟩ := h
    simp only [addType, addType_ok e s ht h1, Res.bind]
    split at h <;> cases h
    rfl

end Toycc.Ety
