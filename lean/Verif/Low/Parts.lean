import Verif.Low.Through
/-! Pieces of the simulation: compound operators, `x++`, and the types of `?:`. -/
namespace Toycc.Low
open Toycc.Cg Toycc.Rv

variable {S E : CEnv} {tmp : Nat → Int} {N : Nat}

/-- The operators of compound assignment. -/
theorem compound_ok {op : BinOp} {L R : Node} {c1 c2 co : CTy} (ho : BinOp.compound op = true) (h1 : Rel L.ty c1) (h2 : Rel R.ty c2) (hs : c1.scalar = true)
    (i2 : c2.isInt = true) (ht : opT op c1 c2 = some co) :
    ∃ (B : Bin) (δ : Nat), mkBin op L R = some B ∧ B.l = L ∧ ∀ L2 : Node, L2.ty = L.ty → ∀ d m m1 m2 x y z,
      evalC E false (d + δ) R.e m = some (y, m1) → evalC E false (d + 1) L2.e m1 = some (x, m2) → opC op c1 c2 x y = some z →
      evalC E false d (binN B.op L2 B.r).e m = some (z, m2) := by
  rcases scalar_cases hs with i1 | ⟨b, rfl⟩
  · obtain ⟨r1, r2⟩ := bin_int (E := E) op L R c1 c2 co h1 h2 i1 i2 ht
    exact ⟨_, 0, r1, rfl, fun L2 hL d m m1 m2 x y z => (r2 L2 hL).2 d m m1 m2 x y z⟩
  · have hb : L.ty.base = some b := by rw [h1.base]; rfl
    have hd := decay_int i2
    cases op with
    | add =>
      obtain ⟨r1, -, -, r2⟩ := bin_ptr (E := E) false L R b c2 hb h2 i2
      refine ⟨_, 1, r1 rfl, rfl, ?_⟩
      intro L2 hL d m m1 m2 x y z hr hl hz
      exact (r2 L2 hL).2 d m m1 m2 x y z hr hl hz
    | sub =>
      obtain ⟨-, -, r1, r2⟩ := bin_ptr (E := E) true L R b c2 hb h2 i2
      refine ⟨_, 1, r1 rfl, rfl, ?_⟩
      intro L2 hL d m m1 m2 x y z hr hl hz
      refine (r2 L2 hL).2 d m m1 m2 x y z hr hl ?_
      have e : opC .sub (.ptr b) c2 x y = ptrAdd x (-y) b.size := by cases c2 <;> first | rfl | cases i2
      rw [e] at hz
      exact hz
    | eq | ne | lt | le => cases ho
    | shl | shr =>
      simp only [opT] at ht
      split at ht
      · have := (prom_some ht).1; cases this
      · cases ht
    | _ => have := (usual_some ht).1; cases this

theorem opC_int {op : BinOp} (ho : op = .add ∨ op = .sub) {t : CTy} (hi : t.isInt = true) (x y : Int) :
    opC op t (.int false) x y = binC op t.wide.low (convC t.wide.low x) (convC t.wide.low y) := by
  have hu : usual t (.int false) = some t.wide := by
    have : ∀ t ∈ ints, usual t (.int false) = some t.wide := by decide +kernel
    exact this t (mem_ints hi)
  have h1 : ∀ b, t ≠ .ptr b := by rintro b rfl; cases hi
  have hd := decay_int hi
  have e : opC op t (.int false) x y = (usual t (.int false)).bind fun t => binC op t.low (convC t.low x) (convC t.low y) := by
    rcases ho with rfl | rfl <;> cases t <;> first | rfl | cases hi
  rw [e, hu]; rfl

/-- A value one up and one down is the value. -/
theorem post_int {t : CTy} (hi : t.isInt = true) (hb : t ≠ .bool) {x z : Int} (hx : inRange t.low x = true) (up : Bool)
    (h : opC (if up then .add else .sub) t (.int false) x 1 = some z) :
    opC .add t (.int false) x (if up then 1 else -1) = some z ∧
    ∃ u, opC .add t (.int false) (convC t.low z) (-(if up then 1 else -1)) = some u ∧ convC t.low u = x := by
  have e1 : opC (if up then .add else .sub) t (.int false) x 1 = opC .add t (.int false) x (if up then 1 else -1) := by
    rw [opC_int (by cases up <;> simp) hi, opC_int (by simp) hi]
    cases up
    · rcases wide_cases hi with h | h | h | h <;> rw [h] <;> simp only [Bool.false_eq_true, if_false]
      · show arithC _ (_ - _) = arithC _ (_ + _); congr 1
      · show arithC (.int true) (_ - _) = arithC (.int true) (_ + _)
        show some _ = some _
        congr 1
        show (x % 2 ^ 32 - 1) % 2 ^ 32 = (x % 2 ^ 32 + 4294967295) % 2 ^ 32
        omega
      · show arithC _ (_ - _) = arithC _ (_ + _); congr 1
      · show arithC (.long true) (_ - _) = arithC (.long true) (_ + _)
        show some _ = some _
        congr 1
        show (x % 2 ^ 64 - 1) % 2 ^ 64 = (x % 2 ^ 64 + 18446744073709551615) % 2 ^ 64
        omega
    · rfl
  rw [e1] at h
  refine ⟨h, ?_⟩
  rw [opC_int (by simp) hi] at h ⊢
  have hxw := range_wide hi hx
  have hws : t.wide.low.scalar = true := (low_int (prom_ints t (mem_ints hi)).2.1).2
  rw [convC_id hws hxw] at h
  -- signed wide type
  have sgn : ∀ (T : Ty) (N : Int), t.wide.low = T → promote T = T → T.unsigned = false → T.scalar = true → (∀ v, inRange T v = true ↔ -N ≤ v ∧ v < N) → 2 ^ 31 ≤ N →
      (t.low = T ∨ t.low = .enum ∧ T = .int false ∨ ((∀ v, inRange t.low v = true → -(2 ^ 16) ≤ v ∧ v < 2 ^ 16) ∧ ∀ v w : Int, convC t.low (convC t.low v + w) = convC t.low (v + w))) →
      ∃ u, binC .add T (convC T (convC t.low z)) (convC T (-(if up then 1 else -1))) = some u ∧ convC t.low u = x := by
    intro T N hT hp hu hsc hr hN hcase
    rw [hT] at h hxw
    have hone : ∀ v, v = 1 ∨ v = -1 → convC T v = v := fun v hv => convC_id hsc ((hr v).mpr (by omega))
    have hs : convC T (if up then 1 else -1) = (if up then 1 else -1) := hone _ (by cases up <;> simp)
    have hs' : convC T (-(if up then 1 else -1)) = -(if up then 1 else -1) := hone _ (by cases up <;> simp)
    have har : ∀ v, inRange T v = true → arithC T v = some v := by
      intro v hv
      unfold arithC
      rw [hu, hv]; rfl
    have hz : z = x + (if up then 1 else -1) ∧ inRange T z = true := by
      simp only [binC, hp, hs] at h
      unfold arithC at h
      rw [hu] at h
      generalize (if up then (1 : Int) else -1) = s at h ⊢
      simp only [Bool.false_eq_true, if_false] at h
      split at h
      · rename_i hh
        cases h
        exact ⟨rfl, hh⟩
      · cases h
    rw [hs']
    have done : convC t.low z = z → (∃ u, binC .add T (convC T (convC t.low z)) (-(if up then 1 else -1)) = some u ∧ convC t.low u = x) := by
      intro e
      rw [e, convC_id hsc hz.2]
      refine ⟨x, ?_, convC_id (low_int hi).2 hx⟩
      simp only [binC, hp]
      have : z + -(if up then 1 else -1) = x := by rw [hz.1]; omega
      rw [this]
      exact har x hxw
    rcases hcase with e | ⟨e, e'⟩ | ⟨hn, hc⟩
    · exact done (by rw [e]; exact convC_id hsc hz.2)
    · refine done ?_
      rw [e]
      refine convC_id rfl ?_
      rw [e'] at hz
      exact hz.2
    · have hv := hn _ (convC_inRange (low_int hi).2 z)
      have hvT : inRange T (convC t.low z) = true := (hr _).mpr (by omega)
      rw [convC_id hsc hvT]
      refine ⟨convC t.low z + -(if up then 1 else -1), ?_, ?_⟩
      · simp only [binC, hp]
        exact har _ ((hr _).mpr (by cases up <;> simp <;> omega))
      · rw [hc, hz.1, Int.add_neg_cancel_right]
        exact convC_id (low_int hi).2 hx
  -- unsigned wide type
  have uns : ∀ (N : Int), (∀ v, convC t.wide.low v = v % N) → t.low = t.wide.low → 0 < N → (∀ v w, binC .add t.wide.low v w = some ((v + w) % N)) →
      ∃ u, binC .add t.wide.low (convC t.wide.low (convC t.low z)) (convC t.wide.low (-(if up then 1 else -1))) = some u ∧ convC t.low u = x := by
    intro N hc ht hN hb
    rw [hb, Option.some.injEq] at h
    refine ⟨_, hb _ _, ?_⟩
    have hx' := convC_id (low_int hi).2 hx
    rw [ht, hc] at hx' ⊢
    rw [hc, hc, ← h, hc]
    generalize (if up then (1 : Int) else -1) = s
    have : ((x + s % N) % N + -s) % N = x % N := by
      rw [Int.emod_add_emod, Int.add_right_comm, Int.add_emod_emod]
      congr 1; omega
    simpa [hc] using this.trans hx'
  cases t with
  | bool => exact absurd rfl hb
  | char u =>
    refine sgn (.int false) (2 ^ 31) rfl rfl rfl rfl (fun v => range_int) (by omega) (.inr (.inr ⟨?_, ?_⟩))
    · intro v hv
      cases u
      · have hv : -(2 ^ 7) ≤ v ∧ v < 2 ^ 7 := of_decide_eq_true hv
        omega
      · have hv : 0 ≤ v ∧ v < 2 ^ 8 := of_decide_eq_true hv
        omega
    · intro v w
      cases u
      · exact Int.bmod_add_bmod (n := 2 ^ 8)
      · exact Int.emod_add_emod _ _ _
  | short u =>
    refine sgn (.int false) (2 ^ 31) rfl rfl rfl rfl (fun v => range_int) (by omega) (.inr (.inr ⟨?_, ?_⟩))
    · intro v hv
      cases u
      · have hv : -(2 ^ 15) ≤ v ∧ v < 2 ^ 15 := of_decide_eq_true hv
        omega
      · have hv : 0 ≤ v ∧ v < 2 ^ 16 := of_decide_eq_true hv
        omega
    · intro v w
      cases u
      · exact Int.bmod_add_bmod (n := 2 ^ 16)
      · exact Int.emod_add_emod _ _ _
  | int u =>
    cases u
    · exact sgn (.int false) (2 ^ 31) rfl rfl rfl rfl (fun v => range_int) (by omega) (.inl rfl)
    · exact uns (2 ^ 32) (fun v => rfl) rfl (by omega) (fun v w => rfl)
  | long u =>
    cases u
    · exact sgn (.long false) (2 ^ 63) rfl rfl rfl rfl (fun v => ⟨fun h => of_decide_eq_true h, fun h => decide_eq_true h⟩) (by omega) (.inl rfl)
    · exact uns (2 ^ 64) (fun v => rfl) rfl (by omega) (fun v w => rfl)
  | enum => exact sgn (.int false) (2 ^ 31) rfl rfl rfl rfl (fun v => range_int) (by omega) (.inr (.inl ⟨rfl, rfl⟩))
  | _ => cases hi

/-- Likewise for pointers. -/
theorem post_ptr {b : CTy} {x z : Int} (hx : 0 ≤ x ∧ x < 2 ^ 64) (up : Bool) (h : opC (if up then .add else .sub) (.ptr b) (.int false) x 1 = some z) :
    opC .add (.ptr b) (.int false) x (if up then 1 else -1) = some z ∧ convC .ptr z = z ∧
    opC .add (.ptr b) (.int false) z (-(if up then 1 else -1)) = some x := by
  have e : opC (if up then .add else .sub) (.ptr b) (.int false) x 1 = ptrAdd x (if up then 1 else -1) b.size := by cases up <;> rfl
  rw [e] at h
  refine ⟨h, ?_, ?_⟩
  · have := ptrAdd_range h
    exact Int.emod_eq_of_lt this.1 this.2
  · show ptrAdd z _ b.size = some x
    unfold ptrAdd at h ⊢
    cases up
    · simp only [Bool.false_eq_true, if_false] at h ⊢
      split at h
      · cases h
        rw [if_pos (by omega)]
        exact congrArg some (by omega)
      · cases h
    · simp only [if_true] at h ⊢
      split at h
      · cases h
        rw [if_pos (by omega)]
        exact congrArg some (by omega)
      · cases h

/-- The types of a conditional. -/
theorem cond_types {a b : SExpr} {t1 t2 ty : CTy} (h : condT a b t1 t2 = some ty) {c t e : Node} (h1 : Rel t.ty (a.vty t1)) (h2 : Rel e.ty (b.vty t2))
    (hx : ¬ ((a.vty t1).isInt = true ∧ (b.vty t2).isArr = true)) :
    (ty = .void ∧ condN c t e = ⟨.cond .void c.e t.e e.e, .void⟩) ∨
    (ty ≠ .void ∧ ∃ ty', ty'.low ≠ .void ∧ Rel ty' ty ∧ ty'.narrow = false ∧ (∀ v, convC ty'.low v = convC ty.low v) ∧
      condN c t e = ⟨.cond ty'.low c.e (castN t ty').e (castN e ty').e, ty'⟩) := by
  unfold condT at h
  generalize a.vty t1 = d1 at h h1 hx
  generalize b.vty t2 = d2 at h h2 hx
  have fin : ∀ ty', common t.ty e.ty = ty' → t.ty ≠ .void → e.ty ≠ .void → condN c t e = ⟨.cond ty'.low c.e (castN t ty').e (castN e ty').e, ty'⟩ := by
    intro ty' hc n1 n2
    unfold condN
    rw [if_neg (by simp [n1, n2]), hc]
  by_cases i1 : d1.isInt = true
  · have j1 : t.ty.isInt = true := by rw [h1.int]; exact i1
    have n1 : t.ty ≠ .void := by intro h; rw [h] at j1; cases j1
    by_cases i2 : d2.isInt = true
    · have j2 : e.ty.isInt = true := by rw [h2.int]; exact i2
      have n2 : e.ty ≠ .void := by intro h; rw [h] at j2; cases j2
      rw [decay_int i1, decay_int i2] at h
      have hu : usual d1 d2 = some ty := by
        cases d1 <;> first | (cases i1; done) | (cases d2 <;> first | exact h | (cases i2; done))
      obtain ⟨-, -, rfl⟩ := usual_some hu
      have hcm := common_ints t.ty (mem_ints j1) e.ty (mem_ints j2)
      have hus := usual_ints d1 (mem_ints i1) d2 (mem_ints i2)
      rw [h1.wide, h2.wide] at hcm
      right
      refine ⟨by intro h; rw [h] at hus; exact absurd hus.2.1 (by decide), common t.ty e.ty, (low_int hcm.2.1).1, .inr ⟨hcm.2.1, hus.2.1, ?_⟩, hcm.2.2, ?_, fin _ rfl n1 n2⟩
      · rw [hcm.1, hus.2.2.1]
      · intro v
        rw [conv_wide hcm.2.1 hcm.2.2, hcm.1]
    · have h2e := h2.eq (.inr (by simpa using i2))
      have harr : d2.isArr = false := by
        cases hh : d2.isArr with
        | false => rfl
        | true => exact absurd ⟨i1, hh⟩ hx
      rw [decay_int i1] at h
      have : ∃ q, ty = .ptr q ∧ (d2 = .ptr q ∨ ∃ r, d2 = .func r ∧ q = .func r) := by
        cases d1 <;> first | (cases i1; done) | (cases d2 <;> first
          | (cases harr; done)
          | (simp [CTy.isInt] at i2; done)
          | (simp [CTy.decay, usual, CTy.arith] at h; done)
          | (dsimp only [CTy.decay] at h
             split at h
             · cases h; simp
             · cases h))
      obtain ⟨q, rfl, hq⟩ := this
      right
      refine ⟨by simp, .ptr q, by simp [CTy.low], .inl rfl, rfl, fun _ => rfl, fin _ ?_ n1 ?_⟩
      · rw [h2e]
        rcases hq with rfl | ⟨r, rfl, rfl⟩
        · exact common_int_ptr j1
        · exact common_int_func j1
      · rw [h2e]
        rcases hq with rfl | ⟨r, rfl, rfl⟩ <;> simp
  · have h1e := h1.eq (.inr (by simpa using i1))
    by_cases hv : d1 = .void
    · subst hv
      have : d2 = .void ∧ ty = .void := by
        cases d2 <;> simp [CTy.decay, usual, CTy.arith, CTy.isInt] at h
        exact ⟨rfl, h.symm⟩
      obtain ⟨rfl, rfl⟩ := this
      left
      refine ⟨rfl, ?_⟩
      unfold condN
      rw [if_pos (.inl h1e)]
    · have : ∃ q, d1.decay = .ptr q ∧ ty = .ptr q ∧ d2 ≠ .void := by
        cases d1 <;> first
          | exact absurd rfl hv
          | (simp [CTy.isInt] at i1; done)
          | (cases d2 <;> first
              | (simp [CTy.decay, usual, CTy.arith] at h; done)
              | (dsimp only [CTy.decay] at h
                 split at h
                 · cases h; simp [CTy.decay]
                 · cases h)
              | (simp [CTy.decay, usual, CTy.arith, CTy.isInt] at h; done))
      obtain ⟨q, hd, rfl, hn2⟩ := this
      right
      refine ⟨by simp, .ptr q, by simp [CTy.low], .inl rfl, rfl, fun _ => rfl, fin _ ?_ ?_ ?_⟩
      · rw [h1e]
        cases d1 <;> simp [CTy.decay] at hd <;> subst hd
        · exact common_base rfl
        · exact common_base rfl
        · exact common_func
      · rw [h1e]; exact hv
      · intro he
        have := h2.eq (.inl (by rw [he]; rfl))
        exact hn2 (this ▸ he)

end Toycc.Low
