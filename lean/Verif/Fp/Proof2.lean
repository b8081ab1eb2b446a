import Verif.Fp.Proof
/-! Correctness of the generated code: conversions, operators, assignment. -/
namespace Toycc.Fp
open Toycc.Rv
open Toycc.Cg (GS Var BinOp CEnv boolC World Match Keeps Rep Same slot idx bindSome)

variable {F : Fpu} {E : CEnv} {B : W} {env : Env} {P : Prog}

/-! ### Conversions -/

theorem read_kind {t : Cg.Ty} {v : Int} {x : W} (h1 : t.scalar = true) (h2 : t ≠ .enum) (h3 : t ≠ .ptr) (hv : Cg.inV t v) (hr : Rep .full v x) :
    (ofIntKind (Cg.typeId t)).read x = v := by
  have hi := (Cg.inV_scalar h1).mp hv
  have e : x = BitVec.ofInt 64 v := hr.1
  have hw : ∀ v : Int, -(2 ^ 31) ≤ v → v < 2 ^ 31 → (lo (BitVec.ofInt 64 v)).toInt = v := by
    intro v h1 h2
    rw [Cg.lo_ofInt, BitVec.toInt_ofInt, Int.bmod_eq_of_le (by omega) (by omega)]
  have hwu : ∀ v : Int, 0 ≤ v → v < 2 ^ 32 → ((lo (BitVec.ofInt 64 v)).toNat : Int) = v := by
    intro v h1 h2
    rw [Cg.lo_ofInt, BitVec.toNat_ofInt]; omega
  have hl : ∀ v : Int, -(2 ^ 63) ≤ v → v < 2 ^ 63 → (BitVec.ofInt 64 v).toInt = v := by
    intro v h1 h2
    rw [BitVec.toInt_ofInt, Int.bmod_eq_of_le (by omega) (by omega)]
  have hlu : ∀ v : Int, 0 ≤ v → v < 2 ^ 64 → ((BitVec.ofInt 64 v).toNat : Int) = v := by
    intro v h1 h2
    rw [BitVec.toNat_ofInt]; omega
  rw [e]
  cases t with
  | bool =>
    have hi := of_decide_eq_true (p := 0 ≤ v ∧ v ≤ 1) hi
    exact hlu v (by omega) (by omega)
  | char u =>
    cases u
    · have hi := of_decide_eq_true (p := -(2 ^ 7) ≤ v ∧ v < 2 ^ 7) hi
      exact hw v (by omega) (by omega)
    · have hi := of_decide_eq_true (p := 0 ≤ v ∧ v < 2 ^ 8) hi
      exact hwu v (by omega) (by omega)
  | short u =>
    cases u
    · have hi := of_decide_eq_true (p := -(2 ^ 15) ≤ v ∧ v < 2 ^ 15) hi
      exact hw v (by omega) (by omega)
    · have hi := of_decide_eq_true (p := 0 ≤ v ∧ v < 2 ^ 16) hi
      exact hwu v (by omega) (by omega)
  | int u =>
    cases u
    · have hi := of_decide_eq_true (p := -(2 ^ 31) ≤ v ∧ v < 2 ^ 31) hi
      exact hw v (by omega) (by omega)
    · have hi := of_decide_eq_true (p := 0 ≤ v ∧ v < 2 ^ 32) hi
      exact hwu v (by omega) (by omega)
  | long u =>
    cases u
    · have hi := of_decide_eq_true (p := -(2 ^ 63) ≤ v ∧ v < 2 ^ 63) hi
      exact hl v (by omega) (by omega)
    · have hi := of_decide_eq_true (p := 0 ≤ v ∧ v < 2 ^ 64) hi
      exact hlu v (by omega) (by omega)
  | enum => exact absurd rfl h2
  | ptr => exact absurd rfl h3
  | _ => simp [Cg.Ty.scalar] at h1

theorem sext_small {v : Int} (h1 : -(2 ^ 31) ≤ v) (h2 : v < 2 ^ 31) : sext32 (BitVec.ofInt 32 v) = BitVec.ofInt 64 v := by
  rw [sext32, BitVec.signExtend, BitVec.toInt_ofInt, Int.bmod_eq_of_le (by omega) (by omega)]

/-- The conversions from a floating type to an integer type that are compiled correctly. -/
theorem Res.toInt {d pc s m p b} {t : Cg.Ty} {z : Int} {c1 : List Instr} (h : Res F E B env P d pc c1.length s (.flt p b) m)
    (ht : castOk (.flt p) (.int t) = true) (hz : F.trunc p b = some z) (hr : Cg.inRange t z = true)
    (hc : CodeAt P (pc + c1.length) (toIntCode p (Cg.typeId t))) :
    Res F E B env P d pc (c1 ++ toIntCode p (Cg.typeId t)).length s (.int z) m := by
  -- fcvt
  have cvt : ∀ (k : IK), k.fits z = true → CodeAt P (pc + c1.length) [.toInt p k .a0 .fa0] →
      (Rep .full z (k.write z)) → Res F E B env P d pc (c1 ++ [Instr.toInt p k .a0 .fa0]).length s (.int z) m := by
    intro k hk hc hrep
    refine h.fp hc ?_
    intro s1 hm hf
    have hf : s1.f .fa0 = box p b := hf
    refine ⟨_, rfl, Cg.same_set (by simp), rfl, ?_⟩
    show Rep .full z ((s1.x.set .a0 _).r .a0)
    rw [r_set_same _ _ _ (by decide), hf, unbox_box, Fpu.cvt, hz]
    simp only [hk, if_true]
    exact hrep
  have shift : ∀ (k : IK) (u : Bool) (n : Nat), k.fits z = true → CodeAt P (pc + c1.length) (.toInt p k .a0 .fa0 :: lift (Cg.shiftExt u n)) →
      Rep .full z (k.write z) → Cg.shiftVal u n (BitVec.ofInt 64 z) = BitVec.ofInt 64 z →
      Res F E B env P d pc (c1 ++ Instr.toInt p k .a0 .fa0 :: lift (Cg.shiftExt u n)).length s (.int z) m := by
    intro k u n hk hc hrep hsh
    have hc' : CodeAt P (pc + c1.length) ([.toInt p k .a0 .fa0] ++ lift (Cg.shiftExt u n)) := hc
    have h1 := cvt k hk hc'.left hrep
    have := h1.piece (c2 := Cg.shiftExt u n) (v' := .int z) (by
      rw [List.length_append, ← Nat.add_assoc]; exact hc'.right) (L := [.a0]) (by decide) (by
      intro s1 hm hr
      have hr : Rep .full z (s1.x.r .a0) := hr
      obtain ⟨x2, g1, g2, g3, g4⟩ := Cg.exec_shiftExt env.rv s1.x u n
      refine ⟨x2, g1, g2, g4, ?_⟩
      show Rep .full z (x2.r .a0)
      rw [g3, hr.1, hsh]
      exact ⟨rfl, hr.2⟩)
    rw [List.append_assoc] at this
    exact this
  have full : ∀ {X : W}, -(2 ^ 63) ≤ z → z < 2 ^ 64 → X = BitVec.ofInt 64 z → Rep .full z X := fun h1 h2 e => ⟨e, h1, h2⟩
  have sh : ∀ (t : Cg.Ty), (t.size = 1 ∨ t.size = 2 ∨ t.size = 4) → (if t.unsigned then z % 2 ^ t.bits else z.bmod (2 ^ t.bits)) = z →
      Cg.shiftVal t.unsigned (64 - t.bits) (BitVec.ofInt 64 z) = BitVec.ofInt 64 z := by
    intro t h1 h2
    rw [Cg.shiftVal_eq h1 (v := z) (Cg.lo_ofInt z), h2]
  simp only [castOk, Bool.or_eq_true, beq_iff_eq] at ht
  rcases ht with (((((rfl | rfl) | rfl) | rfl) | rfl) | rfl) | rfl
  · have hr := of_decide_eq_true (p := 0 ≤ z ∧ z < 2 ^ 8) hr
    exact shift .wu true 56 (decide_eq_true (by omega)) hc (full (by omega) (by omega) (sext_small (by omega) (by omega)))
      (sh (.char true) (by decide) (show z % 2 ^ 8 = z by omega))
  · have hr := of_decide_eq_true (p := -(2 ^ 7) ≤ z ∧ z < 2 ^ 7) hr
    exact shift .w false 56 (decide_eq_true (by omega)) hc (full (by omega) (by omega) (sext_small (by omega) (by omega)))
      (sh (.char false) (by decide) (by
        show z.bmod (2 ^ 8) = z
        exact Int.bmod_eq_of_le (by omega) (by omega)))
  · have hr := of_decide_eq_true (p := 0 ≤ z ∧ z < 2 ^ 16) hr
    exact shift .wu true 48 (decide_eq_true (by omega)) hc (full (by omega) (by omega) (sext_small (by omega) (by omega)))
      (sh (.short true) (by decide) (show z % 2 ^ 16 = z by omega))
  · have hr := of_decide_eq_true (p := -(2 ^ 15) ≤ z ∧ z < 2 ^ 15) hr
    exact shift .w false 48 (decide_eq_true (by omega)) hc (full (by omega) (by omega) (sext_small (by omega) (by omega)))
      (sh (.short false) (by decide) (by
        show z.bmod (2 ^ 16) = z
        exact Int.bmod_eq_of_le (by omega) (by omega)))
  · have hr := of_decide_eq_true (p := -(2 ^ 31) ≤ z ∧ z < 2 ^ 31) hr
    exact cvt .w (decide_eq_true (by omega)) hc (full (by omega) (by omega) (sext_small (by omega) (by omega)))
  · have hr := of_decide_eq_true (p := 0 ≤ z ∧ z < 2 ^ 64) hr
    exact cvt .lu (decide_eq_true (by omega)) hc (full (by omega) (by omega) rfl)
  · have hr := of_decide_eq_true (p := -(2 ^ 63) ≤ z ∧ z < 2 ^ 63) hr
    exact cvt .l (decide_eq_true (by omega)) hc (full (by omega) (by omega) rfl)

theorem good_cast (t : Ty) {e : Expr} (ih : Good F E B env P e) : Good F E B env P (.cast t e) := by
  intro ad gs c gs' m v m' pc s hs hn hg he hc hm
  simp only [gen, eval] at hg he
  split at hg
  · simp at hg
  · rename_i had
    simp only [had, Bool.false_eq_true, if_false, bindSome] at hg he ⊢
    obtain ⟨⟨c1, s1⟩, h1, h2⟩ := hg
    obtain ⟨⟨v1, m1⟩, e1, r, e2, e3⟩ := he
    simp only [Option.some.injEq, Prod.mk.injEq] at h2 e3
    obtain ⟨rfl, rfl⟩ := h2
    obtain ⟨rfl, rfl⟩ := e3
    simp only [simple, Bool.and_eq_true] at hs
    obtain ⟨⟨_, hs1⟩, hs2⟩ := hs
    obtain ⟨ihr, iht⟩ := ih _ _ _ _ _ _ _ _ _ hs1 hn h1 e1 hc.left hm
    simp only [Bool.false_eq_true, if_false] at iht
    have hcc := hc.right
    clear hc h1 e1 hm
    revert iht hs2 hcc
    generalize e.ty = u
    intro hs2 iht hcc
    cases u with
    | int a =>
      obtain ⟨x, rfl, hx⟩ := iht.int
      cases t with
      | int t =>
        simp only [castOk, Bool.and_eq_true, bne_iff_ne] at hs2
        obtain ⟨k1, k2⟩ := Cg.castS_ok hs2.1 hx hs2.2
        have ec : genCast (.int a) (.int t) = lift (Cg.genCast a t) := by
          cases t <;> first | rfl | exact absurd rfl hs2.2
        have ev : conv F (.int t) (.int x) = some (.int (Cg.convC t x)) := by
          cases t <;> first | rfl | exact absurd rfl hs2.2
        rw [ev, Option.some.injEq] at e2
        subst e2
        rw [ec] at hcc ⊢
        refine ⟨ihr.piece hcc (L := [.a0]) (by decide) ?_, (Cg.inV_scalar k2).mpr (Cg.convC_inRange k2 x)⟩
        intro s1 hm1 hr
        obtain ⟨x2, g1, g2, g3, g4⟩ := Cg.exec_cast env.rv s1.x a t (Or.inl k2)
        refine ⟨x2, g1, g2, g4, ?_⟩
        show Rep .full _ (x2.r .a0)
        rw [g3]
        exact Cg.cast_correct k1 hr
      | flt q =>
        simp only [castOk, Bool.and_eq_true, bne_iff_ne] at hs2
        simp only [conv, Option.some.injEq] at e2
        subst e2
        refine ⟨ihr.fp hcc ?_, Typed.flt _⟩
        intro s1 hm1 hr
        refine ⟨_, rfl, Same.refl, rfl, ?_⟩
        show St.f _ _ = _
        rw [setF_same, read_kind hs2.1.1 hs2.1.2 hs2.2 hx hr]
    | flt p =>
      obtain ⟨b, rfl⟩ := iht.kind.flt
      cases t with
      | int t =>
        have hgc : genCast (.flt p) (.int t) = toIntCode p (Cg.typeId t) := by
          simp only [castOk, Bool.or_eq_true, beq_iff_eq] at hs2
          rcases hs2 with (((((rfl | rfl) | rfl) | rfl) | rfl) | rfl) | rfl <;> rfl
        have hev : conv F (.int t) (.flt p b) = (F.trunc p b).bind fun z => if t.scalar && Cg.inRange t z then some (.int z) else none := by
          simp only [castOk, Bool.or_eq_true, beq_iff_eq] at hs2
          rcases hs2 with (((((rfl | rfl) | rfl) | rfl) | rfl) | rfl) | rfl <;> rfl
        rw [hev, Option.bind_eq_some_iff] at e2
        obtain ⟨z, hz, e2⟩ := e2
        split at e2
        case isFalse => simp at e2
        rename_i hok
        simp only [Bool.and_eq_true] at hok
        simp only [Option.some.injEq] at e2
        subst e2
        rw [hgc] at hcc ⊢
        exact ⟨ihr.toInt hs2 hz hok.2 hcc, (Cg.inV_scalar hok.1).mpr hok.2⟩
      | flt q =>
        simp only [conv, Option.some.injEq] at e2
        subst e2
        refine ⟨?_, Typed.flt _⟩
        cases p <;> cases q
        · simpa [genCast, Fpu.toPrec] using ihr
        · refine ihr.fp hcc ?_
          intro s1 hm1 hr
          refine ⟨_, rfl, Same.refl, rfl, ?_⟩
          show St.f _ _ = _
          rw [setF_same, show s1.f .fa0 = box .s b from hr, Fpu.convert, unbox_box]
          rfl
        · refine ihr.fp hcc ?_
          intro s1 hm1 hr
          refine ⟨_, rfl, Same.refl, rfl, ?_⟩
          show St.f _ _ = _
          rw [setF_same, show s1.f .fa0 = box .d b from hr, Fpu.convert, unbox_box]
          rfl
        · simpa [genCast, Fpu.toPrec] using ihr

/-! ### Tests against zero -/

theorem exec_frel (p : Prec) (o : Rel) (s : St) : execF F (.frel p o .a0 .fa0 .fa1) s =
    some ⟨s.x.set .a0 (ofBool (F.rel p o (unbox p (s.f .fa0)) (unbox p (s.f .fa1)))), s.f⟩ := rfl

theorem ofBool_zero (b : Bool) : ofBool b = 0 ↔ b = false := by cases b <;> simp [ofBool]

/-- Evaluating a condition and testing it against zero leaves 1 in a0 if it is false, else 0. -/
theorem test_run {d pc s v m t} {c1 : List Instr} (h : Res F E B env P d pc c1.length s v m) (hk : Kind t v)
    (hc : CodeAt P (pc + c1.length) (cmpZero t)) :
    ∃ s1, Runs F P env (pc, s) (pc + c1.length + (cmpZero t).length, s1) ∧ Match E B d m s1.x ∧ Keeps E B d s.x.mem s1.x.mem ∧
      s1.x.r .a0 = ofBool (v.isZero F) := by
  obtain ⟨s1, h1, h2, h3, h4⟩ := h
  cases t with
  | int t =>
    obtain ⟨x, rfl⟩ := hk.int
    have h3 : Rep .full x (s1.x.r .a0) := h3
    have e := Cg.exec_cmpZero env.rv s1.x
    refine ⟨_, h1.trans (runs_execL hc e), h2.set (by decide) (by decide), h4, ?_⟩
    show (s1.x.set .a0 _).r .a0 = _
    rw [r_set_same _ _ _ (by decide), Cg.rep_cmp h3 rfl]; rfl
  | flt p =>
    obtain ⟨b, rfl⟩ := hk.flt
    have h3 : s1.f .fa0 = box p b := h3
    have e1 := Runs.one (F := F) (env := env) (step_fp (s := s1) hc.head rfl)
    have e2 := Runs.one (F := F) (env := env) (step_fp (s := s1.setF .fa1 (box p (low p (s1.x.r .zero)))) hc.tail.head (exec_frel p .eq _))
    refine ⟨_, h1.trans (e1.trans e2), h2.set (by decide) (by decide), h4, ?_⟩
    show (s1.x.set .a0 _).r .a0 = _
    rw [r_set_same _ _ _ (by decide)]
    have e3 : (s1.setF .fa1 (box p (low p (s1.x.r .zero)))).f .fa0 = box p b := h3
    have e4 : (s1.setF .fa1 (box p (low p (s1.x.r .zero)))).f .fa1 = box p 0 := by
      rw [setF_same]
      have : s1.x.r .zero = 0 := rfl
      rw [this]
      cases p <;> rfl
    rw [e3, e4, unbox_box, unbox_box]
    rfl

theorem test_correct {d pc s v m t} {c1 : List Instr} (h : Res F E B env P d pc c1.length s v m) (hk : Kind t v)
    (hc : CodeAt P (pc + c1.length) (cmpZero t)) :
    ∃ s1, Runs F P env (pc, s) (pc + c1.length + (cmpZero t).length, s1) ∧ Match E B d m s1.x ∧ Keeps E B d s.x.mem s1.x.mem ∧
      (s1.x.r .a0 = 0 ↔ v.isZero F = false) := by
  obtain ⟨s1, h1, h2, h3, h4⟩ := test_run h hk hc
  exact ⟨s1, h1, h2, h3, by rw [h4]; exact ofBool_zero _⟩

theorem inV_bool (b : Bool) : Cg.inV (.int false) (boolC b) := by
  cases b <;> exact (Cg.inV_scalar (by rfl)).mpr (by decide)

theorem good_not {e : Expr} (ih : Good F E B env P e) : Good F E B env P (.not e) := by
  intro ad gs c gs' m v m' pc s hs hn hg he hc hm
  simp only [gen, eval] at hg he
  split at hg
  · simp at hg
  · rename_i had
    simp only [had, Bool.false_eq_true, if_false, bindSome] at hg he ⊢
    obtain ⟨⟨c1, s1⟩, h1, h2⟩ := hg
    obtain ⟨⟨v1, m1⟩, e1, e3⟩ := he
    simp only [Option.some.injEq, Prod.mk.injEq] at h2 e3
    obtain ⟨rfl, rfl⟩ := h2
    obtain ⟨rfl, rfl⟩ := e3
    simp only [simple, Bool.and_eq_true] at hs
    obtain ⟨ihr, iht⟩ := ih _ _ _ _ _ _ _ _ _ hs.2 hn h1 e1 hc.left hm
    simp only [Bool.false_eq_true, if_false] at iht
    obtain ⟨s1, g1, g2, g3, g4⟩ := test_run ihr iht.kind hc.right
    refine ⟨⟨s1, ?_, g2, ?_, g3⟩, inV_bool _⟩
    · rw [List.length_append, ← Nat.add_assoc]; exact g1
    · show Rep .full _ (s1.x.r .a0)
      rw [g4]; exact Rep.of_bool _

/-! ### Binary operators -/

theorem exec_farith (p : Prec) (o : Arith) (s : St) : execF F (.farith p o .fa0 .fa0 .fa1) s =
    some (s.setF .fa0 (box p (F.arith p o (unbox p (s.f .fa0)) (unbox p (s.f .fa1))))) := rfl

/-- The result of an operator on values of a floating type. -/
theorem binF_run {d m s pc p op o} {x y : Bits p} {t : Ty} {v : Val} (ho : binF p op = some o) (hc : CodeAt P pc o) (hm : Match E B d m s.x)
    (h0 : s.f .fa0 = box p x) (h1 : s.f .fa1 = box p y) (hv : binV F op t (.flt p x) (.flt p y) = some v) :
    ∃ s', Runs F P env (pc, s) (pc + o.length, s') ∧ Match E B d m s'.x ∧ s'.x.mem = s.x.mem ∧ Holds v s' := by
  have hv' : (match arithOf op with
      | some o => some (.flt p (F.arith p o x y))
      | none => (relOf F p x y op).map fun b => Val.int (boolC b)) = some v := by cases p <;> exact hv
  have ar : ∀ a, CodeAt P pc [.farith p a .fa0 .fa0 .fa1] → v = .flt p (F.arith p a x y) →
      ∃ s', Runs F P env (pc, s) (pc + 1, s') ∧ Match E B d m s'.x ∧ s'.x.mem = s.x.mem ∧ Holds v s' := by
    intro a hc e
    refine ⟨_, Runs.one (step_fp hc.head (exec_farith p a s)), hm, rfl, ?_⟩
    subst e
    show St.f _ _ = _
    rw [setF_same, h0, h1, unbox_box, unbox_box]
  have rel : ∀ r, CodeAt P pc [.frel p r .a0 .fa0 .fa1] → v = .int (boolC (F.rel p r x y)) →
      ∃ s', Runs F P env (pc, s) (pc + 1, s') ∧ Match E B d m s'.x ∧ s'.x.mem = s.x.mem ∧ Holds v s' := by
    intro r hc e
    refine ⟨_, Runs.one (step_fp hc.head (exec_frel p r s)), hm.set (by decide) (by decide), rfl, ?_⟩
    subst e
    show Rep .full _ ((s.x.set .a0 _).r .a0)
    rw [r_set_same _ _ _ (by decide), h0, h1, unbox_box, unbox_box]
    exact Rep.of_bool _
  cases op <;> simp only [binF, Option.some.injEq, reduceCtorEq] at ho <;> subst ho <;>
    simp only [arithOf, relOf, Option.map_some, Option.some.injEq] at hv'
  · exact ar _ hc hv'.symm
  · exact ar _ hc hv'.symm
  · exact ar _ hc hv'.symm
  · exact ar _ hc hv'.symm
  · exact rel _ hc hv'.symm
  · subst hv'
    have e1 := Runs.one (F := F) (env := env) (step_fp hc.head (exec_frel p .eq s))
    generalize hX : s.x.set .a0 (ofBool (F.rel p .eq (unbox p (s.f .fa0)) (unbox p (s.f .fa1)))) = X at e1
    have hm' : Match E B d m X := by rw [← hX]; exact hm.set (by decide) (by decide)
    have ha : X.r .a0 = ofBool (F.rel p .eq x y) := by
      rw [← hX, r_set_same _ _ _ (by decide), h0, h1, unbox_box, unbox_box]
    have hme : X.mem = s.x.mem := by rw [← hX]; rfl
    have e2 := Runs.one (F := F) (env := env) (step_int (s := ⟨X, s.f⟩) hc.tail.head
      (show Rv.exec env.rv (.seqz .a0 .a0) X = some (X.set .a0 (ofBool (X.r .a0 == 0))) from rfl))
    refine ⟨_, e1.trans e2, hm'.set (by decide) (by decide), hme, ?_⟩
    show Rep .full _ ((X.set .a0 _).r .a0)
    rw [r_set_same _ _ _ (by decide), ha]
    cases F.rel p .eq x y <;> exact Rep.of_bool _
  · exact rel _ hc hv'.symm
  · exact rel _ hc hv'.symm

theorem good_bin {l r : Expr} (op : BinOp) (t : Ty) (hw : Surr E B env P) (il : Good F E B env P l) (ir : Good F E B env P r) :
    Good F E B env P (.bin op t l r) := by
  intro ad gs c gs' m v m' pc s hs hn hg he hc hm
  simp only [gen, eval] at hg he
  split at hg
  · simp at hg
  · rename_i had
    simp only [had, Bool.false_eq_true, if_false, bindSome] at hg he ⊢
    obtain ⟨⟨c1, s1⟩, h1, hg⟩ := hg
    obtain ⟨⟨y, m1⟩, e1, ⟨x, m2⟩, e3, w, e4, e5⟩ := he
    simp only [Option.some.injEq, Prod.mk.injEq] at e5
    obtain ⟨rfl, rfl⟩ := e5
    simp only [simple, Bool.and_eq_true] at hs
    obtain ⟨⟨⟨_, hsl⟩, hsr⟩, hbo⟩ := hs
    simp only [need] at hn
    have hroom : gs.depth < E.room := by omega
    have hd := (gen_depth r _ _ _ _ h1).1
    have hd' : s1.push.depth = gs.depth + 1 := by simp [GS.push, hd]
    cases hlt : l.ty with
    | flt p =>
      rw [hlt] at hbo
      simp only [hlt, bindSome] at hg
      obtain ⟨⟨c2, s2⟩, h2, o, h4, h3⟩ := hg
      simp only [Option.some.injEq, Prod.mk.injEq] at h3
      obtain ⟨rfl, rfl⟩ := h3
      have hrt : r.ty = .flt p := by
        revert hbo
        cases r.ty with
        | int _ => cases t <;> simp [binOk]
        | flt q => cases t <;> simp only [binOk, Bool.and_eq_true, beq_iff_eq] <;> intro h <;> rw [h.1]
      have hc0 := hc.left.left.left
      obtain ⟨⟨t1, a1, a2, a3, a4⟩, a5⟩ := ir _ _ _ _ _ _ _ _ _ hsr (by omega) h1 e1 hc0.left hm
      obtain ⟨t2, b1, b2, b3, b4⟩ := sim_pushF (F := F) hw a2 hroom hc0.right
      have hc1 := hc.left.left.right
      rw [← hd'] at e3 b2
      obtain ⟨⟨t3, d1, d2, d3, d4⟩, d5⟩ := il _ _ _ _ _ _ _ _ _ hsl (by omega) h2 e3 hc1 b2
      rw [hd'] at d2 d4
      simp only [Bool.false_eq_true, if_false] at a5 d5
      rw [hrt] at a5
      rw [hlt] at d5
      obtain ⟨yb, rfl⟩ := a5.kind.flt
      obtain ⟨xb, rfl⟩ := d5.kind.flt
      obtain ⟨t4, p1, p2, p3, p4, p5⟩ := sim_popF (F := F) (env := env) d2 hc.left.right
      obtain ⟨t5, k1, k2, k3, k4⟩ := binF_run (F := F) (env := env) h4 hc.right p2 (by rw [p5]; exact d3)
        (by rw [p4, Cg.slot_keeps hw.world (by omega) hroom d4, b4]; exact a3) e4
      refine ⟨⟨t5, ?_, k2, k4, ?_⟩, ?_⟩
      · have hl : pushF.length = 2 := rfl
        have hl' : popF.length = 2 := rfl
        simp only [List.length_append, hl, hl', ← Nat.add_assoc] at *
        exact a1.trans (b1.trans (d1.trans (p1.trans k1)))
      · rw [k3, p3]
        exact (a4.trans b3).trans (d4.mono (Nat.le_succ _))
      · simp only [Expr.ty]
        rw [hrt] at hbo
        have hbo' : ((arithOf op).isSome && t == .flt p || (op == .eq || op == .ne || op == .lt || op == .le) && t == .int (.int false)) = true := by
          cases t <;> simp only [binOk, Bool.and_eq_true] at hbo <;> exact hbo.2
        have hv' : (match arithOf op with
            | some o => some (.flt p (F.arith p o xb yb))
            | none => (relOf F p xb yb op).map fun b => Val.int (boolC b)) = some w := by cases p <;> exact e4
        simp only [Bool.or_eq_true, Bool.and_eq_true, beq_iff_eq] at hbo'
        rcases hbo' with ⟨ha, rfl⟩ | ⟨hr, rfl⟩
        · obtain ⟨a, ha⟩ := Option.isSome_iff_exists.mp ha
          rw [ha] at hv'
          simp only [Option.some.injEq] at hv'
          subst hv'
          exact Typed.flt _
        · rcases hr with ((rfl | rfl) | rfl) | rfl <;> simp only [arithOf, relOf, Option.map_some, Option.some.injEq] at hv' <;> subst hv' <;>
            exact inV_bool _
    | int lt =>
      simp only [hlt, bindSome] at hg
      obtain ⟨⟨c2, s2⟩, h2, h3⟩ := hg
      rw [hlt] at hbo
      cases t with
      | flt _ => simp at h3
      | int t =>
      simp only [Option.some.injEq, Prod.mk.injEq] at h3
      obtain ⟨rfl, rfl⟩ := h3
      have hrt : ∃ rt, r.ty = .int rt ∧ Cg.binOk op t lt rt = true := by
        revert hbo
        cases r.ty with
        | int rt => exact fun h => ⟨rt, rfl, h⟩
        | flt q => simp [binOk]
      obtain ⟨rt, hrt, hbo⟩ := hrt
      have hc0 := hc.left.left.left
      obtain ⟨⟨t1, a1, a2, a3, a4⟩, a5⟩ := ir _ _ _ _ _ _ _ _ _ hsr (by omega) h1 e1 hc0.left hm
      obtain ⟨t2, b1, b2, b3, b4⟩ := sim_push (F := F) hw a2 hroom hc0.right
      have hc1 := hc.left.left.right
      rw [← hd'] at e3 b2
      obtain ⟨⟨t3, d1, d2, d3, d4⟩, d5⟩ := il _ _ _ _ _ _ _ _ _ hsl (by omega) h2 e3 hc1 b2
      rw [hd'] at d2 d4
      simp only [Bool.false_eq_true, if_false] at a5 d5
      rw [hrt] at a5
      rw [hlt] at d5
      obtain ⟨yb, rfl, hy⟩ := a5.int
      obtain ⟨xb, rfl, hx⟩ := d5.int
      simp only [binV, Option.map_eq_some_iff] at e4
      obtain ⟨w, e4, rfl⟩ := e4
      obtain ⟨g1, g2⟩ := Cg.binS_ok hbo hx hy e4
      obtain ⟨x4, p1, p2, p3, p4, p5⟩ := Cg.exec_pop env.rv t3.x .a1 (by decide) (by decide)
      obtain ⟨x5, q1, q2, q3, q4⟩ := Cg.exec_bin env.rv x4 op lt t
      have r1 := runs_execL (F := F) hc.left.right p1
      have r2 := runs_execL (F := F) (s := ⟨x4, t3.f⟩) hc.right q1
      have hsl' : x4.r .a1 = slot B t3.x.mem gs.depth := by rw [p4, d2.sp]; rfl
      refine ⟨⟨⟨x5, t3.f⟩, ?_, ⟨?_, ?_, ?_⟩, ?_, ?_⟩, g2⟩
      · have hl : (lift (Cg.pushI .a0)).length = 2 := rfl
        have hl' : (lift (Cg.popI .a1)).length = 2 := rfl
        have hl2 : (Cg.popI .a1).length = 2 := rfl
        simp only [List.length_append, hl, hl', hl2, length_lift, ← Nat.add_assoc] at *
        exact a1.trans (b1.trans (d1.trans (r1.trans r2)))
      · show x5.r .sp = _
        rw [q2 _ (by decide), p3, d2.sp, Cg.add_8]
      · show x5.r .fp = _
        rw [q2 _ (by decide), p2 .fp (by decide), d2.fp]
      · intro b hb
        show x5.mem b = _
        rw [q4, p5, d2.mem b hb]
      · show Rep .full w (x5.r .a0)
        rw [q3]
        apply Cg.bin_correct g1
        · rw [p2 .a0 (by decide)]; exact d3
        · rw [hsl', Cg.slot_keeps hw.world (by omega) hroom d4, b4]; exact a3
      · show Keeps E B gs.depth s.x.mem x5.mem
        rw [q4, p5]
        exact (a4.trans b3).trans (d4.mono (Nat.le_succ _))

/-! ### Assignment -/

theorem low_box (p : Prec) (b : Bits p) : (box p b).toNat % 256 ^ p.bytes = b.toNat % 256 ^ p.bytes := by
  cases p with
  | s =>
    have key : ∀ b : BitVec 32, (BitVec.ofNat 64 (0xFFFFFFFF * 2 ^ 32 + b.toNat)).toNat % 256 ^ 4 = b.toNat % 256 ^ 4 := by
      intro b
      have := b.isLt
      rw [BitVec.toNat_ofNat]; omega
    exact key b
  | d => rfl

theorem good_assign {l r : Expr} (t : Ty) (hw : Surr E B env P) (il : Good F E B env P l) (ir : Good F E B env P r) :
    Good F E B env P (.assign t l r) := by
  intro ad gs c gs' m v m' pc s hs hn hg he hc hm
  simp only [simple, Bool.and_eq_true, Bool.not_eq_true', beq_iff_eq] at hs
  obtain ⟨⟨⟨⟨⟨had, hsl⟩, hbf⟩, hsr⟩, hrt⟩, hok⟩ := hs
  subst had
  simp only [gen, eval, Bool.false_and, Bool.false_eq_true, if_false, hbf, bindSome] at hg he ⊢
  obtain ⟨⟨c1, s1⟩, h1, ⟨c2, s2⟩, h2, h3⟩ := hg
  obtain ⟨⟨a, m1⟩, e1, a', e2, ⟨x, m2⟩, e3, e4⟩ := he
  have e2 := toI_some e2
  dsimp only at e2
  subst e2
  simp only [Option.some.injEq, Prod.mk.injEq] at h3
  obtain ⟨rfl, rfl⟩ := h3
  simp only [need] at hn
  have hroom : gs.depth < E.room := by omega
  have hd := (gen_depth l _ _ _ _ h1).1
  have hd' : s1.push.depth = gs.depth + 1 := by simp [GS.push, hd]
  have hc0 := hc.left.left
  obtain ⟨⟨t1, a1, a2, a3, a4⟩, _⟩ := il _ _ _ _ _ _ _ _ _ hsl (by omega) h1 e1 hc0.left hm
  have a3 : Rep .full a' (t1.x.r .a0) := a3
  obtain ⟨t2, b1, b2, b3, b4⟩ := sim_push (F := F) hw a2 hroom hc0.right
  have hc1 := hc.left.right
  rw [← hd'] at e3 b2
  obtain ⟨⟨t3, d1, d2, d3, d4⟩, d5⟩ := ir _ s1.push _ _ _ _ _ _ _ hsr (by omega) h2 e3 hc1 b2
  rw [hd'] at d2 d4
  simp only [Bool.false_eq_true, if_false] at d5
  rw [hrt] at d5
  have hA : BitVec.ofNat 64 (readN t3.x.mem (t3.x.r .sp) 8) = Cg.adr a' := by
    have hslot : slot B t3.x.mem gs.depth = Cg.adr a' := by
      rw [Cg.slot_keeps hw.world (by omega) hroom d4, b4]; exact a3.1
    rw [d2.sp]; exact hslot
  have fin : ∀ x4 len, Runs F P env (pc + (c1 ++ lift (Cg.pushI .a0) ++ c2).length, t3) (pc + (c1 ++ lift (Cg.pushI .a0) ++ c2).length + len, ⟨x4, t3.f⟩) →
      len = (genStore t).length → Match E B gs.depth m' x4 → Keeps E B gs.depth t3.x.mem x4.mem → Holds v ⟨x4, t3.f⟩ →
      Res F E B env P gs.depth pc (c1 ++ lift (Cg.pushI .a0) ++ c2 ++ genStore t).length s v m' := by
    intro x4 len r1 hlen g1 g2 g3
    refine ⟨⟨x4, t3.f⟩, ?_, g1, g3, (a4.trans b3).trans ((d4.mono (Nat.le_succ _)).trans g2)⟩
    have hl : (lift (Cg.pushI .a0)).length = 2 := rfl
    subst hlen
    simp only [List.length_append, hl, ← Nat.add_assoc] at *
    exact a1.trans (b1.trans (d1.trans r1))
  have hcs := hc.right
  cases t with
  | int t =>
    obtain ⟨xb, rfl, hx⟩ := d5.int
    simp only [assignV, Option.map_eq_some_iff, Prod.mk.injEq, Prod.exists] at e4
    obtain ⟨v1, m3, e4, rfl, rfl⟩ := e4
    have hok : t.scalar = true := hok
    have hst : ¬ ∃ n, t = .struc n := by rintro ⟨n, rfl⟩; simp [Cg.Ty.scalar] at hok
    obtain ⟨f, g1, g2⟩ := Cg.assignS_ok (bf := none) (t := t) (by cases t <;> first | exact hok | simp [Cg.Ty.scalar] at hok) hx e4
    obtain ⟨rfl, g3⟩ := g2 rfl
    obtain ⟨e6, _, rfl, _⟩ := Cg.assignS_scalar hst g1
    obtain ⟨hsc, hoka, hv, rfl⟩ := Cg.assignC_scalar hst e6
    obtain ⟨x4, q1, q2, q3, q4⟩ := Cg.exec_store env.rv t3.x t hsc
    rw [hA] at q4
    have hr : Rep .full v1 (t3.x.r .a0) := d3
    have hval : (t3.x.r .a0).toNat % 256 ^ t.size = Cg.rep (Cg.convC t v1) % 256 ^ t.size := by
      rw [hv, Cg.rep, hr.1]
    rw [Cg.writeN_congr hval] at q4
    obtain ⟨k1, k2⟩ := Cg.store_match d2 hoka (q2.mono (by simp +contextual)) q3 (fun b => by rw [q4]; rfl) (fun b => rfl)
    refine ⟨fin x4 _ (runs_execL hcs q1) (by rw [genStore, length_lift]) k1 k2 ?_, g3⟩
    show Rep .full v1 (x4.r .a0)
    rw [q2 .a0 (by decide)]; exact hr
  | flt p =>
    obtain ⟨b, rfl⟩ := d5.kind.flt
    have e4' : (if E.ok (Cg.adr a') p.bytes then some (Val.flt p b, writeN m2 (Cg.adr a') p.bytes b.toNat) else none) = some (v, m') := by
      cases p <;> exact e4
    split at e4'
    case isFalse => simp at e4'
    rename_i hoka
    simp only [Option.some.injEq, Prod.mk.injEq] at e4'
    obtain ⟨rfl, rfl⟩ := e4'
    have d3 : t3.f .fa0 = box p b := d3
    obtain ⟨x4, p1, p2, p3, p4, p5⟩ := Cg.exec_pop env.rv t3.x .a1 (by decide) (by decide)
    rw [hA] at p4
    have r1 := runs_execL (F := F) hcs.left p1
    have r2 := Runs.one (F := F) (env := env) (step_fp (s := ⟨x4, t3.f⟩) hcs.right.head (exec_fstore p .fa0 .a1 ⟨x4, t3.f⟩))
    rw [length_lift] at r2
    have hmem : writeN x4.mem (x4.r .a1) p.bytes (t3.f .fa0).toNat = writeN t3.x.mem (Cg.adr a') p.bytes b.toNat := by
      rw [p4, p5, d3, Cg.writeN_congr (low_box p b)]
    obtain ⟨k1, k2⟩ := Cg.store_match (s' := { x4 with mem := writeN x4.mem (x4.r .a1) p.bytes (t3.f .fa0).toNat }) d2 hoka
      (show Same [.sp, .a1, .t0, .t1, .t2] t3.x _ from fun r hr => p2 r (by simp at hr ⊢; exact ⟨hr.1, hr.2.1⟩)) p3
      (fun b => by rw [hmem]; rfl) (fun b => rfl)
    exact ⟨fin _ _ (r1.trans r2) rfl k1 k2 d3, Typed.flt _⟩

end Toycc.Fp
