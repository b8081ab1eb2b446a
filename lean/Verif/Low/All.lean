import Verif.Low.Cases
/-! `a ?: b`, calls, and the induction over expressions. -/
namespace Toycc.Low
open Toycc.Cg Toycc.Rv

variable {S E : CEnv} {tmp : Nat → Int} {N : Nat}

theorem usual_not_void {t1 t2 : CTy} : usual t1 t2 ≠ some .void := by
  intro h
  simp only [usual, bindSome] at h
  obtain ⟨a, -, b, -, h⟩ := h
  cases hh : Types.usualArith a b <;> rw [hh] at h <;> cases h

theorem condT_void {a b : SExpr} {t1 t2 : CTy} (h : condT a b t1 t2 = some .void) : (a.vty t1).decay = .void := by
  unfold condT at h
  generalize a.vty t1 = d1 at h ⊢
  generalize b.vty t2 = d2 at h
  generalize d1.decay = d1 at h ⊢
  generalize d2.decay = d2 at h
  cases d1 <;> cases d2 <;> first | rfl | (exact absurd h usual_not_void) | (dsimp only at h; split at h <;> cases h)

theorem fits_bits {e : SExpr} (h : e.fits = true) : e.bits = none := by
  cases e <;> first | rfl | (simpa [SExpr.fits, SExpr.bits] using h)

theorem good_elvis (H : Hidden S E tmp N) (hS : S.CallsTyped) (rv : Bool) (a b : SExpr) (c : CTy) (k : Nat) (hp : plain rv (.elvis a b) = true)
    (ht : typeC (.elvis a b) = some c) (ih1 : IH S E tmp N true a) (ih2 : IH S E tmp N true b) :
    ∃ n k', tr tmp (.elvis a b) k = some (n, k') ∧ Good S E tmp N rv (.elvis a b) c k n k' := by
  simp only [plain, Bool.and_eq_true] at hp
  obtain ⟨⟨⟨hp1, hp2⟩, hfit⟩, hp3⟩ := hp
  simp only [typeC, bindSome] at ht
  obtain ⟨t1, h1, t2, h2, hc⟩ := ht
  simp only [h1, h2, Bool.not_eq_true', Bool.and_eq_false_iff] at hp3
  split at hc
  · rename_i hsc
    obtain ⟨A, k1, e1, g1⟩ := ih1 t1 k hp1 h1
    have q_g1 := g1.le
    obtain ⟨F, k2, e2, g2⟩ := ih2 t2 (k1 + 1) hp2 h2
    have q_g2 := g2.le
    have l1 := g1.le
    have l2 := g2.le
    have hvt := vty_none t1 (fits_bits hfit)
    have rel1 := g1.rel rfl
    -- the hidden variable holds the value
    have hAs : A.ty.scalar = true := by
      rcases scalar_cases hsc with hi | ⟨p, rfl⟩
      · have := rel1.int
        rw [hvt, hi] at this
        simp [CTy.scalar, this]
      · rw [hvt] at rel1
        rw [rel1.eq (.inr rfl)]; rfl
    have hr : ∀ v, inV (a.vty t1).low v → inRange A.ty.low v = true := by
      intro v hv
      rw [hvt] at hv rel1
      have hv := (inV_scalar (scalar_low hsc).1).mp hv
      rcases g1.fits hfit with h | h
      · rw [h]; exact hv
      · rcases rel1 with h' | ⟨i1, i2, hw⟩
        · rw [h']; exact hv
        · rw [range_wide_eq i1 h, hw]
          exact range_wide i2 hv
    have hx : ¬ ((a.vty t1).isInt = true ∧ (b.vty t2).isArr = true) := by
      rintro ⟨i1, i2⟩
      rw [vty_int h1] at i1
      have n2 : t2.isInt = false := by
        rw [← vty_int h2]
        cases hh : b.vty t2 <;> rw [hh] at i2 <;> first | rfl | cases i2
      rw [vty_nonint h2 n2] at i2
      rcases hp3 with h | h
      · rw [h] at i1; cases i1
      · rw [h] at i2; cases i2
    have hasg : assignN ⟨.var A.ty.low (.loc (tmp k1)), A.ty⟩ A = some ⟨.assign A.ty.low (.var A.ty.low (.loc (tmp k1))) (.cast A.ty.low A.e), A.ty⟩ := by
      unfold assignN
      cases hh : A.ty <;> rw [hh] at hAs <;> first | rfl | cases hAs
    have htr : tr tmp (.elvis a b) k = some (⟨.comma (.assign A.ty.low (.var A.ty.low (.loc (tmp k1))) (.cast A.ty.low A.e))
        (condN ⟨.var A.ty.low (.loc (tmp k1)), A.ty⟩ ⟨.var A.ty.low (.loc (tmp k1)), A.ty⟩ F).e,
        (condN ⟨.var A.ty.low (.loc (tmp k1)), A.ty⟩ ⟨.var A.ty.low (.loc (tmp k1)), A.ty⟩ F).ty⟩, k2) := by
      simp [tr, e1, e2, hasg]
    rcases cond_types hc (c := ⟨.var A.ty.low (.loc (tmp k1)), A.ty⟩) (t := ⟨.var A.ty.low (.loc (tmp k1)), A.ty⟩) rel1 (g2.rel rfl) hx with
      ⟨rfl, -⟩ | ⟨hnv, ty', hlow, hrel, hnar, hconv, hcn⟩
    · exfalso
      have := condT_void hc
      rw [hvt] at this
      rcases scalar_cases hsc with hi | ⟨p, rfl⟩
      · rw [decay_int hi] at this; subst this; cases hi
      · cases this
    · rw [hcn] at htr
      refine ⟨_, k2, htr, Good.of rfl rfl (by omega) (fun _ => hrel) ?_ rfl (fun _ => .inr hnar) ?_⟩
      · intro hs
        exact hrel.eq (.inr (by cases c <;> first | rfl | cases hs))
      · refine Sim.of (fun m => by simp [evalX]) ?_
        intro hN d m m1 x m' hag he
        simp only [evalX, Bool.false_eq_true, if_false, bindSome, h1, h2, hc, Option.some.injEq, exists_eq_left'] at he
        obtain ⟨⟨v, m2⟩, hv, he⟩ := he
        obtain ⟨m3, r1, r2, r3⟩ := g1.sim (by omega) false (d + 1) m m1 v m2 hag hv
        have hvr := hr v (typed hS a true false m v m2 t1 hp1 h1 hv)
        have hcv := ev_cast (t := A.ty.low) r1 (scalar_low hAs).2.1
        rw [convC_id (scalar_low hAs).1 hvr] at hcv
        obtain ⟨m4, s1, s2, s3, s4⟩ := hidden_store H (scalar_low hAs).1 hvr hcv r2 r3 l1 (Nat.le_succ _) (by omega)
        have hld := hidden_load H (d := d) (scalar_low hAs).1 hvr (by omega) s4
        split at he
        · rename_i hne
          have hne : v ≠ 0 := hne
          simp only [bindSome] at he
          obtain ⟨⟨w, m5⟩, hw, he⟩ := he
          cases hw
          cases he
          refine ⟨m4, ?_, s2, s3.mono (Nat.le_refl _) l2⟩
          have hcast := ev_cast (t := ty'.low) hld hlow
          rw [hconv] at hcast
          rw [evalC]
          simp only [s1, Option.bind_eq_bind, Option.bind_some]
          rw [evalC]
          simp only [Bool.false_and, Bool.false_eq_true, if_false, hld, Option.bind_eq_bind, Option.bind_some, if_pos hne]
          exact hcast
        · rename_i hne
          have hne : ¬ v ≠ 0 := hne
          simp only [bindSome] at he
          obtain ⟨⟨w, m5⟩, hw, he⟩ := he
          cases he
          obtain ⟨m6, u1, u2, u3⟩ := g2.sim (by omega) false d m2 m4 w m5 s2 hw
          refine ⟨m6, ?_, u2, s3.trans u3 (by omega) (by omega) (by omega) (by omega)⟩
          have hcast := ev_cast (t := ty'.low) u1 hlow
          rw [hconv] at hcast
          rw [evalC]
          simp only [s1, Option.bind_eq_bind, Option.bind_some]
          rw [evalC]
          simp only [Bool.false_and, Bool.false_eq_true, if_false, hld, Option.bind_eq_bind, Option.bind_some, if_neg hne]
          exact hcast
  · cases hc

/-- Arguments. -/
def GoodArgs (S E : CEnv) (tmp : Nat → Int) (N : Nat) (as : SArgs) (k : Nat) (xs : Exprs) (k' : Nat) : Prop :=
  k ≤ k' ∧ (k' ≤ N → ∀ (d : Nat) (m m1 : Mem) (vs : List (Ty × Int)) (m' : Mem), Agree S tmp m m1 → evalArgsX S as m = some (vs, m') →
    ∃ m1', evalArgsC E d xs m1 = some (vs, m1') ∧ Agree S tmp m' m1' ∧ Kept S tmp N k k' m1 m1')

def IHArgs (S E : CEnv) (tmp : Nat → Int) (N : Nat) (as : SArgs) : Prop :=
  ∀ k, plainArgs as = true → typesC as = some () → ∃ xs k', trArgs tmp as k = some (xs, k') ∧ GoodArgs S E tmp N as k xs k'

theorem good_nil : IHArgs S E tmp N .nil := by
  intro k _ _
  refine ⟨.nil, k, by simp [trArgs], Nat.le_refl _, ?_⟩
  intro hN d m m1 vs m' ha he
  simp only [evalArgsX] at he
  cases he
  exact ⟨m1, by simp [evalArgsC], ha, Kept.refl _ _ _⟩

theorem good_cons (t : CTy) (e : SExpr) (r : SArgs) (ih1 : IH S E tmp N true e) (ih2 : IHArgs S E tmp N r) : IHArgs S E tmp N (.cons t e r) := by
  intro k hp ht
  simp only [plainArgs, Bool.and_eq_true] at hp
  simp only [typesC, bindSome] at ht
  obtain ⟨t', h1, u, h2, hc⟩ := ht
  split at hc
  · rename_i hc'
    rw [Bool.and_eq_true] at hc'
    obtain ⟨n, k1, e1, g1⟩ := ih1 t' k hp.1 h1
    have q_g1 := g1.le
    obtain ⟨xs, k2, e2, l2, g2⟩ := ih2 k1 hp.2 h2
    have l1 := g1.le
    refine ⟨.cons (castN n t).e xs, k2, by simp [trArgs, e1, e2], by omega, ?_⟩
    intro hN d m m1 vs m' ha he
    simp only [evalArgsX, bindSome] at he
    obtain ⟨⟨ws, m2⟩, hw, ⟨v, m3⟩, hv, he⟩ := he
    cases he
    obtain ⟨m4, r1, r2, r3⟩ := g2 (by omega) d m m1 ws m2 ha hw
    obtain ⟨m5, s1, s2, s3⟩ := g1.sim (by omega) false (d + xs.length) m2 m4 v _ r2 hv
    have hcast := ev_cast (t := t.low) s1 (scalar_low hc'.1).2.1
    refine ⟨m5, ?_, s2, r3.trans s3 (by omega) (by omega) (by omega) (by omega)⟩
    rw [evalArgsC]
    simp only [r1, Option.bind_eq_bind, Option.bind_some]
    rw [show (castN n t).e = .cast t.low n.e from rfl, hcast]
    rfl
  · cases hc

theorem good_call (H : Hidden S E tmp N) (rv : Bool) (f : SExpr) (as : SArgs) (c : CTy) (k : Nat) (hp : plain rv (.call f as) = true)
    (ht : typeC (.call f as) = some c) (ih1 : IH S E tmp N true f) (ih2 : IHArgs S E tmp N as) :
    ∃ n k', tr tmp (.call f as) k = some (n, k') ∧ Good S E tmp N rv (.call f as) c k n k' := by
  simp only [plain, Bool.and_eq_true] at hp
  simp only [typeC, bindSome] at ht
  obtain ⟨t, h1, r, hr, u, h2, hc⟩ := ht
  split at hc
  · rename_i hc'
    have hc := Option.some.inj hc
    subst hc
    obtain ⟨n, k1, e1, g1⟩ := ih1 t k hp.1 h1
    have q_g1 := g1.le
    obtain ⟨xs, k2, e2, l2, g2⟩ := ih2 k1 hp.2 h2
    have l1 := g1.le
    have hni : t.isInt = false := by cases t <;> first | rfl | cases hr
    have hty : n.ty = t := by
      have := (g1.rel rfl)
      rw [vty_nonint h1 hni] at this
      exact this.eq (.inr hni)
    have htr : tr tmp (.call f as) k = some (⟨.call r.low n.e xs, r⟩, k2) := by
      simp only [tr, e1, hty, Option.bind_eq_bind, Option.bind_some]
      cases t with
      | func r' => cases hr; simp [e2]
      | ptr p =>
        cases p with
        | func r' => cases hr; simp [e2]
        | _ => cases hr
      | _ => cases hr
    refine ⟨_, k2, htr, Good.of rfl rfl (by omega) (fun _ => .inl rfl) (fun _ => rfl) rfl (fun _ => .inl rfl) ?_⟩
    refine Sim.of (fun m => by simp [evalX]) ?_
    intro hN d m m1 x m' hag he
    simp only [evalX, Bool.false_eq_true, if_false, bindSome, h1, hr, Option.some.injEq, exists_eq_left'] at he
    obtain ⟨⟨vs, m2⟩, hvs, ⟨a, m3⟩, ha, he⟩ := he
    obtain ⟨m4, r1, r2, r3⟩ := g2 (by omega) (d + (d + (xs.length - 8)) % 2) m m1 vs m2 hag hvs
    obtain ⟨m5, s1, s2, s3⟩ := g1.sim (by omega) false (d + (d + (xs.length - 8)) % 2 + xs.length) m2 m4 a m3 r2 ha
    obtain ⟨m6, u1, u2, u3⟩ := H.call (adr a) (callSlots d xs.length) r.low vs m3 m5 x m' s2 he
    have q1 : Kept S tmp N k k2 m1 m5 := r3.trans s3 (by omega) (by omega) (by omega) (by omega)
    have q2 : Kept S tmp N k k2 m5 m6 := fun i _ _ b hb => u3 i b hb
    refine ⟨m6, ?_, u2, q1.trans q2 (Nat.le_refl _) (Nat.le_refl _) (Nat.le_refl _) (Nat.le_refl _)⟩
    simp only [evalC, Bool.false_eq_true, if_false, r1, s1, Option.bind_eq_bind, Option.bind_some]
    exact u1
  · cases hc

mutual
theorem good (H : Hidden S E tmp N) (hS : S.CallsTyped) : ∀ (e : SExpr) (rv : Bool), IH S E tmp N rv e
  | .num t v, rv => fun c k _ ht => good_num rv t v c k ht
  | .var t v, rv => fun c k _ ht => good_var H rv t v c k ht
  | .member e t o b, rv => fun c k hp ht => good_member H rv e t o b c k hp ht (good H hS e false)
  | .deref e, rv => fun c k hp ht => good_deref H rv e c k hp ht (good H hS e true)
  | .addr e, rv => fun c k hp ht => good_addr rv e c k hp ht (good H hS e false)
  | .bin op l r, rv => fun c k hp ht => good_bin rv op l r c k hp ht (good H hS l true) (good H hS r true)
  | .neg e, rv => fun c k hp ht => good_neg rv e c k hp ht (good H hS e true)
  | .not e, rv => fun c k hp ht => good_not rv e c k hp ht (good H hS e true)
  | .bitnot e, rv => fun c k hp ht => good_bitnot rv e c k hp ht (good H hS e true)
  | .assign l r, rv => fun c k hp ht => good_assign H rv l r c k hp ht (good H hS l false) (good H hS r true)
  | .opAssign op l r, rv => fun c k hp ht => good_opAssign H rv op l r c k hp ht (good H hS l true) (good H hS r true)
  | .pre up l, rv => fun c k hp ht => good_pre H rv up l c k hp ht (good H hS l true)
  | .post up l, rv => fun c k hp ht => good_post H rv up l c k hp ht (good H hS l true)
  | .comma l r, rv => fun c k hp ht => good_comma rv l r c k hp ht (good H hS l true) (good H hS r rv)
  | .cast t e, rv => fun c k hp ht => good_cast rv t e c k hp ht (good H hS e true)
  | .cond q t e, rv => fun c k hp ht => good_cond rv q t e c k hp ht (good H hS q true) (good H hS t true) (good H hS e true)
  | .elvis a b, rv => fun c k hp ht => good_elvis H hS rv a b c k hp ht (good H hS a true) (good H hS b true)
  | .logand l r, rv => fun c k hp ht => good_logand rv l r c k hp ht (good H hS l true) (good H hS r true)
  | .logor l r, rv => fun c k hp ht => good_logor rv l r c k hp ht (good H hS l true) (good H hS r true)
  | .call f as, rv => fun c k hp ht => good_call H rv f as c k hp ht (good H hS f true) (goodArgs H hS as)
theorem goodArgs (H : Hidden S E tmp N) (hS : S.CallsTyped) : ∀ as : SArgs, IHArgs S E tmp N as
  | .nil => good_nil
  | .cons t e r => good_cons t e r (good H hS e true) (goodArgs H hS r)
end

end Toycc.Low
