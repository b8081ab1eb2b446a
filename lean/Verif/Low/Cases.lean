import Verif.Low.Main
/-! The other operators. -/
namespace Toycc.Low
open Toycc.Cg Toycc.Rv

variable {S E : CEnv} {tmp : Nat → Int} {N : Nat}

/-- Induction hypothesis. -/
def IH (S E : CEnv) (tmp : Nat → Int) (N : Nat) (rv : Bool) (e : SExpr) : Prop :=
  ∀ c k, plain rv e = true → typeC e = some c → ∃ n k', tr tmp e k = some (n, k') ∧ Good S E tmp N rv e c k n k'

theorem good_neg (rv : Bool) (e : SExpr) (c : CTy) (k : Nat) (hp : plain rv (.neg e) = true) (ht : typeC (.neg e) = some c) (ih : IH S E tmp N true e) :
    ∃ n k', tr tmp (.neg e) k = some (n, k') ∧ Good S E tmp N rv (.neg e) c k n k' := by
  simp only [plain] at hp
  simp only [typeC, bindSome] at ht
  obtain ⟨t, ht, hc⟩ := ht
  obtain ⟨n, k', h1, g⟩ := ih t k hp ht
  have q_g := g.le
  have q := g.rel rfl
  obtain ⟨i, rfl⟩ := prom_some hc
  have j : n.ty.isInt = true := by rw [q.int]; exact i
  have hcm := common_ints (.int false) (by decide) n.ty (mem_ints j)
  have hw : cm (CTy.int false).wide n.ty.wide = (e.vty t).wide := by
    rw [q.wide]
    rcases wide_cases i with h | h | h | h <;> rw [h] <;> rfl
  rw [hw] at hcm
  have hpi := prom_ints _ (mem_ints i)
  refine ⟨⟨.neg (common (.int false) n.ty).low (castN n (common (.int false) n.ty)).e, common (.int false) n.ty⟩, k', by simp [tr, h1], Good.of rfl rfl g.le
    (fun _ => .inr ⟨hcm.2.1, hpi.2.1, by rw [hcm.1, hpi.2.2.1]⟩) ?_ rfl (fun _ => .inr hcm.2.2) ?_⟩
  · intro hs
    have := hpi.2.1
    cases hh : (e.vty t).wide <;> rw [hh] at hs this <;> first | (cases hs; done) | cases this
  · refine Sim.of (fun m => by simp [evalX]) ?_
    intro hN d m m1 x m' ha he
    simp only [evalX, Bool.false_eq_true, if_false, bindSome, ht, hc, Option.some.injEq, exists_eq_left'] at he
    obtain ⟨⟨v, m2⟩, h2, he⟩ := he
    simp only [Option.map_eq_some_iff, Prod.mk.injEq] at he
    obtain ⟨z, hz, rfl, rfl⟩ := he
    obtain ⟨m1', r1, r2, r3⟩ := g.sim (by omega) false d m m1 v m2 ha h2
    refine ⟨m1', ?_, r2, r3⟩
    have hv := ev_cast (t := (common (.int false) n.ty).low) r1 (low_int hcm.2.1).1
    simp only [evalC, Bool.false_eq_true, if_false] at hv ⊢
    show ((evalC E false d (.cast (common (.int false) n.ty).low n.e) m1) >>= fun p => _) = _
    have hv := ev_cast (t := (common (.int false) n.ty).low) r1 (low_int hcm.2.1).1
    rw [hv]
    simp only [Option.bind_eq_bind, Option.bind_some]
    rw [arithC_wide hcm.2.1, hcm.1, conv_wide hcm.2.1 hcm.2.2, hcm.1, hz]
    rfl

theorem good_not (rv : Bool) (e : SExpr) (c : CTy) (k : Nat) (hp : plain rv (.not e) = true) (ht : typeC (.not e) = some c) (ih : IH S E tmp N true e) :
    ∃ n k', tr tmp (.not e) k = some (n, k') ∧ Good S E tmp N rv (.not e) c k n k' := by
  simp only [plain] at hp
  simp only [typeC, bindSome] at ht
  obtain ⟨t, ht, hc⟩ := ht
  split at hc
  · cases hc
    obtain ⟨n, k', h1, g⟩ := ih t k hp ht
    have q_g := g.le
    refine ⟨⟨.not n.e, .int false⟩, k', by simp [tr, h1], Good.of rfl rfl g.le (fun _ => .inl rfl) (fun _ => rfl) rfl (fun _ => .inl rfl) ?_⟩
    refine Sim.of (fun m => by simp [evalX]) ?_
    intro hN d m m1 x m' ha he
    simp only [evalX, Bool.false_eq_true, if_false, bindSome] at he
    obtain ⟨⟨v, m2⟩, h2, he⟩ := he
    simp only [Option.some.injEq, Prod.mk.injEq] at he
    obtain ⟨rfl, rfl⟩ := he
    obtain ⟨m1', r1, r2, r3⟩ := g.sim (by omega) false d m m1 v m2 ha h2
    exact ⟨m1', by simp [evalC, r1], r2, r3⟩
  · cases hc

theorem good_bitnot (rv : Bool) (e : SExpr) (c : CTy) (k : Nat) (hp : plain rv (.bitnot e) = true) (ht : typeC (.bitnot e) = some c) (ih : IH S E tmp N true e) :
    ∃ n k', tr tmp (.bitnot e) k = some (n, k') ∧ Good S E tmp N rv (.bitnot e) c k n k' := by
  simp only [plain] at hp
  simp only [typeC, bindSome] at ht
  obtain ⟨t, ht, hc⟩ := ht
  obtain ⟨n, k', h1, g⟩ := ih t k hp ht
  have q_g := g.le
  have q := g.rel rfl
  obtain ⟨i, rfl⟩ := prom_some hc
  have j : n.ty.isInt = true := by rw [q.int]; exact i
  have hpi := prom_ints _ (mem_ints i)
  refine ⟨⟨.bitnot n.e, n.ty⟩, k', by simp [tr, h1], Good.of rfl rfl g.le (fun _ => .inr ⟨j, hpi.2.1, by rw [q.wide, hpi.2.2.1]⟩) ?_ g.low ?_ ?_⟩
  · intro hs
    have := hpi.2.1
    cases hh : (e.vty t).wide <;> rw [hh] at hs this <;> first | (cases hs; done) | cases this
  · intro hf
    simp only [SExpr.fits, ht, Bool.and_eq_true, Bool.not_eq_true'] at hf
    right
    rcases g.fits hf.1 with h | h
    · show n.ty.narrow = false
      rw [h]; exact hf.2
    · exact h
  · refine Sim.of (fun m => by simp [evalX]) ?_
    intro hN d m m1 x m' ha he
    simp only [evalX, Bool.false_eq_true, if_false, bindSome, ht, hc, Option.some.injEq, exists_eq_left'] at he
    obtain ⟨⟨v, m2⟩, h2, he⟩ := he
    simp only [Prod.mk.injEq] at he
    obtain ⟨rfl, rfl⟩ := he
    obtain ⟨m1', r1, r2, r3⟩ := g.sim (by omega) false d m m1 v m2 ha h2
    refine ⟨m1', ?_, r2, r3⟩
    simp only [evalC, Bool.false_eq_true, if_false, r1, Option.bind_eq_bind, Option.bind_some]
    rw [g.low, convP_wide j, q.wide]

theorem good_logand (rv : Bool) (l r : SExpr) (c : CTy) (k : Nat) (hp : plain rv (.logand l r) = true) (ht : typeC (.logand l r) = some c)
    (ih1 : IH S E tmp N true l) (ih2 : IH S E tmp N true r) :
    ∃ n k', tr tmp (.logand l r) k = some (n, k') ∧ Good S E tmp N rv (.logand l r) c k n k' := by
  simp only [plain, Bool.and_eq_true] at hp
  simp only [typeC, bindSome] at ht
  obtain ⟨t1, h1, t2, h2, hc⟩ := ht
  split at hc
  · cases hc
    obtain ⟨L, k1, e1, g1⟩ := ih1 t1 k hp.1 h1
    have q_g1 := g1.le
    obtain ⟨R, k2, e2, g2⟩ := ih2 t2 k1 hp.2 h2
    have q_g2 := g2.le
    refine ⟨⟨.logand L.e R.e, .int false⟩, k2, by simp [tr, e1, e2], Good.of rfl rfl (Nat.le_trans g1.le g2.le) (fun _ => .inl rfl) (fun _ => rfl) rfl
      (fun _ => .inl rfl) ?_⟩
    refine Sim.of (fun m => by simp [evalX]) ?_
    intro hN d m m1 x m' ha he
    simp only [evalX, Bool.false_eq_true, if_false, bindSome] at he
    obtain ⟨⟨v, m2⟩, hv, he⟩ := he
    obtain ⟨m3, r1, r2, r3⟩ := g1.sim (by omega) false d m m1 v m2 ha hv
    split at he
    · rename_i h0
      have h0 : v = 0 := h0
      cases he
      exact ⟨m3, by simp [evalC, r1, h0], r2, r3.mono (Nat.le_refl _) g2.le⟩
    · rename_i h0
      simp only [bindSome] at he
      obtain ⟨⟨w, m4⟩, hw, he⟩ := he
      cases he
      obtain ⟨m5, s1, s2, s3⟩ := g2.sim (by omega) false d m2 m3 w m4 r2 hw
      exact ⟨m5, by simp [evalC, r1, h0, s1], s2, r3.trans s3 (Nat.le_refl _) g2.le g1.le (Nat.le_refl _)⟩
  · cases hc

theorem good_logor (rv : Bool) (l r : SExpr) (c : CTy) (k : Nat) (hp : plain rv (.logor l r) = true) (ht : typeC (.logor l r) = some c)
    (ih1 : IH S E tmp N true l) (ih2 : IH S E tmp N true r) :
    ∃ n k', tr tmp (.logor l r) k = some (n, k') ∧ Good S E tmp N rv (.logor l r) c k n k' := by
  simp only [plain, Bool.and_eq_true] at hp
  simp only [typeC, bindSome] at ht
  obtain ⟨t1, h1, t2, h2, hc⟩ := ht
  split at hc
  · cases hc
    obtain ⟨L, k1, e1, g1⟩ := ih1 t1 k hp.1 h1
    have q_g1 := g1.le
    obtain ⟨R, k2, e2, g2⟩ := ih2 t2 k1 hp.2 h2
    have q_g2 := g2.le
    refine ⟨⟨.logor L.e R.e, .int false⟩, k2, by simp [tr, e1, e2], Good.of rfl rfl (Nat.le_trans g1.le g2.le) (fun _ => .inl rfl) (fun _ => rfl) rfl
      (fun _ => .inl rfl) ?_⟩
    refine Sim.of (fun m => by simp [evalX]) ?_
    intro hN d m m1 x m' ha he
    simp only [evalX, Bool.false_eq_true, if_false, bindSome] at he
    obtain ⟨⟨v, m2⟩, hv, he⟩ := he
    obtain ⟨m3, r1, r2, r3⟩ := g1.sim (by omega) false d m m1 v m2 ha hv
    split at he
    · rename_i h0
      cases he
      exact ⟨m3, by simp [evalC, r1, h0], r2, r3.mono (Nat.le_refl _) g2.le⟩
    · rename_i h0
      simp only [bindSome] at he
      obtain ⟨⟨w, m4⟩, hw, he⟩ := he
      cases he
      obtain ⟨m5, s1, s2, s3⟩ := g2.sim (by omega) false d m2 m3 w m4 r2 hw
      exact ⟨m5, by simp [evalC, r1, h0, s1], s2, r3.trans s3 (Nat.le_refl _) g2.le g1.le (Nat.le_refl _)⟩
  · cases hc

theorem good_comma (rv : Bool) (l r : SExpr) (c : CTy) (k : Nat) (hp : plain rv (.comma l r) = true) (ht : typeC (.comma l r) = some c)
    (ih1 : IH S E tmp N true l) (ih2 : IH S E tmp N rv r) :
    ∃ n k', tr tmp (.comma l r) k = some (n, k') ∧ Good S E tmp N rv (.comma l r) c k n k' := by
  simp only [plain, Bool.and_eq_true] at hp
  simp only [typeC, bindSome] at ht
  obtain ⟨t1, h1, t2, h2, hc⟩ := ht
  cases hc
  obtain ⟨L, k1, e1, g1⟩ := ih1 t1 k hp.1 h1
  have q_g1 := g1.le
  obtain ⟨R, k2, e2, g2⟩ := ih2 t2 k1 hp.2 h2
  have q_g2 := g2.le
  refine ⟨⟨.comma L.e R.e, R.ty⟩, k2, by simp [tr, e1, e2], Good.of rfl rfl (Nat.le_trans g1.le g2.le) g2.rel ?_ g2.low ?_ ?_⟩
  · intro hs
    have ni : t2.isInt = false := by
      rw [← vty_int h2]
      cases hh : r.vty t2 <;> rw [hh] at hs <;> first | rfl | cases hs
    rw [vty_nonint h2 ni] at hs ⊢
    exact g2.str hs
  · intro hf
    have hf : r.fits = true := hf
    have hb : r.bits = none := by
      cases r <;> first | rfl | (simpa [SExpr.fits, SExpr.bits] using hf)
    rw [vty_none t2 hb]
    exact g2.fits hf
  · intro hN ad d m m1 x m' ha he
    simp only [evalX, bindSome] at he
    obtain ⟨⟨v, m2⟩, hv, he⟩ := he
    obtain ⟨m3, r1, r2, r3⟩ := g1.sim (by omega) false d m m1 v m2 ha hv
    obtain ⟨m5, s1, s2, s3⟩ := g2.sim (by omega) ad d m2 m3 x m' r2 he
    exact ⟨m5, by simp [evalC, r1, s1], s2, r3.trans s3 (Nat.le_refl _) g2.le g1.le (Nat.le_refl _)⟩

theorem good_cast (rv : Bool) (t : CTy) (e : SExpr) (c : CTy) (k : Nat) (hp : plain rv (.cast t e) = true) (ht : typeC (.cast t e) = some c)
    (ih : IH S E tmp N true e) : ∃ n k', tr tmp (.cast t e) k = some (n, k') ∧ Good S E tmp N rv (.cast t e) c k n k' := by
  simp only [plain] at hp
  simp only [typeC, bindSome] at ht
  obtain ⟨t', h1, hc⟩ := ht
  split at hc
  · rename_i hc'
    cases hc
    obtain ⟨n, k1, e1, g⟩ := ih t' k hp h1
    have q_g := g.le
    refine ⟨castN n t, k1, by simp [tr, e1], Good.of rfl rfl g.le (fun _ => .inl rfl) (fun _ => rfl) rfl (fun _ => .inl rfl) ?_⟩
    refine Sim.of (fun m => by simp [evalX]) ?_
    intro hN d m m1 x m' ha he
    simp only [evalX, Bool.false_eq_true, if_false, bindSome] at he
    obtain ⟨⟨v, m2⟩, hv, he⟩ := he
    cases he
    obtain ⟨m3, r1, r2, r3⟩ := g.sim (by omega) false d m m1 v _ ha hv
    refine ⟨m3, ?_, r2, r3⟩
    have hvoid : t.low = .void ↔ t = .void := by cases t <;> simp [CTy.low]
    simp only [castN, evalC, Bool.false_eq_true, if_false, r1, Option.bind_eq_bind, Option.bind_some, hvoid]
  · cases hc

theorem good_assign (H : Hidden S E tmp N) (rv : Bool) (l r : SExpr) (c : CTy) (k : Nat) (hp : plain rv (.assign l r) = true) (ht : typeC (.assign l r) = some c)
    (ih1 : IH S E tmp N false l) (ih2 : IH S E tmp N true r) :
    ∃ n k', tr tmp (.assign l r) k = some (n, k') ∧ Good S E tmp N rv (.assign l r) c k n k' := by
  simp only [plain, Bool.and_eq_true] at hp
  simp only [typeC, bindSome] at ht
  obtain ⟨t1, h1, t2, h2, hc⟩ := ht
  split at hc
  · rename_i hc'
    have hc := Option.some.inj hc
    subst hc
    simp only [Bool.and_eq_true, Bool.or_eq_true, decide_eq_true_eq] at hc'
    obtain ⟨L, k1, e1, g1⟩ := ih1 t1 k hp.1 h1
    have q_g1 := g1.le
    obtain ⟨R, k2, e2, g2⟩ := ih2 t2 k1 hp.2 h2
    have q_g2 := g2.le
    have hL := g1.lv hc'.1
    have hle := Nat.le_trans g1.le g2.le
    have hsb : SameBits t1 l.bits L.e.bitfield := by
      refine bits_shape (g1.shape hc'.1) ?_
      rintro e0 t' o b rfl
      exact (member_type h1).1.symm
    rcases hc'.2 with hs | hs
    · have hns : t1.low.isStruct = false := by
        rcases scalar_cases hs.1 with h | ⟨b, rfl⟩
        · cases t1 <;> first | rfl | cases h
        · rfl
      have ha : assignN L R = some ⟨.assign t1.low L.e (.cast t1.low R.e), t1⟩ := by
        unfold assignN
        rw [hL]
        have := hs.1
        cases t1 <;> first | rfl | cases this
      refine ⟨⟨.assign t1.low L.e (.cast t1.low R.e), t1⟩, k2, by simp [tr, e1, e2, ha], Good.of rfl rfl hle (fun _ => .inl rfl) (fun _ => rfl) rfl
        (fun _ => .inl rfl) ?_⟩
      refine Sim.of (fun m => by simp [evalX, h1, hns]) ?_
      intro hN d m m1 x m' hag he
      simp only [evalX, bindSome, h1, Option.some.injEq, exists_eq_left', Bool.false_and, Bool.false_eq_true, if_false] at he
      obtain ⟨⟨a, m2⟩, hl, ⟨v, m3⟩, hr, he⟩ := he
      obtain ⟨m4, r1, r2, r3⟩ := g1.sim (by omega) true d m m1 a m2 hag hl
      obtain ⟨m5, s1, s2, s3⟩ := g2.sim (by omega) false (d + 1) m2 m4 v m3 r2 hr
      obtain ⟨m6, u1, u2, u3⟩ := storeL_agree H s2 he k k2
      refine ⟨m6, ?_, u2, (r3.trans s3 (Nat.le_refl _) g2.le g1.le (Nat.le_refl _)).trans u3 (Nat.le_refl _) (Nat.le_refl _) (Nat.le_refl _) (Nat.le_refl _)⟩
      have hv := ev_cast (t := t1.low) s1 (scalar_low hs.1).2.1
      rw [evalC]
      simp only [Bool.false_and, Bool.false_eq_true, if_false, r1, hv, Option.bind_eq_bind, Option.bind_some]
      rw [assignC_same hsb, storeL_conv hs.1]
      · exact u1
      · intro p hb
        exact (bits_int h1 hb).2.2
    · obtain ⟨hs, rfl⟩ := hs
      cases t2 <;> simp only [CTy.isStruc, Bool.false_eq_true] at hs
      rename_i n
      have ha : assignN L R = some ⟨.assign (.struc n) L.e R.e, .struc n⟩ := by
        unfold assignN
        rw [hL]
      refine ⟨⟨.assign (.struc n) L.e R.e, .struc n⟩, k2, by simp [tr, e1, e2, ha], Good.of rfl rfl hle (fun _ => .inl rfl) (fun _ => rfl) rfl
        (fun _ => .inl rfl) ?_⟩
      intro hN ad d m m1 x m' hag he
      simp only [evalX, bindSome, h1, Option.some.injEq, exists_eq_left', CTy.low, Ty.isStruct, Bool.not_true, Bool.and_false, Bool.false_eq_true, if_false] at he
      obtain ⟨⟨a, m2⟩, hl, ⟨v, m3⟩, hr, he⟩ := he
      obtain ⟨m4, r1, r2, r3⟩ := g1.sim (by omega) true d m m1 a m2 hag hl
      obtain ⟨m5, s1, s2, s3⟩ := g2.sim (by omega) false (d + 1) m2 m4 v m3 r2 hr
      obtain ⟨m6, u1, u2, u3⟩ := storeL_agree H s2 he k k2
      refine ⟨m6, ?_, u2, (r3.trans s3 (Nat.le_refl _) g2.le g1.le (Nat.le_refl _)).trans u3 (Nat.le_refl _) (Nat.le_refl _) (Nat.le_refl _) (Nat.le_refl _)⟩
      simp only [evalC, Ty.isStruct, Bool.not_true, Bool.and_false, Bool.false_eq_true, if_false, r1, s1, Option.bind_eq_bind, Option.bind_some]
      rw [← u1]
      exact assignC_same (t := .struc n) hsb _ _ _
  · cases hc

/-- The facts about an lvalue operand of a compound operator. -/
theorem lv_facts {l : SExpr} {t : CTy} {k k' : Nat} {L : Node} (h : typeC l = some t) (hs : t.scalar = true) (hlv : l.lv = true) (g : Good S E tmp N true l t k L k') :
    L.ty = t ∧ Rel L.ty (l.vty t) ∧ (l.vty t).scalar = true ∧ (∀ e0 t' o b, l = .member e0 t' o b → t' = t) := by
  refine ⟨g.lv hlv, g.rel rfl, ?_, ?_⟩
  · rcases scalar_cases hs with hi | ⟨b, rfl⟩
    · have := vty_int h
      rw [hi] at this
      simp [CTy.scalar, this]
    · rw [vty_nonint h rfl]; rfl
  · rintro e0 t' o b rfl
    exact (member_type h).1.symm

theorem good_opAssign (H : Hidden S E tmp N) (rv : Bool) (op : BinOp) (l r : SExpr) (c : CTy) (k : Nat) (hp : plain rv (.opAssign op l r) = true)
    (ht : typeC (.opAssign op l r) = some c) (ih1 : IH S E tmp N true l) (ih2 : IH S E tmp N true r) :
    ∃ n k', tr tmp (.opAssign op l r) k = some (n, k') ∧ Good S E tmp N rv (.opAssign op l r) c k n k' := by
  simp only [plain, Bool.and_eq_true] at hp
  simp only [typeC, bindSome] at ht
  obtain ⟨t1, h1, t2, h2, co, hco, hc⟩ := ht
  split at hc
  · rename_i hc'
    have hc := Option.some.inj hc
    subst hc
    simp only [Bool.and_eq_true] at hc'
    obtain ⟨⟨⟨hlv, hcmp⟩, hsc⟩, hi⟩ := hc'
    obtain ⟨L, k1, e1, g1⟩ := ih1 t1 k hp.1 h1
    have q_g1 := g1.le
    obtain ⟨R, k2, e2, g2⟩ := ih2 t2 k1 hp.2 h2
    have q_g2 := g2.le
    obtain ⟨f1, f2, f3, f4⟩ := lv_facts h1 hsc hlv g1
    have hi2 : (r.vty t2).isInt = true := by rw [vty_int h2]; exact hi
    obtain ⟨B, δ, b1, b2, b3⟩ := compound_ok (E := E) hcmp f2 (g2.rel rfl) f3 hi2 hco
    obtain ⟨n, a1, a2, a3, a4, a5⟩ := toAssign_sim H h1 f4 hlv hsc f1 (g1.shape hlv) g1.sim g1.le g2.le B b2 (evalX S false r) R.e δ
      (fun hN d m m1 y m' ha he => g2.sim hN false d m m1 y m' ha he) (opC op (l.vty t1) (r.vty t2)) b3
    refine ⟨n, k2 + 1, by simp [tr, e1, e2, b1, a1], Good.of rfl rfl (by have := g1.le; have := g2.le; omega) (fun _ => .inl a2) (fun _ => a2) (by rw [a3, a2])
      (fun _ => .inl a2) ?_⟩
    refine Sim.of (fun m => by simp [evalX]) ?_
    intro hN d m m1 x m' hag he
    simp only [evalX, Bool.false_eq_true, if_false, bindSome, h1, h2, Option.some.injEq, exists_eq_left'] at he
    obtain ⟨⟨a, m2⟩, hl, ⟨y, m3⟩, hr, w, hw, z, hz, he⟩ := he
    exact a5 hN d m m1 a m2 y m3 w z x m' hag hl hr hw hz he
  · cases hc

theorem num_sim (v : Int) {k k' : Nat} : ∀ (d : Nat) (m m1 : Mem) (y : Int) (m' : Mem), Agree S tmp m m1 → (some (v, m) : Option (Int × Mem)) = some (y, m') →
    ∃ m1', evalC E false d (numN v).e m1 = some (y, m1') ∧ Agree S tmp m' m1' ∧ Kept S tmp N k k' m1 m1' := by
  intro d m m1 y m' ha he
  cases he
  exact ⟨m1, ev_num, ha, Kept.refl _ _ _⟩

theorem opT_sub {t c : CTy} (hs : t.scalar = true) (h : opT .add t (.int false) = some c) : opT .sub t (.int false) = some c := by
  cases t <;> first | exact h | cases hs

theorem good_pre (H : Hidden S E tmp N) (rv : Bool) (up : Bool) (l : SExpr) (c : CTy) (k : Nat) (hp : plain rv (.pre up l) = true)
    (ht : typeC (.pre up l) = some c) (ih1 : IH S E tmp N true l) :
    ∃ n k', tr tmp (.pre up l) k = some (n, k') ∧ Good S E tmp N rv (.pre up l) c k n k' := by
  simp only [plain] at hp
  simp only [typeC, bindSome] at ht
  obtain ⟨t1, h1, co, hco, hc⟩ := ht
  split at hc
  · rename_i hc'
    have hc := Option.some.inj hc
    subst hc
    simp only [Bool.and_eq_true] at hc'
    obtain ⟨hlv, hsc⟩ := hc'
    obtain ⟨L, k1, e1, g1⟩ := ih1 t1 k hp h1
    have q_g1 := g1.le
    obtain ⟨f1, f2, f3, f4⟩ := lv_facts h1 hsc hlv g1
    have hco' : opT (if up then .add else .sub) (l.vty t1) (.int false) = some co := by
      cases up
      · exact opT_sub f3 hco
      · exact hco
    obtain ⟨B, δ, b1, b2, b3⟩ := compound_ok (E := E) (R := numN 1) (by cases up <;> rfl) f2 (Rel.refl _) f3 rfl hco'
    obtain ⟨n, a1, a2, a3, a4, a5⟩ := toAssign_sim H h1 f4 hlv hsc f1 (g1.shape hlv) g1.sim g1.le (Nat.le_refl k1) B b2 (fun m => some (1, m)) (numN 1).e δ
      (fun _ => num_sim 1) (opC (if up then .add else .sub) (l.vty t1) (.int false)) b3
    have hb : (if up = true then newAdd L (numN 1) else newSub L (numN 1)) = some B := by
      cases up <;> exact b1
    refine ⟨n, k1 + 1, (by simp only [tr, e1, Option.bind_eq_bind, Option.bind_some]; cases up <;> simp_all), Good.of rfl rfl (by have := g1.le; omega) (fun _ => .inl a2) (fun _ => a2) (by rw [a3, a2])
      (fun _ => .inl a2) ?_⟩
    refine Sim.of (fun m => by simp [evalX]) ?_
    intro hN d m m1 x m' hag he
    simp only [evalX, Bool.false_eq_true, if_false, bindSome, h1, Option.some.injEq, exists_eq_left'] at he
    obtain ⟨⟨a, m2⟩, hl, w, hw, z, hz, he⟩ := he
    exact a5 hN d m m1 a m2 1 m2 w z x m' hag hl rfl hw hz he
  · cases hc

theorem storeL_val {t : CTy} (hs : t.scalar = true) {a : W} {z v : Int} {m m' : Mem} (h : storeL S t none a z m = some (v, m')) : v = convC t.low z := by
  simp only [storeL, Option.map] at h
  have e : assignC S none t.low a z m = if t.low.scalar && S.ok a t.low.size then some (convC t.low z, writeN m a t.low.size (rep (convC t.low z))) else none := by
    rcases scalar_cases hs with h | ⟨b, rfl⟩
    · cases t <;> first | rfl | cases h
    · rfl
  rw [e] at h
  split at h
  · cases h; rfl
  · cases h

theorem good_post (H : Hidden S E tmp N) (rv : Bool) (up : Bool) (l : SExpr) (c : CTy) (k : Nat) (hp : plain rv (.post up l) = true)
    (ht : typeC (.post up l) = some c) (ih1 : IH S E tmp N true l) :
    ∃ n k', tr tmp (.post up l) k = some (n, k') ∧ Good S E tmp N rv (.post up l) c k n k' := by
  simp only [plain, Bool.and_eq_true, decide_eq_true_eq] at hp
  obtain ⟨⟨hp, hnb⟩, hbool⟩ := hp
  have hnb : l.bits = none := by simpa using hnb
  simp only [typeC, bindSome] at ht
  obtain ⟨t1, h1, co, hco, hc⟩ := ht
  split at hc
  · rename_i hc'
    have hc := Option.some.inj hc
    subst hc
    simp only [Bool.and_eq_true] at hc'
    obtain ⟨hlv, hsc⟩ := hc'
    obtain ⟨L, k1, e1, g1⟩ := ih1 t1 k hp h1
    have q_g1 := g1.le
    obtain ⟨f1, f2, f3, f4⟩ := lv_facts h1 hsc hlv g1
    have hvt := vty_none t1 hnb
    rw [hvt] at f2 f3 hco
    obtain ⟨B, δ, b1, b2, b3⟩ := compound_ok (E := E) (op := .add) (R := numN (if up then 1 else -1)) rfl f2 (Rel.refl _) f3 rfl hco
    obtain ⟨n, a1, a2, a3, a4, a5⟩ := toAssign_sim H h1 f4 hlv hsc f1 (g1.shape hlv) g1.sim g1.le (Nat.le_refl k1) B b2
      (fun m => some ((if up then 1 else -1), m)) (numN (if up then 1 else -1)).e δ (fun _ => num_sim _) (opC .add t1 (.int false)) b3
    -- one back
    obtain ⟨C, γ, c1, c2, c3⟩ := compound_ok (E := E) (op := .add) (L := n) (R := numN (-(if up then 1 else -1))) rfl (by rw [a2]; exact Rel.refl t1) (Rel.refl _) f3 rfl hco
    have hCn : C.node = binN C.op n C.r := by unfold Bin.node; rw [c2]
    have b1' : newAdd L (numN (if up then 1 else -1)) = some B := b1
    have c1' : newAdd n (numN (-(if up then 1 else -1))) = some C := c1
    refine ⟨castN C.node t1, k1 + 1, ?_, Good.of rfl rfl (by have := g1.le; omega) (fun _ => .inl rfl) (fun _ => rfl) rfl (fun _ => .inl rfl) ?_⟩
    · simp only [tr, e1, incDec, b1', a1, c1', f1, Option.bind_eq_bind, Option.bind_some]
    · refine Sim.of (fun m => by simp [evalX]) ?_
      intro hN d m m1 x m' hag he
      simp only [evalX, Bool.false_eq_true, if_false, bindSome, h1, Option.some.injEq, exists_eq_left'] at he
      obtain ⟨⟨a, m2⟩, hl, w, hw, z, hz, ⟨v, m3⟩, hst, he⟩ := he
      cases he
      rw [hvt] at hz
      have hv : v = convC t1.low z := by rw [hnb] at hst; exact storeL_val hsc hst
      have hwr := loadL_range h1 hw
      rw [hvt] at hwr
      have key : opC .add t1 (.int false) x (if up then 1 else -1) = some z ∧
          ∃ u, opC .add t1 (.int false) v (-(if up then 1 else -1)) = some u ∧ convC t1.low u = x := by
        rcases scalar_cases hsc with hi | ⟨b, rfl⟩
        · rw [hv]
          refine post_int hi ?_ ((inV_int hi).mp hwr) up hz
          rintro rfl
          exact hbool h1
        · have hx := inV_ptr.mp hwr
          obtain ⟨q1, q2, q3⟩ := post_ptr hx up hz
          refine ⟨q1, x, ?_, Int.emod_eq_of_lt hx.1 hx.2⟩
          rw [hv]
          show opC .add (.ptr b) (.int false) (convC .ptr z) _ = _
          rw [q2]; exact q3
      obtain ⟨hz', u, hu, hux⟩ := key
      obtain ⟨m4, r1, r2, r3⟩ := a5 hN (d + 1) m m1 a m2 _ m2 x z v _ hag hl rfl hw hz' hst
      refine ⟨m4, ?_, r2, r3⟩
      have := ev_cast (t := t1.low) (c3 n rfl d m1 m1 m4 v _ u ev_num r1 hu) (scalar_low hsc).2.1
      rw [hux] at this
      rw [hCn]
      exact this
  · cases hc

theorem good_cond (rv : Bool) (q t e : SExpr) (c : CTy) (k : Nat) (hp : plain rv (.cond q t e) = true) (ht : typeC (.cond q t e) = some c)
    (ih0 : IH S E tmp N true q) (ih1 : IH S E tmp N true t) (ih2 : IH S E tmp N true e) :
    ∃ n k', tr tmp (.cond q t e) k = some (n, k') ∧ Good S E tmp N rv (.cond q t e) c k n k' := by
  simp only [plain, Bool.and_eq_true] at hp
  obtain ⟨⟨⟨hp0, hp1⟩, hp2⟩, hp3⟩ := hp
  simp only [typeC, bindSome] at ht
  obtain ⟨t0, h0, t1, h1, t2, h2, hc⟩ := ht
  simp only [h1, h2, Bool.not_eq_true', Bool.and_eq_false_iff] at hp3
  split at hc
  · obtain ⟨Q, k1, e0, g0⟩ := ih0 t0 k hp0 h0
    obtain ⟨T, k2, e1, g1⟩ := ih1 t1 k1 hp1 h1
    have q_g1 := g1.le
    obtain ⟨F, k3, e2, g2⟩ := ih2 t2 k2 hp2 h2
    have q_g2 := g2.le
    have l0 := g0.le
    have l1 := g1.le
    have l2 := g2.le
    have hx : ¬ ((t.vty t1).isInt = true ∧ (e.vty t2).isArr = true) := by
      rintro ⟨i1, i2⟩
      rw [vty_int h1] at i1
      have n2 : t2.isInt = false := by
        rw [← vty_int h2]
        cases hh : e.vty t2 <;> rw [hh] at i2 <;> first | rfl | cases i2
      rw [vty_nonint h2 n2] at i2
      rcases hp3 with h | h
      · rw [h] at i1; cases i1
      · rw [h] at i2; cases i2
    have htr : tr tmp (.cond q t e) k = some (condN Q T F, k3) := by simp [tr, e0, e1, e2]
    rcases cond_types hc (c := Q) (g1.rel rfl) (g2.rel rfl) hx with ⟨rfl, hcn⟩ | ⟨hnv, ty', hlow, hrel, hnar, hconv, hcn⟩
    · refine ⟨_, k3, htr, Good.of rfl rfl (by omega) ?_ ?_ ?_ ?_ ?_⟩
      · rw [hcn]; exact fun _ => .inl rfl
      · rw [hcn]; exact fun _ => rfl
      · rw [hcn]; rfl
      · rw [hcn]; exact fun _ => .inl rfl
      · rw [hcn]
        refine Sim.of (fun m => by simp [evalX]) ?_
        intro hN d m m1 x m' hag he
        simp only [evalX, Bool.false_eq_true, if_false, bindSome, h1, h2, hc, Option.some.injEq, exists_eq_left', if_true] at he
        obtain ⟨⟨v, m2⟩, hv, he⟩ := he
        obtain ⟨m3, r1, r2, r3⟩ := g0.sim (by omega) false d m m1 v m2 hag hv
        split at he
        · rename_i hne
          simp only [bindSome] at he
          obtain ⟨⟨w, m4⟩, hw, he⟩ := he
          cases he
          obtain ⟨m5, s1, s2, s3⟩ := g1.sim (by omega) false d m2 m3 _ _ r2 hw
          exact ⟨m5, by simp [evalC, r1, hne, s1], s2, r3.trans s3 (by omega) (by omega) (by omega) (by omega)⟩
        · rename_i hne
          simp only [bindSome] at he
          obtain ⟨⟨w, m4⟩, hw, he⟩ := he
          cases he
          obtain ⟨m5, s1, s2, s3⟩ := g2.sim (by omega) false d m2 m3 _ _ r2 hw
          exact ⟨m5, by simp [evalC, r1, hne, s1], s2, r3.trans s3 (by omega) (by omega) (by omega) (by omega)⟩
    · refine ⟨_, k3, htr, Good.of rfl rfl (by omega) ?_ ?_ ?_ ?_ ?_⟩
      · rw [hcn]; exact fun _ => hrel
      · rw [hcn]
        intro hs
        exact hrel.eq (.inr (by cases c <;> first | rfl | cases hs))
      · rw [hcn]; rfl
      · rw [hcn]; exact fun _ => .inr hnar
      · rw [hcn]
        refine Sim.of (fun m => by simp [evalX]) ?_
        intro hN d m m1 x m' hag he
        simp only [evalX, Bool.false_eq_true, if_false, bindSome, h1, h2, hc, Option.some.injEq, exists_eq_left', if_neg hnv] at he
        obtain ⟨⟨v, m2⟩, hv, he⟩ := he
        obtain ⟨m3, r1, r2, r3⟩ := g0.sim (by omega) false d m m1 v m2 hag hv
        split at he
        · rename_i hne
          simp only [bindSome] at he
          obtain ⟨⟨w, m4⟩, hw, he⟩ := he
          cases he
          obtain ⟨m5, s1, s2, s3⟩ := g1.sim (by omega) false d m2 m3 _ _ r2 hw
          have hcast := ev_cast (t := ty'.low) s1 hlow
          rw [hconv] at hcast
          refine ⟨m5, ?_, s2, r3.trans s3 (by omega) (by omega) (by omega) (by omega)⟩
          simp only [evalC, Bool.false_and, Bool.false_eq_true, if_false, r1, Option.bind_eq_bind, Option.bind_some, if_pos hne] at hcast ⊢
          exact hcast
        · rename_i hne
          simp only [bindSome] at he
          obtain ⟨⟨w, m4⟩, hw, he⟩ := he
          cases he
          obtain ⟨m5, s1, s2, s3⟩ := g2.sim (by omega) false d m2 m3 _ _ r2 hw
          have hcast := ev_cast (t := ty'.low) s1 hlow
          rw [hconv] at hcast
          refine ⟨m5, ?_, s2, r3.trans s3 (by omega) (by omega) (by omega) (by omega)⟩
          simp only [evalC, Bool.false_and, Bool.false_eq_true, if_false, r1, Option.bind_eq_bind, Option.bind_some, if_neg hne] at hcast ⊢
          exact hcast
  · cases hc

end Toycc.Low
