import Verif.Cg.ExprCases
/-! Correctness of generated expression code: complement, assignment, conditional operators. -/
namespace Toycc.Cg
open Toycc.Rv

variable {E : CEnv} {B : W} {env : Env} {P : Prog}

theorem not_ofInt {n : Nat} (v : Int) : ~~~ (BitVec.ofInt n v) = BitVec.ofInt n (-v - 1) := by
  rw [ofInt_sub, BitVec.ofInt_neg, BitVec.neg_eq_not_add]
  exact (BitVec.add_sub_cancel _ _).symm

theorem assignC_scalar {t : Ty} {a x m v' m3} (ht : ¬ ∃ n, t = .struc n) (h : assignC E none t a x m = some (v', m3)) :
    t.scalar = true ∧ E.ok a t.size = true ∧ convC t x = v' ∧ writeN m a t.size (rep (convC t x)) = m3 := by
  have h' : (if t.scalar && E.ok a t.size then some (convC t x, writeN m a t.size (rep (convC t x))) else none) = some (v', m3) := by
    cases t <;> first | exact h | exact absurd ⟨_, rfl⟩ ht
  split at h'
  · rename_i hc
    simp only [Bool.and_eq_true] at hc
    simp only [Option.some.injEq, Prod.mk.injEq] at h'
    exact ⟨hc.1, hc.2, h'.1, h'.2⟩
  · simp at h'

theorem assignS_scalar {t : Ty} {a x fx m v f m'} (ht : ¬ ∃ n, t = .struc n) (h : assignS E none t a x fx m = some (v, f, m')) :
    assignC E none t a x m = some (v, m') ∧ (fx ≠ .junk ∧ (fx = .full ∨ t.size ≤ 4)) ∧ v = x ∧ f = fx := by
  simp only [assignS, bindSome] at h
  obtain ⟨⟨v', m3⟩, h1, h2⟩ := h
  have h2' : (do
      let _ ← guard (fx != .junk && (fx == .full || decide (t.size ≤ 4)) && (v' == x))
      some (v', fx, m3)) = some (v, f, m') := by
    cases t <;> first | exact h2 | exact absurd ⟨_, rfl⟩ ht
  simp only [bindSome, Option.some.injEq, Prod.mk.injEq] at h2'
  obtain ⟨_, hg, rfl, rfl, rfl⟩ := h2'
  have hg := guard_some hg
  simp only [Bool.and_eq_true, beq_iff_eq, decide_eq_true_eq, bne_iff_ne, Bool.or_eq_true] at hg
  exact ⟨h1, hg.1, hg.2, rfl⟩

theorem wrapBits_mod {t : Ty} {w : Nat} {x : Int} (h : t ≠ .bool ∨ x = 0 ∨ x = 1) : wrapBits t w x % 2 ^ w = x % 2 ^ w := by
  unfold wrapBits
  split
  · rename_i hb
    rcases h with h | rfl | rfl
    · exact absurd hb h
    · rfl
    · rfl
  · split
    · exact Int.emod_emod_of_dvd _ (Int.dvd_refl _)
    · have := Int.bmod_emod (x := x) (m := 2 ^ w)
      simpa using this

theorem lo_not (x : W) : lo (~~~ x) = ~~~ (lo x) := by
  apply BitVec.eq_of_getLsbD_eq
  intro i hi
  simp only [lo, BitVec.getLsbD_setWidth, BitVec.getLsbD_not, hi, decide_true, Bool.true_and]
  rw [decide_eq_true (by omega), Bool.true_and]

theorem good_bitnot {e : Expr} (ih : Good E B env P e) : Good E B env P (.bitnot e) := by
  intro ad gs c gs' m v f m' pc s hg he hc hm
  simp only [gen, evalS] at hg he
  split at hg
  · simp at hg
  · rename_i had
    simp only [had, Bool.false_eq_true, if_false, bindSome] at hg he
    obtain ⟨⟨c1, s1⟩, h1, h2⟩ := hg
    obtain ⟨⟨v1, f1, m1⟩, e1, _, e2, e3⟩ := he
    simp only [Option.some.injEq, Prod.mk.injEq] at h2
    obtain ⟨rfl, rfl⟩ := h2
    have e2 := guard_some e2
    simp only [Bool.and_eq_true, bne_iff_ne] at e2
    obtain ⟨⟨ht, hr1⟩, hj⟩ := e2
    have ih := ih _ _ _ _ _ _ _ _ _ _ h1 e1 hc.left hm
    have hp : (promote e.ty).size = 4 ∨ (promote e.ty).size = 8 := by
      revert ht; cases e.ty <;> simp [promote, Ty.scalar, Ty.size]
    generalize promote e.ty = t at *
    simp only at e3
    split at e3
    · rename_i hf
      simp only [Option.some.injEq, Prod.mk.injEq] at e3
      obtain ⟨rfl, rfl, rfl⟩ := e3
      refine ih.piece hc.right (L := [.a0]) (by decide) ?_
      intro s1 hm1 hr
      refine ⟨_, rfl, same_set (by simp), rfl, ?_⟩
      rw [hf.1] at hr
      rw [r_set_same _ _ _ (by decide), hr.1, not_ofInt]
      refine ⟨?_, convC_range ht _⟩
      rcases hp with hp | hp
      · have := range4 ht hp hr1
        have hu : t.unsigned = false := by
          obtain ⟨_, hf⟩ := hf
          cases t with
          | int u => cases u <;> simp_all [Ty.unsigned]
          | enum => rfl
          | _ => simp [Ty.size] at hp <;> simp [Ty.scalar] at ht
        simp only [hu, Bool.false_eq_true, if_false] at this
        have e : convC t (-v1 - 1) = (-v1 - 1).bmod (2 ^ 32) := by
          cases t <;> simp_all [convC, Ty.size, Ty.bits, Ty.scalar]
        rw [e, Int.bmod_eq_of_le (by omega) (by omega)]
      · have e : convC t (-v1 - 1) = if t.unsigned then (-v1 - 1) % 2 ^ 64 else (-v1 - 1).bmod (2 ^ 64) := by
          cases t <;> simp_all [convC, Ty.size, Ty.bits, Ty.scalar]
        rw [e]
        apply ofInt_congr
        split
        · omega
        · rw [Int.bmod_emod]
    · simp only [bindSome] at e3
      obtain ⟨_, e3, e4⟩ := e3
      have e3 := guard_some e3
      simp only [beq_iff_eq] at e3
      subst e3
      simp only [Option.some.injEq, Prod.mk.injEq] at e4
      obtain ⟨rfl, rfl, rfl⟩ := e4
      refine ih.piece hc.right (L := [.a0]) (by decide) ?_
      intro s1 hm1 hr
      refine ⟨_, rfl, same_set (by simp), rfl, ?_⟩
      rw [r_set_same _ _ _ (by decide)]
      show lo _ = _ ∧ _
      rw [lo_not, hr.lo hj, not_ofInt]
      simp only [convC, Ty.unsigned, if_true, Ty.bits, Ty.size]
      refine ⟨ofInt_congr (by omega), by omega, by omega⟩

/-- A store through the address on the stack. -/
theorem store_match {d m m' s s'} {a : W} {n : Nat} {g : W → BitVec 8} (hm : Match E B (d + 1) m s) (hok : E.ok a n = true)
    (hs : Same [.sp, .a1, .t0, .t1, .t2] s s') (hsp : s'.r .sp = s.r .sp + 8)
    (hmem : ∀ b, s'.mem b = if (b - a).toNat < n then g b else s.mem b)
    (hm' : ∀ b, m' b = if (b - a).toNat < n then g b else m b) : Match E B d m' s' ∧ Keeps E B d s.mem s'.mem := by
  refine ⟨⟨?_, ?_, ?_⟩, ?_⟩
  · rw [hsp, hm.sp, add_8]
  · rw [hs _ (by decide), hm.fp]
  · intro b hb; rw [hmem, hm', hm.mem b hb]
  · intro b hv _
    rw [hmem, if_neg]
    intro hb
    have := write_valid hok hb
    simp_all

theorem rep_mod {f : Ext} {v : Int} {x : W} {w : Nat} (h : Rep f v x) (hj : f ≠ .junk) (hf : f = .full ∨ w ≤ 32) (hw : w ≤ 64) :
    x.toNat % 2 ^ w = (v % 2 ^ w).toNat := by
  have hp : (2 : Int) ^ w = ((2 ^ w : Nat) : Int) := by simp
  rcases hf with rfl | hf
  · rw [h.1, BitVec.toNat_ofInt, hp]
    have hd : (2 ^ w : Nat) ∣ 2 ^ 64 := Nat.pow_dvd_pow 2 hw
    apply Int.ofNat.inj
    show ((_ : Nat) : Int) = ((_ : Nat) : Int)
    rw [Int.natCast_emod, Int.toNat_of_nonneg (Int.emod_nonneg _ (by decide)),
      Int.toNat_of_nonneg (Int.emod_nonneg _ (by have := Nat.two_pow_pos w; omega))]
    exact Int.emod_emod_of_dvd _ (Int.natCast_dvd_natCast.mpr hd)
  · have h := congrArg BitVec.toNat (h.lo hj)
    rw [lo, BitVec.toNat_setWidth, BitVec.toNat_ofInt] at h
    have hd : (2 ^ w : Nat) ∣ 2 ^ 32 := Nat.pow_dvd_pow 2 hf
    have e1 : x.toNat % 2 ^ w = x.toNat % 2 ^ 32 % 2 ^ w := (Nat.mod_mod_of_dvd _ hd).symm
    rw [e1, h, hp]
    apply Int.ofNat.inj
    show ((_ : Nat) : Int) = ((_ : Nat) : Int)
    rw [Int.natCast_emod, Int.toNat_of_nonneg (Int.emod_nonneg _ (by decide)),
      Int.toNat_of_nonneg (Int.emod_nonneg _ (by have := Nat.two_pow_pos w; omega))]
    exact Int.emod_emod_of_dvd _ (Int.natCast_dvd_natCast.mpr hd)

theorem convC_in64 {t : Ty} {x v : Int} (ht : t.scalar = true) (h : convC t x = v) : -(2 ^ 63) ≤ v ∧ v < 2 ^ 64 := by
  rw [← h]; exact convC_range ht x

theorem good_assign {l r : Expr} (t : Ty) (hw : World E B env P) (il : Good E B env P l) (ir : Good E B env P r) :
    Good E B env P (.assign t l r) := by
  intro ad gs c gs' m v f m' pc s hg he hc hm
  simp only [gen, evalS] at hg he
  split at hg
  · rename_i h; simp [h] at he
  · rename_i had
    simp only [had, Bool.false_eq_true, if_false, bindSome] at hg he
    obtain ⟨⟨c1, s1⟩, h1, ⟨c2, s2⟩, h2, h3⟩ := hg
    obtain ⟨⟨a, fa, m1⟩, e1, _, e2, ⟨x, fx, m2⟩, e3, e4⟩ := he
    have e2 := guard_some e2
    simp only [Bool.and_eq_true, beq_iff_eq, decide_eq_true_eq] at e2
    obtain ⟨rfl, hroom⟩ := e2
    have hd := (gen_depth l _ _ _ _ h1).1
    have hd' : s1.push.depth = gs.depth + 1 := by simp [GS.push, hd]
    -- common part
    have common : ∀ st, c = c1 ++ pushI .a0 ++ c2 ++ st →
        (∀ t3, Match E B (gs.depth + 1) m2 t3 → Rep fx x (t3.r .a0) → BitVec.ofNat 64 (readN t3.mem (t3.r .sp) 8) = adr a →
          ∃ t4, execL env st t3 = some t4 ∧ Match E B gs.depth m' t4 ∧ Keeps E B gs.depth t3.mem t4.mem ∧ Rep f v (t4.r .a0)) →
        Res E B env P gs.depth pc c.length s v f m' := by
      intro st hst H
      subst hst
      have hc0 := hc.left.left
      obtain ⟨t1, a1, a2, a3, a4⟩ := il _ _ _ _ _ _ _ _ _ _ h1 e1 hc0.left hm
      obtain ⟨t2, b1, b2, b3, b4, b5⟩ := sim_push hw (r := .a0) (by decide) a2 hroom hc0.right
      have hc1 := hc.left.right
      rw [← hd'] at e3 b2
      obtain ⟨t3, d1, d2, d3, d4⟩ := ir _ _ _ _ _ _ _ _ _ _ h2 e3 hc1 b2
      rw [hd'] at d2 d4
      have hslot : slot B t3.mem gs.depth = adr a := by
        rw [slot_keeps hw (by omega) hroom d4, b4]; exact a3.1
      obtain ⟨t4, g1, g2, g3, g4⟩ := H t3 d2 d3 (by rw [d2.sp]; exact hslot)
      refine ⟨t4, ?_, g2, g4, ?_⟩
      · have k1 := runs_execL hc.right g1
        have hl : (pushI .a0).length = 2 := rfl
        simp only [List.length_append, hl, ← Nat.add_assoc] at *
        exact a1.trans (b1.trans (d1.trans k1))
      · exact (a4.trans b3).trans ((d4.mono (Nat.le_succ _)).trans g3)
    cases hbf : l.bitfield with
    | some q =>
      obtain ⟨fl, o, w⟩ := q
      simp only [assignS, bindSome] at e4
      obtain ⟨⟨v', m3⟩, e4, e5⟩ := e4
      simp only [hbf, bindSome, Option.some.injEq, Prod.mk.injEq] at h3 e4 e5
      obtain ⟨rfl, rfl⟩ := h3
      obtain ⟨_, e5, rfl, rfl, rfl⟩ := e5
      have e5 := guard_some e5
      simp only [Bool.and_eq_true, beq_iff_eq, decide_eq_true_eq, bne_iff_ne, Bool.or_eq_true] at e5
      obtain ⟨⟨⟨⟨hw1, hty⟩, hj⟩, hf⟩, hb⟩ := e5
      refine common _ rfl ?_
      intro t3 hm3 hr hA
      simp only [assignC] at e4
      split at e4
      case isFalse => simp at e4
      rename_i hsc
      simp only [Bool.and_eq_true] at hsc
      simp only [Option.some.injEq, Prod.mk.injEq] at e4
      obtain ⟨rfl, rfl⟩ := e4
      obtain ⟨t4, q1, q2, q3, q4⟩ := exec_storeBits env t3 fl.ty hsc.1 o w
      rw [← hty]
      rw [hA] at q4
      have hmem : s.mem = s.mem := rfl
      refine ⟨t4, q1, ?_⟩
      have hread : readN t3.mem (adr a) fl.ty.size = readN m2 (adr a) fl.ty.size :=
        readN_congr fun i hi => hm3.mem _ (ok_iff.mp hsc.2 i hi)
      have hmod : (wrapBits fl.ty w x) % 2 ^ w = x % 2 ^ w := wrapBits_mod (by rw [hty]; simpa [or_assoc] using hb)
      have hmerge : mergeBits o w (readN m2 (adr a) fl.ty.size) (wrapBits fl.ty w x) = mergeBits o w (readN m2 (adr a) fl.ty.size) x := by
        unfold mergeBits; rw [hmod]
      have hval : (mergeVal o w (loadVal fl.ty t3.mem (adr a)) (t3.r .a0)).toNat % 256 ^ fl.ty.size =
          mergeBits o w (readN m2 (adr a) fl.ty.size) (wrapBits fl.ty w x) % 256 ^ fl.ty.size := by
        rw [pow256, hmerge]
        have hb64 : fl.ty.bits ≤ 64 := by rcases scalar_size hsc.1 with h | h | h | h <;> simp [Ty.bits, h]
        refine merge_correct hw1.2.1 hw1.2.2 hb64 ?_ (rep_mod hr hj (by simpa using hf) (by omega))
        exact (loadVal_mod hsc.1 _ _).trans hread
      rw [writeN_congr hval] at q4
      obtain ⟨g1, g2⟩ := store_match hm3 hsc.2 q2 q3 (fun b => by rw [q4]; rfl) (fun b => rfl)
      refine ⟨g1, g2, ?_⟩
      rw [q2 .a0 (by decide)]
      split
      · rename_i hx; rw [hx]; exact hr
      · trivial
    | none =>
      simp only [hbf, Option.some.injEq, Prod.mk.injEq] at h3 e4
      obtain ⟨rfl, rfl⟩ := h3
      refine common _ rfl ?_
      intro t3 hm3 hr hA
      by_cases hst : ∃ n, t = .struc n
      · obtain ⟨n, rfl⟩ := hst
        simp only [assignS, bindSome] at e4
        obtain ⟨⟨v', m3⟩, e4, e5⟩ := e4
        simp only [bindSome, Option.some.injEq, Prod.mk.injEq] at e5
        obtain ⟨_, e5, rfl, rfl, rfl⟩ := e5
        have e5 := guard_some e5
        simp only [Bool.and_eq_true, beq_iff_eq, decide_eq_true_eq] at e5
        obtain ⟨rfl, hn⟩ := e5
        simp only [assignC, Option.map_eq_some_iff, Prod.mk.injEq] at e4
        obtain ⟨m4, e4, rfl, rfl⟩ := e4
        unfold copyC at e4
        split at e4
        case isFalse => simp at e4
        rename_i hco
        simp only [Bool.and_eq_true, Bool.or_eq_true, decide_eq_true_eq] at hco
        simp only [Option.some.injEq] at e4
        subst e4
        have ha0 : t3.r .a0 = adr x := hr.1
        obtain ⟨t4, q1, q2, q3, q4⟩ := exec_structStore env t3 n (by omega) (adr a) hA.symm (by rw [ha0]; exact hco.2)
        refine ⟨t4, q1, ?_⟩
        obtain ⟨g1, g2⟩ := store_match (g := fun b => t3.mem (t3.r .a0 + (b - adr a)))
          (m' := fun b => if (b - adr a).toNat < n then m2 (adr x + (b - adr a)) else m2 b) hm3 hco.1.1
          (q2.mono (by simp +contextual)) q3 (fun b => by rw [q4]) (fun b => by
            split
            · rename_i hb
              rw [ha0]
              refine (hm3.mem _ ?_).symm
              have := ok_iff.mp hco.1.2 _ hb
              rwa [BitVec.ofNat_toNat, BitVec.setWidth_eq] at this
            · rfl)
        exact ⟨g1, g2, by rw [q2 .a0 (by decide)]; exact hr⟩
      · obtain ⟨e6, ⟨hj, hf⟩, rfl, rfl⟩ := assignS_scalar hst e4
        obtain ⟨hsc, hok, hv, rfl⟩ := assignC_scalar hst e6
        obtain ⟨t4, q1, q2, q3, q4⟩ := exec_store env t3 t hsc
        rw [hA] at q4
        refine ⟨t4, q1, ?_⟩
        have hval : (t3.r .a0).toNat % 256 ^ t.size = rep (convC t v) % 256 ^ t.size := by
          rw [hv, pow256]
          change _ % 2 ^ t.bits = _ % 2 ^ t.bits
          rw [rep_mod hr hj (w := t.bits) (by
            rcases hf with hf | hf
            · exact Or.inl hf
            · right; simp only [Ty.bits]; omega) (by rcases scalar_size hsc with h | h | h | h <;> simp [Ty.bits, h])]
          rw [rep]
          exact (rep_mod (f := .full) (v := v) ⟨rfl, convC_in64 hsc hv⟩ (by decide) (Or.inl rfl)
            (by rcases scalar_size hsc with h | h | h | h <;> simp [Ty.bits, h])).symm
        rw [writeN_congr hval] at q4
        obtain ⟨g1, g2⟩ := store_match hm3 hok (q2.mono (by simp +contextual)) q3 (fun b => by rw [q4]; rfl) (fun b => rfl)
        exact ⟨g1, g2, by rw [q2 .a0 (by decide)]; exact hr⟩

end Toycc.Cg
