import Verif.Cg.ExprProof
/-! Correctness of generated expression code: operators and assignment. -/
namespace Toycc.Cg
open Toycc.Rv

variable {E : CEnv} {B : W} {env : Env} {P : Prog}

theorem good_member {e : Expr} (fl : Field) (ih : Good E B env P e) : Good E B env P (.member fl e) := by
  intro ad gs c gs' m v f m' pc s hg he hc hm
  simp only [gen, bindSome] at hg
  simp only [evalS, bindSome] at he
  obtain ⟨⟨c1, s1⟩, h1, h2⟩ := hg
  obtain ⟨⟨a, x, m1⟩, e1, _, e2, e3⟩ := he
  have e2 := guard_some e2
  simp only [beq_iff_eq] at e2
  subst e2
  simp only at h2 e3
  cases ad
  · simp only [Bool.false_eq_true, if_false, bindSome] at h2 e3
    obtain ⟨⟨w, x⟩, e3, e4⟩ := e3
    simp only [Option.some.injEq, Prod.mk.injEq] at e4
    obtain ⟨rfl, rfl, rfl⟩ := e4
    unfold fieldS at e3
    split at h2
    · rename_i hb
      rw [hb] at e3
      simp only [Option.some.injEq, Prod.mk.injEq] at h2
      obtain ⟨rfl, rfl⟩ := h2
      simp only [Option.map_eq_some_iff, Prod.mk.injEq] at e3
      obtain ⟨w', e3, rfl, rfl⟩ := e3
      refine ((ih _ _ _ _ _ _ _ _ _ _ h1 e1 hc.left.left hm).addOffset hc.left.right).load ?_ hc.right
      rw [adr_toNat]; exact e3
    · rename_i o wd hb
      rw [hb] at e3
      simp only [Option.some.injEq, Prod.mk.injEq] at h2
      obtain ⟨rfl, rfl⟩ := h2
      rw [List.append_assoc (c1 ++ _)] at hc ⊢
      refine ((ih _ _ _ _ _ _ _ _ _ _ h1 e1 hc.left.left hm).addOffset hc.left.right).piece hc.right (L := [.a0]) (by decide) ?_
      intro s1 hm1 hr
      obtain ⟨s2, h1, h2, h3, h4⟩ := exec_load env s1 fl.ty
      obtain ⟨s3, g1, g2, g3, g4⟩ := exec_extract env s2 fl.ty o wd
      refine ⟨s3, by rw [execL_append, h1]; exact g1, h2.trans g2, by rw [g4, h4], ?_⟩
      rw [g3, h3, hr.full, show BitVec.ofInt 64 _ = _ from adr_toNat _]
      exact extract_correct e3 hm1.mem
  · simp only [if_true, Option.some.injEq, Prod.mk.injEq] at h2 e3
    obtain ⟨rfl, rfl⟩ := h2
    obtain ⟨rfl, rfl, rfl⟩ := e3
    exact (ih _ _ _ _ _ _ _ _ _ _ h1 e1 hc.left hm).addOffset hc.right

theorem good_deref {e : Expr} (t : Ty) (ih : Good E B env P e) : Good E B env P (.deref t e) := by
  intro ad gs c gs' m v f m' pc s hg he hc hm
  simp only [gen, bindSome] at hg
  simp only [evalS, bindSome] at he
  obtain ⟨⟨c1, s1⟩, h1, h2⟩ := hg
  obtain ⟨⟨a, x, m1⟩, e1, _, e2, e3⟩ := he
  have e2 := guard_some e2
  simp only [beq_iff_eq] at e2
  subst e2
  simp only [Option.some.injEq, Prod.mk.injEq] at h2
  obtain ⟨rfl, rfl⟩ := h2
  cases ad
  · simp only [Bool.false_eq_true, if_false, bindSome] at *
    obtain ⟨w, e3, e4⟩ := e3
    simp only [Option.some.injEq, Prod.mk.injEq] at e4
    obtain ⟨rfl, rfl, rfl⟩ := e4
    exact (ih _ _ _ _ _ _ _ _ _ _ h1 e1 hc.left hm).load e3 hc.right
  · simp only [if_true, Option.some.injEq, Prod.mk.injEq] at *
    obtain ⟨rfl, rfl, rfl⟩ := e3
    exact ih _ _ _ _ _ _ _ _ _ _ h1 e1 hc hm

theorem good_addr {e : Expr} (ih : Good E B env P e) : Good E B env P (.addr e) := by
  intro ad gs c gs' m v f m' pc s hg he hc hm
  simp only [gen, evalS] at hg he
  split at hg
  · simp at hg
  · rename_i had
    simp only [had, Bool.false_eq_true, if_false] at he
    exact ih _ _ _ _ _ _ _ _ _ _ hg he hc hm

theorem good_comma {l r : Expr} (il : Good E B env P l) (ir : Good E B env P r) : Good E B env P (.comma l r) := by
  intro ad gs c gs' m v f m' pc s hg he hc hm
  simp only [gen, bindSome] at hg
  simp only [evalS, bindSome] at he
  obtain ⟨⟨c1, s1⟩, h1, ⟨c2, s2⟩, h2, h3⟩ := hg
  obtain ⟨⟨a, x, m1⟩, e1, e2⟩ := he
  simp only [Option.some.injEq, Prod.mk.injEq] at h3 h2
  obtain ⟨rfl, rfl⟩ := h3
  have hd := (gen_depth l _ _ _ _ h1).1
  rw [List.length_append]
  refine (il _ _ _ _ _ _ _ _ _ _ h1 e1 hc.left hm).bind ?_
  intro s1 hm1 _
  rw [← hd] at e2 hm1 ⊢
  exact ir _ _ _ _ _ _ _ _ _ _ h2 e2 hc.right hm1

theorem castS_scalar {a t : Ty} {v : Int} {f : Ext} {w g} (h : castS a t v f = some (w, g)) : t.scalar = true ∨ t = .void := by
  cases t <;> simp_all [castS, guard, Ty.scalar]

theorem good_cast {e : Expr} (t : Ty) (ih : Good E B env P e) : Good E B env P (.cast t e) := by
  intro ad gs c gs' m v f m' pc s hg he hc hm
  simp only [gen, evalS] at hg he
  split at hg
  · simp at hg
  · rename_i had
    simp only [had, Bool.false_eq_true, if_false, bindSome] at hg he
    obtain ⟨⟨c1, s1⟩, h1, h2⟩ := hg
    obtain ⟨⟨v1, f1, m1⟩, e1, ⟨w, g⟩, e2, e3⟩ := he
    simp only [Option.some.injEq, Prod.mk.injEq] at h2 e3
    obtain ⟨rfl, rfl⟩ := h2
    obtain ⟨rfl, rfl, rfl⟩ := e3
    refine (ih _ _ _ _ _ _ _ _ _ _ h1 e1 hc.left hm).piece hc.right (L := [.a0]) (by decide) ?_
    intro s1 hm1 hr
    obtain ⟨s2, g1, g2, g3, g4⟩ := exec_cast env s1 e.ty t (castS_scalar e2)
    refine ⟨s2, g1, g2, g4, ?_⟩
    rw [g3]
    exact cast_correct e2 hr

theorem exec_cmpZero (env : Env) (s : St) : execL env cmpZero s = some (s.set .a0 (ofBool (s.r .a0 == 0))) := rfl

theorem rep_cmp {f : Ext} {v : Int} {x : W} (h : Rep f v x) (hf : f.testable = true) : ofBool (x == 0) = ofBool (decide (v = 0)) := by
  have := h.zero hf
  by_cases hv : v = 0
  · rw [this.mpr hv, hv]; rfl
  · rw [decide_eq_false hv]
    have : ¬ x = 0 := fun e => hv (this.mp e)
    rw [beq_eq_false_iff_ne.mpr this]

theorem good_not {e : Expr} (ih : Good E B env P e) : Good E B env P (.not e) := by
  intro ad gs c gs' m v f m' pc s hg he hc hm
  simp only [gen, evalS] at hg he
  split at hg
  · simp at hg
  · rename_i had
    simp only [had, Bool.false_eq_true, if_false, bindSome] at hg he
    obtain ⟨⟨c1, s1⟩, h1, h2⟩ := hg
    obtain ⟨⟨v1, f1, m1⟩, e1, _, e2, e3⟩ := he
    simp only [Option.some.injEq, Prod.mk.injEq] at h2 e3
    obtain ⟨rfl, rfl⟩ := h2
    obtain ⟨rfl, rfl, rfl⟩ := e3
    refine (ih _ _ _ _ _ _ _ _ _ _ h1 e1 hc.left hm).piece hc.right (L := [.a0]) (by decide) ?_
    intro s1 hm1 hr
    refine ⟨_, exec_cmpZero env s1, same_set (by simp), rfl, ?_⟩
    rw [r_set_same _ _ _ (by decide), rep_cmp hr (guard_some e2)]
    exact Rep.of_bool _

theorem good_bin {l r : Expr} (op : BinOp) (t : Ty) (hw : World E B env P) (il : Good E B env P l) (ir : Good E B env P r) :
    Good E B env P (.bin op t l r) := by
  intro ad gs c gs' m v f m' pc s hg he hc hm
  simp only [gen, evalS] at hg he
  split at hg
  · simp at hg
  · rename_i had
    simp only [had, Bool.false_eq_true, if_false, bindSome] at hg he
    obtain ⟨⟨c1, s1⟩, h1, ⟨c2, s2⟩, h2, h3⟩ := hg
    obtain ⟨⟨y, fy, m1⟩, e1, _, e2, ⟨x, fx, m2⟩, e3, ⟨w, g⟩, e4, e5⟩ := he
    simp only [Option.some.injEq, Prod.mk.injEq] at h3 h2 e5
    obtain ⟨rfl, rfl⟩ := h3
    obtain ⟨rfl, rfl, rfl⟩ := e5
    have hroom : gs.depth < E.room := of_decide_eq_true (guard_some e2)
    have hd := (gen_depth r _ _ _ _ h1).1
    have hd' : s1.push.depth = gs.depth + 1 := by simp [GS.push, hd]
    -- right operand
    have hc0 := hc.left.left.left
    obtain ⟨t1, a1, a2, a3, a4⟩ := ir _ _ _ _ _ _ _ _ _ _ h1 e1 hc0.left hm
    -- push
    obtain ⟨t2, b1, b2, b3, b4, b5⟩ := sim_push hw (r := .a0) (by decide) a2 hroom hc0.right
    -- left operand
    have hc1 := hc.left.left.right
    rw [← hd'] at e3 b2
    obtain ⟨t3, d1, d2, d3, d4⟩ := il _ _ _ _ _ _ _ _ _ _ h2 e3 hc1 b2
    rw [hd'] at d2 d4
    -- pop
    have hc2 := hc.left.right
    obtain ⟨t4, p1, p2, p3, p4, p5⟩ := sim_pop (env := env) (r := .a1) (by decide) (by decide) (by decide) d2 hc2
    -- operation
    obtain ⟨t5, q1, q2, q3, q4⟩ := exec_bin env t4 op l.ty t
    obtain ⟨k1, k2, k3⟩ := sim_piece p2 hc.right q1 q2 (by decide) (by decide) q4
    refine ⟨t5, ?_, k2, ?_, ?_⟩
    · have hl : (pushI .a0).length = 2 := rfl
      have hl' : (popI .a1).length = 2 := rfl
      simp only [List.length_append, hl, hl', ← Nat.add_assoc] at *
      exact a1.trans (b1.trans (d1.trans (p1.trans k1)))
    · rw [q3]
      apply bin_correct e4
      · rw [p5 .a0 (by decide)]; exact d3
      · rw [p4, slot_keeps hw (by omega) hroom d4, b4]; exact a3
    · have h1 := a4.trans b3
      have h2 := (d4.mono (Nat.le_succ _)).trans (by rw [← p3]; exact k3)
      exact h1.trans h2

theorem good_memzero (off : Int) (n : Nat) (hw : World E B env P) : Good E B env P (.memzero off n) := by
  intro ad gs c gs' m v f m' pc s hg he hc hm
  simp only [gen, evalS] at hg he
  split at hg
  · simp at hg
  · rename_i had
    simp only [had, Bool.false_eq_true, if_false] at he
    split at he
    · rename_i hok
      simp only [Option.some.injEq, Prod.mk.injEq] at hg he
      obtain ⟨rfl, rfl⟩ := hg
      obtain ⟨rfl, rfl, rfl⟩ := he
      simp only [Bool.and_eq_true, decide_eq_true_eq] at hok
      obtain ⟨t, h1, h2, h3⟩ := exec_zero env s off n (by omega)
      refine ⟨t, runs_execL hc h1, ⟨?_, ?_, ?_⟩, trivial, ?_⟩
      · rw [h2 _ (by decide), hm.sp]
      · rw [h2 _ (by decide), hm.fp]
      · intro b hb
        rw [h3, hm.fp, writeN, writeN, hm.mem b hb]
      · intro b hv _
        rw [h3, hm.fp, writeN, if_neg]
        intro hb
        have := write_valid hok.1 hb
        simp_all
    · simp at he

theorem good_vlaPtr (off : Int) : Good E B env P (.vlaPtr off) := by
  intro ad gs c gs' m v f m' pc s hg he hc hm
  simp only [gen, evalS] at hg he
  split at hg
  · rename_i had
    simp only [had, if_true, Option.some.injEq, Prod.mk.injEq] at hg he
    obtain ⟨rfl, rfl⟩ := hg
    obtain ⟨rfl, rfl, rfl⟩ := he
    have e1 : execL env [Instr.li .a0 off, .op .add .a0 .a0 .fp] s =
      some ((s.set .a0 (BitVec.ofInt 64 off)).set .a0 (Alu.add.eval ((s.set .a0 (BitVec.ofInt 64 off)).r .a0) ((s.set .a0 (BitVec.ofInt 64 off)).r .fp))) := rfl
    obtain ⟨k1, k2, k3⟩ := sim_piece hm hc e1 ((same_set (L := [.a0]) (by simp)).trans (same_set (by simp))) (by decide) (by decide) rfl
    refine ⟨_, k1, k2, ?_, k3⟩
    rw [r_set_same _ _ _ (by decide), r_set_same _ _ _ (by decide), r_set_ne _ _ _ _ (by decide), hm.fp, Alu.eval, BitVec.add_comm]
    exact rep_addr _
  · simp at hg

end Toycc.Cg
