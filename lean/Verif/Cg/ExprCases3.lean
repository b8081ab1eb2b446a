import Verif.Cg.ExprCases2
/-! Correctness of generated expression code: conditional evaluation and calls. -/
namespace Toycc.Cg
open Toycc.Rv

variable {E : CEnv} {B : W} {env : Env} {P : Prog}

/-- Setting a0. -/
theorem Match.set {d m s} {r : Reg} {x : W} (hm : Match E B d m s) (h1 : r ≠ .sp) (h2 : r ≠ .fp) : Match E B d m (s.set r x) :=
  ⟨by rw [r_set_ne _ _ _ _ (Ne.symm h1), hm.sp], by rw [r_set_ne _ _ _ _ (Ne.symm h2), hm.fp], hm.mem⟩

/-- Evaluating a condition and testing it against zero leaves 1 in a0 if it is false, else 0. -/
theorem test_correct {d pc s v f m} {c1 : List Instr} (h : Res E B env P d pc c1.length s v f m) (hf : f.testable = true)
    (hc : CodeAt P (pc + c1.length) cmpZero) :
    ∃ s1, Runs P env (pc, s) (pc + c1.length + 1, s1) ∧ Match E B d m s1 ∧ Keeps E B d s.mem s1.mem ∧
      (s1.r .a0 = 0 ↔ v ≠ 0) := by
  obtain ⟨s1, h1, h2, h3, h4⟩ := h
  have e := exec_cmpZero env s1
  refine ⟨_, h1.trans (runs_execL hc e), h2.set (by decide) (by decide), h4, ?_⟩
  rw [r_set_same _ _ _ (by decide), rep_cmp h3 hf]
  by_cases hv : v = 0 <;> simp [hv, ofBool]

theorem good_cond {a b e : Expr} (t : Ty) (hw : World E B env P) (ia : Good E B env P a) (ib : Good E B env P b)
    (ie : Good E B env P e) : Good E B env P (.cond t a b e) := by
  intro ad gs c gs' m v f m' pc s hg he hc hm
  simp only [gen, evalS] at hg he
  split at hg
  · rename_i h; simp [h] at he
  · rename_i had
    simp only [had, Bool.false_eq_true, if_false, bindSome] at hg he
    obtain ⟨⟨c0, s0⟩, h0, ⟨c1, s1⟩, h1, ⟨c2, s2⟩, h2, h3⟩ := hg
    obtain ⟨⟨va, fa, m1⟩, e1, _, e2, e3⟩ := he
    simp only [Option.some.injEq, Prod.mk.injEq] at h3 h2 h1
    obtain ⟨rfl, rfl⟩ := h3
    have d0 := (gen_depth a _ _ _ _ h0).1
    have d1 := (gen_depth b _ _ _ _ h1).1
    have d0' : s0.depth = gs.depth := by rw [d0]; rfl
    have d1' : s1.depth = gs.depth := by rw [d1, d0']
    generalize lbl ".L.else" gs.cnt = le at *
    generalize lbl ".L.end" gs.cnt = ln at *
    simp only [List.append_assoc, List.cons_append, List.nil_append] at hc
    have ra : Res E B env P gs.depth _ _ _ _ _ _ := ia _ gs.next _ _ _ _ _ _ _ _ h0 e1 hc.left hm
    obtain ⟨t1, r1, k1, k2, k3⟩ := test_correct ra (guard_some e2) hc.right.left
    have h4 : CodeAt P (pc + c0.length + 1) _ := hc.right.right
    have hB := h4.tail
    have hJ := hB.right
    have hL := hJ.tail
    have hE := hL.tail
    have hN := hE.right
    have hel : find P le = some _ := find_eq hw.labels hL.head
    have hend : find P ln = some _ := find_eq hw.labels hN.head
    have hlen : pc + c0.length + 1 + 1 + c1.length + 1 + 1 + c2.length + 1 =
        pc + (c0 ++ cmpZero ++ [Instr.bnez Reg.a0 le] ++ c1 ++ [Instr.j ln, Instr.label le] ++ c2 ++ [Instr.label ln]).length := by
      simp only [List.length_append, List.length_cons, List.length_nil, cmpZero]; omega
    have fin : ∀ t, step P env (pc + c0.length + 1 + 1 + c1.length + 1 + 1 + c2.length, t) =
        some (pc + c0.length + 1 + 1 + c1.length + 1 + 1 + c2.length + 1, t) := fun t => step_exec hN.head rfl
    have hb := Runs.one (step_bnez (env := env) (s := t1) h4.head hel)
    split at e3
    · rename_i hv
      rw [if_pos (k3.mpr hv)] at hb
      rw [← d0'] at e3 k1
      obtain ⟨t2, q1, q2, q3, q4⟩ := ib _ _ _ _ _ _ _ _ _ _ h1 e3 hB.left k1
      rw [d0'] at q2 q4
      refine ⟨t2, ?_, q2, q3, k2.trans q4⟩
      rw [← hlen]
      exact r1.trans (hb.trans (q1.trans ((Runs.one (step_j hJ.head hend)).trans (Runs.one (fin t2)))))
    · rename_i hv
      rw [if_neg (fun h => hv (k3.mp h))] at hb
      rw [← d1'] at e3 k1
      obtain ⟨t2, q1, q2, q3, q4⟩ := ie _ _ _ _ _ _ _ _ _ _ h2 e3 hE.left k1
      rw [d1'] at q2 q4
      refine ⟨t2, ?_, q2, q3, k2.trans q4⟩
      rw [← hlen]
      exact r1.trans (hb.trans ((Runs.one (step_exec hL.head rfl)).trans (q1.trans (Runs.one (fin t2)))))

theorem Rep.one : Rep .full 1 (BitVec.ofInt 64 1) := ⟨rfl, by decide, by decide⟩
theorem Rep.zero' : Rep .full 0 (BitVec.ofInt 64 0) := ⟨rfl, by decide, by decide⟩

theorem good_logand {l r : Expr} (hw : World E B env P) (il : Good E B env P l) (ir : Good E B env P r) :
    Good E B env P (.logand l r) := by
  intro ad gs c gs' m v f m' pc s hg he hc hm
  simp only [gen, evalS] at hg he
  split at hg
  · simp at hg
  · rename_i had
    simp only [had, Bool.false_eq_true, if_false, bindSome] at hg he
    obtain ⟨⟨c1, s1⟩, h1, ⟨c2, s2⟩, h2, h3⟩ := hg
    obtain ⟨⟨va, fa, m1⟩, e1, _, e2, e3⟩ := he
    simp only [Option.some.injEq, Prod.mk.injEq] at h3 h2
    obtain ⟨rfl, rfl⟩ := h3
    have d1 : s1.depth = gs.depth := (gen_depth l _ _ _ _ h1).1
    generalize lbl ".L.false" gs.cnt = lf at *
    generalize lbl ".L.end" gs.cnt = ln at *
    simp only [List.append_assoc, List.cons_append, List.nil_append] at hc
    have rl : Res E B env P gs.depth _ _ _ _ _ _ := il _ gs.next _ _ _ _ _ _ _ _ h1 e1 hc.left hm
    obtain ⟨t1, r1, k1, k2, k3⟩ := test_correct rl (guard_some e2) hc.right.left
    have h4 : CodeAt P (pc + c1.length + 1) _ := hc.right.right
    have hR := h4.tail
    have hT := hR.right.left
    have h5 : CodeAt P (pc + c1.length + 1 + 1 + c2.length + 1) _ := hR.right.right
    have h6 := h5.tail
    have h7 := h6.tail
    have h8 := h7.tail
    have h9 := h8.tail
    have h10 := h9.tail
    have hlf : find P lf = some _ := find_eq hw.labels h8.head
    have hend : find P ln = some _ := find_eq hw.labels h10.head
    have hlen : pc + c1.length + 1 + 1 + c2.length + 1 + 1 + 1 + 1 + 1 + 1 + 1 =
        pc + (c1 ++ cmpZero ++ [Instr.bnez Reg.a0 lf] ++ c2 ++ cmpZero ++ [Instr.bnez Reg.a0 lf, .li .a0 1, .j ln, .label lf, .li .a0 0, .label ln]).length := by
      simp only [List.length_append, List.length_cons, List.length_nil, cmpZero]; omega
    have fin : ∀ t, Runs P env (_, t) (_, t) := fun t => Runs.one (step_exec (env := env) h10.head rfl)
    have hb := Runs.one (step_bnez (env := env) (s := t1) h4.head hlf)
    have false_ : ∀ t, Runs P env (_, t) (_, t.set .a0 (BitVec.ofInt 64 0)) := fun t =>
      (Runs.one (step_exec (env := env) h8.head rfl)).trans ((Runs.one (step_exec h9.head rfl)).trans (fin _))
    split at e3
    · rename_i hv
      simp only [Option.some.injEq, Prod.mk.injEq] at e3
      obtain ⟨rfl, rfl, rfl⟩ := e3
      rw [if_neg (fun h => k3.mp h hv)] at hb
      refine ⟨_, ?_, k1.set (r := .a0) (x := BitVec.ofInt 64 0) (by decide) (by decide), ?_, k2⟩
      · rw [← hlen]
        exact r1.trans (hb.trans (false_ _))
      · rw [r_set_same _ _ _ (by decide)]; exact Rep.zero'
    · rename_i hv
      simp only [bindSome] at e3
      obtain ⟨⟨vb, fb, m2⟩, e4, _, e5, e6⟩ := e3
      simp only [Option.some.injEq, Prod.mk.injEq] at e6
      obtain ⟨rfl, rfl, rfl⟩ := e6
      rw [if_pos (k3.mpr hv)] at hb
      rw [← d1] at e4 k1
      have rr := ir _ _ _ _ _ _ _ _ _ _ h2 e4 hR.left k1
      obtain ⟨t2, q1, q2, q3, q4⟩ := test_correct rr (guard_some e5) hT
      rw [d1] at q2 q3
      have hb2 := Runs.one (step_bnez (env := env) (s := t2) h5.head hlf)
      by_cases hvb : vb = 0
      · rw [if_neg (fun h => q4.mp h hvb)] at hb2
        refine ⟨_, ?_, q2.set (r := .a0) (x := BitVec.ofInt 64 0) (by decide) (by decide), ?_, k2.trans q3⟩
        · rw [← hlen]
          exact r1.trans (hb.trans (q1.trans (hb2.trans (false_ _))))
        · rw [r_set_same _ _ _ (by decide), hvb]; exact Rep.zero'
      · rw [if_pos (q4.mpr hvb)] at hb2
        refine ⟨_, ?_, q2.set (r := .a0) (x := BitVec.ofInt 64 1) (by decide) (by decide), ?_, k2.trans q3⟩
        · rw [← hlen]
          exact r1.trans (hb.trans (q1.trans (hb2.trans ((Runs.one (step_exec h6.head rfl)).trans
            ((Runs.one (step_j h7.head hend)).trans (fin _))))))
        · rw [r_set_same _ _ _ (by decide)]; simp only [boolC, ne_eq, hvb, not_false_eq_true, decide_true, if_true]; exact Rep.one

theorem good_logor {l r : Expr} (hw : World E B env P) (il : Good E B env P l) (ir : Good E B env P r) :
    Good E B env P (.logor l r) := by
  intro ad gs c gs' m v f m' pc s hg he hc hm
  simp only [gen, evalS] at hg he
  split at hg
  · simp at hg
  · rename_i had
    simp only [had, Bool.false_eq_true, if_false, bindSome] at hg he
    obtain ⟨⟨c1, s1⟩, h1, ⟨c2, s2⟩, h2, h3⟩ := hg
    obtain ⟨⟨va, fa, m1⟩, e1, _, e2, e3⟩ := he
    simp only [Option.some.injEq, Prod.mk.injEq] at h3 h2
    obtain ⟨rfl, rfl⟩ := h3
    have d1 : s1.depth = gs.depth := (gen_depth l _ _ _ _ h1).1
    generalize lbl ".L.true" gs.cnt = lf at *
    generalize lbl ".L.end" gs.cnt = ln at *
    simp only [List.append_assoc, List.cons_append, List.nil_append] at hc
    have rl : Res E B env P gs.depth _ _ _ _ _ _ := il _ gs.next _ _ _ _ _ _ _ _ h1 e1 hc.left hm
    obtain ⟨t1, r1, k1, k2, k3⟩ := test_correct rl (guard_some e2) hc.right.left
    have h4 : CodeAt P (pc + c1.length + 1) _ := hc.right.right
    have hR := h4.tail
    have hT := hR.right.left
    have h5 : CodeAt P (pc + c1.length + 1 + 1 + c2.length + 1) _ := hR.right.right
    have h6 := h5.tail
    have h7 := h6.tail
    have h8 := h7.tail
    have h9 := h8.tail
    have h10 := h9.tail
    have hlf : find P lf = some _ := find_eq hw.labels h8.head
    have hend : find P ln = some _ := find_eq hw.labels h10.head
    have hlen : pc + c1.length + 1 + 1 + c2.length + 1 + 1 + 1 + 1 + 1 + 1 + 1 =
        pc + (c1 ++ cmpZero ++ [Instr.beqz Reg.a0 lf] ++ c2 ++ cmpZero ++ [Instr.beqz Reg.a0 lf, .li .a0 0, .j ln, .label lf, .li .a0 1, .label ln]).length := by
      simp only [List.length_append, List.length_cons, List.length_nil, cmpZero]; omega
    have fin : ∀ t, Runs P env (_, t) (_, t) := fun t => Runs.one (step_exec (env := env) h10.head rfl)
    have hb := Runs.one (step_beqz (env := env) (s := t1) h4.head hlf)
    have true_ : ∀ t, Runs P env (_, t) (_, t.set .a0 (BitVec.ofInt 64 1)) := fun t =>
      (Runs.one (step_exec (env := env) h8.head rfl)).trans ((Runs.one (step_exec h9.head rfl)).trans (fin _))
    split at e3
    · rename_i hv
      simp only [Option.some.injEq, Prod.mk.injEq] at e3
      obtain ⟨rfl, rfl, rfl⟩ := e3
      rw [if_pos (k3.mpr hv)] at hb
      refine ⟨_, ?_, k1.set (r := .a0) (x := BitVec.ofInt 64 1) (by decide) (by decide), ?_, k2⟩
      · rw [← hlen]
        exact r1.trans (hb.trans (true_ _))
      · rw [r_set_same _ _ _ (by decide)]; exact Rep.one
    · rename_i hv
      simp only [bindSome] at e3
      obtain ⟨⟨vb, fb, m2⟩, e4, _, e5, e6⟩ := e3
      simp only [Option.some.injEq, Prod.mk.injEq] at e6
      obtain ⟨rfl, rfl, rfl⟩ := e6
      rw [if_neg (fun h => hv (k3.mp h))] at hb
      rw [← d1] at e4 k1
      have rr := ir _ _ _ _ _ _ _ _ _ _ h2 e4 hR.left k1
      obtain ⟨t2, q1, q2, q3, q4⟩ := test_correct rr (guard_some e5) hT
      rw [d1] at q2 q3
      have hb2 := Runs.one (step_beqz (env := env) (s := t2) h5.head hlf)
      by_cases hvb : vb = 0
      · rw [if_neg (fun h => q4.mp h hvb)] at hb2
        refine ⟨_, ?_, q2.set (r := .a0) (x := BitVec.ofInt 64 0) (by decide) (by decide), ?_, k2.trans q3⟩
        · rw [← hlen]
          exact r1.trans (hb.trans (q1.trans (hb2.trans ((Runs.one (step_exec h6.head rfl)).trans
            ((Runs.one (step_j h7.head hend)).trans (fin _))))))
        · rw [r_set_same _ _ _ (by decide), hvb]; exact Rep.zero'
      · rw [if_pos (q4.mpr hvb)] at hb2
        refine ⟨_, ?_, q2.set (r := .a0) (x := BitVec.ofInt 64 1) (by decide) (by decide), ?_, k2.trans q3⟩
        · rw [← hlen]
          exact r1.trans (hb.trans (q1.trans (hb2.trans (true_ _))))
        · rw [r_set_same _ _ _ (by decide)]; simp only [boolC, ne_eq, hvb, not_false_eq_true, decide_true, if_true]; exact Rep.one

end Toycc.Cg
