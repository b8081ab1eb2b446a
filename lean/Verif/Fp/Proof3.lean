import Verif.Fp.Proof2
import Verif.Cg.Labels
import Verif.Cg.Total
/-! Correctness of the generated code: conditional evaluation; all expressions; compilation succeeds and labels are new. -/
namespace Toycc.Fp
open Toycc.Rv
open Toycc.Cg (GS Var BinOp CEnv boolC World Match Keeps Rep Same slot idx bindSome)

variable {F : Fpu} {E : CEnv} {B : W} {env : Env} {P : Prog}

theorem find_int (hw : Surr E B env P) {i l} (h : P[i]? = some (.int (.label l))) : find (proj P) l = some i :=
  find_eq hw.world.labels (by rw [getElem?_proj, h]; rfl)

theorem step_label {pc s l} (h : P[pc]? = some (.int (.label l))) : step F P env (pc, s) = some (pc + 1, s) :=
  step_int h rfl

theorem step_li {pc s k} (h : P[pc]? = some (.int (.li .a0 k))) :
    step F P env (pc, s) = some (pc + 1, ⟨s.x.set .a0 (BitVec.ofInt 64 k), s.f⟩) :=
  step_int h rfl

theorem good_cond {a b e : Expr} (t : Ty) (hw : Surr E B env P) (ia : Good F E B env P a) (ib : Good F E B env P b)
    (ie : Good F E B env P e) : Good F E B env P (.cond t a b e) := by
  intro ad gs c gs' m v m' pc s hs hn hg he hc hm
  simp only [simple, Bool.and_eq_true, Bool.not_eq_true', beq_iff_eq] at hs
  obtain ⟨⟨⟨⟨⟨had, hsa⟩, hsb⟩, hse⟩, htb⟩, hte⟩ := hs
  subst had
  simp only [gen, eval, Bool.false_and, Bool.false_eq_true, if_false, bindSome] at hg he ⊢
  obtain ⟨⟨c0, s0⟩, h0, ⟨c1, s1⟩, h1, ⟨c2, s2⟩, h2, h3⟩ := hg
  obtain ⟨⟨va, m1⟩, e1, e3⟩ := he
  simp only [Option.some.injEq, Prod.mk.injEq] at h3 h2 h1
  obtain ⟨rfl, rfl⟩ := h3
  simp only [need] at hn
  have d0 := (gen_depth a _ _ _ _ h0).1
  have d1 := (gen_depth b _ _ _ _ h1).1
  have d0' : s0.depth = gs.depth := by rw [d0]; rfl
  have d1' : s1.depth = gs.depth := by rw [d1, d0']
  generalize Cg.lbl ".L.else" gs.cnt = le at *
  generalize Cg.lbl ".L.end" gs.cnt = ln at *
  simp only [List.append_assoc, List.cons_append, List.nil_append] at hc
  obtain ⟨ra, rt⟩ := ia _ gs.next _ _ _ _ _ _ _ hsa (by show gs.depth + _ ≤ _; omega) h0 e1 hc.left hm
  simp only [Bool.false_eq_true, if_false] at rt
  have ra : Res F E B env P gs.depth _ _ _ _ _ := ra
  obtain ⟨t1, r1, k1, k2, k3⟩ := test_correct ra rt.kind hc.right.left
  have h4 := hc.right.right
  generalize hk : cmpZero a.ty = cz at *
  have hB := h4.tail
  have hJ := hB.right
  have hL := hJ.tail
  have hE := hL.tail
  have hN := hE.right
  have hel : find (proj P) le = some _ := find_int hw hL.head
  have hend : find (proj P) ln = some _ := find_int hw hN.head
  have hlen : pc + c0.length + cz.length + 1 + c1.length + 1 + 1 + c2.length + 1 =
      pc + (c0 ++ cz ++ [Instr.int (.bnez Reg.a0 le)] ++ c1 ++ [Instr.int (.j ln), Instr.int (.label le)] ++ c2 ++ [Instr.int (.label ln)]).length := by
    simp only [List.length_append, List.length_cons, List.length_nil]; omega
  have fin : ∀ t, step F P env (pc + c0.length + cz.length + 1 + c1.length + 1 + 1 + c2.length, t) =
      some (pc + c0.length + cz.length + 1 + c1.length + 1 + 1 + c2.length + 1, t) := fun t => step_label hN.head
  have hb := Runs.one (step_bnez (F := F) (env := env) (s := t1) h4.head hel)
  split at e3
  · rename_i hv
    rw [if_neg (fun h => by rw [k3.mp h] at hv; exact absurd hv (by decide))] at hb
    rw [← d1'] at e3 k1
    obtain ⟨⟨t2, q1, q2, q3, q4⟩, q5⟩ := ie _ s1 _ _ _ _ _ _ _ hse (by omega) h2 e3 hE.left k1
    rw [d1'] at q2 q4
    simp only [Bool.false_eq_true, if_false] at q5
    rw [hte] at q5
    refine ⟨⟨t2, ?_, q2, q3, k2.trans q4⟩, q5⟩
    rw [← hlen]
    exact r1.trans (hb.trans ((Runs.one (step_label hL.head)).trans (q1.trans (Runs.one (fin t2)))))
  · rename_i hv
    rw [if_pos (k3.mpr (by simpa using hv))] at hb
    rw [← d0'] at e3 k1
    obtain ⟨⟨t2, q1, q2, q3, q4⟩, q5⟩ := ib _ s0 _ _ _ _ _ _ _ hsb (by omega) h1 e3 hB.left k1
    rw [d0'] at q2 q4
    simp only [Bool.false_eq_true, if_false] at q5
    rw [htb] at q5
    refine ⟨⟨t2, ?_, q2, q3, k2.trans q4⟩, q5⟩
    rw [← hlen]
    exact r1.trans (hb.trans (q1.trans ((Runs.one (step_j hJ.head hend)).trans (Runs.one (fin t2)))))

theorem good_logand {l r : Expr} (hw : Surr E B env P) (il : Good F E B env P l) (ir : Good F E B env P r) :
    Good F E B env P (.logand l r) := by
  intro ad gs c gs' m v m' pc s hs hn hg he hc hm
  simp only [simple, Bool.and_eq_true, Bool.not_eq_true'] at hs
  obtain ⟨⟨⟨had, hsl⟩, hsr⟩, hst⟩ := hs
  subst had
  simp only [gen, eval, Bool.false_eq_true, if_false, bindSome] at hg he ⊢
  obtain ⟨⟨c1, s1⟩, h1, ⟨c2, s2⟩, h2, h3⟩ := hg
  obtain ⟨⟨va, m1⟩, e1, e3⟩ := he
  simp only [Option.some.injEq, Prod.mk.injEq] at h3 h2
  obtain ⟨rfl, rfl⟩ := h3
  simp only [need] at hn
  have d1 : s1.depth = gs.depth := (gen_depth l _ _ _ _ h1).1
  generalize Cg.lbl ".L.false" gs.cnt = lf at *
  generalize Cg.lbl ".L.end" gs.cnt = ln at *
  simp only [lift, List.map_cons, List.map_nil, List.append_assoc, List.cons_append, List.nil_append] at hc
  obtain ⟨rl, rt⟩ := il _ gs.next _ _ _ _ _ _ _ hsl (by show gs.depth + _ ≤ _; omega) h1 e1 hc.left hm
  simp only [Bool.false_eq_true, if_false] at rt
  have rl : Res F E B env P gs.depth _ _ _ _ _ := rl
  obtain ⟨t1, r1, k1, k2, k3⟩ := test_correct rl rt.kind hc.right.left
  have h4 := hc.right.right
  have hR := h4.tail
  have hT := hR.right.left
  have h5 := hR.right.right
  have h6 := h5.tail
  have h7 := h6.tail
  have h8 := h7.tail
  have h9 := h8.tail
  have h10 := h9.tail
  have hlf : find (proj P) lf = some _ := find_int hw h8.head
  have hend : find (proj P) ln = some _ := find_int hw h10.head
  have hlen : pc + c1.length + (cmpZero l.ty).length + 1 + c2.length + (cmpZero l.ty).length + 1 + 1 + 1 + 1 + 1 + 1 =
      pc + (c1 ++ cmpZero l.ty ++ [Instr.int (.bnez Reg.a0 lf)] ++ c2 ++ cmpZero l.ty ++
        lift [.bnez Reg.a0 lf, .li .a0 1, .j ln, .label lf, .li .a0 0, .label ln]).length := by
    simp only [lift, List.length_append, List.length_cons, List.length_nil, List.length_map]; omega
  have fin : ∀ t, Runs F P env (_, t) (_, t) := fun t => Runs.one (step_label (F := F) (env := env) h10.head)
  have hb := Runs.one (step_bnez (F := F) (env := env) (s := t1) h4.head hlf)
  have jump_ : ∀ t, Runs F P env (_, t) (_, ⟨t.x.set .a0 (BitVec.ofInt 64 0), t.f⟩) := fun t =>
    (Runs.one (step_label (F := F) (env := env) h8.head)).trans ((Runs.one (step_li h9.head)).trans (fin _))
  have base : ∀ hv : va.isZero F = true, v = .int 0 → m1 = m' →
      Res F E B env P gs.depth pc (c1 ++ cmpZero l.ty ++ [Instr.int (.bnez Reg.a0 lf)] ++ c2 ++ cmpZero l.ty ++
        lift [.bnez Reg.a0 lf, .li .a0 1, .j ln, .label lf, .li .a0 0, .label ln]).length s v m' := by
    intro hv e6 e7
    subst e6 e7
    rw [if_neg (fun h => by rw [k3.mp h] at hv; exact absurd hv (by decide))] at hb
    refine ⟨⟨t1.x.set .a0 (BitVec.ofInt 64 0), t1.f⟩, ?_, k1.set (r := .a0) (by decide) (by decide), ?_, k2⟩
    · rw [← hlen]
      exact r1.trans (hb.trans (jump_ _))
    · show Rep .full _ ((t1.x.set .a0 _).r .a0)
      rw [r_set_same _ _ _ (by decide)]; exact Cg.Rep.zero'
  have more : ∀ hv : va.isZero F = false, ∀ w m2, eval F E false gs.depth r m1 = some (w, m2) →
      v = .int (boolC (!w.isZero F)) → m2 = m' →
      Res F E B env P gs.depth pc (c1 ++ cmpZero l.ty ++ [Instr.int (.bnez Reg.a0 lf)] ++ c2 ++ cmpZero l.ty ++
        lift [.bnez Reg.a0 lf, .li .a0 1, .j ln, .label lf, .li .a0 0, .label ln]).length s v m' := by
    intro hv w m2 e4 e6 e7
    subst e6 e7
    rw [if_pos (k3.mpr (by simpa using hv))] at hb
    rw [← d1] at e4 k1
    obtain ⟨rr, rt2⟩ := ir _ s1 _ _ _ _ _ _ _ hsr (by omega) h2 e4 hR.left k1
    simp only [Bool.false_eq_true, if_false] at rt2
    obtain ⟨t2, q1, q2, q3, q4⟩ := test_correct rr (rt2.kind.other hst) hT
    rw [d1] at q2 q3
    have hb2 := Runs.one (step_bnez (F := F) (env := env) (s := t2) h5.head hlf)
    cases hv : w.isZero F with
    | true =>
      rw [if_neg (fun h => by rw [q4.mp h] at hv; exact absurd hv (by decide))] at hb2
      refine ⟨⟨t2.x.set .a0 (BitVec.ofInt 64 0), t2.f⟩, ?_, q2.set (r := .a0) (by decide) (by decide), ?_, k2.trans q3⟩
      · rw [← hlen]
        exact r1.trans (hb.trans (q1.trans (hb2.trans (jump_ _))))
      · show Rep .full _ ((t2.x.set .a0 _).r .a0)
        rw [r_set_same _ _ _ (by decide)]; exact Cg.Rep.zero'
    | false =>
      rw [if_pos (q4.mpr (by simpa using hv))] at hb2
      refine ⟨⟨t2.x.set .a0 (BitVec.ofInt 64 1), t2.f⟩, ?_, q2.set (r := .a0) (by decide) (by decide), ?_, k2.trans q3⟩
      · rw [← hlen]
        exact r1.trans (hb.trans (q1.trans (hb2.trans ((Runs.one (step_li h6.head)).trans
          ((Runs.one (step_j h7.head hend)).trans (fin _))))))
      · show Rep .full _ ((t2.x.set .a0 _).r .a0)
        rw [r_set_same _ _ _ (by decide)]; exact Cg.Rep.one
  split at e3
  · rename_i hv
    simp only [Option.some.injEq, Prod.mk.injEq] at e3
    obtain ⟨e6, e7⟩ := e3
    refine ⟨base hv e6.symm e7, ?_⟩
    subst e6
    exact inV_bool false
  · rename_i hv
    simp only [bindSome, Prod.exists, Option.some.injEq, Prod.mk.injEq] at e3
    obtain ⟨w, m2, e4, e6, e7⟩ := e3
    refine ⟨more (by simpa using hv) w m2 e4 e6.symm e7, ?_⟩
    subst e6
    exact inV_bool _

theorem good_logor {l r : Expr} (hw : Surr E B env P) (il : Good F E B env P l) (ir : Good F E B env P r) :
    Good F E B env P (.logor l r) := by
  intro ad gs c gs' m v m' pc s hs hn hg he hc hm
  simp only [simple, Bool.and_eq_true, Bool.not_eq_true'] at hs
  obtain ⟨⟨had, hsl⟩, hsr⟩ := hs
  subst had
  simp only [gen, eval, Bool.false_eq_true, if_false, bindSome] at hg he ⊢
  obtain ⟨⟨c1, s1⟩, h1, ⟨c2, s2⟩, h2, h3⟩ := hg
  obtain ⟨⟨va, m1⟩, e1, e3⟩ := he
  simp only [Option.some.injEq, Prod.mk.injEq] at h3 h2
  obtain ⟨rfl, rfl⟩ := h3
  simp only [need] at hn
  have d1 : s1.depth = gs.depth := (gen_depth l _ _ _ _ h1).1
  generalize Cg.lbl ".L.true" gs.cnt = lf at *
  generalize Cg.lbl ".L.end" gs.cnt = ln at *
  simp only [lift, List.map_cons, List.map_nil, List.append_assoc, List.cons_append, List.nil_append] at hc
  obtain ⟨rl, rt⟩ := il _ gs.next _ _ _ _ _ _ _ hsl (by show gs.depth + _ ≤ _; omega) h1 e1 hc.left hm
  simp only [Bool.false_eq_true, if_false] at rt
  have rl : Res F E B env P gs.depth _ _ _ _ _ := rl
  obtain ⟨t1, r1, k1, k2, k3⟩ := test_correct rl rt.kind hc.right.left
  have h4 := hc.right.right
  have hR := h4.tail
  have hT := hR.right.left
  have h5 := hR.right.right
  have h6 := h5.tail
  have h7 := h6.tail
  have h8 := h7.tail
  have h9 := h8.tail
  have h10 := h9.tail
  have hlf : find (proj P) lf = some _ := find_int hw h8.head
  have hend : find (proj P) ln = some _ := find_int hw h10.head
  have hlen : pc + c1.length + (cmpZero l.ty).length + 1 + c2.length + (cmpZero r.ty).length + 1 + 1 + 1 + 1 + 1 + 1 =
      pc + (c1 ++ cmpZero l.ty ++ [Instr.int (.beqz Reg.a0 lf)] ++ c2 ++ cmpZero r.ty ++
        lift [.beqz Reg.a0 lf, .li .a0 0, .j ln, .label lf, .li .a0 1, .label ln]).length := by
    simp only [lift, List.length_append, List.length_cons, List.length_nil, List.length_map]; omega
  have fin : ∀ t, Runs F P env (_, t) (_, t) := fun t => Runs.one (step_label (F := F) (env := env) h10.head)
  have hb := Runs.one (step_beqz (F := F) (env := env) (s := t1) h4.head hlf)
  have jump_ : ∀ t, Runs F P env (_, t) (_, ⟨t.x.set .a0 (BitVec.ofInt 64 1), t.f⟩) := fun t =>
    (Runs.one (step_label (F := F) (env := env) h8.head)).trans ((Runs.one (step_li h9.head)).trans (fin _))
  have base : ∀ hv : va.isZero F = false, v = .int 1 → m1 = m' →
      Res F E B env P gs.depth pc (c1 ++ cmpZero l.ty ++ [Instr.int (.beqz Reg.a0 lf)] ++ c2 ++ cmpZero r.ty ++
        lift [.beqz Reg.a0 lf, .li .a0 0, .j ln, .label lf, .li .a0 1, .label ln]).length s v m' := by
    intro hv e6 e7
    subst e6 e7
    rw [if_pos (k3.mpr (by simpa using hv))] at hb
    refine ⟨⟨t1.x.set .a0 (BitVec.ofInt 64 1), t1.f⟩, ?_, k1.set (r := .a0) (by decide) (by decide), ?_, k2⟩
    · rw [← hlen]
      exact r1.trans (hb.trans (jump_ _))
    · show Rep .full _ ((t1.x.set .a0 _).r .a0)
      rw [r_set_same _ _ _ (by decide)]; exact Cg.Rep.one
  have more : ∀ hv : va.isZero F = true, ∀ w m2, eval F E false gs.depth r m1 = some (w, m2) →
      v = .int (boolC (!w.isZero F)) → m2 = m' →
      Res F E B env P gs.depth pc (c1 ++ cmpZero l.ty ++ [Instr.int (.beqz Reg.a0 lf)] ++ c2 ++ cmpZero r.ty ++
        lift [.beqz Reg.a0 lf, .li .a0 0, .j ln, .label lf, .li .a0 1, .label ln]).length s v m' := by
    intro hv w m2 e4 e6 e7
    subst e6 e7
    rw [if_neg (fun h => by rw [k3.mp h] at hv; exact absurd hv (by decide))] at hb
    rw [← d1] at e4 k1
    obtain ⟨rr, rt2⟩ := ir _ s1 _ _ _ _ _ _ _ hsr (by omega) h2 e4 hR.left k1
    simp only [Bool.false_eq_true, if_false] at rt2
    obtain ⟨t2, q1, q2, q3, q4⟩ := test_correct rr rt2.kind hT
    rw [d1] at q2 q3
    have hb2 := Runs.one (step_beqz (F := F) (env := env) (s := t2) h5.head hlf)
    cases hv : w.isZero F with
    | false =>
      rw [if_pos (q4.mpr (by simpa using hv))] at hb2
      refine ⟨⟨t2.x.set .a0 (BitVec.ofInt 64 1), t2.f⟩, ?_, q2.set (r := .a0) (by decide) (by decide), ?_, k2.trans q3⟩
      · rw [← hlen]
        exact r1.trans (hb.trans (q1.trans (hb2.trans (jump_ _))))
      · show Rep .full _ ((t2.x.set .a0 _).r .a0)
        rw [r_set_same _ _ _ (by decide)]; exact Cg.Rep.one
    | true =>
      rw [if_neg (fun h => by rw [q4.mp h] at hv; exact absurd hv (by decide))] at hb2
      refine ⟨⟨t2.x.set .a0 (BitVec.ofInt 64 0), t2.f⟩, ?_, q2.set (r := .a0) (by decide) (by decide), ?_, k2.trans q3⟩
      · rw [← hlen]
        exact r1.trans (hb.trans (q1.trans (hb2.trans ((Runs.one (step_li h6.head)).trans
          ((Runs.one (step_j h7.head hend)).trans (fin _))))))
      · show Rep .full _ ((t2.x.set .a0 _).r .a0)
        rw [r_set_same _ _ _ (by decide)]; exact Cg.Rep.zero'
  split at e3
  · rename_i hv
    simp only [bindSome, Prod.exists, Option.some.injEq, Prod.mk.injEq] at e3
    obtain ⟨w, m2, e4, e6, e7⟩ := e3
    refine ⟨more hv w m2 e4 e6.symm e7, ?_⟩
    subst e6
    exact inV_bool _
  · rename_i hv
    simp only [Option.some.injEq, Prod.mk.injEq] at e3
    obtain ⟨e6, e7⟩ := e3
    refine ⟨base (by simpa using hv) e6.symm e7, ?_⟩
    subst e6
    exact inV_bool true

/-- The generated code computes what C says, for every expression of the class. -/
theorem gen_good (hw : Surr E B env P) (ht : E.CallsTyped) : ∀ e, Good F E B env P e
  | .int e => good_int hw ht e
  | .lit p b => good_lit p b
  | .neg t e => good_neg t (gen_good hw ht e)
  | .var t x => good_var hw t x
  | .member t o e => good_member t o (gen_good hw ht e)
  | .deref t e => good_deref t (gen_good hw ht e)
  | .addr e => good_addr (gen_good hw ht e)
  | .assign t l r => good_assign t hw (gen_good hw ht l) (gen_good hw ht r)
  | .comma l r => good_comma (gen_good hw ht l) (gen_good hw ht r)
  | .cast t e => good_cast t (gen_good hw ht e)
  | .cond t a b e => good_cond t hw (gen_good hw ht a) (gen_good hw ht b) (gen_good hw ht e)
  | .not e => good_not (gen_good hw ht e)
  | .logand l r => good_logand hw (gen_good hw ht l) (gen_good hw ht r)
  | .logor l r => good_logor hw (gen_good hw ht l) (gen_good hw ht r)
  | .bin op t l r => good_bin op t hw (gen_good hw ht l) (gen_good hw ht r)

/-! ### Compilation succeeds -/

theorem gen_total : ∀ (e : Expr) (ad : Bool) (gs : GS), simple ad e = true → ∃ c gs', gen ad e gs = some (c, gs')
  | .int e, ad, gs, h => by
    simp only [simple, Bool.and_eq_true] at h
    obtain ⟨c, s, e1⟩ := Cg.gen_total e ad gs h.1
    exact ⟨_, _, by simp only [gen, e1]; rfl⟩
  | .lit p b, ad, gs, h => by
    simp only [simple, Bool.not_eq_true'] at h
    exact ⟨_, _, by simp only [gen, h]; rfl⟩
  | .neg t e, ad, gs, h => by
    simp only [simple, Bool.and_eq_true, Bool.not_eq_true'] at h
    obtain ⟨c, s, e1⟩ := gen_total e false gs h.1.1.2
    exact ⟨_, _, by simp only [gen, h.1.1.1, e1]; rfl⟩
  | .var t x, ad, gs, h => ⟨_, _, rfl⟩
  | .member t o e, ad, gs, h => by
    simp only [simple, Bool.and_eq_true] at h
    obtain ⟨c, s, e1⟩ := gen_total e true gs h.1
    exact ⟨_, _, by simp only [gen, e1]; rfl⟩
  | .deref t e, ad, gs, h => by
    simp only [simple, Bool.and_eq_true] at h
    obtain ⟨c, s, e1⟩ := gen_total e false gs h.1
    exact ⟨_, _, by simp only [gen, e1]; rfl⟩
  | .addr e, ad, gs, h => by
    simp only [simple, Bool.and_eq_true, Bool.not_eq_true'] at h
    obtain ⟨c, s, e1⟩ := gen_total e true gs h.2
    exact ⟨_, _, by simp only [gen, h.1, e1]; rfl⟩
  | .assign t l r, ad, gs, h => by
    simp only [simple, Bool.and_eq_true, Bool.not_eq_true'] at h
    obtain ⟨⟨⟨⟨⟨h0, h1⟩, h2⟩, h3⟩, h4⟩, h5⟩ := h
    obtain ⟨c, s, e1⟩ := gen_total l true gs h1
    obtain ⟨c2, s2, e2⟩ := gen_total r false s.push h3
    exact ⟨_, _, by simp only [gen, h0, h2, e1, Option.bind_eq_bind, Option.bind_some, e2]; rfl⟩
  | .comma l r, ad, gs, h => by
    simp only [simple, Bool.and_eq_true] at h
    obtain ⟨c, s, e1⟩ := gen_total l false gs h.1
    obtain ⟨c2, s2, e2⟩ := gen_total r ad s h.2
    exact ⟨_, _, by simp only [gen, e1, Option.bind_eq_bind, Option.bind_some, e2]; rfl⟩
  | .cast t e, ad, gs, h => by
    simp only [simple, Bool.and_eq_true, Bool.not_eq_true'] at h
    obtain ⟨c, s, e1⟩ := gen_total e false gs h.1.2
    exact ⟨_, _, by simp only [gen, h.1.1, e1]; rfl⟩
  | .cond t a b e, ad, gs, h => by
    simp only [simple, Bool.and_eq_true, Bool.not_eq_true'] at h
    obtain ⟨⟨⟨⟨⟨h0, h1⟩, h2⟩, h3⟩, h4⟩, h5⟩ := h
    obtain ⟨c, s, e1⟩ := gen_total a false gs.next h1
    obtain ⟨c2, s2, e2⟩ := gen_total b false s h2
    obtain ⟨c3, s3, e3⟩ := gen_total e false s2 h3
    exact ⟨_, _, by simp only [gen, h0, e1, Option.bind_eq_bind, Option.bind_some, e2, e3]; rfl⟩
  | .not e, ad, gs, h => by
    simp only [simple, Bool.and_eq_true, Bool.not_eq_true'] at h
    obtain ⟨c, s, e1⟩ := gen_total e false gs h.2
    exact ⟨_, _, by simp only [gen, h.1, e1]; rfl⟩
  | .logand l r, ad, gs, h => by
    simp only [simple, Bool.and_eq_true, Bool.not_eq_true'] at h
    obtain ⟨⟨⟨h0, h1⟩, h2⟩, _⟩ := h
    obtain ⟨c, s, e1⟩ := gen_total l false gs.next h1
    obtain ⟨c2, s2, e2⟩ := gen_total r false s h2
    exact ⟨_, _, by simp only [gen, h0, e1, Option.bind_eq_bind, Option.bind_some, e2]; rfl⟩
  | .logor l r, ad, gs, h => by
    simp only [simple, Bool.and_eq_true, Bool.not_eq_true'] at h
    obtain ⟨⟨h0, h1⟩, h2⟩ := h
    obtain ⟨c, s, e1⟩ := gen_total l false gs.next h1
    obtain ⟨c2, s2, e2⟩ := gen_total r false s h2
    exact ⟨_, _, by simp only [gen, h0, e1, Option.bind_eq_bind, Option.bind_some, e2]; rfl⟩
  | .bin op t l r, ad, gs, h => by
    simp only [simple, Bool.and_eq_true, Bool.not_eq_true'] at h
    obtain ⟨⟨⟨h0, h1⟩, h2⟩, h3⟩ := h
    obtain ⟨c, s, e1⟩ := gen_total r false gs h2
    obtain ⟨c2, s2, e2⟩ := gen_total l false s.push h1
    simp only [gen, h0, e1, Option.bind_eq_bind, Option.bind_some, e2]
    cases hl : l.ty with
    | int lt =>
      rw [hl] at h3
      cases t with
      | int t => exact ⟨_, _, rfl⟩
      | flt p => simp [binOk] at h3
    | flt p =>
      rw [hl] at h3
      have ho : ∃ o, binF p op = some o := by
        revert h3
        cases r.ty with
        | int _ => cases t <;> simp [binOk]
        | flt q => cases t <;> cases op <;> simp [binOk, binF, arithOf]
      obtain ⟨o, ho⟩ := ho
      exact ⟨_, _, by dsimp only; rw [ho]; rfl⟩

/-! ### Labels -/

theorem proj_append (a b : List Instr) : proj (a ++ b) = proj a ++ proj b := List.map_append
theorem proj_lift (c : List Rv.Instr) : proj (lift c) = c := by
  simp only [proj, lift, List.map_map]
  exact List.map_id'' (fun _ => rfl) c

/-- The labels a piece of code defines. -/
def labels (c : List Instr) : List Label := Cg.labels (proj c)

theorem labels_append (a b : List Instr) : labels (a ++ b) = labels a ++ labels b := by
  rw [labels, proj_append, Cg.labels_append]; rfl
theorem labels_lift (c : List Rv.Instr) : labels (lift c) = Cg.labels c := by rw [labels, proj_lift]
theorem labels_load (t : Ty) : labels (genLoad t) = [] := by
  cases t with
  | int t => exact (labels_lift _).trans (Cg.labels_load t)
  | flt p => rfl
theorem labels_store (t : Ty) : labels (genStore t) = [] := by
  cases t with
  | int t => exact (labels_lift _).trans (Cg.labels_store t)
  | flt p => rfl
theorem labels_cmpZero (t : Ty) : labels (cmpZero t) = [] := by cases t <;> rfl
theorem labels_neg (t : Ty) : labels (genNeg t) = [] := by
  cases t with
  | int t => simp only [genNeg]; split <;> rfl
  | flt p => rfl
theorem labels_toInt (p : Prec) (i : Cg.TypeId) : labels (toIntCode p i) = [] := by cases i <;> rfl
theorem labels_cast (a t : Ty) : labels (genCast a t) = [] := by
  cases t with
  | int t =>
    cases a with
    | int a => unfold genCast; split <;> first | rfl | exact (labels_lift _).trans (Cg.labels_cast _ _)
    | flt p => cases t <;> first | rfl | exact labels_toInt _ _
  | flt q =>
    cases a with
    | int a => rfl
    | flt p => unfold genCast; dsimp only; split <;> rfl
theorem labels_binF {p op o} (h : binF p op = some o) : labels o = [] := by
  cases op <;> simp only [binF, Option.some.injEq, reduceCtorEq] at h <;> subst h <;> rfl
theorem labels_pushF : labels pushF = [] := rfl
theorem labels_popF : labels popF = [] := rfl
theorem labels_push (r) : labels (lift (Cg.pushI r)) = [] := rfl
theorem labels_pop (r) : labels (lift (Cg.popI r)) = [] := rfl
theorem labels_addOffset (r o) : labels (lift (Cg.addOffset r o)) = [] := (labels_lift _).trans (Cg.labels_addOffset r o)

/-- The labels of `c` are new ones numbered from `a` up to `b`, each defined once. -/
def Fresh (a b : Nat) (c : List Instr) : Prop := Cg.Fresh a b (proj c)

theorem Fresh.none {a b c} (h : labels c = []) : Fresh a b c := Cg.Fresh.none h
theorem Fresh.congr {a b c c'} (h : Fresh a b c) (e : labels c' = labels c) : Fresh a b c' := Cg.Fresh.congr h e
theorem Fresh.mono {a a' b b' c} (h : Fresh a b c) (h1 : a' ≤ a) (h2 : b ≤ b') : Fresh a' b' c := Cg.Fresh.mono h h1 h2
theorem Fresh.append {a b d c1 c2} (h1 : Fresh a b c1) (h2 : Fresh b d c2) (hab : a ≤ b) (hbd : b ≤ d) : Fresh a d (c1 ++ c2) := by
  have := Cg.Fresh.append h1 h2 hab hbd
  rwa [← proj_append] at this

theorem gen_fresh : ∀ (e : Expr) (ad : Bool) (gs : GS) (c : List Instr) (gs' : GS), gen ad e gs = some (c, gs') →
    Fresh gs.cnt gs'.cnt c
  | .int e, ad, gs, c, gs', h => by
    simp only [gen, Option.map_eq_some_iff, Prod.mk.injEq] at h
    obtain ⟨⟨c1, s1⟩, h1, rfl, rfl⟩ := h
    unfold Fresh
    rw [proj_lift]
    exact Cg.gen_fresh e _ _ _ _ h1
  | .lit p b, ad, gs, c, gs', h => by
    simp only [gen] at h
    split at h
    · simp at h
    · simp only [Option.some.injEq, Prod.mk.injEq] at h; obtain ⟨rfl, rfl⟩ := h; exact .none rfl
  | .neg ty e, ad, gs, c, gs', h => by
    simp only [gen] at h
    split at h
    · simp at h
    · simp only [bindSome, Option.some.injEq, Prod.mk.injEq] at h
      obtain ⟨⟨c1, s1⟩, h1, rfl, rfl⟩ := h
      exact (gen_fresh e _ _ _ _ h1).congr (by rw [labels_append, labels_neg, List.append_nil])
  | .var ty x, ad, gs, c, gs', h => by
    simp only [gen, Option.some.injEq, Prod.mk.injEq] at h
    obtain ⟨h1, rfl⟩ := h
    have hl : labels c = Cg.labels (Cg.varAddr x gs).1 := by
      subst h1; split
      · exact labels_lift _
      · rw [labels_append, labels_load, List.append_nil, labels_lift]
    have hc : Cg.gen true (.var .void x) gs = some ((Cg.varAddr x gs).1, (Cg.varAddr x gs).2) := rfl
    exact Cg.Fresh.congr (Cg.gen_fresh _ _ _ _ _ hc) hl
  | .member t o e, ad, gs, c, gs', h => by
    simp only [gen, bindSome, Option.some.injEq, Prod.mk.injEq] at h
    obtain ⟨⟨c1, s1⟩, h1, rfl, rfl⟩ := h
    refine (gen_fresh e _ _ _ _ h1).congr ?_
    split
    · rw [labels_append, labels_addOffset, List.append_nil]
    · simp only [labels_append, labels_addOffset, labels_load, List.append_nil]
  | .deref ty e, ad, gs, c, gs', h => by
    simp only [gen, bindSome, Option.some.injEq, Prod.mk.injEq] at h
    obtain ⟨⟨c1, s1⟩, h1, rfl, rfl⟩ := h
    refine (gen_fresh e _ _ _ _ h1).congr ?_
    split
    · rfl
    · rw [labels_append, labels_load, List.append_nil]
  | .addr e, ad, gs, c, gs', h => by
    simp only [gen] at h
    split at h
    · simp at h
    · exact gen_fresh e _ _ _ _ h
  | .assign ty l r, ad, gs, c, gs', h => by
    simp only [gen] at h
    split at h
    · simp only [Option.some.injEq, Prod.mk.injEq] at h; obtain ⟨rfl, rfl⟩ := h; exact .none rfl
    · split at h
      · simp at h
      · simp only [bindSome] at h
        obtain ⟨⟨c1, s1⟩, h1, ⟨c2, s2⟩, h2, h3⟩ := h
        have f2 : Fresh s1.cnt s2.cnt c2 := gen_fresh r _ s1.push _ _ h2
        have d2 : s1.cnt ≤ s2.cnt := (gen_depth r _ s1.push _ _ h2).2
        have hf := (gen_fresh l _ _ _ _ h1).append f2 (gen_depth _ _ _ _ _ h1).2 d2
        simp only [Option.some.injEq, Prod.mk.injEq] at h3
        obtain ⟨rfl, rfl⟩ := h3
        exact hf.congr (by simp only [labels_append, labels_push, labels_store, List.append_nil])
  | .comma l r, ad, gs, c, gs', h => by
    simp only [gen, bindSome, Option.some.injEq, Prod.mk.injEq] at h
    obtain ⟨⟨c1, s1⟩, h1, ⟨c2, s2⟩, h2, rfl, rfl⟩ := h
    exact (gen_fresh l _ _ _ _ h1).append (gen_fresh r _ _ _ _ h2) (gen_depth _ _ _ _ _ h1).2 (gen_depth _ _ _ _ _ h2).2
  | .cast ty e, ad, gs, c, gs', h => by
    simp only [gen] at h
    split at h
    · simp at h
    · simp only [bindSome, Option.some.injEq, Prod.mk.injEq] at h
      obtain ⟨⟨c1, s1⟩, h1, rfl, rfl⟩ := h
      exact (gen_fresh e _ _ _ _ h1).congr (by rw [labels_append, labels_cast, List.append_nil])
  | .cond ty a b e, ad, gs, c, gs', h => by
    simp only [gen] at h
    split at h
    · simp only [Option.some.injEq, Prod.mk.injEq] at h; obtain ⟨rfl, rfl⟩ := h; exact .none rfl
    · simp only [bindSome, Option.some.injEq, Prod.mk.injEq] at h
      obtain ⟨⟨c1, s1⟩, h1, ⟨c2, s2⟩, h2, ⟨c3, s3⟩, h3, rfl, rfl⟩ := h
      have d1 := (gen_depth _ _ _ _ _ h1).2
      have d2 := (gen_depth _ _ _ _ _ h2).2
      have d3 := (gen_depth _ _ _ _ _ h3).2
      have d1' : gs.cnt + 1 ≤ s1.cnt := d1
      have f1 : Fresh (gs.cnt + 1) s1.cnt c1 := gen_fresh a _ _ _ _ h1
      have f2 := gen_fresh b _ _ _ _ h2
      have f3 := gen_fresh e _ _ _ _ h3
      have f12 := f1.append f2 d1' d2
      have f12' : Cg.Fresh (gs.cnt + 1) s2.cnt (proj (c1 ++ c2)) := f12
      refine Cg.two_fresh (p := ".L.else") (q := ".L.end") (by decide) (by simp only at *; omega) (f12'.mono (Nat.le_refl _) d3)
        (Cg.Fresh.mono f3 (by simp only at *; omega) (Nat.le_refl _)) (Cg.fresh_disjoint f12' f3) ?_ rfl
      rw [List.perm_iff_count]
      intro x
      show List.count x (labels _) = List.count x (labels (c1 ++ c2) ++ labels c3 ++ _)
      simp only [labels_append, labels_cmpZero, List.count_append, List.append_nil]
      simp only [labels, Cg.labels, proj, List.map_cons, List.map_nil, Instr.rv, List.filterMap_cons, List.filterMap_nil, List.count_cons, List.count_nil]
      omega
  | .not e, ad, gs, c, gs', h => by
    simp only [gen] at h
    split at h
    · simp at h
    · simp only [bindSome, Option.some.injEq, Prod.mk.injEq] at h
      obtain ⟨⟨c1, s1⟩, h1, rfl, rfl⟩ := h
      exact (gen_fresh e _ _ _ _ h1).congr (by rw [labels_append, labels_cmpZero, List.append_nil])
  | .logand l r, ad, gs, c, gs', h => by
    simp only [gen] at h
    split at h
    · simp at h
    · simp only [bindSome, Option.some.injEq, Prod.mk.injEq] at h
      obtain ⟨⟨c1, s1⟩, h1, ⟨c2, s2⟩, h2, rfl, rfl⟩ := h
      have d1 := (gen_depth _ _ _ _ _ h1).2
      have d2 := (gen_depth _ _ _ _ _ h2).2
      have d1' : gs.cnt + 1 ≤ s1.cnt := d1
      have f1 : Fresh (gs.cnt + 1) s1.cnt c1 := gen_fresh l _ _ _ _ h1
      have f2 := gen_fresh r _ _ _ _ h2
      refine Cg.two_fresh (p := ".L.false") (q := ".L.end") (by decide) (by simp only at *; omega) (Cg.Fresh.mono f1 (Nat.le_refl _) d2)
        (Cg.Fresh.mono f2 (by simp only at *; omega) (Nat.le_refl _)) (Cg.fresh_disjoint f1 f2) ?_ rfl
      rw [List.perm_iff_count]
      intro x
      show List.count x (labels _) = List.count x (labels c1 ++ labels c2 ++ _)
      simp only [labels_append, labels_cmpZero, labels_lift, List.count_append, List.append_nil]
      simp only [labels, Cg.labels, proj, List.map_cons, List.map_nil, Instr.rv, List.filterMap_cons, List.filterMap_nil, List.count_cons, List.count_nil]
      omega
  | .logor l r, ad, gs, c, gs', h => by
    simp only [gen] at h
    split at h
    · simp at h
    · simp only [bindSome, Option.some.injEq, Prod.mk.injEq] at h
      obtain ⟨⟨c1, s1⟩, h1, ⟨c2, s2⟩, h2, rfl, rfl⟩ := h
      have d1 := (gen_depth _ _ _ _ _ h1).2
      have d2 := (gen_depth _ _ _ _ _ h2).2
      have d1' : gs.cnt + 1 ≤ s1.cnt := d1
      have f1 : Fresh (gs.cnt + 1) s1.cnt c1 := gen_fresh l _ _ _ _ h1
      have f2 := gen_fresh r _ _ _ _ h2
      refine Cg.two_fresh (p := ".L.true") (q := ".L.end") (by decide) (by simp only at *; omega) (Cg.Fresh.mono f1 (Nat.le_refl _) d2)
        (Cg.Fresh.mono f2 (by simp only at *; omega) (Nat.le_refl _)) (Cg.fresh_disjoint f1 f2) ?_ rfl
      rw [List.perm_iff_count]
      intro x
      show List.count x (labels _) = List.count x (labels c1 ++ labels c2 ++ _)
      simp only [labels_append, labels_cmpZero, labels_lift, List.count_append, List.append_nil]
      simp only [labels, Cg.labels, proj, List.map_cons, List.map_nil, Instr.rv, List.filterMap_cons, List.filterMap_nil, List.count_cons, List.count_nil]
      omega
  | .bin op ty l r, ad, gs, c, gs', h => by
    simp only [gen] at h
    split at h
    · simp at h
    · simp only [bindSome] at h
      obtain ⟨⟨c1, s1⟩, h1, h2⟩ := h
      have f1 := gen_fresh r _ _ _ _ h1
      have d1 := (gen_depth r _ _ _ _ h1).2
      dsimp only at h2
      split at h2
      · simp only [bindSome, Option.some.injEq, Prod.mk.injEq] at h2
        obtain ⟨⟨c2, s2⟩, h2, o, ho, rfl, rfl⟩ := h2
        have f2 : Fresh s1.cnt s2.cnt c2 := gen_fresh l _ s1.push _ _ h2
        have d2 : s1.cnt ≤ s2.cnt := (gen_depth l _ s1.push _ _ h2).2
        exact (f1.append f2 d1 d2).congr (by
          simp only [labels_append, labels_pushF, labels_popF, labels_binF ho, List.append_nil])
      · simp only [bindSome] at h2
        obtain ⟨⟨c2, s2⟩, h2, h3⟩ := h2
        have f2 : Fresh s1.cnt s2.cnt c2 := gen_fresh l _ s1.push _ _ h2
        have d2 : s1.cnt ≤ s2.cnt := (gen_depth l _ s1.push _ _ h2).2
        split at h3
        · simp only [Option.some.injEq, Prod.mk.injEq] at h3
          obtain ⟨rfl, rfl⟩ := h3
          exact (f1.append f2 d1 d2).congr (by
            simp only [labels_append, labels_lift, Cg.labels_push, Cg.labels_pop, Cg.labels_bin, List.append_nil])
        · simp at h3

theorem find_some_mem {P : Rv.Prog} {l : Label} {i : Nat} (h : find P l = some i) : l ∈ Cg.labels P := by
  unfold find at h
  rw [List.findIdx?_eq_some_iff_getElem] at h
  obtain ⟨hi, h1, _⟩ := h
  refine Cg.mem_labels.mpr ?_
  have := of_decide_eq_true h1
  rw [← this]
  exact List.getElem_mem hi

/-- The code of an expression placed by itself meets the assumptions on the surroundings. -/
theorem surr_of_expr {e : Expr} {ad gs c gs'} (hg : gen ad e gs = some (c, gs'))
    (h1 : 8 * E.room < 2 ^ 64) (h2 : ∀ b, idx B b < 8 * E.room → E.valid b = false)
    (h3 : ∀ l, env.rv.sym l = E.sym l) (h5 : ∀ a k t vs m, E.call a k t vs m = none) : Surr E B env c := by
  have hf := gen_fresh e _ _ _ _ hg
  refine ⟨⟨h1, h2, h3, Cg.unique_of_nodup hf.1, fun fa k ty vs m v m' h => by rw [h5] at h; simp at h⟩, ?_⟩
  cases hn : find (proj c) nowhere with
  | none => rfl
  | some i =>
    obtain ⟨p, n, e, _⟩ := hf.2 _ (find_some_mem hn)
    simp [nowhere] at e

end Toycc.Fp
