import Verif.Cg.Sim
/-! Correctness of generated expression code, case by case. -/
namespace Toycc.Cg
open Toycc.Rv

/-! ### push/pop balance at compile time -/

mutual
theorem gen_depth : ∀ (e : Expr) (ad : Bool) (gs : GS) (c : List Instr) (gs' : GS), gen ad e gs = some (c, gs') →
    gs'.depth = gs.depth ∧ gs.cnt ≤ gs'.cnt
  | .null, ad, gs, c, gs', h => by simp only [gen] at h; split at h <;> grind
  | .num _ _, ad, gs, c, gs', h => by simp only [gen] at h; split at h <;> grind
  | .neg ty e, ad, gs, c, gs', h => by
    simp only [gen] at h
    split at h
    · simp at h
    · simp only [bindSome] at h
      obtain ⟨⟨c1, s1⟩, h1, h2⟩ := h
      have := gen_depth e _ _ _ _ h1
      grind
  | .var ty x, ad, gs, c, gs', h => by
    simp only [gen] at h
    cases x <;> simp only [varAddr, Option.some.injEq, Prod.mk.injEq] at h <;> obtain ⟨_, rfl⟩ := h <;> simp [GS.next]
  | .member f e, ad, gs, c, gs', h => by
    simp only [gen, bindSome] at h
    obtain ⟨⟨c1, s1⟩, h1, h2⟩ := h
    have := gen_depth e _ _ _ _ h1
    split at h2
    · grind
    · split at h2 <;> grind
  | .deref ty e, ad, gs, c, gs', h => by
    simp only [gen, bindSome] at h
    obtain ⟨⟨c1, s1⟩, h1, h2⟩ := h
    have := gen_depth e _ _ _ _ h1
    grind
  | .addr e, ad, gs, c, gs', h => by
    simp only [gen] at h
    split at h
    · simp at h
    · exact gen_depth e _ _ _ _ h
  | .assign ty l r, ad, gs, c, gs', h => by
    simp only [gen] at h
    split at h
    · grind
    · simp only [bindSome] at h
      obtain ⟨⟨c1, s1⟩, h1, ⟨c2, s2⟩, h2, h3⟩ := h
      have := gen_depth l _ _ _ _ h1
      have := gen_depth r _ _ _ _ h2
      simp only [GS.push] at this
      split at h3 <;> simp only [Option.some.injEq, Prod.mk.injEq] at h3 <;> obtain ⟨_, rfl⟩ := h3 <;> simp only [GS.pop] <;> omega
  | .comma l r, ad, gs, c, gs', h => by
    simp only [gen, bindSome] at h
    obtain ⟨⟨c1, s1⟩, h1, ⟨c2, s2⟩, h2, h3⟩ := h
    have := gen_depth l _ _ _ _ h1
    have := gen_depth r _ _ _ _ h2
    grind
  | .cast ty e, ad, gs, c, gs', h => by
    simp only [gen] at h
    split at h
    · simp at h
    · simp only [bindSome] at h
      obtain ⟨⟨c1, s1⟩, h1, h2⟩ := h
      have := gen_depth e _ _ _ _ h1
      grind
  | .memzero _ _, ad, gs, c, gs', h => by simp only [gen] at h; split at h <;> grind
  | .cond ty a b e, ad, gs, c, gs', h => by
    simp only [gen] at h
    split at h
    · grind
    · simp only [bindSome] at h
      obtain ⟨⟨c1, s1⟩, h1, ⟨c2, s2⟩, h2, ⟨c3, s3⟩, h3, h4⟩ := h
      have := gen_depth a _ _ _ _ h1
      have := gen_depth b _ _ _ _ h2
      have := gen_depth e _ _ _ _ h3
      simp only [GS.next] at *
      simp only [Option.some.injEq, Prod.mk.injEq] at h4
      obtain ⟨_, rfl⟩ := h4
      omega
  | .not e, ad, gs, c, gs', h => by
    simp only [gen] at h
    split at h
    · simp at h
    · simp only [bindSome] at h
      obtain ⟨⟨c1, s1⟩, h1, h2⟩ := h
      have := gen_depth e _ _ _ _ h1
      grind
  | .bitnot e, ad, gs, c, gs', h => by
    simp only [gen] at h
    split at h
    · simp at h
    · simp only [bindSome] at h
      obtain ⟨⟨c1, s1⟩, h1, h2⟩ := h
      have := gen_depth e _ _ _ _ h1
      grind
  | .logand l r, ad, gs, c, gs', h => by
    simp only [gen] at h
    split at h
    · simp at h
    · simp only [bindSome] at h
      obtain ⟨⟨c1, s1⟩, h1, ⟨c2, s2⟩, h2, h3⟩ := h
      have := gen_depth l _ _ _ _ h1
      have := gen_depth r _ _ _ _ h2
      simp only [GS.next] at *
      simp only [Option.some.injEq, Prod.mk.injEq] at h3
      obtain ⟨_, rfl⟩ := h3
      omega
  | .logor l r, ad, gs, c, gs', h => by
    simp only [gen] at h
    split at h
    · simp at h
    · simp only [bindSome] at h
      obtain ⟨⟨c1, s1⟩, h1, ⟨c2, s2⟩, h2, h3⟩ := h
      have := gen_depth l _ _ _ _ h1
      have := gen_depth r _ _ _ _ h2
      simp only [GS.next] at *
      simp only [Option.some.injEq, Prod.mk.injEq] at h3
      obtain ⟨_, rfl⟩ := h3
      omega
  | .bin op ty l r, ad, gs, c, gs', h => by
    simp only [gen] at h
    split at h
    · simp at h
    · simp only [bindSome] at h
      obtain ⟨⟨c1, s1⟩, h1, ⟨c2, s2⟩, h2, h3⟩ := h
      have := gen_depth r _ _ _ _ h1
      have := gen_depth l _ _ _ _ h2
      simp only [GS.push] at *
      simp only [Option.some.injEq, Prod.mk.injEq] at h3
      obtain ⟨_, rfl⟩ := h3
      simp only [GS.pop]
      omega
  | .vlaPtr _, ad, gs, c, gs', h => by simp only [gen] at h; split at h <;> grind
  | .call ty f args, ad, gs, c, gs', h => by
    simp only [gen] at h
    split at h
    · grind
    · split at h
      · simp at h
      · simp only [bindSome] at h
        obtain ⟨⟨c1, s1⟩, h1, ⟨c2, s2⟩, h2, ⟨c3, s3⟩, h3, h4⟩ := h
        have a1 := genArgs_depth args _ _ _ _ _ h1
        have a2 := genArgs_depth args _ _ _ _ _ h2
        have a3 := gen_depth f _ _ _ _ h3
        simp only [if_true, Bool.false_eq_true, if_false] at a1 a2 a3
        simp only [Option.some.injEq, Prod.mk.injEq] at h4
        obtain ⟨_, rfl⟩ := h4
        simp only
        omega
theorem genArgs_depth : ∀ (args : Exprs) (first : Bool) (i : Nat) (gs : GS) (c : List Instr) (gs' : GS),
    genArgs first i args gs = some (c, gs') →
    gs'.depth = gs.depth + (if first then (i + args.length - 8) - (i - 8) else min (i + args.length) 8 - min i 8) ∧
    gs.cnt ≤ gs'.cnt
  | .nil, first, i, gs, c, gs', h => by
    simp only [genArgs, Option.some.injEq, Prod.mk.injEq] at h
    obtain ⟨_, rfl⟩ := h
    cases first <;> simp [Exprs.length]
  | .cons e r, first, i, gs, c, gs', h => by
    simp only [genArgs, bindSome] at h
    obtain ⟨⟨c1, s1⟩, h1, h2⟩ := h
    have a1 := genArgs_depth r _ _ _ _ _ h1
    simp only at h2
    split at h2
    · rename_i hc
      simp only [Option.some.injEq, Prod.mk.injEq] at h2
      obtain ⟨_, rfl⟩ := h2
      simp only [Exprs.length]
      cases first
      · simp only [Bool.false_eq_true, if_false, Bool.false_and, Bool.not_false, Bool.true_and, Bool.false_or, decide_eq_true_eq] at *
        omega
      · simp only [if_true, Bool.true_and, Bool.not_true, Bool.false_and, Bool.or_false, decide_eq_true_eq] at *
        omega
    · rename_i hc
      simp only [bindSome] at h2
      obtain ⟨⟨c2, s2⟩, h2, h3⟩ := h2
      have a2 := gen_depth e _ _ _ _ h2
      simp only [Option.some.injEq, Prod.mk.injEq] at h3
      obtain ⟨_, rfl⟩ := h3
      simp only [Exprs.length, GS.push]
      cases first
      · simp only [Bool.false_eq_true, if_false, Bool.false_and, Bool.not_false, Bool.true_and, Bool.false_or, decide_eq_true_eq] at *
        omega
      · simp only [if_true, Bool.true_and, Bool.not_true, Bool.false_and, Bool.or_false, decide_eq_true_eq] at *
        omega
end

variable {E : CEnv} {B : W} {env : Env} {P : Prog}

theorem Res.bind {d pc l1 l2 s v f m v' f' m'} (h : Res E B env P d pc l1 s v f m)
    (H : ∀ s1, Match E B d m s1 → Rep f v (s1.r .a0) → Res E B env P d (pc + l1) l2 s1 v' f' m') :
    Res E B env P d pc (l1 + l2) s v' f' m' := by
  obtain ⟨s1, h1, h2, h3, h4⟩ := h
  obtain ⟨s2, g1, g2, g3, g4⟩ := H s1 h2 h3
  rw [Nat.add_assoc] at g1
  exact ⟨s2, h1.trans g1, g2, g3, h4.trans g4⟩

/-- Straight-line code that changes only scratch registers. -/
theorem Res.piece {d pc s v f m v' f' c1 c2} (h : Res E B env P d pc (List.length c1) s v f m)
    (hc : CodeAt P (pc + c1.length) c2) {L : List Reg} (hL : Reg.sp ∉ L ∧ Reg.fp ∉ L)
    (H : ∀ s1, Match E B d m s1 → Rep f v (s1.r .a0) →
      ∃ s2, execL env c2 s1 = some s2 ∧ Same L s1 s2 ∧ s2.mem = s1.mem ∧ Rep f' v' (s2.r .a0)) :
    Res E B env P d pc (c1 ++ c2).length s v' f' m := by
  rw [List.length_append]
  apply h.bind
  intro s1 h1 h2
  obtain ⟨s2, g1, g2, g3, g4⟩ := H s1 h1 h2
  obtain ⟨k1, k2, k3⟩ := sim_piece h1 hc g1 g2 hL.1 hL.2 g3
  exact ⟨s2, k1, k2, g4, k3⟩

theorem Res.nil {d pc s v f m} (hm : Match E B d m s) (hr : Rep f v (s.r .a0)) : Res E B env P d pc ([] : List Instr).length s v f m :=
  ⟨s, .refl, hm, hr, Keeps.refl⟩

/-- The generated code for `e` computes what strict evaluation says. -/
def Good (E : CEnv) (B : W) (env : Env) (P : Prog) (e : Expr) : Prop :=
  ∀ ad gs c gs' m v f m' pc s, gen ad e gs = some (c, gs') → evalS E ad gs.depth e m = some (v, f, m') → CodeAt P pc c →
    Match E B gs.depth m s → Res E B env P gs.depth pc c.length s v f m'

theorem rep_addr (a : W) : Rep .full a.toNat a := by
  have := a.isLt
  refine ⟨?_, by omega, by omega⟩
  apply BitVec.eq_of_toNat_eq
  rw [BitVec.toNat_ofInt]; omega

theorem adr_toNat (a : W) : adr a.toNat = a := ((rep_addr a).1).symm

theorem guard_some {b : Bool} {u : Unit} (h : guard b = some u) : b = true := by
  unfold guard at h; split at h <;> simp_all

theorem good_null : Good E B env P .null := by
  intro ad gs c gs' m v f m' pc s hg he hc hm
  simp only [gen, evalS] at hg he
  split at hg
  · simp at hg
  · rename_i had
    simp only [had, Bool.false_eq_true, if_false, Option.some.injEq, Prod.mk.injEq] at hg he
    obtain ⟨rfl, rfl⟩ := hg
    obtain ⟨rfl, rfl, rfl⟩ := he
    exact Res.nil hm trivial

theorem good_num (t : Ty) (x : Int) : Good E B env P (.num t x) := by
  intro ad gs c gs' m v f m' pc s hg he hc hm
  simp only [gen, evalS] at hg he
  split at hg
  · simp at hg
  · rename_i had
    simp only [had, Bool.false_eq_true, if_false, bindSome, Option.some.injEq, Prod.mk.injEq] at hg he
    obtain ⟨rfl, rfl⟩ := hg
    obtain ⟨_, hgd, rfl, rfl, rfl⟩ := he
    have hr := of_decide_eq_true (guard_some hgd)
    have he : execL env [.li .a0 x] s = some (s.set .a0 (BitVec.ofInt 64 x)) := rfl
    obtain ⟨k1, k2, k3⟩ := sim_piece hm hc he (same_set (L := [.a0]) (by simp)) (by decide) (by decide) rfl
    refine ⟨_, k1, k2, ⟨?_, hr⟩, k3⟩
    rw [r_set_same _ _ _ (by decide)]

theorem good_neg (t : Ty) {e : Expr} (ih : Good E B env P e) : Good E B env P (.neg t e) := by
  intro ad gs c gs' m v f m' pc s hg he hc hm
  simp only [gen, evalS] at hg he
  split at hg
  · simp at hg
  · rename_i had
    simp only [had, Bool.false_eq_true, if_false, bindSome] at hg he
    obtain ⟨⟨c1, s1⟩, h1, h2⟩ := hg
    obtain ⟨⟨v1, f1, m1⟩, e1, r, e2, _, e3, e4⟩ := he
    simp only [Option.some.injEq, Prod.mk.injEq] at h2
    obtain ⟨rfl, rfl⟩ := h2
    have e3 := guard_some e3
    simp only [Bool.and_eq_true, beq_iff_eq] at e3
    rw [e3.2] at e2
    have ih := ih _ _ _ _ _ _ _ _ _ _ h1 e1 hc.left hm
    split at e4
    · rename_i h8
      simp only [bindSome] at e4
      obtain ⟨_, e4, e5⟩ := e4
      have e4 := guard_some e4
      simp only [beq_iff_eq] at e4
      subst e4
      simp only [Option.some.injEq, Prod.mk.injEq] at e5
      obtain ⟨rfl, rfl, rfl⟩ := e5
      rw [if_pos h8] at hc ⊢
      refine ih.piece hc.right (L := [.a0]) (by decide) ?_
      intro s1 hm1 hr
      refine ⟨_, rfl, same_set (by simp), rfl, ?_⟩
      rw [r_set_same _ _ _ (by decide), hr.1]
      have := Rep.d e3.1 h8 e2
      rwa [show (-v1) = 0 - v1 by omega, ofInt_sub] at this
    · rename_i h8
      simp only [bindSome] at e4
      obtain ⟨_, e4, e5⟩ := e4
      have e4 := guard_some e4
      simp only [bne_iff_ne] at e4
      simp only [Option.some.injEq, Prod.mk.injEq] at e5
      obtain ⟨rfl, rfl, rfl⟩ := e5
      rw [if_neg h8] at hc ⊢
      refine ih.piece hc.right (L := [.a0]) (by decide) ?_
      intro s1 hm1 hr
      refine ⟨_, rfl, same_set (by simp), rfl, ?_⟩
      rw [r_set_same _ _ _ (by decide), hr.lo e4]
      have h4 : t.size = 4 := by
        rcases e3 with ⟨ha, hb⟩
        cases t <;> simp_all [Ty.scalar, promote, Ty.size]
      have := Rep.w e3.1 h4 e2
      rwa [show (-v1) = 0 - v1 by omega, ofInt_sub] at this

theorem vla_addr {s : St} {m : Mem} (x : Int) (h : ∀ b, E.valid b = true → s.mem b = m b) (hok : E.ok (E.fp + BitVec.ofInt 64 x) 8 = true) :
    readN s.mem (E.fp + BitVec.ofInt 64 x) 8 = readN m (E.fp + BitVec.ofInt 64 x) 8 :=
  readN_congr fun i hi => h _ (ok_iff.mp hok i hi)

theorem res_var (hw : World E B env P) (x : Var) {gs : GS} {d m s pc a} (he : varAddrC E x m = some a)
    (hc : CodeAt P pc (varAddr x gs).1) (hm : Match E B d m s) :
    Res E B env P d pc (varAddr x gs).1.length s a.toNat .full m := by
  cases x with
  | loc off =>
    simp only [varAddrC, Option.some.injEq] at he
    subst he
    obtain ⟨s1, h1, h2, h3, h4⟩ := exec_addOffset env s .fp off (by decide)
    obtain ⟨k1, k2, k3⟩ := sim_piece hm hc h1 h2 (by decide) (by decide) h4
    refine ⟨_, k1, k2, ?_, k3⟩
    rw [h3, hm.fp]; exact rep_addr _
  | vla off =>
    simp only [varAddrC] at he
    split at he
    · rename_i hok
      simp only [Option.some.injEq] at he
      subst he
      have e1 : ∃ s1, execL env (varAddr (.vla off) gs).1 s = some s1 ∧ Same [.a0] s s1 ∧ s1.mem = s.mem ∧
          s1.r .a0 = BitVec.ofNat 64 (readN s.mem (s.r .fp + BitVec.ofInt 64 off) 8) := by
        simp only [varAddr, execL, exec, Option.bind_some, Option.some.injEq, exists_eq_left', mem_set]
        refine ⟨(same_set (by simp)).trans ((same_set (by simp)).trans (same_set (by simp))), trivial, ?_⟩
        rw [r_set_same _ _ _ (by decide), r_set_same _ _ _ (by decide), r_set_same _ _ _ (by decide), r_set_ne _ _ _ _ (by decide)]
        simp [Width.bytes, extend, Alu.eval, BitVec.add_comm]
      obtain ⟨s1, h1, h2, h3, h4⟩ := e1
      obtain ⟨k1, k2, k3⟩ := sim_piece hm hc h1 h2 (by decide) (by decide) h3
      refine ⟨_, k1, k2, ?_, k3⟩
      rw [h4, hm.fp, vla_addr off hm.mem hok]
      exact rep_addr _
    · simp at he
  | glob n =>
    simp only [varAddrC, Option.some.injEq] at he
    subst he
    have e1 : execL env (varAddr (.glob n) gs).1 s = some (s.set .a0 (env.sym (.sym n))) := rfl
    obtain ⟨k1, k2, k3⟩ := sim_piece hm hc e1 (same_set (L := [.a0]) (by simp)) (by decide) (by decide) rfl
    refine ⟨_, k1, k2, ?_, k3⟩
    rw [r_set_same _ _ _ (by decide), hw.sym]; exact rep_addr _

/-- Loading through an address. -/
theorem Res.load {d pc s m c1 a t v} (h : Res E B env P d pc (List.length c1) s a .full m) (hl : loadC E t m (adr a) = some v)
    (hc : CodeAt P (pc + c1.length) (genLoad t)) : Res E B env P d pc (c1 ++ genLoad t).length s v .full m := by
  refine h.piece hc (L := [.a0]) (by decide) ?_
  intro s1 hm hr
  obtain ⟨s2, h1, h2, h3, h4⟩ := exec_load env s1 t
  refine ⟨s2, h1, h2, h4, ?_⟩
  rw [h3, hr.full]
  exact load_correct hl hm.mem

theorem good_var (hw : World E B env P) (t : Ty) (x : Var) : Good E B env P (.var t x) := by
  intro ad gs c gs' m v f m' pc s hg he hc hm
  simp only [gen, Option.some.injEq, Prod.mk.injEq] at hg
  simp only [evalS, bindSome] at he
  obtain ⟨a, e1, e2⟩ := he
  obtain ⟨rfl, rfl⟩ := hg
  cases ad
  · simp only [Bool.false_eq_true, if_false, bindSome] at *
    obtain ⟨w, e2, e3⟩ := e2
    simp only [Option.some.injEq, Prod.mk.injEq] at e3
    obtain ⟨rfl, rfl, rfl⟩ := e3
    have := res_var hw x e1 hc.left hm
    exact this.load (by rw [adr_toNat]; exact e2) hc.right
  · simp only [if_true, Option.some.injEq, Prod.mk.injEq] at *
    obtain ⟨rfl, rfl, rfl⟩ := e2
    exact res_var hw x e1 hc hm

theorem Res.addOffset {d pc s m c1 a} {off : Int} (h : Res E B env P d pc (List.length c1) s a .full m)
    (hc : CodeAt P (pc + c1.length) (addOffset .a0 off)) :
    Res E B env P d pc (c1 ++ addOffset .a0 off).length s (adr a + BitVec.ofInt 64 off).toNat .full m := by
  refine h.piece hc (L := [.a0, .t0]) (by decide) ?_
  intro s1 hm hr
  obtain ⟨s2, h1, h2, h3, h4⟩ := exec_addOffset env s1 .a0 off (by decide)
  refine ⟨s2, h1, h2, h4, ?_⟩
  rw [h3, hr.full]; exact rep_addr _

end Toycc.Cg
