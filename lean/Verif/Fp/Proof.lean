import Verif.Fp.Sim
/-! Correctness of the code generated for expressions with floating point, case by case. -/
namespace Toycc.Fp
open Toycc.Rv
open Toycc.Cg (GS Var BinOp CEnv boolC World Match Keeps Rep Same slot idx bindSome)

/-! ### push/pop balance at compile time -/

theorem gen_depth : ∀ (e : Expr) (ad : Bool) (gs : GS) (c : List Instr) (gs' : GS), gen ad e gs = some (c, gs') →
    gs'.depth = gs.depth ∧ gs.cnt ≤ gs'.cnt
  | .int e, ad, gs, c, gs', h => by
    simp only [gen, Option.map_eq_some_iff, Prod.mk.injEq] at h
    obtain ⟨⟨c1, s1⟩, h1, _, rfl⟩ := h
    exact Cg.gen_depth e _ _ _ _ h1
  | .lit p b, ad, gs, c, gs', h => by simp only [gen] at h; split at h <;> grind
  | .neg t e, ad, gs, c, gs', h => by
    simp only [gen] at h
    split at h
    · simp at h
    · simp only [bindSome] at h
      obtain ⟨⟨c1, s1⟩, h1, h2⟩ := h
      have := gen_depth e _ _ _ _ h1
      grind
  | .var t x, ad, gs, c, gs', h => by
    simp only [gen] at h
    cases x <;> simp only [Cg.varAddr, Option.some.injEq, Prod.mk.injEq] at h <;> obtain ⟨_, rfl⟩ := h <;> simp [GS.next]
  | .member t off e, ad, gs, c, gs', h => by
    simp only [gen, bindSome] at h
    obtain ⟨⟨c1, s1⟩, h1, h2⟩ := h
    have := gen_depth e _ _ _ _ h1
    grind
  | .deref t e, ad, gs, c, gs', h => by
    simp only [gen, bindSome] at h
    obtain ⟨⟨c1, s1⟩, h1, h2⟩ := h
    have := gen_depth e _ _ _ _ h1
    grind
  | .addr e, ad, gs, c, gs', h => by
    simp only [gen] at h
    split at h
    · simp at h
    · exact gen_depth e _ _ _ _ h
  | .assign t l r, ad, gs, c, gs', h => by
    simp only [gen] at h
    split at h
    · grind
    · split at h
      · simp at h
      · simp only [bindSome] at h
        obtain ⟨⟨c1, s1⟩, h1, ⟨c2, s2⟩, h2, h3⟩ := h
        have := gen_depth l _ _ _ _ h1
        have := gen_depth r _ _ _ _ h2
        simp only [GS.push] at this
        simp only [Option.some.injEq, Prod.mk.injEq] at h3
        obtain ⟨_, rfl⟩ := h3
        simp only [GS.pop]; omega
  | .comma l r, ad, gs, c, gs', h => by
    simp only [gen, bindSome] at h
    obtain ⟨⟨c1, s1⟩, h1, ⟨c2, s2⟩, h2, h3⟩ := h
    have := gen_depth l _ _ _ _ h1
    have := gen_depth r _ _ _ _ h2
    grind
  | .cast t e, ad, gs, c, gs', h => by
    simp only [gen] at h
    split at h
    · simp at h
    · simp only [bindSome] at h
      obtain ⟨⟨c1, s1⟩, h1, h2⟩ := h
      have := gen_depth e _ _ _ _ h1
      grind
  | .cond t a b e, ad, gs, c, gs', h => by
    simp only [gen] at h
    split at h
    · grind
    · simp only [bindSome] at h
      obtain ⟨⟨c1, s1⟩, h1, ⟨c2, s2⟩, h2, ⟨c3, s3⟩, h3, h4⟩ := h
      have := gen_depth a _ _ _ _ h1
      have := gen_depth b _ _ _ _ h2
      have := gen_depth e _ _ _ _ h3
      simp only [GS.next] at *
      simp only [Option.some.injEq, Prod.mk.injEq] at h4
      obtain ⟨_, rfl⟩ := h4
      omega
  | .not e, ad, gs, c, gs', h => by
    simp only [gen] at h
    split at h
    · simp at h
    · simp only [bindSome] at h
      obtain ⟨⟨c1, s1⟩, h1, h2⟩ := h
      have := gen_depth e _ _ _ _ h1
      grind
  | .logand l r, ad, gs, c, gs', h => by
    simp only [gen] at h
    split at h
    · simp at h
    · simp only [bindSome] at h
      obtain ⟨⟨c1, s1⟩, h1, ⟨c2, s2⟩, h2, h3⟩ := h
      have := gen_depth l _ _ _ _ h1
      have := gen_depth r _ _ _ _ h2
      simp only [GS.next] at *
      simp only [Option.some.injEq, Prod.mk.injEq] at h3
      obtain ⟨_, rfl⟩ := h3
      omega
  | .logor l r, ad, gs, c, gs', h => by
    simp only [gen] at h
    split at h
    · simp at h
    · simp only [bindSome] at h
      obtain ⟨⟨c1, s1⟩, h1, ⟨c2, s2⟩, h2, h3⟩ := h
      have := gen_depth l _ _ _ _ h1
      have := gen_depth r _ _ _ _ h2
      simp only [GS.next] at *
      simp only [Option.some.injEq, Prod.mk.injEq] at h3
      obtain ⟨_, rfl⟩ := h3
      omega
  | .bin op t l r, ad, gs, c, gs', h => by
    simp only [gen] at h
    split at h
    · simp at h
    · simp only [bindSome] at h
      obtain ⟨⟨c1, s1⟩, h1, h2⟩ := h
      have := gen_depth r _ _ _ _ h1
      dsimp only at h2
      split at h2
      · simp only [bindSome] at h2
        obtain ⟨⟨c2, s2⟩, h2, o, _, h3⟩ := h2
        have := gen_depth l _ _ _ _ h2
        simp only [GS.push] at *
        simp only [Option.some.injEq, Prod.mk.injEq] at h3
        obtain ⟨_, rfl⟩ := h3
        simp only [GS.pop]
        omega
      · simp only [bindSome] at h2
        obtain ⟨⟨c2, s2⟩, h2, h3⟩ := h2
        have := gen_depth l _ _ _ _ h2
        simp only [GS.push] at *
        split at h3
        · simp only [Option.some.injEq, Prod.mk.injEq] at h3
          obtain ⟨_, rfl⟩ := h3
          simp only [GS.pop]
          omega
        · simp at h3

variable {F : Fpu} {E : CEnv} {B : W} {env : Env} {P : Prog}

/-- The generated code for `e` computes what C says. -/
def Good (F : Fpu) (E : CEnv) (B : W) (env : Env) (P : Prog) (e : Expr) : Prop :=
  ∀ ad gs c gs' m v m' pc s, simple ad e = true → gs.depth + need e ≤ E.room → gen ad e gs = some (c, gs') →
    eval F E ad gs.depth e m = some (v, m') → CodeAt P pc c → Match E B gs.depth m s.x →
    Res F E B env P gs.depth pc c.length s v m' ∧ (if ad then ∃ a, v = .int a ∧ 0 ≤ a ∧ a < 2 ^ 64 else Typed e.ty v)

/-- The value is of the kind the type says. -/
def Kind (t : Ty) (v : Val) : Prop :=
  match t, v with
  | .int _, .int _ => True
  | .flt .s, .flt .s _ => True
  | .flt .d, .flt .d _ => True
  | _, _ => False

theorem Typed.kind {t v} (h : Typed t v) : Kind t v := by
  cases t with
  | int t => cases v with
    | int v => trivial
    | flt p b => cases p <;> exact h
  | flt p => cases p <;> cases v with
    | int v => exact h
    | flt q b => cases q <;> first | trivial | exact h

theorem Kind.other {t u v} (h : Kind u v) (hs : sameTest t u = true) : Kind t v := by
  cases t with
  | int t => cases u with
    | int u => cases v <;> simp_all [Kind]
    | flt p => simp [sameTest] at hs
  | flt p => cases u with
    | int u => simp [sameTest] at hs
    | flt q =>
      simp only [sameTest, beq_iff_eq] at hs
      subst hs
      exact h

theorem Kind.flt {p v} (h : Kind (.flt p) v) : ∃ b, v = .flt p b := by
  cases v with
  | int v => cases p <;> exact h.elim
  | flt q b => cases p <;> cases q <;> first | exact ⟨b, rfl⟩ | exact h.elim

theorem Kind.int {t v} (h : Kind (.int t) v) : ∃ x, v = .int x := by
  cases v with
  | int v => exact ⟨v, rfl⟩
  | flt q b => exact h.elim

theorem Typed.flt {p} (b : Bits p) : Typed (.flt p) (.flt p b) := by cases p <;> trivial

theorem Typed.int {t v} (h : Typed (.int t) v) : ∃ x, v = .int x ∧ Cg.inV t x := by
  obtain ⟨x, rfl⟩ := h.kind.int
  exact ⟨x, rfl, h⟩

theorem good_int (hw : Surr E B env P) (ht : E.CallsTyped) (e : Cg.Expr) : Good F E B env P (.int e) := by
  intro ad gs c gs' m v m' pc s hs hn hg he hc hm
  simp only [gen, eval, Option.map_eq_some_iff, Prod.mk.injEq, Prod.exists] at hg he
  obtain ⟨c1, s1, h1, rfl, rfl⟩ := hg
  obtain ⟨v1, m1, e1, rfl, rfl⟩ := he
  simp only [simple, Bool.and_eq_true] at hs
  obtain ⟨f, e2, e3⟩ := Cg.evalS_of_evalC ht e ad _ _ _ _ hs.1 hn e1
  obtain ⟨rfl, e4⟩ := e3 hs.2
  obtain ⟨x', g1, g2, g3, g4⟩ := Cg.gen_good hw.world e ad gs c1 s1 m v1 .full m1 pc s.x h1 e2 hc.proj hm
  obtain ⟨f', g5⟩ := runs_rv (F := F) hw.stuck g1 s.f
  refine ⟨⟨⟨x', f'⟩, by rw [length_lift]; exact g5, g2, g3, g4⟩, ?_⟩
  cases ad
  · exact e4
  · exact ⟨v1, rfl, e4⟩

theorem low_bits (p : Prec) (b : Bits p) : low p (BitVec.ofInt 64 b.toNat) = b := by
  cases p with
  | s =>
    have key : ∀ b : BitVec 32, (BitVec.ofInt 64 b.toNat).setWidth 32 = b := by
      intro b
      have hb : b.toNat < 2 ^ 32 := b.isLt
      apply BitVec.eq_of_toNat_eq
      rw [BitVec.toNat_setWidth, BitVec.toNat_ofInt]
      omega
    exact key b
  | d =>
    have key : ∀ b : BitVec 64, BitVec.ofInt 64 b.toNat = b := by
      intro b
      have hb : b.toNat < 2 ^ 64 := b.isLt
      apply BitVec.eq_of_toNat_eq
      rw [BitVec.toNat_ofInt]
      omega
    exact key b

theorem setF_same (s : St) (r : FReg) (v : W) : (s.setF r v).f r = v := by simp [St.setF]
theorem setF_x (s : St) (r : FReg) (v : W) : (s.setF r v).x = s.x := rfl

theorem match_setF {d m} {s : St} {r v} (h : Match E B d m s.x) : Match E B d m (s.setF r v).x := h

theorem good_lit (p : Prec) (b : Bits p) : Good F E B env P (.lit p b) := by
  intro ad gs c gs' m v m' pc s hs hn hg he hc hm
  simp only [gen, eval] at hg he
  split at hg
  · simp at hg
  · rename_i had
    simp only [had, Bool.false_eq_true, if_false, Option.some.injEq, Prod.mk.injEq] at hg he ⊢
    obtain ⟨rfl, rfl⟩ := hg
    obtain ⟨rfl, rfl⟩ := he
    have h1 := Runs.one (F := F) (step_int (s := s) hc.head (show Rv.exec env.rv (.li .a0 b.toNat) s.x = some (s.x.set .a0 (BitVec.ofInt 64 b.toNat)) from rfl))
    have h2 := Runs.one (F := F) (env := env) (step_fp (s := ⟨s.x.set .a0 (BitVec.ofInt 64 b.toNat), s.f⟩) hc.tail.head rfl)
    refine ⟨⟨_, h1.trans h2, ?_, ?_, ?_⟩, Typed.flt b⟩
    · exact hm.set (by decide) (by decide)
    · show St.f _ _ = _
      rw [setF_same, r_set_same _ _ _ (by decide), low_bits]
    · exact Keeps.refl

theorem good_neg (t : Ty) {e : Expr} (ih : Good F E B env P e) : Good F E B env P (.neg t e) := by
  intro ad gs c gs' m v m' pc s hs hn hg he hc hm
  simp only [gen, eval] at hg he
  split at hg
  · simp at hg
  · rename_i had
    simp only [had, Bool.false_eq_true, if_false, bindSome] at hg he ⊢
    obtain ⟨⟨c1, s1⟩, h1, h2⟩ := hg
    obtain ⟨⟨v1, m1⟩, e1, r, e2, e3⟩ := he
    simp only [Option.some.injEq, Prod.mk.injEq] at h2 e3
    obtain ⟨rfl, rfl⟩ := h2
    obtain ⟨rfl, rfl⟩ := e3
    simp only [simple, Bool.and_eq_true, beq_iff_eq] at hs
    obtain ⟨⟨⟨_, hs1⟩, hty⟩, hs2⟩ := hs
    obtain ⟨ihr, iht⟩ := ih _ _ _ _ _ _ _ _ _ hs1 hn h1 e1 hc.left hm
    simp only [Bool.false_eq_true, if_false] at iht
    rw [hty] at iht
    cases t with
    | flt p =>
      obtain ⟨b, rfl⟩ := iht.kind.flt
      simp only [negV, Option.some.injEq] at e2
      subst e2
      refine ⟨?_, Typed.flt _⟩
      refine ihr.fp hc.right ?_
      intro s1 hm1 hr
      refine ⟨_, rfl, Same.refl, rfl, ?_⟩
      show St.f _ _ = _
      rw [setF_same, show s1.f .fa0 = box p b from hr, unbox_box]
    | int t =>
      obtain ⟨x, rfl⟩ := iht.kind.int
      simp only [negV, Option.map_eq_some_iff] at e2
      obtain ⟨r1, e2, rfl⟩ := e2
      have har := Cg.arithTy_cases hs2
      have hpr : Cg.promote t = t ∧ t.scalar = true := by rcases har with rfl | rfl | rfl <;> exact ⟨rfl, rfl⟩
      rw [hpr.1] at e2
      refine ⟨?_, (Cg.inV_scalar hpr.2).mpr (Cg.arithC_inRange hpr.2 e2)⟩
      refine ihr.piece (c2 := [if t.size = 8 then .neg .a0 .a0 else .negw .a0 .a0]) hc.right (L := [.a0]) (by decide) ?_
      intro s1 hm1 hr
      have hr : Rep .full x (s1.x.r .a0) := hr
      by_cases h8 : t.size = 8
      · rw [if_pos h8]
        refine ⟨_, rfl, Cg.same_set (by simp), rfl, ?_⟩
        show Rep .full r1 ((s1.x.set .a0 _).r .a0)
        rw [r_set_same _ _ _ (by decide), hr.1]
        have := Rep.d hpr.2 h8 e2
        rwa [show (-x) = 0 - x by omega, Cg.ofInt_sub] at this
      · rw [if_neg h8]
        refine ⟨_, rfl, Cg.same_set (by simp), rfl, ?_⟩
        show Rep .full r1 ((s1.x.set .a0 _).r .a0)
        rw [r_set_same _ _ _ (by decide), hr.lo (by decide)]
        have h4 : t = .int false := by rcases har with rfl | rfl | rfl <;> first | rfl | exact absurd rfl h8
        subst h4
        have := Rep.w (t := .int false) rfl rfl e2
        rwa [show (-x) = 0 - x by omega, Cg.ofInt_sub] at this

theorem low_ofNat (p : Prec) (n : Nat) : low p (BitVec.ofNat 64 n) = BitVec.ofNat p.width n := by
  cases p with
  | s =>
    have key : (BitVec.ofNat 64 n).setWidth 32 = BitVec.ofNat 32 n := by
      apply BitVec.eq_of_toNat_eq
      rw [BitVec.toNat_setWidth, BitVec.toNat_ofNat, BitVec.toNat_ofNat]
      omega
    exact key
  | d => rfl

/-- Loading through an address. -/
theorem Res.load {d pc s m a t v} {c1 : List Instr} (h : Res F E B env P d pc c1.length s (.int a) m) (hl : loadV E t m (Cg.adr a) = some v)
    (hc : CodeAt P (pc + c1.length) (genLoad t)) : Res F E B env P d pc (c1 ++ genLoad t).length s v m ∧ Typed t v := by
  cases t with
  | flt p =>
    simp only [loadV] at hl
    split at hl
    case isFalse => simp at hl
    rename_i hok
    simp only [Option.some.injEq] at hl
    subst hl
    refine ⟨?_, Typed.flt _⟩
    refine h.fp hc ?_
    intro s1 hm hr
    have hr : Rep .full a (s1.x.r .a0) := hr
    refine ⟨_, exec_fload p .fa0 .a0 s1, Same.refl, rfl, ?_⟩
    show St.f _ _ = _
    rw [setF_same, low_ofNat, hr.full]
    congr 2
    exact Cg.readN_congr fun i hi => hm.mem _ (Cg.ok_iff.mp hok i hi)
  | int t =>
    simp only [loadV, Option.map_eq_some_iff] at hl
    obtain ⟨x, hl, rfl⟩ := hl
    refine ⟨?_, Cg.loadC_inV hl⟩
    refine h.piece hc (L := [.a0]) (by decide) ?_
    intro s1 hm hr
    have hr : Rep .full a (s1.x.r .a0) := hr
    obtain ⟨x2, h1, h2, h3, h4⟩ := Cg.exec_load env.rv s1.x t
    refine ⟨x2, h1, h2, h4, ?_⟩
    show Rep .full x (x2.r .a0)
    rw [h3, hr.full]
    exact Cg.load_correct hl hm.mem

theorem res_var (hw : Surr E B env P) (x : Var) {gs : GS} {d m s pc a} (he : Cg.varAddrC E x m = some a)
    (hc : CodeAt P pc (lift (Cg.varAddr x gs).1)) (hm : Match E B d m s.x) :
    Res F E B env P d pc (lift (Cg.varAddr x gs).1).length s (.int a.toNat) m := by
  obtain ⟨x', g1, g2, g3, g4⟩ := Cg.res_var hw.world x he hc.proj hm
  obtain ⟨f', g5⟩ := runs_rv (F := F) hw.stuck g1 s.f
  exact ⟨⟨x', f'⟩, by rw [length_lift]; exact g5, g2, g3, g4⟩

theorem good_var (hw : Surr E B env P) (t : Ty) (x : Var) : Good F E B env P (.var t x) := by
  intro ad gs c gs' m v m' pc s hs hn hg he hc hm
  simp only [gen, Option.some.injEq, Prod.mk.injEq] at hg
  simp only [eval, bindSome] at he
  obtain ⟨a, e1, e2⟩ := he
  obtain ⟨rfl, rfl⟩ := hg
  cases ad
  · simp only [Bool.false_eq_true, if_false, bindSome] at *
    obtain ⟨w, e2, e3⟩ := e2
    simp only [Option.some.injEq, Prod.mk.injEq] at e3
    obtain ⟨rfl, rfl⟩ := e3
    have := res_var (F := F) hw x e1 hc.left hm
    exact this.load (by rw [Cg.adr_toNat]; exact e2) hc.right
  · simp only [if_true, Option.some.injEq, Prod.mk.injEq] at *
    obtain ⟨rfl, rfl⟩ := e2
    exact ⟨res_var hw x e1 hc hm, _, rfl, Cg.adr_range a⟩

theorem toI_some {v : Val} {a : Int} (h : v.toI = some a) : v = .int a := by
  cases v <;> simp_all [Val.toI]

theorem good_member (t : Ty) (off : Int) {e : Expr} (ih : Good F E B env P e) : Good F E B env P (.member t off e) := by
  intro ad gs c gs' m v m' pc s hs hn hg he hc hm
  simp only [gen, bindSome] at hg
  simp only [eval, bindSome] at he
  obtain ⟨⟨c1, s1⟩, h1, h2⟩ := hg
  obtain ⟨⟨a, m1⟩, e1, a', e2, e3⟩ := he
  have e2 := toI_some e2
  dsimp only at e2
  subst e2
  simp only [Option.some.injEq, Prod.mk.injEq] at h2
  obtain ⟨rfl, rfl⟩ := h2
  simp only [simple, Bool.and_eq_true] at hs
  have key : CodeAt P pc (c1 ++ lift (Cg.addOffset .a0 off)) →
      Res F E B env P gs.depth pc (c1 ++ lift (Cg.addOffset .a0 off)).length s (.int (Cg.adr a' + BitVec.ofInt 64 off).toNat) m1 := by
    intro hc
    refine (ih _ _ _ _ _ _ _ _ _ hs.1 hn h1 e1 hc.left hm).1.piece hc.right (L := [.a0, .t0]) (by decide) ?_
    intro s1 hm hr
    have hr : Rep .full a' (s1.x.r .a0) := hr
    obtain ⟨x2, h1, h2, h3, h4⟩ := Cg.exec_addOffset env.rv s1.x .a0 off (by decide)
    refine ⟨x2, h1, h2, h4, ?_⟩
    show Rep .full _ (x2.r .a0)
    rw [h3, hr.full]; exact Cg.rep_addr _
  cases ad
  · simp only [Bool.false_eq_true, if_false, bindSome] at *
    obtain ⟨w, e3, e4⟩ := e3
    simp only [Option.some.injEq, Prod.mk.injEq] at e4
    obtain ⟨rfl, rfl⟩ := e4
    exact (key hc.left).load (by rw [Cg.adr_toNat]; exact e3) hc.right
  · simp only [if_true, Option.some.injEq, Prod.mk.injEq] at *
    obtain ⟨rfl, rfl⟩ := e3
    exact ⟨key hc, _, rfl, Cg.adr_range _⟩

theorem inV_ptr {t : Cg.Ty} {a : Int} (ht : (t.hasBase || t == .func) = true) (h : Cg.inV t a) : 0 ≤ a ∧ a < 2 ^ 64 := by
  cases t <;> simp only [Cg.Ty.hasBase, Bool.false_or, Bool.true_or, beq_iff_eq, reduceCtorEq] at ht
  · exact of_decide_eq_true h
  · exact h
  · exact h

theorem good_deref (t : Ty) {e : Expr} (ih : Good F E B env P e) : Good F E B env P (.deref t e) := by
  intro ad gs c gs' m v m' pc s hs hn hg he hc hm
  simp only [gen, bindSome] at hg
  simp only [eval, bindSome] at he
  obtain ⟨⟨c1, s1⟩, h1, h2⟩ := hg
  obtain ⟨⟨a, m1⟩, e1, a', e2, e3⟩ := he
  have e2 := toI_some e2
  dsimp only at e2
  subst e2
  simp only [Option.some.injEq, Prod.mk.injEq] at h2
  obtain ⟨rfl, rfl⟩ := h2
  simp only [simple, Bool.and_eq_true] at hs
  cases ad
  · simp only [Bool.false_eq_true, if_false, bindSome] at *
    obtain ⟨w, e3, e4⟩ := e3
    simp only [Option.some.injEq, Prod.mk.injEq] at e4
    obtain ⟨rfl, rfl⟩ := e4
    exact (ih _ _ _ _ _ _ _ _ _ hs.1 hn h1 e1 hc.left hm).1.load e3 hc.right
  · simp only [if_true, Option.some.injEq, Prod.mk.injEq] at *
    obtain ⟨rfl, rfl⟩ := e3
    obtain ⟨g1, g2⟩ := ih _ _ _ _ _ _ _ _ _ hs.1 hn h1 e1 hc hm
    simp only [Bool.false_eq_true, if_false] at g2
    refine ⟨g1, a', rfl, ?_⟩
    have hp := hs.2
    revert g2 hp
    cases e.ty with
    | int t => exact fun g2 hp => inV_ptr hp g2
    | flt p => exact fun g2 hp => by simp [Ty.isPtr] at hp

theorem good_addr {e : Expr} (ih : Good F E B env P e) : Good F E B env P (.addr e) := by
  intro ad gs c gs' m v m' pc s hs hn hg he hc hm
  simp only [gen, eval] at hg he
  split at hg
  · simp at hg
  · rename_i had
    simp only [had, Bool.false_eq_true, if_false] at he ⊢
    simp only [simple, Bool.and_eq_true] at hs
    obtain ⟨g1, a, rfl, g2⟩ := ih _ _ _ _ _ _ _ _ _ hs.2 hn hg he hc hm
    exact ⟨g1, decide_eq_true g2⟩

theorem good_comma {l r : Expr} (il : Good F E B env P l) (ir : Good F E B env P r) : Good F E B env P (.comma l r) := by
  intro ad gs c gs' m v m' pc s hs hn hg he hc hm
  simp only [gen, bindSome] at hg
  simp only [eval, bindSome] at he
  obtain ⟨⟨c1, s1⟩, h1, ⟨c2, s2⟩, h2, h3⟩ := hg
  obtain ⟨⟨a, m1⟩, e1, e2⟩ := he
  simp only [Option.some.injEq, Prod.mk.injEq] at h3 h2
  obtain ⟨rfl, rfl⟩ := h3
  simp only [simple, Bool.and_eq_true] at hs
  simp only [need] at hn
  have hd := (gen_depth l _ _ _ _ h1).1
  obtain ⟨⟨t1, a1, a2, a3, a4⟩, _⟩ := il _ _ _ _ _ _ _ _ _ hs.1 (by omega) h1 e1 hc.left hm
  rw [← hd] at e2 a2
  obtain ⟨⟨t2, b1, b2, b3, b4⟩, b5⟩ := ir _ _ _ _ _ _ _ _ _ hs.2 (by omega) h2 e2 hc.right a2
  rw [hd] at b2 b4
  refine ⟨⟨t2, ?_, b2, b3, a4.trans b4⟩, b5⟩
  rw [List.length_append, ← Nat.add_assoc]
  exact a1.trans b1

end Toycc.Fp
