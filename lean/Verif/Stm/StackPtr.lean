import Verif.Cg.StackPtr
import Verif.Stm.Labels
/-! Stack heights in the code of statements: all labels of statements are at the height of the function body. -/
namespace Toycc.Stm
open Toycc.Rv Toycc.Cg

/-- Not a label numbered by `count()`. -/
def unnum : Label → Bool
  | .gen _ _ => false
  | _ => true

/-- The labels the parser put into a statement are not numbered by `count()`. -/
def Stmt.unnum : Stmt → Bool
  | .skip => true
  | .seq a b => a.unnum && b.unnum
  | .expr _ => true
  | .ifs _ t e => t.unnum && e.unnum
  | .loop _ _ _ body b k => body.unnum && Stm.unnum b && Stm.unnum k
  | .doW body _ b k => body.unnum && Stm.unnum b && Stm.unnum k
  | .switch _ cs d body b => body.unnum && cs.all (fun c => Stm.unnum c.lbl) && d.all Stm.unnum && Stm.unnum b
  | .label l s => Stm.unnum l && s.unnum
  | .goto (.lab l) => Stm.unnum l
  | .goto (.name _) => true
  | .ret _ => true

/-- Parser states with such labels only. -/
structure UnnumPS (s : PS) : Prop where
  sw : ∀ cs d, s.sw = some (cs, d) → cs.all (fun c => unnum c.lbl) = true ∧ d.all unnum = true
  labels : ∀ p ∈ s.labels, unnum p.2 = true

theorem elab_unnum : ∀ (s : SStmt) (brk cont : Option Label) (a : PS) (st : Stmt) (b : PS), elabS brk cont s a = some (st, b) →
    brk.all unnum = true → cont.all unnum = true → UnnumPS a → st.unnum = true ∧ UnnumPS b := by
  intro s
  induction s with
  | skip | expr e | ret e | goto n =>
    intro brk cont a st b h _ _ ha
    simp only [elabS, Option.some.injEq, Prod.mk.injEq] at h
    obtain ⟨rfl, rfl⟩ := h
    exact ⟨rfl, ha⟩
  | seq x y ix iy | ifs _ x y ix iy =>
    intro brk cont a st b h hb hk ha
    simp only [elabS, bindSome] at h
    obtain ⟨⟨x1, s1⟩, h1, ⟨y1, s2⟩, h2, h3⟩ := h
    simp only [Option.some.injEq, Prod.mk.injEq] at h3
    obtain ⟨rfl, rfl⟩ := h3
    obtain ⟨u1, v1⟩ := ix _ _ _ _ _ h1 hb hk ha
    obtain ⟨u2, v2⟩ := iy _ _ _ _ _ h2 hb hk v1
    exact ⟨by simp only [Stmt.unnum, u1, u2, Bool.and_self], v2⟩
  | loop i c n x ix =>
    intro brk cont a st b h hb hk ha
    simp only [elabS, bindSome, PS.fresh] at h
    obtain ⟨⟨x1, s1⟩, h1, h3⟩ := h
    simp only [Option.some.injEq, Prod.mk.injEq] at h3
    obtain ⟨rfl, rfl⟩ := h3
    obtain ⟨u1, v1⟩ := ix _ _ _ _ _ h1 rfl rfl ⟨ha.sw, ha.labels⟩
    exact ⟨by simp only [Stmt.unnum, u1, unnum, Bool.and_self], v1⟩
  | doW x c ix =>
    intro brk cont a st b h hb hk ha
    simp only [elabS, bindSome, PS.fresh] at h
    obtain ⟨⟨x1, s1⟩, h1, h3⟩ := h
    simp only [Option.some.injEq, Prod.mk.injEq] at h3
    obtain ⟨rfl, rfl⟩ := h3
    obtain ⟨u1, v1⟩ := ix _ _ _ _ _ h1 rfl rfl ⟨ha.sw, ha.labels⟩
    exact ⟨by simp only [Stmt.unnum, u1, unnum, Bool.and_self], v1⟩
  | switch c x ix =>
    intro brk cont a st b h hb hk ha
    simp only [elabS, bindSome, PS.fresh] at h
    obtain ⟨⟨x1, s1⟩, h1, ⟨cs, d⟩, h2, h3⟩ := h
    simp only [Option.some.injEq, Prod.mk.injEq] at h3
    obtain ⟨rfl, rfl⟩ := h3
    obtain ⟨u1, v1⟩ := ix _ _ _ _ _ h1 rfl hk ⟨by rintro cs d ⟨⟩; exact ⟨rfl, rfl⟩, ha.labels⟩
    obtain ⟨w1, w2⟩ := v1.sw _ _ h2
    exact ⟨by rw [Stmt.unnum, u1, w1, w2]; rfl, ha.sw, v1.labels⟩
  | case lo hi x ix =>
    intro brk cont a st b h hb hk ha
    simp only [elabS, bindSome, PS.fresh] at h
    obtain ⟨sw0, h0, h⟩ := h
    split at h
    · simp at h
    simp only [bindSome] at h
    obtain ⟨⟨x1, s1⟩, h1, ⟨cs, d⟩, h2, h3⟩ := h
    simp only [Option.some.injEq, Prod.mk.injEq] at h3
    obtain ⟨rfl, rfl⟩ := h3
    obtain ⟨u1, v1⟩ := ix _ _ _ _ _ h1 hb hk ⟨ha.sw, ha.labels⟩
    obtain ⟨w1, w2⟩ := v1.sw _ _ h2
    refine ⟨by simp only [Stmt.unnum, u1, unnum, Bool.and_self], ?_, v1.labels⟩
    rintro cs' d' ⟨⟩
    exact ⟨by rw [List.all_cons, w1]; rfl, w2⟩
  | dflt x ix =>
    intro brk cont a st b h hb hk ha
    simp only [elabS, bindSome, PS.fresh] at h
    obtain ⟨sw0, h0, ⟨x1, s1⟩, h1, ⟨cs, d⟩, h2, h3⟩ := h
    simp only [Option.some.injEq, Prod.mk.injEq] at h3
    obtain ⟨rfl, rfl⟩ := h3
    obtain ⟨u1, v1⟩ := ix _ _ _ _ _ h1 hb hk ⟨ha.sw, ha.labels⟩
    obtain ⟨w1, w2⟩ := v1.sw _ _ h2
    refine ⟨by simp only [Stmt.unnum, u1, unnum, Bool.and_self], ?_, v1.labels⟩
    rintro cs' d' ⟨⟩
    exact ⟨w1, rfl⟩
  | label n x ix =>
    intro brk cont a st b h hb hk ha
    simp only [elabS, bindSome, PS.fresh] at h
    obtain ⟨⟨x1, s1⟩, h1, h3⟩ := h
    simp only [Option.some.injEq, Prod.mk.injEq] at h3
    obtain ⟨rfl, rfl⟩ := h3
    obtain ⟨u1, v1⟩ := ix _ _ _ _ _ h1 hb hk ⟨ha.sw, ha.labels⟩
    refine ⟨by simp only [Stmt.unnum, u1, unnum, Bool.and_self], v1.sw, ?_⟩
    intro p hp
    rcases List.mem_cons.mp hp with rfl | hp
    · rfl
    · exact v1.labels p hp
  | brk =>
    intro brk cont a st b h hb hk ha
    simp only [elabS, bindSome, Option.some.injEq, Prod.mk.injEq] at h
    obtain ⟨l, rfl, rfl, rfl⟩ := h
    exact ⟨hb, ha⟩
  | cont =>
    intro brk cont a st b h hb hk ha
    simp only [elabS, bindSome, Option.some.injEq, Prod.mk.injEq] at h
    obtain ⟨l, rfl, rfl, rfl⟩ := h
    exact ⟨hk, ha⟩

theorem resolve_unnum {L : List (String × Label)} (hL : ∀ p ∈ L, unnum p.2 = true) : ∀ (st st' : Stmt), resolve L st = some st' →
    st.unnum = true → st'.unnum = true := by
  intro st
  induction st with
  | skip | expr e | ret e => intro st' h hs; simp only [resolve, Option.some.injEq] at h; subst h; exact hs
  | seq x y ix iy | ifs _ x y ix iy =>
    intro st' h hs
    simp only [resolve, bindSome, Option.some.injEq] at h
    obtain ⟨x', h1, y', h2, rfl⟩ := h
    simp only [Stmt.unnum, Bool.and_eq_true] at hs ⊢
    exact ⟨ix _ h1 hs.1, iy _ h2 hs.2⟩
  | loop _ _ _ x b k ix | doW x _ b k ix =>
    intro st' h hs
    simp only [resolve, bindSome, Option.some.injEq] at h
    obtain ⟨x', h1, rfl⟩ := h
    simp only [Stmt.unnum, Bool.and_eq_true] at hs ⊢
    exact ⟨⟨ix _ h1 hs.1.1, hs.1.2⟩, hs.2⟩
  | switch _ cs d x b ix =>
    intro st' h hs
    simp only [resolve, bindSome, Option.some.injEq] at h
    obtain ⟨x', h1, rfl⟩ := h
    simp only [Stmt.unnum, Bool.and_eq_true] at hs ⊢
    exact ⟨⟨⟨ix _ h1 hs.1.1.1, hs.1.1.2⟩, hs.1.2⟩, hs.2⟩
  | label l x ix =>
    intro st' h hs
    simp only [resolve, bindSome, Option.some.injEq] at h
    obtain ⟨x', h1, rfl⟩ := h
    simp only [Stmt.unnum, Bool.and_eq_true] at hs ⊢
    exact ⟨hs.1, ix _ h1 hs.2⟩
  | goto t =>
    intro st' h hs
    cases t with
    | lab l => simp only [resolve, Option.some.injEq] at h; subst h; exact hs
    | name n =>
      simp only [resolve, bindSome, Option.some.injEq] at h
      obtain ⟨⟨_, l⟩, h1, rfl⟩ := h
      exact hL _ (List.mem_of_find?_eq_some h1)

/-- As `Bal`, for code in which other labels are at the height `d`. -/
structure SBal (d a b : Nat) (c : List Instr) : Prop where
  le : a ≤ b
  heights : ∃ L, chk (some d) L a b c d = some d
  closed : Closed c

theorem SBal.of {d a b c} (h : Bal a b c d d) : SBal d a b c := by
  obtain ⟨L, hL⟩ := h.heights
  exact ⟨h.le, ⟨L, chk_widen (Nat.le_refl _) (Nat.le_refl _) (fun _ _ _ => rfl) (.inl rfl) hL⟩, h.closed⟩

theorem SBal.append {d a b e c1 c2} (x : SBal d a b c1) (y : SBal d b e c2) : SBal d a e (c1 ++ c2) := by
  obtain ⟨L1, k1⟩ := x.heights
  obtain ⟨L2, k2⟩ := y.heights
  refine ⟨Nat.le_trans x.le y.le, ⟨fun n => if n < b then L1 n else L2 n, ?_⟩, x.closed.append y.closed⟩
  rw [chk_append, chk_widen (Nat.le_refl _) y.le (fun n _ hn => by simp [hn]) (.inr rfl) k1, Option.bind_some]
  exact chk_widen x.le (Nat.le_refl _) (fun n hn _ => by simp [show ¬ n < b by omega]) (.inr rfl) k2

theorem SBal.plain {d a c} (hc : c.all plain = true) : SBal d a a c := .of (.plain hc)

/-- Labels and jumps of the parser. -/
theorem SBal.lab {d a} {i : Instr} {l : Label} (hl : unnum l = true) (hi : i = .label l ∨ i = .j l ∨ (∃ r, i = .bnez r l) ∨ (∃ r, i = .beqz r l) ∨
    (∃ r q, i = .beq r q l) ∨ ∃ r q, i = .bleu r q l) : SBal d a a [i] := by
  have hok : labOk (some d) (fun _ => 0) a a d l = true := by
    cases l <;> simp_all [labOk, unnum]
  have ht : ∀ p n, target i ≠ some (.gen p n) := by
    intro p n h
    have : target i = none ∨ target i = some l := by
      rcases hi with rfl | rfl | ⟨_, rfl⟩ | ⟨_, rfl⟩ | ⟨_, _, rfl⟩ | ⟨_, _, rfl⟩ <;> simp [target]
    rcases this with h1 | h1
    · rw [h1] at h; cases h
    · rw [h1, Option.some.injEq] at h; rw [h] at hl; cases hl
  refine ⟨Nat.le_refl _, ⟨fun _ => 0, ?_⟩, fun j hj p n h => ?_⟩
  · rcases hi with rfl | rfl | ⟨_, rfl⟩ | ⟨_, rfl⟩ | ⟨_, _, rfl⟩ | ⟨_, _, rfl⟩ <;> simp [chk, stp, hok]
  · simp only [List.mem_cons, List.not_mem_nil, or_false] at hj
    subst hj
    exact absurd h (ht p n)

theorem SBal.widen {d a b a' b' c} (x : SBal d a b c) (h1 : a' ≤ a) (h2 : b ≤ b') : SBal d a' b' c := by
  obtain ⟨L, k⟩ := x.heights
  exact ⟨Nat.le_trans h1 (Nat.le_trans x.le h2), ⟨L, chk_widen h1 h2 (fun _ _ _ => rfl) (.inr rfl) k⟩, x.closed⟩

/-- The heights used for several pieces that share the label number `k`. -/
theorem SBal.four {d k m n o b : Nat} {c1 c2 c3 c4 : List Instr} (x : SBal d (k + 1) m c1) (y : SBal d m n c2) (z : SBal d n o c3)
    (w : SBal d o b c4) : k < b ∧ ∃ L, L k = d ∧ chk (some d) L k b c1 d = some d ∧ chk (some d) L k b c2 d = some d ∧
      chk (some d) L k b c3 d = some d ∧ chk (some d) L k b c4 d = some d := by
  obtain ⟨L1, k1⟩ := x.heights
  obtain ⟨L2, k2⟩ := y.heights
  obtain ⟨L3, k3⟩ := z.heights
  obtain ⟨L4, k4⟩ := w.heights
  have e1 := x.le
  have e2 := y.le
  have e3 := z.le
  have e4 := w.le
  refine ⟨by omega, fun i => if i = k then d else if i < m then L1 i else if i < n then L2 i else if i < o then L3 i else L4 i, by simp, ?_, ?_, ?_, ?_⟩
  · exact chk_widen (by omega) (by omega) (fun i h1 h2 => by simp only [show ¬ i = k by omega, h2, if_true, if_false]) (.inr rfl) k1
  · exact chk_widen (by omega) (by omega) (fun i h1 h2 => by simp only [show ¬ i = k by omega, show ¬ i < m by omega, h2, if_true, if_false]) (.inr rfl) k2
  · exact chk_widen (by omega) (by omega) (fun i h1 h2 => by
      simp only [show ¬ i = k by omega, show ¬ i < m by omega, show ¬ i < n by omega, h2, if_true, if_false]) (.inr rfl) k3
  · exact chk_widen (by omega) (by omega) (fun i h1 h2 => by
      simp only [show ¬ i = k by omega, show ¬ i < m by omega, show ¬ i < n by omega, show ¬ i < o by omega, if_false]) (.inr rfl) k4

theorem caseTests_bal {d a} : ∀ cs : List Case, cs.all (fun c => unnum c.lbl) = true → SBal d a a (cs.flatMap caseTest)
  | [], _ => .plain rfl
  | c :: r, h => by
    rw [List.all_cons, Bool.and_eq_true] at h
    rw [List.flatMap_cons]
    refine SBal.append (b := a) ?_ (caseTests_bal r h.2)
    unfold caseTest
    split
    · exact (SBal.plain (c := [Instr.li .a1 c.lo]) rfl).append (.lab h.1 (.inr (.inr (.inr (.inr (.inl ⟨_, _, rfl⟩))))))
    · exact (SBal.plain (c := [Instr.mv .t1 .a0, .li .t0 c.lo, .op .sub .t1 .t1 .t0, .li .t2 (c.hi - c.lo)]) rfl).append
        (.lab h.1 (.inr (.inr (.inr (.inr (.inr ⟨_, _, rfl⟩))))))

theorem genList_bal : ∀ (es : List Expr) (gs : GS) (c : List Instr) (gs' : GS), genList es gs = some (c, gs') → SBal gs.depth gs.cnt gs'.cnt c
  | [], gs, c, gs', h => by
    simp only [genList, Option.some.injEq, Prod.mk.injEq] at h; obtain ⟨rfl, rfl⟩ := h; exact .plain rfl
  | e :: r, gs, c, gs', h => by
    simp only [genList, bindSome, Option.some.injEq, Prod.mk.injEq] at h
    obtain ⟨⟨c1, s1⟩, h1, ⟨c2, s2⟩, h2, rfl, rfl⟩ := h
    have := genList_bal r _ _ _ h2
    rw [(gen_depth e _ _ _ _ h1).1] at this
    exact (SBal.of (gen_bal e _ _ _ _ h1)).append this

theorem genCond_bal {b : Label} (hb : unnum b = true) : ∀ (e : Option Expr) (gs : GS) (c : List Instr) (gs' : GS), genCond b e gs = some (c, gs') →
    SBal gs.depth gs.cnt gs'.cnt c
  | none, gs, c, gs', h => by
    simp only [genCond, Option.some.injEq, Prod.mk.injEq] at h; obtain ⟨rfl, rfl⟩ := h; exact .plain rfl
  | some e, gs, c, gs', h => by
    simp only [genCond, bindSome, Option.some.injEq, Prod.mk.injEq] at h
    obtain ⟨⟨c1, s1⟩, h1, rfl, rfl⟩ := h
    exact ((SBal.of (gen_bal e _ _ _ _ h1)).append (.plain rfl)).append (.lab hb (.inr (.inr (.inl ⟨_, rfl⟩))))

/-- The code of a statement keeps the stack height. -/
theorem genStmt_bal (fn : String) : ∀ (st : Stmt) (gs : GS) (c : List Instr) (gs' : GS), genStmt fn st gs = some (c, gs') →
    st.unnum = true → SBal gs.depth gs.cnt gs'.cnt c := by
  intro st
  induction st with
  | skip => intro gs c gs' h _; simp only [genStmt, Option.some.injEq, Prod.mk.injEq] at h; obtain ⟨rfl, rfl⟩ := h; exact .plain rfl
  | expr e => intro gs c gs' h _; simp only [genStmt] at h; exact .of (gen_bal e _ _ _ _ h)
  | seq x y ix iy =>
    intro gs c gs' h hu
    simp only [genStmt, bindSome, Option.some.injEq, Prod.mk.injEq] at h
    obtain ⟨⟨c1, s1⟩, h1, ⟨c2, s2⟩, h2, rfl, rfl⟩ := h
    simp only [Stmt.unnum, Bool.and_eq_true] at hu
    have b2 := iy _ _ _ h2 hu.2
    rw [(genStmt_depth _ _ _ _ h1).1] at b2
    exact (ix _ _ _ h1 hu.1).append b2
  | ifs e x y ix iy =>
    intro gs c gs' h hu
    simp only [genStmt, bindSome, Option.some.injEq, Prod.mk.injEq] at h
    obtain ⟨⟨c1, s1⟩, h1, ⟨c2, s2⟩, h2, ⟨c3, s3⟩, h3, rfl, rfl⟩ := h
    simp only [Stmt.unnum, Bool.and_eq_true] at hu
    have e1 : s1.depth = gs.depth := (gen_depth _ _ _ _ _ h1).1
    have e2 := (genStmt_depth _ _ _ _ h2).1
    have b1 : SBal gs.depth (gs.cnt + 1) s1.cnt c1 := .of (gen_bal e _ _ _ _ h1)
    have b2 := ix _ _ _ h2 hu.1
    have b3 := iy _ _ _ h3 hu.2
    rw [e2] at b3
    rw [e1] at b2 b3
    obtain ⟨hb, L, hk, k1, k2, k3, _⟩ := SBal.four b1 b2 b3 (.plain (c := []) rfl)
    refine ⟨Nat.le_of_lt hb, ⟨L, ?_⟩, ?_⟩
    · simp only [chk_append, k1, Option.bind_some, cmpZero, chk, stp, lbl, labOk, hk]
      simp [hb, k2, k3]
    · refine jumps_closed b1.closed b2.closed b3.closed ?_ ?_ ?_ ?_
      · intro i hi; simp [hi]
      · intro i hi; simp [hi]
      · intro i hi; simp [hi]
      · intro i hi
        simp only [List.mem_append, cmpZero, List.mem_cons, List.not_mem_nil, or_false] at hi
        rcases hi with (((((hi | hi) | hi) | hi) | hi | hi) | hi) | hi
        all_goals first
          | exact .inl hi
          | exact .inr (.inl hi)
          | exact .inr (.inr (.inl hi))
          | (subst hi; simp [target])
  | loop init e inc x b k ix =>
    intro gs c gs' h hu
    simp only [genStmt, bindSome, Option.some.injEq, Prod.mk.injEq] at h
    obtain ⟨⟨c0, s0⟩, h0, ⟨c1, s1⟩, h1, ⟨c2, s2⟩, h2, ⟨c3, s3⟩, h3, rfl, rfl⟩ := h
    simp only [Stmt.unnum, Bool.and_eq_true] at hu
    have e0 : s0.depth = gs.depth := (genList_depth _ _ _ _ h0).1
    have e1 := (genCond_depth h1).1
    have e2 := (genStmt_depth _ _ _ _ h2).1
    have b0 : SBal gs.depth (gs.cnt + 1) s0.cnt c0 := genList_bal _ _ _ _ h0
    have b1 := genCond_bal hu.1.2 _ _ _ _ h1
    have b2 := (ix _ _ _ h2 hu.1.1).append (.lab (i := .label k) hu.2 (.inl rfl))
    have b3 := genList_bal _ _ _ _ h3
    rw [e2] at b3
    rw [e1] at b2 b3
    rw [e0] at b1 b2 b3
    obtain ⟨hb, L, hk, k0, k1, k2, k3⟩ := SBal.four b0 b1 b2 b3
    rw [show c0 ++ [Instr.label (lbl "begin" gs.cnt)] ++ c1 ++ c2 ++ [Instr.label k] ++ c3 ++ [Instr.j (lbl "begin" gs.cnt), Instr.label b] =
      (c0 ++ [Instr.label (lbl "begin" gs.cnt)] ++ c1 ++ (c2 ++ [Instr.label k]) ++ c3 ++ [Instr.j (lbl "begin" gs.cnt)]) ++ [Instr.label b] by simp]
    refine SBal.append (b := s3.cnt) ⟨Nat.le_of_lt hb, ⟨L, ?_⟩, ?_⟩ (.lab hu.1.2 (.inl rfl))
    · generalize c2 ++ [Instr.label k] = c2' at *
      simp only [chk_append, k0, Option.bind_some, chk, stp, lbl, labOk, hk]
      simp [hb, k1, k2, k3]
    · refine jumps_closed (b0.closed.append b1.closed) b2.closed b3.closed ?_ ?_ ?_ ?_
      · intro i hi; rw [List.mem_append] at hi; rcases hi with hi | hi <;> simp [hi]
      · intro i hi; rw [List.mem_append] at hi; rcases hi with hi | hi
        · simp [hi]
        · simp only [List.mem_cons, List.not_mem_nil, or_false] at hi; subst hi; simp
      · intro i hi; simp [hi]
      · intro i hi
        simp only [List.mem_append, List.mem_cons, List.not_mem_nil, or_false] at hi ⊢
        rcases hi with ((((hi | hi) | hi) | hi) | hi) | hi
        all_goals first
          | exact .inl (.inl hi)
          | exact .inl (.inr hi)
          | exact .inr (.inl hi)
          | exact .inr (.inr (.inl hi))
          | (subst hi; simp [target])
  | doW x e b k ix =>
    intro gs c gs' h hu
    simp only [genStmt, bindSome, Option.some.injEq, Prod.mk.injEq] at h
    obtain ⟨⟨c1, s1⟩, h1, ⟨c2, s2⟩, h2, rfl, rfl⟩ := h
    simp only [Stmt.unnum, Bool.and_eq_true] at hu
    have e1 : s1.depth = gs.depth := (genStmt_depth _ _ _ _ h1).1
    have b1 : SBal gs.depth (gs.cnt + 1) s1.cnt (c1 ++ [Instr.label k]) := (ix _ _ _ h1 hu.1.1).append (.lab hu.2 (.inl rfl))
    have b2 := SBal.of (gen_bal e _ _ _ _ h2)
    rw [e1] at b2
    obtain ⟨hb, L, hk, k1, k2, _, _⟩ := SBal.four b1 b2 (.plain (c := []) rfl) (.plain (c := []) rfl)
    rw [show [Instr.label (lbl "begin" gs.cnt)] ++ c1 ++ [Instr.label k] ++ c2 ++ cmpZero ++ [Instr.beqz .a0 (lbl "begin" gs.cnt), Instr.label b] =
      ([Instr.label (lbl "begin" gs.cnt)] ++ (c1 ++ [Instr.label k]) ++ c2 ++ cmpZero ++ [Instr.beqz .a0 (lbl "begin" gs.cnt)]) ++ [Instr.label b] by simp]
    refine SBal.append (b := s2.cnt) ⟨Nat.le_of_lt hb, ⟨L, ?_⟩, ?_⟩ (.lab hu.1.2 (.inl rfl))
    · generalize c1 ++ [Instr.label k] = c1' at *
      simp only [chk_append, Option.bind_some, cmpZero, chk, stp, lbl, labOk, hk]
      simp [hb, k1, k2]
    · refine jumps_closed b1.closed b2.closed (Closed.plain (c := []) rfl) ?_ ?_ ?_ ?_
      · intro i hi; rw [List.mem_append] at hi; rcases hi with hi | hi
        · simp [hi]
        · simp only [List.mem_cons, List.not_mem_nil, or_false] at hi; subst hi; simp
      · intro i hi; simp [hi]
      · intro i hi; simp at hi
      · intro i hi
        simp only [List.mem_append, cmpZero, List.mem_cons, List.not_mem_nil, or_false] at hi ⊢
        rcases hi with (((hi | hi) | hi) | hi) | hi
        all_goals first
          | exact .inl hi
          | exact .inr (.inl hi)
          | (subst hi; simp [target])
  | switch e cs d x b ix =>
    intro gs c gs' h hu
    simp only [genStmt, bindSome, Option.some.injEq, Prod.mk.injEq] at h
    obtain ⟨⟨c1, s1⟩, h1, ⟨c2, s2⟩, h2, rfl, rfl⟩ := h
    simp only [Stmt.unnum, Bool.and_eq_true] at hu
    have b2 := ix _ _ _ h2 hu.1.1.1
    rw [(gen_depth _ _ _ _ _ h1).1] at b2
    have bd : SBal gs.depth s1.cnt s1.cnt (dfltJump d) := by
      cases d with
      | none => exact .plain rfl
      | some l => exact .lab (by simpa using hu.1.2) (.inr (.inl rfl))
    exact (((((SBal.of (gen_bal e _ _ _ _ h1)).append (caseTests_bal cs hu.1.1.2)).append bd).append (.lab hu.2 (.inr (.inl rfl)))).append b2).append
      (.lab hu.2 (.inl rfl))
  | label l x ix =>
    intro gs c gs' h hu
    simp only [genStmt, bindSome, Option.some.injEq, Prod.mk.injEq] at h
    obtain ⟨⟨c1, s1⟩, h1, rfl, rfl⟩ := h
    simp only [Stmt.unnum, Bool.and_eq_true] at hu
    exact (SBal.lab (i := .label l) hu.1 (.inl rfl)).append (ix _ _ _ h1 hu.2)
  | goto t =>
    intro gs c gs' h hu
    cases t with
    | name n => simp [genStmt] at h
    | lab l =>
      simp only [genStmt, Option.some.injEq, Prod.mk.injEq] at h
      obtain ⟨rfl, rfl⟩ := h
      exact .lab hu (.inr (.inl rfl))
  | ret e =>
    intro gs c gs' h hu
    cases e with
    | none =>
      simp only [genStmt, Option.some.injEq, Prod.mk.injEq] at h
      obtain ⟨rfl, rfl⟩ := h
      exact .lab (l := .ret fn) rfl (.inr (.inl rfl))
    | some e =>
      simp only [genStmt, bindSome, Option.some.injEq, Prod.mk.injEq] at h
      obtain ⟨⟨c1, s1⟩, h1, rfl, rfl⟩ := h
      exact (SBal.of (gen_bal e _ _ _ _ h1)).append (.lab (l := .ret fn) rfl (.inr (.inl rfl)))

theorem body_bal {fn uid body gs code uid' gs'} (h : compileBody fn uid body gs = some (code, uid', gs')) :
    SBal gs.depth gs.cnt gs'.cnt code := by
  simp only [compileBody, genBody, elabBody, bindSome] at h
  obtain ⟨⟨st, u⟩, ⟨⟨st0, ps⟩, h0, st1, h1, h1'⟩, ⟨c', g⟩, ⟨⟨c, g'⟩, h2, h3⟩, h4⟩ := h
  simp only [Option.some.injEq, Prod.mk.injEq] at h3 h4 h1'
  obtain ⟨rfl, rfl⟩ := h1'
  obtain ⟨rfl, rfl⟩ := h3
  obtain ⟨rfl, rfl, rfl⟩ := h4
  obtain ⟨u1, v1⟩ := elab_unnum _ _ _ _ _ _ h0 rfl rfl ⟨by rintro _ _ ⟨⟩, by simp⟩
  have u2 := resolve_unnum v1.labels _ _ h1 u1
  refine ((genStmt_bal fn _ _ _ _ h2 u2).append ?_).append (.lab (l := .ret fn) rfl (.inl rfl))
  split <;> exact .plain rfl

end Toycc.Stm
