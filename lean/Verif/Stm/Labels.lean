import Verif.Stm.Body
import Verif.Cg.Labels
import Verif.Cg.Total
/-! Labels of statement code; when a body compiles. -/
namespace Toycc.Stm
open Toycc.Rv Toycc.Cg

/-- The labels the parser made for the statement. -/
def Stmt.labs : Stmt → List Label
  | .seq a b => a.labs ++ b.labs
  | .ifs _ a b => a.labs ++ b.labs
  | .loop _ _ _ s b k => b :: k :: s.labs
  | .doW s _ b k => b :: k :: s.labs
  | .switch _ _ _ s b => b :: s.labs
  | .label l s => l :: s.labs
  | _ => []

theorem resolve_labs {tbl : List (String × Label)} : ∀ (s s' : Stmt), resolve tbl s = some s' → s'.labs = s.labs := by
  intro s
  induction s with
  | skip => intro s' h; simp only [resolve, Option.some.injEq] at h; rw [← h]
  | seq a b ia ib =>
    intro s' h
    simp only [resolve, bindSome, Option.some.injEq] at h
    obtain ⟨a', h1, b', h2, rfl⟩ := h
    simp only [Stmt.labs, ia _ h1, ib _ h2]
  | expr => intro s' h; simp only [resolve, Option.some.injEq] at h; rw [← h]
  | ifs c a b ia ib =>
    intro s' h
    simp only [resolve, bindSome, Option.some.injEq] at h
    obtain ⟨a', h1, b', h2, rfl⟩ := h
    simp only [Stmt.labs, ia _ h1, ib _ h2]
  | loop i c inc b lb lk ib =>
    intro s' h
    simp only [resolve, bindSome, Option.some.injEq] at h
    obtain ⟨b', h2, rfl⟩ := h
    simp only [Stmt.labs, ib _ h2]
  | doW b c lb lk ib =>
    intro s' h
    simp only [resolve, bindSome, Option.some.injEq] at h
    obtain ⟨b', h2, rfl⟩ := h
    simp only [Stmt.labs, ib _ h2]
  | switch c cs d b lb ib =>
    intro s' h
    simp only [resolve, bindSome, Option.some.injEq] at h
    obtain ⟨b', h2, rfl⟩ := h
    simp only [Stmt.labs, ib _ h2]
  | label l' b ib =>
    intro s' h
    simp only [resolve, bindSome, Option.some.injEq] at h
    obtain ⟨b', h2, rfl⟩ := h
    simp only [Stmt.labs, ib _ h2]
  | goto t =>
    intro s' h
    cases t with
    | lab l' => simp only [resolve, Option.some.injEq] at h; rw [← h]
    | name n =>
      simp only [resolve, bindSome, Option.some.injEq] at h
      obtain ⟨⟨_, l'⟩, _, rfl⟩ := h
      rfl
  | ret => intro s' h; simp only [resolve, Option.some.injEq] at h; rw [← h]

/-- New unique names, each used once. -/
structure NewU (a b : Nat) (l : List Label) : Prop where
  nodup : l.Nodup
  range : ∀ x ∈ l, ∃ j, x = .uniq j ∧ a ≤ j ∧ j < b

theorem NewU.nil {a b} : NewU a b [] := ⟨by simp, by simp⟩

theorem NewU.mono {a b a' b' l} (h : NewU a b l) (h1 : a' ≤ a) (h2 : b ≤ b') : NewU a' b' l :=
  ⟨h.1, fun x hx => by obtain ⟨j, e, h3, h4⟩ := h.2 x hx; exact ⟨j, e, by omega, by omega⟩⟩

theorem NewU.append {a b c l r} (h1 : NewU a b l) (h2 : NewU b c r) (hab : a ≤ b) (hbc : b ≤ c) : NewU a c (l ++ r) := by
  refine ⟨?_, ?_⟩
  · rw [List.nodup_append]
    refine ⟨h1.1, h2.1, ?_⟩
    intro x hx y hy e
    subst e
    obtain ⟨j, rfl, _, h3⟩ := h1.2 x hx
    obtain ⟨j', e, h4, _⟩ := h2.2 _ hy
    cases e
    omega
  · intro x hx
    rcases List.mem_append.mp hx with hx | hx
    · exact (h1.mono (Nat.le_refl _) hbc).2 x hx
    · exact (h2.mono hab (Nat.le_refl _)).2 x hx

theorem NewU.cons {a b l} (h : NewU (a + 1) b l) (hb : a < b) : NewU a b (.uniq a :: l) := by
  have : NewU a (a + 1) [.uniq a] := ⟨by simp, by intro x hx; simp at hx; exact ⟨a, hx, by omega, by omega⟩⟩
  exact this.append h (by omega) hb

theorem elab_labs : ∀ (s : SStmt) (brk cont : Option Label) (a : PS) (st : Stmt) (b : PS), elabS brk cont s a = some (st, b) →
    NewU a.uid b.uid st.labs := by
  intro s
  induction s with
  | seq x y ix iy =>
    intro brk cont a st b h
    simp only [elabS, bindSome] at h
    obtain ⟨⟨x1, s1⟩, h1, ⟨y1, s2⟩, h2, h3⟩ := h
    simp only [Option.some.injEq, Prod.mk.injEq] at h3
    obtain ⟨rfl, rfl⟩ := h3
    exact (ix _ _ _ _ _ h1).append (iy _ _ _ _ _ h2) (elab_grow _ _ _ _ _ _ h1).uid (elab_grow _ _ _ _ _ _ h2).uid
  | ifs c x y ix iy =>
    intro brk cont a st b h
    simp only [elabS, bindSome] at h
    obtain ⟨⟨x1, s1⟩, h1, ⟨y1, s2⟩, h2, h3⟩ := h
    simp only [Option.some.injEq, Prod.mk.injEq] at h3
    obtain ⟨rfl, rfl⟩ := h3
    exact (ix _ _ _ _ _ h1).append (iy _ _ _ _ _ h2) (elab_grow _ _ _ _ _ _ h1).uid (elab_grow _ _ _ _ _ _ h2).uid
  | loop i c inc x ix =>
    intro brk cont a st b h
    simp only [elabS, bindSome, PS.fresh] at h
    obtain ⟨⟨x1, s1⟩, h1, h3⟩ := h
    simp only [Option.some.injEq, Prod.mk.injEq] at h3
    obtain ⟨rfl, rfl⟩ := h3
    have hu := (elab_grow _ _ _ _ _ _ h1).uid
    dsimp only at hu
    exact ((ix _ _ _ _ _ h1).cons (by omega)).cons (by omega)
  | doW x c ix =>
    intro brk cont a st b h
    simp only [elabS, bindSome, PS.fresh] at h
    obtain ⟨⟨x1, s1⟩, h1, h3⟩ := h
    simp only [Option.some.injEq, Prod.mk.injEq] at h3
    obtain ⟨rfl, rfl⟩ := h3
    have hu := (elab_grow _ _ _ _ _ _ h1).uid
    dsimp only at hu
    exact ((ix _ _ _ _ _ h1).cons (by omega)).cons (by omega)
  | switch c x ix =>
    intro brk cont a st b h
    simp only [elabS, bindSome, PS.fresh] at h
    obtain ⟨⟨x1, s1⟩, h1, ⟨cs, d⟩, h2, h3⟩ := h
    simp only [Option.some.injEq, Prod.mk.injEq] at h3
    obtain ⟨rfl, rfl⟩ := h3
    have hu := (elab_grow _ _ _ _ _ _ h1).uid
    dsimp only at hu
    exact (ix _ _ _ _ _ h1).cons (by omega)
  | case lo hi x ix =>
    intro brk cont a st b h
    simp only [elabS, bindSome, PS.fresh] at h
    obtain ⟨sw0, h0, h⟩ := h
    split at h
    · simp at h
    simp only [bindSome] at h
    obtain ⟨⟨x1, s1⟩, h1, ⟨cs, d⟩, h2, h3⟩ := h
    simp only [Option.some.injEq, Prod.mk.injEq] at h3
    obtain ⟨rfl, rfl⟩ := h3
    have hu := (elab_grow _ _ _ _ _ _ h1).uid
    dsimp only at hu
    exact (ix _ _ _ _ _ h1).cons (by omega)
  | dflt x ix =>
    intro brk cont a st b h
    simp only [elabS, bindSome, PS.fresh] at h
    obtain ⟨sw0, h0, ⟨x1, s1⟩, h1, ⟨cs, d⟩, h2, h3⟩ := h
    simp only [Option.some.injEq, Prod.mk.injEq] at h3
    obtain ⟨rfl, rfl⟩ := h3
    have hu := (elab_grow _ _ _ _ _ _ h1).uid
    dsimp only at hu
    exact (ix _ _ _ _ _ h1).cons (by omega)
  | label n x ix =>
    intro brk cont a st b h
    simp only [elabS, bindSome, PS.fresh] at h
    obtain ⟨⟨x1, s1⟩, h1, h3⟩ := h
    simp only [Option.some.injEq, Prod.mk.injEq] at h3
    obtain ⟨rfl, rfl⟩ := h3
    have hu := (elab_grow _ _ _ _ _ _ h1).uid
    dsimp only at hu
    exact (ix _ _ _ _ _ h1).cons (by omega)
  | brk =>
    intro brk cont a st b h
    simp only [elabS, bindSome, Option.some.injEq, Prod.mk.injEq] at h
    obtain ⟨l, rfl, rfl, rfl⟩ := h
    exact .nil
  | cont =>
    intro brk cont a st b h
    simp only [elabS, bindSome, Option.some.injEq, Prod.mk.injEq] at h
    obtain ⟨l, rfl, rfl, rfl⟩ := h
    exact .nil
  | _ =>
    intro brk cont a st b h
    simp only [elabS, Option.some.injEq, Prod.mk.injEq] at h
    obtain ⟨rfl, rfl⟩ := h
    exact .nil

/-! ### Labels of the code -/

/-- New labels of the code generator, each used once. -/
structure NewG (a b : Nat) (l : List Label) : Prop where
  nodup : l.Nodup
  range : ∀ x ∈ l, ∃ p j, x = .gen p j ∧ a ≤ j ∧ j < b

theorem NewG.nil {a b} : NewG a b [] := ⟨by simp, by simp⟩

theorem NewG.mono {a b a' b' l} (h : NewG a b l) (h1 : a' ≤ a) (h2 : b ≤ b') : NewG a' b' l :=
  ⟨h.1, fun x hx => by obtain ⟨p, j, e, h3, h4⟩ := h.2 x hx; exact ⟨p, j, e, by omega, by omega⟩⟩

theorem NewG.append {a b c l r} (h1 : NewG a b l) (h2 : NewG b c r) (hab : a ≤ b) (hbc : b ≤ c) : NewG a c (l ++ r) := by
  refine ⟨?_, ?_⟩
  · rw [List.nodup_append]
    refine ⟨h1.1, h2.1, ?_⟩
    intro x hx y hy e
    subst e
    obtain ⟨p, j, rfl, _, h3⟩ := h1.2 x hx
    obtain ⟨p', j', e, h4, _⟩ := h2.2 _ hy
    cases e
    omega
  · intro x hx
    rcases List.mem_append.mp hx with hx | hx
    · exact (h1.mono (Nat.le_refl _) hbc).2 x hx
    · exact (h2.mono hab (Nat.le_refl _)).2 x hx

theorem NewG.single {p a} : NewG a (a + 1) [lbl p a] := ⟨by simp, by intro x hx; simp at hx; exact ⟨p, a, hx, by omega, by omega⟩⟩

theorem NewG.two {p q a} (h : p ≠ q) : NewG a (a + 1) [lbl p a, lbl q a] :=
  ⟨by simp [lbl, h], by
    intro x hx
    simp only [List.mem_cons, List.not_mem_nil, or_false] at hx
    rcases hx with rfl | rfl
    · exact ⟨p, a, rfl, by omega, by omega⟩
    · exact ⟨q, a, rfl, by omega, by omega⟩⟩

theorem fresh_new {a b c} (h : Fresh a b c) : NewG a b (labels c) := ⟨h.1, h.2⟩

theorem genList_new : ∀ (l : List Expr) (gs : GS) (c : List Instr) (gs' : GS), genList l gs = some (c, gs') → NewG gs.cnt gs'.cnt (labels c) := by
  intro l
  induction l with
  | nil =>
    intro gs c gs' h
    simp only [genList, Option.some.injEq, Prod.mk.injEq] at h
    obtain ⟨rfl, rfl⟩ := h
    exact .nil
  | cons e l ih =>
    intro gs c gs' h
    simp only [genList, bindSome] at h
    obtain ⟨⟨c1, s1⟩, h1, ⟨c2, s2⟩, h2, h3⟩ := h
    simp only [Option.some.injEq, Prod.mk.injEq] at h3
    obtain ⟨rfl, rfl⟩ := h3
    rw [labels_append]
    exact (fresh_new (gen_fresh _ _ _ _ _ h1)).append (ih _ _ _ h2) (gen_depth _ _ _ _ _ h1).2 (genList_depth _ _ _ _ h2).2

theorem genCond_new {b} {e : Option Expr} {gs : GS} {c : List Instr} {gs' : GS} (h : genCond b e gs = some (c, gs')) :
    NewG gs.cnt gs'.cnt (labels c) := by
  cases e with
  | none =>
    simp only [genCond, Option.some.injEq, Prod.mk.injEq] at h
    obtain ⟨rfl, rfl⟩ := h
    exact .nil
  | some e =>
    simp only [genCond, bindSome] at h
    obtain ⟨⟨c1, s1⟩, h1, h3⟩ := h
    simp only [Option.some.injEq, Prod.mk.injEq] at h3
    obtain ⟨rfl, rfl⟩ := h3
    have := fresh_new (gen_fresh _ _ _ _ _ h1)
    simp only [labels_append]
    simpa [labels, cmpZero] using this

theorem labels_caseTests (cs : List Case) : labels (cs.flatMap caseTest) = [] :=
  labels_flatMap_nil _ _ fun c => by unfold caseTest; split <;> rfl

theorem labels_dfltJump (d : Option Label) : labels (dfltJump d) = [] := by cases d <;> rfl

/-- The labels of statement code are those of the parser and new ones of the code generator. -/
theorem genStmt_new {fn : String} : ∀ (s : Stmt) (gs : GS) (c : List Instr) (gs' : GS), genStmt fn s gs = some (c, gs') →
    ∃ G, (labels c).Perm (G ++ s.labs) ∧ NewG gs.cnt gs'.cnt G := by
  intro s
  induction s with
  | skip =>
    intro gs c gs' h
    simp only [genStmt, Option.some.injEq, Prod.mk.injEq] at h
    obtain ⟨rfl, rfl⟩ := h
    exact ⟨[], .refl _, .nil⟩
  | seq a b ia ib =>
    intro gs c gs' h
    simp only [genStmt, bindSome] at h
    obtain ⟨⟨c1, s1⟩, h1, ⟨c2, s2⟩, h2, h3⟩ := h
    simp only [Option.some.injEq, Prod.mk.injEq] at h3
    obtain ⟨rfl, rfl⟩ := h3
    obtain ⟨G1, p1, n1⟩ := ia _ _ _ h1
    obtain ⟨G2, p2, n2⟩ := ib _ _ _ h2
    refine ⟨G1 ++ G2, ?_, n1.append n2 (genStmt_depth _ _ _ _ h1).2 (genStmt_depth _ _ _ _ h2).2⟩
    rw [labels_append]
    rw [List.perm_iff_count] at *
    intro x
    have := p1 x
    have := p2 x
    simp only [Stmt.labs, List.count_append] at *
    omega
  | expr e =>
    intro gs c gs' h
    simp only [genStmt] at h
    exact ⟨labels c, by simp [Stmt.labs], fresh_new (gen_fresh _ _ _ _ _ h)⟩
  | ifs e a b ia ib =>
    intro gs c gs' h
    simp only [genStmt, bindSome] at h
    obtain ⟨⟨c0, s0⟩, h0, ⟨c1, s1⟩, h1, ⟨c2, s2⟩, h2, h3⟩ := h
    simp only [Option.some.injEq, Prod.mk.injEq] at h3
    obtain ⟨rfl, rfl⟩ := h3
    obtain ⟨G1, p1, n1⟩ := ia _ _ _ h1
    obtain ⟨G2, p2, n2⟩ := ib _ _ _ h2
    have d0 := (gen_depth _ _ _ _ _ h0).2
    have d1 := (genStmt_depth _ _ _ _ h1).2
    have d2 := (genStmt_depth _ _ _ _ h2).2
    have n0 := fresh_new (gen_fresh _ _ _ _ _ h0)
    dsimp only [GS.next] at *
    refine ⟨[lbl "else" gs.cnt, lbl "end" gs.cnt] ++ (labels c0 ++ (G1 ++ G2)), ?_,
      (NewG.two (by decide)).append (n0.append (n1.append n2 d1 d2) d0 (by omega)) (by omega) (by omega)⟩
    simp only [labels_append]
    rw [List.perm_iff_count] at *
    intro x
    have := p1 x
    have := p2 x
    simp only [Stmt.labs, List.count_append, labels, cmpZero, List.filterMap_cons, List.filterMap_nil, List.count_cons, List.count_nil] at *
    omega
  | loop i e inc b lb lk ib =>
    intro gs c gs' h
    simp only [genStmt, bindSome] at h
    obtain ⟨⟨c0, s0⟩, h0, ⟨c1, s1⟩, h1, ⟨c2, s2⟩, h2, ⟨c3, s3⟩, h3, h4⟩ := h
    simp only [Option.some.injEq, Prod.mk.injEq] at h4
    obtain ⟨rfl, rfl⟩ := h4
    obtain ⟨G2, p2, n2⟩ := ib _ _ _ h2
    have d0 := (genList_depth _ _ _ _ h0).2
    have d1 := (genCond_depth h1).2
    have d2 := (genStmt_depth _ _ _ _ h2).2
    have d3 := (genList_depth _ _ _ _ h3).2
    have n0 := genList_new _ _ _ _ h0
    have n1 := genCond_new h1
    have n3 := genList_new _ _ _ _ h3
    dsimp only [GS.next] at *
    refine ⟨[lbl "begin" gs.cnt] ++ (labels c0 ++ (labels c1 ++ (G2 ++ labels c3))), ?_,
      NewG.single.append (n0.append (n1.append (n2.append n3 d2 d3) d1 (by omega)) d0 (by omega)) (by omega) (by omega)⟩
    simp only [labels_append]
    rw [List.perm_iff_count] at *
    intro x
    have := p2 x
    simp only [Stmt.labs, List.count_append, labels, List.filterMap_cons, List.filterMap_nil, List.count_cons, List.count_nil] at *
    omega
  | doW b e lb lk ib =>
    intro gs c gs' h
    simp only [genStmt, bindSome] at h
    obtain ⟨⟨c1, s1⟩, h1, ⟨c2, s2⟩, h2, h4⟩ := h
    simp only [Option.some.injEq, Prod.mk.injEq] at h4
    obtain ⟨rfl, rfl⟩ := h4
    obtain ⟨G1, p1, n1⟩ := ib _ _ _ h1
    have d1 := (genStmt_depth _ _ _ _ h1).2
    have d2 := (gen_depth _ _ _ _ _ h2).2
    have n2 := fresh_new (gen_fresh _ _ _ _ _ h2)
    dsimp only [GS.next] at *
    refine ⟨[lbl "begin" gs.cnt] ++ (G1 ++ labels c2), ?_, NewG.single.append (n1.append n2 d1 d2) (by omega) (by omega)⟩
    simp only [labels_append]
    rw [List.perm_iff_count] at *
    intro x
    have := p1 x
    simp only [Stmt.labs, List.count_append, labels, cmpZero, List.filterMap_cons, List.filterMap_nil, List.count_cons, List.count_nil] at *
    omega
  | switch e cs d b lb ib =>
    intro gs c gs' h
    simp only [genStmt, bindSome] at h
    obtain ⟨⟨c1, s1⟩, h1, ⟨c2, s2⟩, h2, h4⟩ := h
    simp only [Option.some.injEq, Prod.mk.injEq] at h4
    obtain ⟨rfl, rfl⟩ := h4
    obtain ⟨G2, p2, n2⟩ := ib _ _ _ h2
    refine ⟨labels c1 ++ G2, ?_, (fresh_new (gen_fresh _ _ _ _ _ h1)).append n2 (gen_depth _ _ _ _ _ h1).2 (genStmt_depth _ _ _ _ h2).2⟩
    simp only [labels_append, labels_caseTests, labels_dfltJump]
    rw [List.perm_iff_count] at *
    intro x
    have := p2 x
    simp only [Stmt.labs, List.count_append, labels, List.filterMap_cons, List.filterMap_nil, List.count_cons, List.count_nil] at *
    omega
  | label l s is =>
    intro gs c gs' h
    simp only [genStmt, bindSome] at h
    obtain ⟨⟨c1, s1⟩, h1, h3⟩ := h
    simp only [Option.some.injEq, Prod.mk.injEq] at h3
    obtain ⟨rfl, rfl⟩ := h3
    obtain ⟨G1, p1, n1⟩ := is _ _ _ h1
    refine ⟨G1, ?_, n1⟩
    rw [labels_cons]
    rw [List.perm_iff_count] at *
    intro x
    have := p1 x
    simp only [Stmt.labs, List.count_append, labels, List.filterMap_cons, List.filterMap_nil, List.count_cons, List.count_nil] at *
    omega
  | goto t =>
    intro gs c gs' h
    cases t with
    | lab l =>
      simp only [genStmt, Option.some.injEq, Prod.mk.injEq] at h
      obtain ⟨rfl, rfl⟩ := h
      exact ⟨[], .refl _, .nil⟩
    | name n => simp [genStmt] at h
  | ret e =>
    intro gs c gs' h
    cases e with
    | none =>
      simp only [genStmt, Option.some.injEq, Prod.mk.injEq] at h
      obtain ⟨rfl, rfl⟩ := h
      exact ⟨[], .refl _, .nil⟩
    | some e =>
      simp only [genStmt, bindSome] at h
      obtain ⟨⟨c1, s1⟩, h1, h3⟩ := h
      simp only [Option.some.injEq, Prod.mk.injEq] at h3
      obtain ⟨rfl, rfl⟩ := h3
      refine ⟨labels c1, ?_, fresh_new (gen_fresh _ _ _ _ _ h1)⟩
      rw [labels_append]
      simp [Stmt.labs, labels]

/-! ### When a body compiles -/

theorem elab_some : ∀ (s : SStmt) (brk cont : Option Label) (a : PS), s.placed a.sw.isSome brk.isSome cont.isSome = true →
    ∃ st b, elabS brk cont s a = some (st, b) := by
  intro s
  induction s with
  | seq x y ix iy =>
    intro brk cont a h
    simp only [SStmt.placed, Bool.and_eq_true] at h
    obtain ⟨st, b, h1⟩ := ix _ _ a h.1
    have hb : b.sw.isSome = a.sw.isSome := by
      have := (elab_grow _ _ _ _ _ _ h1).sw
      cases ha : a.sw with
      | none => rw [ha] at this; rw [this.1]
      | some p => rw [ha] at this; obtain ⟨C, D, e, _⟩ := this; rw [e]; rfl
    obtain ⟨st', b', h2⟩ := iy brk cont b (by rw [hb]; exact h.2)
    exact ⟨_, _, by simp only [elabS, h1, h2, Option.bind_eq_bind, Option.bind_some]; rfl⟩
  | ifs c x y ix iy =>
    intro brk cont a h
    simp only [SStmt.placed, Bool.and_eq_true] at h
    obtain ⟨st, b, h1⟩ := ix _ _ a h.1
    have hb : b.sw.isSome = a.sw.isSome := by
      have := (elab_grow _ _ _ _ _ _ h1).sw
      cases ha : a.sw with
      | none => rw [ha] at this; rw [this.1]
      | some p => rw [ha] at this; obtain ⟨C, D, e, _⟩ := this; rw [e]; rfl
    obtain ⟨st', b', h2⟩ := iy brk cont b (by rw [hb]; exact h.2)
    exact ⟨_, _, by simp only [elabS, h1, h2, Option.bind_eq_bind, Option.bind_some]; rfl⟩
  | loop i c inc x ix =>
    intro brk cont a h
    obtain ⟨st, b, h1⟩ := ix (some (.uniq a.uid)) (some (.uniq (a.uid + 1))) ⟨a.uid + 2, a.sw, a.labels⟩ h
    exact ⟨_, _, by simp only [elabS, PS.fresh]; simp only [Option.bind_eq_bind, h1, Option.bind_some]; rfl⟩
  | doW x c ix =>
    intro brk cont a h
    obtain ⟨st, b, h1⟩ := ix (some (.uniq a.uid)) (some (.uniq (a.uid + 1))) ⟨a.uid + 2, a.sw, a.labels⟩ h
    exact ⟨_, _, by simp only [elabS, PS.fresh]; simp only [Option.bind_eq_bind, h1, Option.bind_some]; rfl⟩
  | switch c x ix =>
    intro brk cont a h
    obtain ⟨st, b, h1⟩ := ix (some (.uniq a.uid)) cont ⟨a.uid + 1, some ([], none), a.labels⟩ h
    obtain ⟨C, D, e, _⟩ := (elab_grow _ _ _ _ _ _ h1).sw
    exact ⟨_, _, by simp only [elabS, PS.fresh]; simp only [Option.bind_eq_bind, h1, Option.bind_some, e]; rfl⟩
  | case lo hi x ix =>
    intro brk cont a h
    simp only [SStmt.placed, Bool.and_eq_true, decide_eq_true_eq] at h
    obtain ⟨p, hp⟩ := Option.isSome_iff_exists.mp h.1.1
    obtain ⟨st, b, h1⟩ := ix brk cont ⟨a.uid + 1, a.sw, a.labels⟩ h.2
    have hs := (elab_grow _ _ _ _ _ _ h1).sw
    dsimp only at hs
    rw [hp] at hs
    obtain ⟨C, D, e, _⟩ := hs
    exact ⟨_, _, by
      simp only [elabS, PS.fresh, hp, Option.bind_eq_bind, Option.bind_some]
      rw [if_neg (by omega)]
      rw [hp] at h1
      simp only [h1, Option.bind_some, e]
      rfl⟩
  | dflt x ix =>
    intro brk cont a h
    simp only [SStmt.placed, Bool.and_eq_true] at h
    obtain ⟨p, hp⟩ := Option.isSome_iff_exists.mp h.1
    obtain ⟨st, b, h1⟩ := ix brk cont ⟨a.uid + 1, a.sw, a.labels⟩ h.2
    have hs := (elab_grow _ _ _ _ _ _ h1).sw
    dsimp only at hs
    rw [hp] at hs
    obtain ⟨C, D, e, _⟩ := hs
    exact ⟨_, _, by
      simp only [elabS, PS.fresh, hp, Option.bind_eq_bind, Option.bind_some]
      rw [hp] at h1
      simp only [h1, Option.bind_some, e]
      rfl⟩
  | label n x ix =>
    intro brk cont a h
    obtain ⟨st, b, h1⟩ := ix brk cont ⟨a.uid + 1, a.sw, a.labels⟩ h
    exact ⟨_, _, by simp only [elabS, PS.fresh]; simp only [Option.bind_eq_bind, h1, Option.bind_some]; rfl⟩
  | brk =>
    intro brk cont a h
    obtain ⟨l, rfl⟩ := Option.isSome_iff_exists.mp h
    exact ⟨_, _, rfl⟩
  | cont =>
    intro brk cont a h
    obtain ⟨l, rfl⟩ := Option.isSome_iff_exists.mp h
    exact ⟨_, _, rfl⟩
  | _ => intro brk cont a h; exact ⟨_, _, rfl⟩

theorem placed_of_elab : ∀ (s : SStmt) (brk cont : Option Label) (a : PS) (st : Stmt) (b : PS), elabS brk cont s a = some (st, b) →
    s.placed a.sw.isSome brk.isSome cont.isSome = true := by
  intro s
  induction s with
  | seq x y ix iy =>
    intro brk cont a st b h
    simp only [elabS, bindSome] at h
    obtain ⟨⟨x1, s1⟩, h1, ⟨y1, s2⟩, h2, h3⟩ := h
    have hb : s1.sw.isSome = a.sw.isSome := by
      have := (elab_grow _ _ _ _ _ _ h1).sw
      cases ha : a.sw with
      | none => rw [ha] at this; rw [this.1]
      | some p => rw [ha] at this; obtain ⟨C, D, e, _⟩ := this; rw [e]; rfl
    have := iy _ _ _ _ _ h2
    dsimp only at this
    rw [hb] at this
    simp only [SStmt.placed, Bool.and_eq_true]
    exact ⟨ix _ _ _ _ _ h1, this⟩
  | ifs c x y ix iy =>
    intro brk cont a st b h
    simp only [elabS, bindSome] at h
    obtain ⟨⟨x1, s1⟩, h1, ⟨y1, s2⟩, h2, h3⟩ := h
    have hb : s1.sw.isSome = a.sw.isSome := by
      have := (elab_grow _ _ _ _ _ _ h1).sw
      cases ha : a.sw with
      | none => rw [ha] at this; rw [this.1]
      | some p => rw [ha] at this; obtain ⟨C, D, e, _⟩ := this; rw [e]; rfl
    have := iy _ _ _ _ _ h2
    dsimp only at this
    rw [hb] at this
    simp only [SStmt.placed, Bool.and_eq_true]
    exact ⟨ix _ _ _ _ _ h1, this⟩
  | loop i c inc x ix =>
    intro brk cont a st b h
    simp only [elabS, bindSome, PS.fresh] at h
    obtain ⟨⟨x1, s1⟩, h1, h3⟩ := h
    have := ix _ _ _ _ _ h1
    exact this
  | doW x c ix =>
    intro brk cont a st b h
    simp only [elabS, bindSome, PS.fresh] at h
    obtain ⟨⟨x1, s1⟩, h1, h3⟩ := h
    have := ix _ _ _ _ _ h1
    exact this
  | switch c x ix =>
    intro brk cont a st b h
    simp only [elabS, bindSome, PS.fresh] at h
    obtain ⟨⟨x1, s1⟩, h1, _⟩ := h
    have := ix _ _ _ _ _ h1
    exact this
  | case lo hi x ix =>
    intro brk cont a st b h
    simp only [elabS, bindSome, PS.fresh] at h
    obtain ⟨sw0, h0, h⟩ := h
    split at h
    · simp at h
    rename_i hlt
    simp only [bindSome] at h
    obtain ⟨⟨x1, s1⟩, h1, _⟩ := h
    have := ix _ _ _ _ _ h1
    simp only [SStmt.placed, Bool.and_eq_true, decide_eq_true_eq]
    exact ⟨⟨by rw [h0]; rfl, by omega⟩, this⟩
  | dflt x ix =>
    intro brk cont a st b h
    simp only [elabS, bindSome, PS.fresh] at h
    obtain ⟨sw0, h0, ⟨x1, s1⟩, h1, _⟩ := h
    have := ix _ _ _ _ _ h1
    simp only [SStmt.placed, Bool.and_eq_true]
    exact ⟨by rw [h0]; rfl, this⟩
  | label n x ix =>
    intro brk cont a st b h
    simp only [elabS, bindSome, PS.fresh] at h
    obtain ⟨⟨x1, s1⟩, h1, h3⟩ := h
    have := ix _ _ _ _ _ h1
    exact this
  | brk =>
    intro brk cont a st b h
    simp only [elabS, bindSome, Option.some.injEq, Prod.mk.injEq] at h
    obtain ⟨l, rfl, rfl, rfl⟩ := h
    rfl
  | cont =>
    intro brk cont a st b h
    simp only [elabS, bindSome, Option.some.injEq, Prod.mk.injEq] at h
    obtain ⟨l, rfl, rfl, rfl⟩ := h
    rfl
  | _ => intro brk cont a st b h; rfl

/-- Gotos by name in a statement node. -/
def Stmt.open_ : Stmt → List String
  | .seq a b => a.open_ ++ b.open_
  | .ifs _ a b => a.open_ ++ b.open_
  | .loop _ _ _ b _ _ => b.open_
  | .doW b _ _ _ => b.open_
  | .switch _ _ _ b _ => b.open_
  | .label _ s => s.open_
  | .goto (.name n) => [n]
  | _ => []

theorem resolve_some {tbl : List (String × Label)} : ∀ s : Stmt, (∃ s', resolve tbl s = some s') ↔ ∀ n ∈ s.open_, ∃ l, (n, l) ∈ tbl := by
  intro s
  induction s with
  | skip => simp [resolve, Stmt.open_]
  | expr => simp [resolve, Stmt.open_]
  | ret => simp [resolve, Stmt.open_]
  | seq a b ia ib =>
    simp only [Stmt.open_, List.mem_append]
    constructor
    · rintro ⟨s', h⟩
      simp only [resolve, bindSome, Option.some.injEq] at h
      obtain ⟨a', h1, b', h2, rfl⟩ := h
      intro n hn
      exact hn.elim (ia.mp ⟨_, h1⟩ n) (ib.mp ⟨_, h2⟩ n)
    · intro h
      obtain ⟨a', h1⟩ := ia.mpr fun n hn => h n (.inl hn)
      obtain ⟨b', h2⟩ := ib.mpr fun n hn => h n (.inr hn)
      exact ⟨_, by simp only [resolve, h1, h2, Option.bind_eq_bind, Option.bind_some]; rfl⟩
  | ifs c a b ia ib =>
    simp only [Stmt.open_, List.mem_append]
    constructor
    · rintro ⟨s', h⟩
      simp only [resolve, bindSome, Option.some.injEq] at h
      obtain ⟨a', h1, b', h2, rfl⟩ := h
      intro n hn
      exact hn.elim (ia.mp ⟨_, h1⟩ n) (ib.mp ⟨_, h2⟩ n)
    · intro h
      obtain ⟨a', h1⟩ := ia.mpr fun n hn => h n (.inl hn)
      obtain ⟨b', h2⟩ := ib.mpr fun n hn => h n (.inr hn)
      exact ⟨_, by simp only [resolve, h1, h2, Option.bind_eq_bind, Option.bind_some]; rfl⟩
  | loop i c inc b lb lk ib =>
    rw [show (Stmt.loop i c inc b lb lk).open_ = b.open_ from rfl, ← ib]
    constructor
    · rintro ⟨s', h⟩
      simp only [resolve, bindSome, Option.some.injEq] at h
      obtain ⟨b', h2, rfl⟩ := h
      exact ⟨_, h2⟩
    · rintro ⟨b', h⟩
      exact ⟨_, by simp only [resolve, h, Option.bind_eq_bind, Option.bind_some]; rfl⟩
  | doW b c lb lk ib =>
    rw [show (Stmt.doW b c lb lk).open_ = b.open_ from rfl, ← ib]
    constructor
    · rintro ⟨s', h⟩
      simp only [resolve, bindSome, Option.some.injEq] at h
      obtain ⟨b', h2, rfl⟩ := h
      exact ⟨_, h2⟩
    · rintro ⟨b', h⟩
      exact ⟨_, by simp only [resolve, h, Option.bind_eq_bind, Option.bind_some]; rfl⟩
  | switch c cs d b lb ib =>
    rw [show (Stmt.switch c cs d b lb).open_ = b.open_ from rfl, ← ib]
    constructor
    · rintro ⟨s', h⟩
      simp only [resolve, bindSome, Option.some.injEq] at h
      obtain ⟨b', h2, rfl⟩ := h
      exact ⟨_, h2⟩
    · rintro ⟨b', h⟩
      exact ⟨_, by simp only [resolve, h, Option.bind_eq_bind, Option.bind_some]; rfl⟩
  | label l b ib =>
    rw [show (Stmt.label l b).open_ = b.open_ from rfl, ← ib]
    constructor
    · rintro ⟨s', h⟩
      simp only [resolve, bindSome, Option.some.injEq] at h
      obtain ⟨b', h2, rfl⟩ := h
      exact ⟨_, h2⟩
    · rintro ⟨b', h⟩
      exact ⟨_, by simp only [resolve, h, Option.bind_eq_bind, Option.bind_some]; rfl⟩
  | goto t =>
    cases t with
    | lab l => simp [resolve, Stmt.open_]
    | name n =>
      simp only [Stmt.open_, List.mem_singleton, forall_eq]
      constructor
      · rintro ⟨s', h⟩
        simp only [resolve, bindSome, Option.some.injEq] at h
        obtain ⟨⟨n', l'⟩, h1, rfl⟩ := h
        have e1 := List.find?_some h1
        simp only [beq_iff_eq] at e1
        subst e1
        exact ⟨l', List.mem_of_find?_eq_some h1⟩
      · rintro ⟨l, h⟩
        cases hf : tbl.find? (fun p => p.1 == n) with
        | none =>
          have := List.find?_eq_none.mp hf _ h
          simp at this
        | some p => exact ⟨_, by simp only [resolve, hf, Option.bind_eq_bind, Option.bind_some]; rfl⟩

theorem elab_open : ∀ (s : SStmt) (brk cont : Option Label) (a : PS) (st : Stmt) (b : PS), elabS brk cont s a = some (st, b) →
    st.open_ = s.gotos := by
  intro s
  induction s with
  | seq x y ix iy =>
    intro brk cont a st b h
    simp only [elabS, bindSome] at h
    obtain ⟨⟨x1, s1⟩, h1, ⟨y1, s2⟩, h2, h3⟩ := h
    simp only [Option.some.injEq, Prod.mk.injEq] at h3
    obtain ⟨rfl, rfl⟩ := h3
    simp only [Stmt.open_, SStmt.gotos, ix _ _ _ _ _ h1, iy _ _ _ _ _ h2]
  | ifs c x y ix iy =>
    intro brk cont a st b h
    simp only [elabS, bindSome] at h
    obtain ⟨⟨x1, s1⟩, h1, ⟨y1, s2⟩, h2, h3⟩ := h
    simp only [Option.some.injEq, Prod.mk.injEq] at h3
    obtain ⟨rfl, rfl⟩ := h3
    simp only [Stmt.open_, SStmt.gotos, ix _ _ _ _ _ h1, iy _ _ _ _ _ h2]
  | loop i c inc x ix =>
    intro brk cont a st b h
    simp only [elabS, bindSome, PS.fresh] at h
    obtain ⟨⟨x1, s1⟩, h1, h3⟩ := h
    simp only [Option.some.injEq, Prod.mk.injEq] at h3
    obtain ⟨rfl, rfl⟩ := h3
    have := ix _ _ _ _ _ h1
    exact this
  | doW x c ix =>
    intro brk cont a st b h
    simp only [elabS, bindSome, PS.fresh] at h
    obtain ⟨⟨x1, s1⟩, h1, h3⟩ := h
    simp only [Option.some.injEq, Prod.mk.injEq] at h3
    obtain ⟨rfl, rfl⟩ := h3
    have := ix _ _ _ _ _ h1
    exact this
  | switch c x ix =>
    intro brk cont a st b h
    simp only [elabS, bindSome, PS.fresh] at h
    obtain ⟨⟨x1, s1⟩, h1, ⟨cs, d⟩, h2, h3⟩ := h
    simp only [Option.some.injEq, Prod.mk.injEq] at h3
    obtain ⟨rfl, rfl⟩ := h3
    have := ix _ _ _ _ _ h1
    exact this
  | case lo hi x ix =>
    intro brk cont a st b h
    simp only [elabS, bindSome, PS.fresh] at h
    obtain ⟨sw0, h0, h⟩ := h
    split at h
    · simp at h
    simp only [bindSome] at h
    obtain ⟨⟨x1, s1⟩, h1, ⟨cs, d⟩, h2, h3⟩ := h
    simp only [Option.some.injEq, Prod.mk.injEq] at h3
    obtain ⟨rfl, rfl⟩ := h3
    have := ix _ _ _ _ _ h1
    exact this
  | dflt x ix =>
    intro brk cont a st b h
    simp only [elabS, bindSome, PS.fresh] at h
    obtain ⟨sw0, h0, ⟨x1, s1⟩, h1, ⟨cs, d⟩, h2, h3⟩ := h
    simp only [Option.some.injEq, Prod.mk.injEq] at h3
    obtain ⟨rfl, rfl⟩ := h3
    have := ix _ _ _ _ _ h1
    exact this
  | label n x ix =>
    intro brk cont a st b h
    simp only [elabS, bindSome, PS.fresh] at h
    obtain ⟨⟨x1, s1⟩, h1, h3⟩ := h
    simp only [Option.some.injEq, Prod.mk.injEq] at h3
    obtain ⟨rfl, rfl⟩ := h3
    have := ix _ _ _ _ _ h1
    exact this
  | brk =>
    intro brk cont a st b h
    simp only [elabS, bindSome, Option.some.injEq, Prod.mk.injEq] at h
    obtain ⟨l, rfl, rfl, rfl⟩ := h
    rfl
  | cont =>
    intro brk cont a st b h
    simp only [elabS, bindSome, Option.some.injEq, Prod.mk.injEq] at h
    obtain ⟨l, rfl, rfl, rfl⟩ := h
    rfl
  | _ =>
    intro brk cont a st b h
    simp only [elabS, Option.some.injEq, Prod.mk.injEq] at h
    obtain ⟨rfl, rfl⟩ := h
    rfl

/-- The parser accepts a body iff break, continue, case and default are in place and every goto has its label. -/
theorem elabBody_iff (uid : Nat) (body : SStmt) :
    (elabBody uid body).isSome ↔ body.placed false false false = true ∧ ∀ n ∈ body.gotos, n ∈ body.names := by
  have tbl : ∀ st b, elabS none none body ⟨uid, none, []⟩ = some (st, b) → ∀ n, (∃ l, (n, l) ∈ b.labels) ↔ n ∈ body.names := by
    intro st b h n
    obtain ⟨L, q1, q2, _⟩ := (elab_grow _ _ _ _ _ _ h).labels
    rw [List.append_nil] at q1
    rw [q1, ← q2.mem_iff, List.mem_map]
    constructor
    · rintro ⟨l, h⟩; exact ⟨_, h, rfl⟩
    · rintro ⟨⟨n', l⟩, h, rfl⟩; exact ⟨l, h⟩
  rw [Option.isSome_iff_exists]
  constructor
  · rintro ⟨r, h⟩
    simp only [elabBody, bindSome] at h
    obtain ⟨⟨st, b⟩, h1, st', h2, h3⟩ := h
    refine ⟨placed_of_elab _ _ _ _ _ _ h1, fun n hn => ?_⟩
    rw [← elab_open _ _ _ _ _ _ h1] at hn
    exact (tbl _ _ h1 n).mp ((resolve_some st).mp ⟨_, h2⟩ n hn)
  · rintro ⟨h1, h2⟩
    obtain ⟨st, b, h3⟩ := elab_some body none none ⟨uid, none, []⟩ h1
    have := (resolve_some (tbl := b.labels) st).mpr fun n hn => by
      rw [elab_open _ _ _ _ _ _ h3] at hn
      exact (tbl _ _ h3 n).mpr (h2 n hn)
    obtain ⟨st', h4⟩ := this
    exact ⟨_, by simp only [elabBody, h3, Option.bind_eq_bind, Option.bind_some, h4]; rfl⟩

/-! ### Code exists -/

/-- The expressions of a statement node. -/
def Stmt.exprs : Stmt → List Expr
  | .seq a b => a.exprs ++ b.exprs
  | .expr e => [e]
  | .ifs c a b => c :: (a.exprs ++ b.exprs)
  | .loop i c inc b _ _ => i ++ c.toList ++ inc.toList ++ b.exprs
  | .doW b c _ _ => c :: b.exprs
  | .switch c _ _ b _ => c :: b.exprs
  | .label _ s => s.exprs
  | .ret e => e.toList
  | _ => []

theorem genList_total : ∀ (l : List Expr) (gs : GS), l.all (simple false) = true → ∃ c gs', genList l gs = some (c, gs') := by
  intro l
  induction l with
  | nil => intro gs _; exact ⟨_, _, rfl⟩
  | cons e l ih =>
    intro gs h
    simp only [List.all_cons, Bool.and_eq_true] at h
    obtain ⟨c, s, h1⟩ := gen_total e false gs h.1
    obtain ⟨c', s', h2⟩ := ih s h.2
    exact ⟨_, _, by simp only [genList, h1, h2, Option.bind_eq_bind, Option.bind_some]; rfl⟩

theorem genStmt_total {fn : String} : ∀ (s : Stmt) (gs : GS), s.exprs.all (simple false) = true → s.open_ = [] →
    ∃ c gs', genStmt fn s gs = some (c, gs') := by
  intro s
  induction s with
  | skip => intro gs _ _; exact ⟨_, _, rfl⟩
  | seq a b ia ib =>
    intro gs h ho
    simp only [Stmt.exprs, List.all_append, Bool.and_eq_true] at h
    simp only [Stmt.open_, List.append_eq_nil_iff] at ho
    obtain ⟨c, s, h1⟩ := ia gs h.1 ho.1
    obtain ⟨c', s', h2⟩ := ib s h.2 ho.2
    exact ⟨_, _, by simp only [genStmt, h1, h2, Option.bind_eq_bind, Option.bind_some]; rfl⟩
  | expr e =>
    intro gs h _
    simp only [Stmt.exprs, List.all_cons, List.all_nil, Bool.and_true] at h
    exact gen_total e false gs h
  | ifs e a b ia ib =>
    intro gs h ho
    simp only [Stmt.exprs, List.all_cons, List.all_append, Bool.and_eq_true] at h
    simp only [Stmt.open_, List.append_eq_nil_iff] at ho
    obtain ⟨c0, s0, h0⟩ := gen_total e false gs.next h.1
    obtain ⟨c1, s1, h1⟩ := ia s0 h.2.1 ho.1
    obtain ⟨c2, s2, h2⟩ := ib s1 h.2.2 ho.2
    exact ⟨_, _, by simp only [genStmt, h0, h1, h2, Option.bind_eq_bind, Option.bind_some]; rfl⟩
  | loop i e inc b lb lk ib =>
    intro gs h ho
    simp only [Stmt.exprs, List.all_append, Bool.and_eq_true] at h
    obtain ⟨⟨⟨h1, h2⟩, h3⟩, h4⟩ := h
    obtain ⟨c0, s0, e0⟩ := genList_total i gs.next h1
    obtain ⟨c1, s1, e1⟩ : ∃ c s, genCond lb e s0 = some (c, s) := by
      cases e with
      | none => exact ⟨_, _, rfl⟩
      | some e =>
        simp only [Option.toList_some, List.all_cons, List.all_nil, Bool.and_true] at h2
        obtain ⟨c, s, h⟩ := gen_total e false s0 h2
        exact ⟨_, _, by simp only [genCond, h, Option.bind_eq_bind, Option.bind_some]; rfl⟩
    obtain ⟨c2, s2, e2⟩ := ib s1 h4 ho
    obtain ⟨c3, s3, e3⟩ := genList_total inc.toList s2 h3
    exact ⟨_, _, by simp only [genStmt, e0, e1, e2, e3, Option.bind_eq_bind, Option.bind_some]; rfl⟩
  | doW b e lb lk ib =>
    intro gs h ho
    simp only [Stmt.exprs, List.all_cons, Bool.and_eq_true] at h
    obtain ⟨c1, s1, h1⟩ := ib gs.next h.2 ho
    obtain ⟨c0, s0, h0⟩ := gen_total e false s1 h.1
    exact ⟨_, _, by simp only [genStmt, h0, h1, Option.bind_eq_bind, Option.bind_some]; rfl⟩
  | switch e cs d b lb ib =>
    intro gs h ho
    simp only [Stmt.exprs, List.all_cons, Bool.and_eq_true] at h
    obtain ⟨c0, s0, h0⟩ := gen_total e false gs h.1
    obtain ⟨c1, s1, h1⟩ := ib s0 h.2 ho
    exact ⟨_, _, by simp only [genStmt, h0, h1, Option.bind_eq_bind, Option.bind_some]; rfl⟩
  | label l b ib =>
    intro gs h ho
    obtain ⟨c1, s1, h1⟩ := ib gs h ho
    exact ⟨_, _, by simp only [genStmt, h1, Option.bind_eq_bind, Option.bind_some]; rfl⟩
  | goto t =>
    intro gs h ho
    cases t with
    | lab l => exact ⟨_, _, rfl⟩
    | name n => simp [Stmt.open_] at ho
  | ret e =>
    intro gs h _
    cases e with
    | none => exact ⟨_, _, rfl⟩
    | some e =>
      simp only [Stmt.exprs, Option.toList_some, List.all_cons, List.all_nil, Bool.and_true] at h
      obtain ⟨c0, s0, h0⟩ := gen_total e false gs h
      exact ⟨_, _, by simp only [genStmt, h0, Option.bind_eq_bind, Option.bind_some]; rfl⟩

end Toycc.Stm
