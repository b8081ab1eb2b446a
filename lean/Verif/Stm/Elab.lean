import Verif.Stm.Rel
import Verif.Stm.Wf
import Verif.Cg.Simple
/-! What the parser builds corresponds to the source. -/
namespace Toycc.Stm
open Toycc.Rv Toycc.Cg

/-! ### Case values -/

theorem caseOk_holds {t : Ty} {lo hi v : Int} {l : Label} (h : caseOk t (lo, hi) = true) (hv : inRange t v = true) :
    caseHolds t lo hi v = Case.holds v ⟨convC (.int false) lo, convC (.int false) hi, l⟩ := by
  simp only [caseOk, Bool.and_eq_true, decide_eq_true_eq] at h
  obtain ⟨⟨h1, h2, h3⟩, h4⟩ := h
  have e1 : convC (.int false) lo = lo := convC_id rfl (decide_eq_true (show -(2 ^ 31) ≤ lo ∧ lo < 2 ^ 31 by omega))
  have e2 : convC (.int false) hi = hi := convC_id rfl (decide_eq_true (show -(2 ^ 31) ≤ hi ∧ hi < 2 ^ 31 by omega))
  rw [Bool.eq_iff_iff, caseHolds, Case.holds, decide_eq_true_eq, decide_eq_true_eq, e1, e2]
  dsimp only
  cases t with
  | int u =>
    cases u with
    | false =>
      have hv : -(2 ^ 31) ≤ v ∧ v < 2 ^ 31 := of_decide_eq_true hv
      rw [e1, e2]; omega
    | true =>
      have hv : 0 ≤ v ∧ v < 2 ^ 32 := of_decide_eq_true hv
      have h4 := of_decide_eq_true h4
      have c1 : convC (.int true) lo = lo := convC_id rfl (decide_eq_true (show 0 ≤ lo ∧ lo < 2 ^ 32 by omega))
      have c2 : convC (.int true) hi = hi := convC_id rfl (decide_eq_true (show 0 ≤ hi ∧ hi < 2 ^ 32 by omega))
      rw [c1, c2]; omega
  | long u =>
    cases u with
    | false =>
      have hv : -(2 ^ 63) ≤ v ∧ v < 2 ^ 63 := of_decide_eq_true hv
      have c1 : convC (.long false) lo = lo := convC_id rfl (decide_eq_true (show -(2 ^ 63) ≤ lo ∧ lo < 2 ^ 63 by omega))
      have c2 : convC (.long false) hi = hi := convC_id rfl (decide_eq_true (show -(2 ^ 63) ≤ hi ∧ hi < 2 ^ 63 by omega))
      rw [c1, c2]; omega
    | true =>
      have hv : 0 ≤ v ∧ v < 2 ^ 64 := of_decide_eq_true hv
      have h4 := of_decide_eq_true h4
      have c1 : convC (.long true) lo = lo % 2 ^ 64 := rfl
      have c2 : convC (.long true) hi = hi % 2 ^ 64 := rfl
      rw [c1, c2]; omega
  | enum =>
    have hv : -(2 ^ 31) ≤ v ∧ v < 2 ^ 31 := of_decide_eq_true hv
    have c1 : convC .enum lo = lo := e1
    have c2 : convC .enum hi = hi := e2
    rw [c1, c2]; omega
  | _ => simp at h4

theorem has_case {t : Ty} {v : Int} : ∀ s : SStmt, s.has t (.case v) = true ↔ ∃ p ∈ s.cases, caseHolds t p.1 p.2 v = true := by
  intro s
  induction s with
  | seq a b ia ib => simp only [SStmt.has, SStmt.cases, Bool.or_eq_true, ia, ib, List.mem_append, or_and_right, exists_or]
  | ifs c a b ia ib => simp only [SStmt.has, SStmt.cases, Bool.or_eq_true, ia, ib, List.mem_append, or_and_right, exists_or]
  | loop i c inc b ib => simp only [SStmt.has, SStmt.cases, ib]
  | doW b c ib => simp only [SStmt.has, SStmt.cases, ib]
  | switch c b ib => simp [SStmt.has, SStmt.cases]
  | case lo hi s is => simp only [SStmt.has, SStmt.cases, Bool.or_eq_true, is, List.mem_cons, exists_eq_or_imp]
  | dflt s is => simp [SStmt.has, SStmt.cases, is]
  | label m s is => simp [SStmt.has, SStmt.cases, is]
  | _ => simp [SStmt.has, SStmt.cases]

theorem has_dflt {t : Ty} : ∀ s : SStmt, s.has t .dflt = true ↔ 0 < s.defaults := by
  intro s
  induction s with
  | seq a b ia ib => simp only [SStmt.has, SStmt.defaults, Bool.or_eq_true, ia, ib]; omega
  | ifs c a b ia ib => simp only [SStmt.has, SStmt.defaults, Bool.or_eq_true, ia, ib]; omega
  | loop i c inc b ib => simp only [SStmt.has, SStmt.defaults, ib]
  | doW b c ib => simp only [SStmt.has, SStmt.defaults, ib]
  | switch c b ib => simp [SStmt.has, SStmt.defaults]
  | case lo hi s is => simp only [SStmt.has, SStmt.defaults, Bool.or_eq_true, is]; simp
  | dflt s is => simp [SStmt.has, SStmt.defaults]
  | label m s is => simp [SStmt.has, SStmt.defaults, is]
  | _ => simp [SStmt.has, SStmt.defaults]

/-! ### The parser's state -/

/-- What happens to the lists of the enclosing switch. -/
def SwStep (s : SStmt) (a b : Option (List Case × Option Label)) : Prop :=
  match a with
  | none => b = none ∧ s.cases = [] ∧ s.defaults = 0
  | some (cs, d) => ∃ C D, b = some (C ++ cs, D) ∧ (C.map fun c => (c.lo, c.hi)).Perm (s.cases.map fun p => (convC (.int false) p.1, convC (.int false) p.2)) ∧
      (s.defaults = 0 → D = d) ∧ (0 < s.defaults → D ≠ none)

structure Grow (s : SStmt) (st : Stmt) (a b : PS) : Prop where
  uid : a.uid ≤ b.uid
  defs : ∀ l, st.defs l = true → ∃ j, l = .uniq j ∧ a.uid ≤ j ∧ j < b.uid
  labels : ∃ L, b.labels = L ++ a.labels ∧ (L.map (·.1)).Perm s.names ∧ ∀ p ∈ L, st.defs p.2 = true
  sw : SwStep s a.sw b.sw

theorem SwStep.refl {s : SStmt} {a} (h1 : s.cases = []) (h2 : s.defaults = 0) : SwStep s a a := by
  cases a with
  | none => exact ⟨rfl, h1, h2⟩
  | some p => exact ⟨[], p.2, rfl, by simp [h1], fun _ => rfl, by omega⟩

theorem SwStep.both {s x y : SStmt} {a b c} (h1 : SwStep x a b) (h2 : SwStep y b c) (e1 : s.cases = x.cases ++ y.cases)
    (e2 : s.defaults = x.defaults + y.defaults) : SwStep s a c := by
  cases a with
  | none =>
    obtain ⟨rfl, h3, h4⟩ := h1
    obtain ⟨rfl, h5, h6⟩ := h2
    exact ⟨rfl, by rw [e1, h3, h5]; rfl, by omega⟩
  | some p =>
    obtain ⟨C, D, rfl, p1, d1, d1'⟩ := h1
    obtain ⟨C2, D2, rfl, p2, d2, d2'⟩ := h2
    refine ⟨C2 ++ C, D2, by simp, ?_, ?_, ?_⟩
    · rw [List.map_append, e1, List.map_append]
      exact List.perm_append_comm.trans (p1.append p2)
    · intro h; rw [d2 (by omega), d1 (by omega)]
    · intro h
      by_cases hy : 0 < y.defaults
      · exact d2' hy
      · rw [d2 (by omega)]; exact d1' (by omega)

theorem Grow.both {s x y : SStmt} {st x' y' : Stmt} {a b c : PS} (h1 : Grow x x' a b) (h2 : Grow y y' b c) (e1 : s.cases = x.cases ++ y.cases)
    (e2 : s.defaults = x.defaults + y.defaults) (e3 : s.names = x.names ++ y.names) (e4 : ∀ l, st.defs l = (x'.defs l || y'.defs l)) :
    Grow s st a c := by
  refine ⟨Nat.le_trans h1.uid h2.uid, ?_, ?_, h1.sw.both h2.sw e1 e2⟩
  · intro l hl
    rw [e4, Bool.or_eq_true] at hl
    have := h1.uid
    have := h2.uid
    rcases hl with hl | hl
    · obtain ⟨j, e, b1, b2⟩ := h1.defs l hl
      exact ⟨j, e, by omega, by omega⟩
    · obtain ⟨j, e, b1, b2⟩ := h2.defs l hl
      exact ⟨j, e, by omega, by omega⟩
  · obtain ⟨L1, q1, p1, r1⟩ := h1.labels
    obtain ⟨L2, q2, p2, r2⟩ := h2.labels
    refine ⟨L2 ++ L1, by rw [q2, q1, List.append_assoc], ?_, ?_⟩
    · rw [List.map_append, e3]
      exact List.perm_append_comm.trans (p1.append p2)
    · intro p hp
      rw [e4, Bool.or_eq_true]
      rcases List.mem_append.mp hp with hp | hp
      · exact .inr (r2 p hp)
      · exact .inl (r1 p hp)

/-- Passing through a node that adds nothing but fresh names before. -/
theorem Grow.wrap {s x : SStmt} {st x' : Stmt} {a b c : PS} (h : Grow x x' b c) (hu : a.uid ≤ b.uid) (hl : b.labels = a.labels) (hs : b.sw = a.sw)
    (e1 : s.cases = x.cases) (e2 : s.defaults = x.defaults) (e3 : s.names = x.names) (e4 : ∀ l, st.defs l = x'.defs l) : Grow s st a c := by
  refine ⟨Nat.le_trans hu h.uid, ?_, ?_, ?_⟩
  · intro l hl
    rw [e4] at hl
    obtain ⟨j, e, b1, b2⟩ := h.defs l hl
    exact ⟨j, e, by omega, b2⟩
  · rw [e3, ← hl]; simp only [e4]; exact h.labels
  · have := h.sw
    rw [hs] at this
    unfold SwStep at this ⊢
    rw [e1, e2]; exact this

theorem grow_none {s : SStmt} {st : Stmt} {a : PS} (h1 : s.cases = []) (h2 : s.defaults = 0) (h3 : s.names = []) (h4 : ∀ l, st.defs l = false) :
    Grow s st a a :=
  ⟨Nat.le_refl _, fun l h => by rw [h4] at h; simp at h, ⟨[], rfl, by rw [h3]; exact .refl _, by simp⟩, .refl h1 h2⟩

theorem elab_grow : ∀ (s : SStmt) (brk cont : Option Label) (a : PS) (st : Stmt) (b : PS), elabS brk cont s a = some (st, b) → Grow s st a b := by
  intro s
  induction s with
  | skip => intro brk cont a st b h; simp only [elabS, Option.some.injEq, Prod.mk.injEq] at h; obtain ⟨rfl, rfl⟩ := h; exact grow_none rfl rfl rfl fun _ => rfl
  | seq x y ix iy =>
    intro brk cont a st b h
    simp only [elabS, bindSome] at h
    obtain ⟨⟨x', s1⟩, h1, ⟨y', s2⟩, h2, h3⟩ := h
    simp only [Option.some.injEq, Prod.mk.injEq] at h3
    obtain ⟨rfl, rfl⟩ := h3
    exact (ix _ _ _ _ _ h1).both (iy _ _ _ _ _ h2) rfl rfl rfl fun _ => rfl
  | expr e => intro brk cont a st b h; simp only [elabS, Option.some.injEq, Prod.mk.injEq] at h; obtain ⟨rfl, rfl⟩ := h; exact grow_none rfl rfl rfl fun _ => rfl
  | ifs c x y ix iy =>
    intro brk cont a st b h
    simp only [elabS, bindSome] at h
    obtain ⟨⟨x', s1⟩, h1, ⟨y', s2⟩, h2, h3⟩ := h
    simp only [Option.some.injEq, Prod.mk.injEq] at h3
    obtain ⟨rfl, rfl⟩ := h3
    exact (ix _ _ _ _ _ h1).both (iy _ _ _ _ _ h2) rfl rfl rfl fun _ => rfl
  | loop i c inc x ix =>
    intro brk cont a st b h
    simp only [elabS, bindSome, PS.fresh] at h
    obtain ⟨⟨x', s1⟩, h1, h3⟩ := h
    simp only [Option.some.injEq, Prod.mk.injEq] at h3
    obtain ⟨rfl, rfl⟩ := h3
    exact (ix _ _ _ _ _ h1).wrap (by dsimp only; omega) rfl rfl rfl rfl rfl fun _ => rfl
  | doW x c ix =>
    intro brk cont a st b h
    simp only [elabS, bindSome, PS.fresh] at h
    obtain ⟨⟨x', s1⟩, h1, h3⟩ := h
    simp only [Option.some.injEq, Prod.mk.injEq] at h3
    obtain ⟨rfl, rfl⟩ := h3
    exact (ix _ _ _ _ _ h1).wrap (by dsimp only; omega) rfl rfl rfl rfl rfl fun _ => rfl
  | switch c x ix =>
    intro brk cont a st b h
    simp only [elabS, bindSome, PS.fresh] at h
    obtain ⟨⟨x', s1⟩, h1, ⟨cs, d⟩, h2, h3⟩ := h
    simp only [Option.some.injEq, Prod.mk.injEq] at h3
    obtain ⟨rfl, rfl⟩ := h3
    have g := ix _ _ _ _ _ h1
    have := g.uid
    dsimp only at this
    refine ⟨by dsimp only; omega, ?_, g.labels, .refl rfl rfl⟩
    intro l hl
    obtain ⟨j, e, b1, b2⟩ := g.defs l hl
    exact ⟨j, e, by dsimp only at b1; omega, b2⟩
  | case lo hi x ix =>
    intro brk cont a st b h
    simp only [elabS, bindSome, PS.fresh] at h
    obtain ⟨sw0, h0, h⟩ := h
    split at h
    · simp at h
    simp only [bindSome] at h
    obtain ⟨⟨x', s1⟩, h1, ⟨cs, d⟩, h2, h3⟩ := h
    simp only [Option.some.injEq, Prod.mk.injEq] at h3
    obtain ⟨rfl, rfl⟩ := h3
    have g := ix _ _ _ _ _ h1
    have hu := g.uid
    dsimp only at hu h2
    refine ⟨by dsimp only; omega, ?_, g.labels.imp fun L h => ⟨h.1, h.2.1, fun p hp => by simp [Stmt.defs, h.2.2 p hp]⟩, ?_⟩
    · intro l hl
      simp only [Stmt.defs, Bool.or_eq_true, beq_iff_eq] at hl
      rcases hl with rfl | hl
      · exact ⟨a.uid, rfl, Nat.le_refl _, by dsimp only; omega⟩
      · obtain ⟨j, e, b1, b2⟩ := g.defs l hl
        exact ⟨j, e, by dsimp only at b1; omega, b2⟩
    · have q := g.sw
      dsimp only at q ⊢
      rw [h0] at q ⊢
      obtain ⟨C, D, q1, q2, q3, q4⟩ := q
      rw [q1, Option.some.injEq, Prod.mk.injEq] at h2
      obtain ⟨rfl, rfl⟩ := h2
      refine ⟨⟨convC (.int false) lo, convC (.int false) hi, .uniq a.uid⟩ :: C, D, rfl, ?_, q3, q4⟩
      simp only [List.map_cons, SStmt.cases]
      exact q2.cons _
  | dflt x ix =>
    intro brk cont a st b h
    simp only [elabS, bindSome, PS.fresh] at h
    obtain ⟨sw0, h0, ⟨x', s1⟩, h1, ⟨cs, d⟩, h2, h3⟩ := h
    simp only [Option.some.injEq, Prod.mk.injEq] at h3
    obtain ⟨rfl, rfl⟩ := h3
    have g := ix _ _ _ _ _ h1
    have hu := g.uid
    dsimp only at hu h2
    refine ⟨by dsimp only; omega, ?_, g.labels.imp fun L h => ⟨h.1, h.2.1, fun p hp => by simp [Stmt.defs, h.2.2 p hp]⟩, ?_⟩
    · intro l hl
      simp only [Stmt.defs, Bool.or_eq_true, beq_iff_eq] at hl
      rcases hl with rfl | hl
      · exact ⟨a.uid, rfl, Nat.le_refl _, by dsimp only; omega⟩
      · obtain ⟨j, e, b1, b2⟩ := g.defs l hl
        exact ⟨j, e, by dsimp only at b1; omega, b2⟩
    · have q := g.sw
      dsimp only at q ⊢
      rw [h0] at q ⊢
      obtain ⟨C, D, q1, q2, q3, q4⟩ := q
      rw [q1, Option.some.injEq, Prod.mk.injEq] at h2
      obtain ⟨rfl, rfl⟩ := h2
      exact ⟨C, _, rfl, q2, by simp [SStmt.defaults], by simp⟩
  | label n x ix =>
    intro brk cont a st b h
    simp only [elabS, bindSome, PS.fresh] at h
    obtain ⟨⟨x', s1⟩, h1, h3⟩ := h
    simp only [Option.some.injEq, Prod.mk.injEq] at h3
    obtain ⟨rfl, rfl⟩ := h3
    have g := ix _ _ _ _ _ h1
    have hu := g.uid
    dsimp only at hu
    refine ⟨by dsimp only; omega, ?_, ?_, g.sw⟩
    · intro l hl
      simp only [Stmt.defs, Bool.or_eq_true, beq_iff_eq] at hl
      rcases hl with rfl | hl
      · exact ⟨a.uid, rfl, Nat.le_refl _, by dsimp only; omega⟩
      · obtain ⟨j, e, b1, b2⟩ := g.defs l hl
        exact ⟨j, e, by dsimp only at b1; omega, b2⟩
    · obtain ⟨L, q1, q2, q3⟩ := g.labels
      refine ⟨(n, .uniq a.uid) :: L, by dsimp only at q1 ⊢; rw [q1]; rfl, q2.cons _, ?_⟩
      intro p hp
      rcases List.mem_cons.mp hp with rfl | hp
      · simp [Stmt.defs]
      · simp [Stmt.defs, q3 p hp]
  | goto n => intro brk cont a st b h; simp only [elabS, Option.some.injEq, Prod.mk.injEq] at h; obtain ⟨rfl, rfl⟩ := h; exact grow_none rfl rfl rfl fun _ => rfl
  | brk =>
    intro brk cont a st b h
    simp only [elabS, bindSome, Option.some.injEq, Prod.mk.injEq] at h
    obtain ⟨l, _, rfl, rfl⟩ := h
    exact grow_none rfl rfl rfl fun _ => rfl
  | cont =>
    intro brk cont a st b h
    simp only [elabS, bindSome, Option.some.injEq, Prod.mk.injEq] at h
    obtain ⟨l, _, rfl, rfl⟩ := h
    exact grow_none rfl rfl rfl fun _ => rfl
  | ret e => intro brk cont a st b h; simp only [elabS, Option.some.injEq, Prod.mk.injEq] at h; obtain ⟨rfl, rfl⟩ := h; exact grow_none rfl rfl rfl fun _ => rfl

/-! ### Correspondence -/

theorem resolve_defs {tbl : List (String × Label)} {l : Label} : ∀ (s s' : Stmt), resolve tbl s = some s' → s'.defs l = s.defs l := by
  intro s
  induction s with
  | skip => intro s' h; simp only [resolve, Option.some.injEq] at h; rw [← h]
  | seq a b ia ib =>
    intro s' h
    simp only [resolve, bindSome, Option.some.injEq] at h
    obtain ⟨a', h1, b', h2, rfl⟩ := h
    simp only [Stmt.defs, ia _ h1, ib _ h2]
  | expr => intro s' h; simp only [resolve, Option.some.injEq] at h; rw [← h]
  | ifs c a b ia ib =>
    intro s' h
    simp only [resolve, bindSome, Option.some.injEq] at h
    obtain ⟨a', h1, b', h2, rfl⟩ := h
    simp only [Stmt.defs, ia _ h1, ib _ h2]
  | loop i c inc b lb lk ib =>
    intro s' h
    simp only [resolve, bindSome, Option.some.injEq] at h
    obtain ⟨b', h2, rfl⟩ := h
    simp only [Stmt.defs, ib _ h2]
  | doW b c lb lk ib =>
    intro s' h
    simp only [resolve, bindSome, Option.some.injEq] at h
    obtain ⟨b', h2, rfl⟩ := h
    simp only [Stmt.defs, ib _ h2]
  | switch c cs d b lb ib =>
    intro s' h
    simp only [resolve, bindSome, Option.some.injEq] at h
    obtain ⟨b', h2, rfl⟩ := h
    simp only [Stmt.defs, ib _ h2]
  | label l' b ib =>
    intro s' h
    simp only [resolve, bindSome, Option.some.injEq] at h
    obtain ⟨b', h2, rfl⟩ := h
    simp only [Stmt.defs, ib _ h2]
  | goto t =>
    intro s' h
    cases t with
    | lab l' => simp only [resolve, Option.some.injEq] at h; rw [← h]
    | name n =>
      simp only [resolve, bindSome, Option.some.injEq] at h
      obtain ⟨⟨_, l'⟩, _, rfl⟩ := h
      rfl
  | ret => intro s' h; simp only [resolve, Option.some.injEq] at h; rw [← h]

theorem find_unique {cs : List Case} {v : Int} {c : Case} (hp : cs.Pairwise fun x y => ¬ (x.holds v = true ∧ y.holds v = true)) (hc : c ∈ cs)
    (hh : c.holds v = true) : cs.find? (Case.holds v) = some c := by
  induction cs with
  | nil => simp at hc
  | cons a r ih =>
    rw [List.pairwise_cons] at hp
    rcases List.mem_cons.mp hc with rfl | hc
    · exact List.find?_cons_of_pos hh
    · have hn : ¬ a.holds v = true := fun h => hp.1 c hc ⟨h, hh⟩
      rw [List.find?_cons_of_neg hn]
      exact ih hp.2 hc

/-- What is required of the assignment of labels to targets. -/
structure Fits (tbl : List (String × Label)) (σ : Tgt → Label) (t : Ty) (s : SStmt) (st : Stmt) (a b : PS) : Prop where
  sub : ∀ p ∈ b.labels, p ∈ tbl
  tbl : ∀ p ∈ tbl, σ (.lab p.1) = p.2
  own : ∀ n j, σ (.lab n) = .uniq j → a.uid ≤ j → j < b.uid → st.defs (.uniq j) = true
  cases : ∀ cs d, b.sw = some (cs, d) → ∀ c ∈ cs, ∀ v, inRange t v = true → c.holds v = true → σ (.case v) = c.lbl
  ok : ∀ p ∈ s.cases, caseOk t p = true
  dflt : ∀ cs l, b.sw = some (cs, some l) → 0 < s.defaults → σ .dflt = l
  one : s.defaults ≤ 1

/-- The labels of break and continue are old. -/
def Old (n : Nat) (l : Option Label) : Prop := ∀ x, l = some x → ∃ j, j < n ∧ x = .uniq j

theorem Old.mono {n k l} (h : Old n l) (hk : n ≤ k) : Old k l := fun x hx => by
  obtain ⟨j, h1, h2⟩ := h x hx
  exact ⟨j, by omega, h2⟩

theorem Fits.left {tbl σ t s x y st x' y' a b c} (f : Fits tbl σ t s st a c) (gx : Grow x x' a b) (gy : Grow y y' b c)
    (e1 : s.cases = x.cases ++ y.cases) (e2 : s.defaults = x.defaults + y.defaults) (e4 : ∀ l, st.defs l = (x'.defs l || y'.defs l)) :
    Fits tbl σ t x x' a b := by
  have := gx.uid
  have := gy.uid
  have h1 := f.one
  refine ⟨?_, f.tbl, ?_, ?_, ?_, ?_, by omega⟩
  · intro p hp
    obtain ⟨L, hL, _⟩ := gy.labels
    exact f.sub p (by rw [hL]; exact List.mem_append_right _ hp)
  · intro n j hj l1 l2
    have h := f.own n j hj l1 (by omega)
    rw [e4, Bool.or_eq_true] at h
    refine h.resolve_right fun h => ?_
    obtain ⟨j', e, l3, _⟩ := gy.defs _ h
    cases e
    omega
  · intro cs d hs c hc
    have q := gy.sw
    rw [hs] at q
    obtain ⟨C, D, q1, _⟩ := q
    exact f.cases _ _ q1 c (List.mem_append_right _ hc)
  · intro p hp; exact f.ok p (by rw [e1]; exact List.mem_append_left _ hp)
  · intro cs l hs hp
    have q := gy.sw
    rw [hs] at q
    obtain ⟨C, D, q1, _, q3, _⟩ := q
    rw [q3 (by omega)] at q1
    exact f.dflt _ _ q1 (by omega)

theorem Fits.right {tbl σ t s x y st x' y' a b c} (f : Fits tbl σ t s st a c) (gx : Grow x x' a b) (gy : Grow y y' b c)
    (e1 : s.cases = x.cases ++ y.cases) (e2 : s.defaults = x.defaults + y.defaults) (e4 : ∀ l, st.defs l = (x'.defs l || y'.defs l)) :
    Fits tbl σ t y y' b c := by
  have := gx.uid
  have := gy.uid
  have h1 := f.one
  refine ⟨f.sub, f.tbl, ?_, f.cases, ?_, ?_, by omega⟩
  · intro n j hj l1 l2
    have h := f.own n j hj (by omega) l2
    rw [e4, Bool.or_eq_true] at h
    refine h.resolve_left fun h => ?_
    obtain ⟨j', e, _, l3⟩ := gx.defs _ h
    cases e
    omega
  · intro p hp; exact f.ok p (by rw [e1]; exact List.mem_append_right _ hp)
  · intro cs l hs hp
    exact f.dflt _ _ hs (by omega)

theorem disjoint_defs {x y : SStmt} {x' y' : Stmt} {a b c : PS} (gx : Grow x x' a b) (gy : Grow y y' b c) (l : Label) (h : x'.defs l = true) :
    y'.defs l = false := by
  rw [Bool.eq_false_iff]
  intro h'
  obtain ⟨j, rfl, _, h1⟩ := gx.defs l h
  obtain ⟨j', e, h2, _⟩ := gy.defs _ h'
  cases e
  omega

/-- Descending into the body of a loop or label. -/
theorem Fits.body {tbl σ t s x st x' a a' b b'} (f : Fits tbl σ t s st a b) (gx : Grow x x' a' b') (hu : a.uid ≤ a'.uid) (hu' : b'.uid = b.uid)
    (hl : ∀ p ∈ b'.labels, p ∈ b.labels) (hs : ∀ cs d, b'.sw = some (cs, d) → ∃ C D, b.sw = some (C ++ cs, D) ∧ (0 < x.defaults → D = d))
    (e1 : ∀ p ∈ x.cases, p ∈ s.cases) (e2 : x.defaults ≤ s.defaults)
    (e4 : ∀ j, a'.uid ≤ j → st.defs (.uniq j) = true → x'.defs (.uniq j) = true) : Fits tbl σ t x x' a' b' := by
  have h1 := f.one
  refine ⟨fun p hp => f.sub p (hl p hp), f.tbl, ?_, ?_, fun p hp => f.ok p (e1 p hp), ?_, by omega⟩
  · intro n j hj l1 l2
    exact e4 j l1 (f.own n j hj (by omega) (by omega))
  · intro cs d hs' c hc
    obtain ⟨C, D, q, _⟩ := hs cs d hs'
    exact f.cases _ _ q c (List.mem_append_right _ hc)
  · intro cs l hs' hp
    obtain ⟨C, D, q, q2⟩ := hs cs _ hs'
    rw [q2 hp] at q
    exact f.dflt _ _ q (by omega)

theorem elab_rel {tbl : List (String × Label)} : ∀ (s : SStmt) (brk cont : Option Label) (a : PS) (st : Stmt) (b : PS) (st' : Stmt) (σ : Tgt → Label)
    (t : Ty), elabS brk cont s a = some (st, b) → resolve tbl st = some st' → s.switchesOk = true → Fits tbl σ t s st a b →
    Old a.uid brk → Old a.uid cont → Rel σ t brk cont s st' := by
  intro s
  induction s with
  | skip =>
    intro brk cont a st b st' σ t h hr _ f _ _
    simp only [elabS, Option.some.injEq, Prod.mk.injEq] at h
    obtain ⟨rfl, rfl⟩ := h
    simp only [resolve, Option.some.injEq] at hr
    subst hr
    exact .skip
  | seq x y ix iy =>
    intro brk cont a st b st' σ t h hr hw f ob ok
    simp only [elabS, bindSome] at h
    obtain ⟨⟨x1, s1⟩, h1, ⟨y1, s2⟩, h2, h3⟩ := h
    simp only [Option.some.injEq, Prod.mk.injEq] at h3
    obtain ⟨rfl, rfl⟩ := h3
    simp only [resolve, bindSome, Option.some.injEq] at hr
    obtain ⟨x', r1, y', r2, rfl⟩ := hr
    simp only [SStmt.switchesOk, Bool.and_eq_true] at hw
    have gx := elab_grow _ _ _ _ _ _ h1
    have gy := elab_grow _ _ _ _ _ _ h2
    refine .seq (ix _ _ _ _ _ _ _ _ h1 r1 hw.1 (f.left gx gy rfl rfl fun _ => rfl) ob ok)
      (iy _ _ _ _ _ _ _ _ h2 r2 hw.2 (f.right gx gy rfl rfl fun _ => rfl) (ob.mono gx.uid) (ok.mono gx.uid)) ?_
    intro l hl
    rw [resolve_defs _ _ r1] at hl
    rw [resolve_defs _ _ r2]
    exact disjoint_defs gx gy l hl
  | expr e =>
    intro brk cont a st b st' σ t h hr _ f _ _
    simp only [elabS, Option.some.injEq, Prod.mk.injEq] at h
    obtain ⟨rfl, rfl⟩ := h
    simp only [resolve, Option.some.injEq] at hr
    subst hr
    exact .expr
  | ifs c x y ix iy =>
    intro brk cont a st b st' σ t h hr hw f ob ok
    simp only [elabS, bindSome] at h
    obtain ⟨⟨x1, s1⟩, h1, ⟨y1, s2⟩, h2, h3⟩ := h
    simp only [Option.some.injEq, Prod.mk.injEq] at h3
    obtain ⟨rfl, rfl⟩ := h3
    simp only [resolve, bindSome, Option.some.injEq] at hr
    obtain ⟨x', r1, y', r2, rfl⟩ := hr
    simp only [SStmt.switchesOk, Bool.and_eq_true] at hw
    have gx := elab_grow _ _ _ _ _ _ h1
    have gy := elab_grow _ _ _ _ _ _ h2
    refine .ifs (ix _ _ _ _ _ _ _ _ h1 r1 hw.1 (f.left gx gy rfl rfl fun _ => rfl) ob ok)
      (iy _ _ _ _ _ _ _ _ h2 r2 hw.2 (f.right gx gy rfl rfl fun _ => rfl) (ob.mono gx.uid) (ok.mono gx.uid)) ?_
    intro l hl
    rw [resolve_defs _ _ r1] at hl
    rw [resolve_defs _ _ r2]
    exact disjoint_defs gx gy l hl
  | loop i c inc x ix =>
    intro brk cont a st b st' σ t h hr hw f ob ok
    simp only [elabS, bindSome, PS.fresh] at h
    obtain ⟨⟨x1, s1⟩, h1, h3⟩ := h
    simp only [Option.some.injEq, Prod.mk.injEq] at h3
    obtain ⟨rfl, rfl⟩ := h3
    simp only [resolve, bindSome, Option.some.injEq] at hr
    obtain ⟨x', r1, rfl⟩ := hr
    have g := elab_grow _ _ _ _ _ _ h1
    have hu := g.uid
    dsimp only at hu
    have nolab : ∀ n j, a.uid ≤ j → j < a.uid + 2 → σ (.lab n) ≠ .uniq j := by
      intro n j l1 l2 e
      obtain ⟨j', e', l3, _⟩ := g.defs _ (f.own n j e l1 (by omega))
      cases e'
      dsimp only at l3
      omega
    refine .loop (ix _ _ _ _ _ _ _ _ h1 r1 hw (f.body g (by dsimp only; omega) rfl (fun p hp => hp) (fun cs d h => ⟨[], d, h, fun _ => rfl⟩) (fun p hp => hp)
      (Nat.le_refl _) fun _ _ h => h) ?_ ?_) ?_ ?_ ?_
    · intro x hx; cases hx; exact ⟨_, by dsimp only; omega, rfl⟩
    · intro x hx; cases hx; exact ⟨_, by dsimp only; omega, rfl⟩
    · simp
    · exact fun n => nolab n _ (Nat.le_refl _) (by omega)
    · exact fun n => nolab n _ (by omega) (by omega)
  | doW x c ix =>
    intro brk cont a st b st' σ t h hr hw f ob ok
    simp only [elabS, bindSome, PS.fresh] at h
    obtain ⟨⟨x1, s1⟩, h1, h3⟩ := h
    simp only [Option.some.injEq, Prod.mk.injEq] at h3
    obtain ⟨rfl, rfl⟩ := h3
    simp only [resolve, bindSome, Option.some.injEq] at hr
    obtain ⟨x', r1, rfl⟩ := hr
    have g := elab_grow _ _ _ _ _ _ h1
    have hu := g.uid
    dsimp only at hu
    have nolab : ∀ n j, a.uid ≤ j → j < a.uid + 2 → σ (.lab n) ≠ .uniq j := by
      intro n j l1 l2 e
      obtain ⟨j', e', l3, _⟩ := g.defs _ (f.own n j e l1 (by omega))
      cases e'
      dsimp only at l3
      omega
    refine .doW (ix _ _ _ _ _ _ _ _ h1 r1 hw (f.body g (by dsimp only; omega) rfl (fun p hp => hp) (fun cs d h => ⟨[], d, h, fun _ => rfl⟩) (fun p hp => hp)
      (Nat.le_refl _) fun _ _ h => h) ?_ ?_) ?_ ?_ ?_
    · intro x hx; cases hx; exact ⟨_, by dsimp only; omega, rfl⟩
    · intro x hx; cases hx; exact ⟨_, by dsimp only; omega, rfl⟩
    · simp
    · exact fun n => nolab n _ (Nat.le_refl _) (by omega)
    · exact fun n => nolab n _ (by omega) (by omega)
  | switch c x ix =>
    intro brk cont a st b st' σ t h hr hw f ob ok
    simp only [elabS, bindSome, PS.fresh] at h
    obtain ⟨⟨x1, s1⟩, h1, ⟨cs, d⟩, h2, h3⟩ := h
    simp only [Option.some.injEq, Prod.mk.injEq] at h3
    obtain ⟨rfl, rfl⟩ := h3
    simp only [resolve, bindSome, Option.some.injEq] at hr
    obtain ⟨x', r1, rfl⟩ := hr
    simp only [SStmt.switchesOk, Bool.and_eq_true, decide_eq_true_eq] at hw
    obtain ⟨⟨⟨hw, hok⟩, hap⟩, hone⟩ := hw
    rw [List.all_eq_true] at hok
    have g := elab_grow _ _ _ _ _ _ h1
    have hu := g.uid
    dsimp only at hu h2
    have hsw := g.sw
    obtain ⟨C, D, q1, q2, q3, q4⟩ := hsw
    rw [h2, List.append_nil, Option.some.injEq, Prod.mk.injEq] at q1
    obtain ⟨rfl, rfl⟩ := q1
    -- each case in the list comes from the source
    have src : ∀ cc ∈ cs, ∃ p ∈ x.cases, ∀ v, inRange (promote c.ty) v = true → (cc.holds v = caseHolds (promote c.ty) p.1 p.2 v) := by
      intro cc hcc
      have : (cc.lo, cc.hi) ∈ x.cases.map fun p => (convC (.int false) p.1, convC (.int false) p.2) :=
        q2.mem_iff.mp (List.mem_map_of_mem (f := fun c : Case => (c.lo, c.hi)) hcc)
      obtain ⟨p, hp, e⟩ := List.mem_map.mp this
      rw [Prod.mk.injEq] at e
      refine ⟨p, hp, fun v hv => ?_⟩
      have := caseOk_holds (l := cc.lbl) (hok p hp) hv
      rw [e.1, e.2] at this
      exact this.symm
    have none_of : ∀ v, inRange (promote c.ty) v = true → x.has (promote c.ty) (.case v) = false → cs.find? (Case.holds v) = none := by
      intro v hv hn
      rw [List.find?_eq_none]
      intro cc hcc hh
      obtain ⟨p, hp, e⟩ := src cc hcc
      rw [e v hv] at hh
      have := (has_case x).mpr ⟨p, hp, hh⟩
      rw [hn] at this
      simp at this
    have pw : ∀ v, inRange (promote c.ty) v = true → cs.Pairwise fun x y => ¬ (x.holds v = true ∧ y.holds v = true) := by
      intro v hv
      -- transport pairwise through the permutation
      have p1 : (x.cases.map fun p => (convC (.int false) p.1, convC (.int false) p.2)).Pairwise
          fun p q => ¬ (Case.holds v ⟨p.1, p.2, .uniq 0⟩ = true ∧ Case.holds v ⟨q.1, q.2, .uniq 0⟩ = true) := by
        rw [List.pairwise_map]
        refine (List.Pairwise.and_mem.mp hap).imp ?_
        intro p q ⟨hp, hq, hpq⟩ ⟨k1, k2⟩
        rw [← caseOk_holds (hok p hp) hv] at k1
        rw [← caseOk_holds (hok q hq) hv] at k2
        have k1 := of_decide_eq_true k1
        have k2 := of_decide_eq_true k2
        rcases hpq with h | h
        · have := k1.2; have := k2.1; omega
        · have := k1.1; have := k2.2; omega
      have p2 := (q2.pairwise_iff (fun h ⟨k1, k2⟩ => h ⟨k2, k1⟩)).mpr p1
      rw [List.pairwise_map] at p2
      exact p2
    let σ' : Tgt → Label := fun
      | .lab n => σ (.lab n)
      | .case v => dispatch v cs d (.uniq a.uid)
      | .dflt => d.getD (.uniq a.uid)
    have nolab : ∀ n, σ (.lab n) ≠ .uniq a.uid := by
      intro n e
      obtain ⟨j', e', l3, _⟩ := g.defs _ (f.own n a.uid e (Nat.le_refl _) (by dsimp only; omega))
      cases e'
      dsimp only at l3
      omega
    refine .switch (σ' := σ') (ix _ _ _ _ _ _ σ' (promote c.ty) h1 r1 hw ⟨f.sub, f.tbl, ?_, ?_, ?_, ?_, hone⟩ ?_ (ok.mono (by dsimp only; omega)))
      (fun _ => rfl) nolab ?_ ?_ (fun v _ _ => rfl) ?_ ?_
    · intro n j hj l1 l2
      exact f.own n j hj (by dsimp only at l1; omega) l2
    · intro cs' d' hs' cc hcc v hv hh
      rw [h2, Option.some.injEq, Prod.mk.injEq] at hs'
      obtain ⟨rfl, rfl⟩ := hs'
      have := find_unique (pw v hv) hcc hh
      simp only [σ', dispatch, this]
    · exact hok
    · intro cs' l hs' _
      rw [h2, Option.some.injEq, Prod.mk.injEq] at hs'
      obtain ⟨rfl, rfl⟩ := hs'
      rfl
    · intro l hl; cases hl; exact ⟨_, by dsimp only; omega, rfl⟩
    · intro e
      obtain ⟨j, hj, e'⟩ := ok _ e
      cases e'
      omega
    · rw [resolve_defs _ _ r1, Bool.eq_false_iff]
      intro hd
      obtain ⟨j, e, l1, _⟩ := g.defs _ hd
      cases e
      dsimp only at l1
      omega
    · intro v hv hn _
      simp only [σ', dispatch, none_of v hv hn]
    · intro v hv hn hd
      have : ¬ 0 < x.defaults := by rw [← has_dflt, hd]; simp
      have hd : d = none := q3 (by omega)
      subst hd
      simp only [dispatch, none_of v hv hn, Option.getD_none]
  | case lo hi x ix =>
    intro brk cont a st b st' σ t h hr hw f ob ok
    simp only [elabS, bindSome, PS.fresh] at h
    obtain ⟨sw0, h0, h⟩ := h
    split at h
    · simp at h
    simp only [bindSome] at h
    obtain ⟨⟨x1, s1⟩, h1, ⟨cs, d⟩, h2, h3⟩ := h
    simp only [Option.some.injEq, Prod.mk.injEq] at h3
    obtain ⟨rfl, rfl⟩ := h3
    simp only [resolve, bindSome, Option.some.injEq] at hr
    obtain ⟨x', r1, rfl⟩ := hr
    have g := elab_grow _ _ _ _ _ _ h1
    have hu := g.uid
    dsimp only at hu h2
    refine .case (ix _ _ _ _ _ _ _ _ h1 r1 hw (f.body g (by dsimp only; omega) rfl (fun p hp => hp) ?_ (fun p hp => List.mem_cons_of_mem _ hp)
      (Nat.le_refl _) ?_) (ob.mono (by dsimp only; omega)) (ok.mono (by dsimp only; omega))) ?_ ?_
    · intro cs' d' hs'
      rw [h2, Option.some.injEq, Prod.mk.injEq] at hs'
      obtain ⟨rfl, rfl⟩ := hs'
      exact ⟨[_], d, rfl, fun _ => rfl⟩
    · intro j hj hd
      simp only [Stmt.defs, Bool.or_eq_true, beq_iff_eq, Label.uniq.injEq] at hd
      refine hd.resolve_left fun e => ?_
      dsimp only at hj
      omega
    · intro v hv hh
      refine f.cases _ _ rfl _ (List.mem_cons_self ..) v hv ?_
      rw [← caseOk_holds (f.ok (lo, hi) (List.mem_cons_self ..)) hv]
      exact hh
    · rw [resolve_defs _ _ r1, Bool.eq_false_iff]
      intro hd
      obtain ⟨j, e, l1, _⟩ := g.defs _ hd
      cases e
      dsimp only at l1
      omega
  | dflt x ix =>
    intro brk cont a st b st' σ t h hr hw f ob ok
    simp only [elabS, bindSome, PS.fresh] at h
    obtain ⟨sw0, h0, ⟨x1, s1⟩, h1, ⟨cs, d⟩, h2, h3⟩ := h
    simp only [Option.some.injEq, Prod.mk.injEq] at h3
    obtain ⟨rfl, rfl⟩ := h3
    simp only [resolve, bindSome, Option.some.injEq] at hr
    obtain ⟨x', r1, rfl⟩ := hr
    have g := elab_grow _ _ _ _ _ _ h1
    have hu := g.uid
    dsimp only at hu h2
    have h1' := f.one
    simp only [SStmt.defaults] at h1'
    refine .dflt (ix _ _ _ _ _ _ _ _ h1 r1 hw (f.body g (by dsimp only; omega) rfl (fun p hp => hp) ?_ (fun p hp => hp)
      (by simp only [SStmt.defaults]; omega) ?_) (ob.mono (by dsimp only; omega)) (ok.mono (by dsimp only; omega))) ?_ ?_
    · intro cs' d' hs'
      rw [h2, Option.some.injEq, Prod.mk.injEq] at hs'
      obtain ⟨rfl, rfl⟩ := hs'
      exact ⟨[], _, rfl, by omega⟩
    · intro j hj hd
      simp only [Stmt.defs, Bool.or_eq_true, beq_iff_eq, Label.uniq.injEq] at hd
      refine hd.resolve_left fun e => ?_
      dsimp only at hj
      omega
    · exact f.dflt _ _ rfl (by simp [SStmt.defaults])
    · rw [resolve_defs _ _ r1, Bool.eq_false_iff]
      intro hd
      obtain ⟨j, e, l1, _⟩ := g.defs _ hd
      cases e
      dsimp only at l1
      omega
  | label n x ix =>
    intro brk cont a st b st' σ t h hr hw f ob ok
    simp only [elabS, bindSome, PS.fresh] at h
    obtain ⟨⟨x1, s1⟩, h1, h3⟩ := h
    simp only [Option.some.injEq, Prod.mk.injEq] at h3
    obtain ⟨rfl, rfl⟩ := h3
    simp only [resolve, bindSome, Option.some.injEq] at hr
    obtain ⟨x', r1, rfl⟩ := hr
    have g := elab_grow _ _ _ _ _ _ h1
    have hu := g.uid
    dsimp only at hu
    refine .label (ix _ _ _ _ _ _ _ _ h1 r1 hw (f.body g (by dsimp only; omega) rfl (fun p hp => List.mem_cons_of_mem _ hp)
      (fun cs d h => ⟨[], d, h, fun _ => rfl⟩) (fun p hp => hp)
      (Nat.le_refl _) ?_) (ob.mono (by dsimp only; omega)) (ok.mono (by dsimp only; omega))) ?_ ?_
    · intro j hj hd
      simp only [Stmt.defs, Bool.or_eq_true, beq_iff_eq, Label.uniq.injEq] at hd
      refine hd.resolve_left fun e => ?_
      dsimp only at hj
      omega
    · exact f.tbl _ (f.sub (n, .uniq a.uid) (List.mem_cons_self ..))
    · rw [resolve_defs _ _ r1, Bool.eq_false_iff]
      intro hd
      obtain ⟨j, e, l1, _⟩ := g.defs _ hd
      cases e
      dsimp only at l1
      omega
  | goto n =>
    intro brk cont a st b st' σ t h hr hw f ob ok
    simp only [elabS, Option.some.injEq, Prod.mk.injEq] at h
    obtain ⟨rfl, rfl⟩ := h
    simp only [resolve, bindSome, Option.some.injEq] at hr
    obtain ⟨⟨n', l⟩, r1, rfl⟩ := hr
    have e1 := List.find?_some r1
    have e2 := List.mem_of_find?_eq_some r1
    simp only [beq_iff_eq] at e1
    subst e1
    have := f.tbl _ e2
    dsimp only at this
    rw [← this]
    exact .goto
  | brk =>
    intro brk cont a st b st' σ t h hr hw f ob ok
    simp only [elabS, bindSome, Option.some.injEq, Prod.mk.injEq] at h
    obtain ⟨l, rfl, rfl, rfl⟩ := h
    simp only [resolve, Option.some.injEq] at hr
    subst hr
    exact .brk
  | cont =>
    intro brk cont a st b st' σ t h hr hw f ob ok
    simp only [elabS, bindSome, Option.some.injEq, Prod.mk.injEq] at h
    obtain ⟨l, rfl, rfl, rfl⟩ := h
    simp only [resolve, Option.some.injEq] at hr
    subst hr
    exact .cont
  | ret e =>
    intro brk cont a st b st' σ t h hr _ f _ _
    simp only [elabS, Option.some.injEq, Prod.mk.injEq] at h
    obtain ⟨rfl, rfl⟩ := h
    simp only [resolve, Option.some.injEq] at hr
    subst hr
    exact .ret

end Toycc.Stm
