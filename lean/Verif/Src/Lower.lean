import Verif.Src.Sim
/-! The parser accepts every typed body, and what it makes of it is related to it by `Down`. -/
namespace Toycc.Src
open Toycc.Rv Toycc.Cg Toycc.Low
open Toycc.Stm hiding exec

variable {S E : CEnv} {tmp : Nat → Int} {N : Nat} {rt : CTy}

theorem lower_e (H : Hidden S E tmp N) (hS : S.CallsTyped) {e : SExpr} (h : okE e = true) (k : Nat) :
    ∃ n k', tr tmp e k = some (n, k') ∧ k ≤ k' ∧ (k' ≤ N → ∀ d, EOk S E tmp d e n.e) := by
  unfold okE at h
  rw [Bool.and_eq_true] at h
  obtain ⟨t, ht⟩ := Option.isSome_iff_exists.mp h.1
  obtain ⟨n, k', h1, g⟩ := good H hS e true t k h.2 ht
  refine ⟨n, k', h1, g.le, fun hN d m m1 v m' ha he => ?_⟩
  obtain ⟨m1', r1, r2, -⟩ := g.sim hN false d m m1 v m' ha he
  exact ⟨m1', r1, r2⟩

theorem okC_okE {e : SExpr} (h : okC e = true) : okE e = true := by
  unfold okC at h
  unfold okE
  rw [Bool.and_eq_true] at h ⊢
  cases ht : typeC e with
  | none => rw [ht] at h; cases h.2
  | some t => exact ⟨rfl, h.1⟩

theorem wide_promote {t c : CTy} (hc : c.isInt = true) (h : Rel t c) : TEq c.wide.low (promote t.low) := by
  have hi : t.isInt = true := by rw [h.int]; exact hc
  have hw : t.wide = c.wide := by
    rcases h with rfl | h
    · rfl
    · exact h.2.2
  rw [← hw]
  intro v
  cases t <;> first | (cases hi; done) | rfl

theorem lower_sw (H : Hidden S E tmp N) (hS : S.CallsTyped) {e : SExpr} (h : okSw e = true) (k : Nat) :
    ∃ n k', tr tmp e k = some (n, k') ∧ k ≤ k' ∧ TEq (swTy e) (promote n.e.ty) ∧ (k' ≤ N → ∀ d, EOk S E tmp d e n.e) := by
  unfold okSw at h
  rw [Bool.and_eq_true] at h
  cases ht : typeC e with
  | none => rw [ht] at h; cases h.2
  | some t =>
    rw [ht] at h
    obtain ⟨n, k', h1, g⟩ := good H hS e true t k h.1 ht
    refine ⟨n, k', h1, g.le, ?_, fun hN d m m1 v m' ha he => ?_⟩
    · have hi : (e.vty t).isInt = true := by rw [vty_int ht]; exact h.2
      have hs : swTy e = (e.vty t).wide.low := by
        unfold swTy
        rw [ht]
        dsimp only
        rw [(prom_ints _ (mem_ints hi)).1]
      rw [hs, g.low]
      exact wide_promote hi (g.rel rfl)
    · obtain ⟨m1', r1, r2, -⟩ := g.sim hN false d m m1 v m' ha he
      exact ⟨m1', r1, r2⟩

theorem IOk.append {d : Nat} {i : XI} {r : List XI} {a b : List Expr} (h1 : IOk S E tmp d [i] a) (h2 : IOk S E tmp d r b) : IOk S E tmp d (i :: r) (a ++ b) := by
  intro m m1 m' ha he
  simp only [evIs] at he
  cases h : evI S i m with
  | none => rw [h] at he; cases he
  | some m2 =>
    rw [h] at he
    obtain ⟨m3, r1, r2⟩ := h1 m m1 m2 ha (by simp only [evIs, h]; rfl)
    obtain ⟨m4, s1, s2⟩ := h2 m2 m3 m' r2 he
    refine ⟨m4, ?_, s2⟩
    have : ∀ (a : List Expr) m1, evList (evC E d) a m1 = some m3 → evList (evC E d) (a ++ b) m1 = evList (evC E d) b m3 := by
      intro a
      induction a with
      | nil => intro m1 h; cases h; rfl
      | cons x a ih =>
        intro m1 h
        simp only [List.cons_append, evList] at h ⊢
        cases hx : evC E d .value x m1 with
        | none => rw [hx] at h; cases h
        | some p => rw [hx] at h; exact ih _ h
    rw [this a m1 r1, s1]

theorem EOk.item {d : Nat} {e : SExpr} {x : Expr} (h : EOk S E tmp d e x) : IOk S E tmp d [.expr e] [x] := by
  intro m m1 m' ha he
  simp only [evIs, evI] at he
  cases hv : evalX S false e m with
  | none => rw [hv] at he; cases he
  | some p =>
    rw [hv] at he
    obtain ⟨m1', r1, r2⟩ := h m m1 p.1 p.2 ha hv
    cases he
    exact ⟨m1', by simp only [evList, evC, r1]; rfl, r2⟩

theorem lower_i (H : Hidden S E tmp N) (hS : S.CallsTyped) {i : XI} (h : okI i = true) (k : Nat) :
    ∃ es k', trI tmp i k = some (es, k') ∧ k ≤ k' ∧ (k' ≤ N → ∀ d, IOk S E tmp d [i] es) := by
  cases i with
  | expr e =>
    obtain ⟨n, k', h1, h2, h3⟩ := lower_e H hS h k
    exact ⟨[n.e], k', by simp only [trI, h1]; rfl, h2, fun hN d => (h3 hN d).item⟩
  | var =>
    refine ⟨_, k, rfl, Nat.le_refl _, fun hN d m m1 m' ha he => ?_⟩
    cases he
    exact ⟨m1, by simp only [evList, evC, evalC]; rfl, ha⟩
  | ini t off e =>
    simp only [okI, Bool.and_eq_true] at h
    obtain ⟨n, k', h1, h2, h3⟩ := lower_e H hS h.2 k
    refine ⟨_, k', by simp only [trI, h1]; rfl, h2, fun hN d m m1 m' ha he => ?_⟩
    simp only [evIs, evI] at he
    split at he
    · rename_i hok
      cases hv : evalX S false (.assign (.var t (.loc off)) e) (writeN m (S.fp + BitVec.ofInt 64 off) t.size 0) with
      | none => rw [hv] at he; cases he
      | some p =>
        rw [hv] at he
        obtain ⟨m1', r1, r2⟩ := h3 hN d _ _ p.1 p.2 (writeN_agree H ha hok 0 0).1 hv
        cases he
        refine ⟨m1', ?_, r2⟩
        have e1 : evalC E false d (.memzero off t.size) m1 = some (0, writeN m1 (S.fp + BitVec.ofInt 64 off) t.size 0) := by
          simp only [evalC, Bool.false_eq_true, if_false, H.fp]
          rw [if_pos (ok_of H hok)]
        have e2 : evalC E false d .null m1 = some (0, m1) := by simp [evalC]
        simp only [evList, evC, e2, Option.bind_some]
        rw [show evalC E false d (.comma (.memzero off t.size) n.e) m1 = some (p.1, m1') by
          rw [evalC, e1]; exact r1]
        rfl
    · cases he

theorem lower_is (H : Hidden S E tmp N) (hS : S.CallsTyped) : ∀ (is : List XI), is.all okI = true → ∀ (k : Nat),
    ∃ es k', trIs tmp is k = some (es, k') ∧ k ≤ k' ∧ (k' ≤ N → ∀ d, IOk S E tmp d is es)
  | [], _, k => ⟨[], k, rfl, Nat.le_refl _, fun _ _ => .nil⟩
  | i :: r, h, k => by
    rw [List.all_cons, Bool.and_eq_true] at h
    obtain ⟨a, k1, h1, h2, h3⟩ := lower_i H hS h.1 k
    obtain ⟨b, k2, g1, g2, g3⟩ := lower_is H hS r h.2 k1
    exact ⟨a ++ b, k2, by simp only [trIs, h1, g1, Option.bind_eq_bind, Option.bind_some], by omega, fun hN d => (h3 (by omega) d).append (g3 hN d)⟩

theorem lower_c (H : Hidden S E tmp N) (hS : S.CallsTyped) (c : Option SExpr) (h : c.toList.all okC = true) (k : Nat) :
    ∃ x k', trO tmp c k = some (x, k') ∧ k ≤ k' ∧ (k' ≤ N → ∀ d, COk S E tmp d c x) := by
  cases c with
  | none => exact ⟨none, k, rfl, Nat.le_refl _, fun hN d m m1 v m' ha he => by cases he; exact ⟨m1, rfl, ha⟩⟩
  | some e =>
    simp only [Option.toList_some, List.all_cons, List.all_nil, Bool.and_true] at h
    obtain ⟨n, k', h1, h2, h3⟩ := lower_e H hS (okC_okE h) k
    exact ⟨some n.e, k', by simp only [trO, h1]; rfl, h2, fun hN d m m1 v m' ha he => h3 hN d m m1 v m' ha he⟩

theorem lower_o (H : Hidden S E tmp N) (hS : S.CallsTyped) (c : Option SExpr) (h : c.toList.all okE = true) (k : Nat) :
    ∃ x k', trO tmp c k = some (x, k') ∧ k ≤ k' ∧ (k' ≤ N → ∀ d, IOk S E tmp d (c.toList.map .expr) x.toList) := by
  cases c with
  | none => exact ⟨none, k, rfl, Nat.le_refl _, fun hN d => .nil⟩
  | some e =>
    simp only [Option.toList_some, List.all_cons, List.all_nil, Bool.and_true] at h
    obtain ⟨n, k', h1, h2, h3⟩ := lower_e H hS h k
    exact ⟨some n.e, k', by simp only [trO, h1]; rfl, h2, fun hN d => (h3 hN d).item⟩

theorem lower (H : Hidden S E tmp N) (hS : S.CallsTyped) : ∀ (x : XStmt), x.typed rt = true → ∀ (k : Nat),
    ∃ s k', trS tmp rt x k = some (s, k') ∧ k ≤ k' ∧ (k' ≤ N → ∀ d, Down S E tmp d rt x s) := by
  intro x
  induction x with
  | skip => intro _ k; exact ⟨_, k, rfl, Nat.le_refl _, fun _ _ => .skip⟩
  | goto => intro _ k; exact ⟨_, k, rfl, Nat.le_refl _, fun _ _ => .goto⟩
  | brk => intro _ k; exact ⟨_, k, rfl, Nat.le_refl _, fun _ _ => .brk⟩
  | cont => intro _ k; exact ⟨_, k, rfl, Nat.le_refl _, fun _ _ => .cont⟩
  | seq a b ia ib =>
    intro h k
    simp only [XStmt.typed, Bool.and_eq_true] at h
    obtain ⟨a', k1, h1, h2, h3⟩ := ia h.1 k
    obtain ⟨b', k2, g1, g2, g3⟩ := ib h.2 k1
    exact ⟨.seq a' b', k2, by simp only [trS, h1, g1, Option.bind_eq_bind, Option.bind_some], by omega,
      fun hN d => .seq (h3 (by omega) d) (g3 hN d)⟩
  | items is =>
    intro h k
    obtain ⟨es, k1, h1, h2, h3⟩ := lower_is H hS is h k
    exact ⟨chain es, k1, by simp only [trS, h1]; rfl, h2, fun hN d => .items (h3 hN d)⟩
  | ifs c a b ia ib =>
    intro h k
    simp only [XStmt.typed, Bool.and_eq_true] at h
    obtain ⟨c', k0, f1, f2, f3⟩ := lower_e H hS (okC_okE h.1.1) k
    obtain ⟨a', k1, h1, h2, h3⟩ := ia h.1.2 k0
    obtain ⟨b', k2, g1, g2, g3⟩ := ib h.2 k1
    exact ⟨.ifs c'.e a' b', k2, by simp only [trS, f1, h1, g1, Option.bind_eq_bind, Option.bind_some], by omega,
      fun hN d => .ifs (f3 (by omega) d) (h3 (by omega) d) (g3 hN d)⟩
  | loop init c inc b ib =>
    intro h k
    simp only [XStmt.typed, Bool.and_eq_true] at h
    obtain ⟨es, k0, f1, f2, f3⟩ := lower_is H hS init h.1.1.1 k
    obtain ⟨c', k1, h1, h2, h3⟩ := lower_c H hS c h.1.1.2 k0
    obtain ⟨y, k2, g1, g2, g3⟩ := lower_o H hS inc h.1.2 k1
    obtain ⟨b', k3, e1, e2, e3⟩ := ib h.2 k2
    exact ⟨.loop es c' y b', k3, by simp only [trS, f1, h1, g1, e1, Option.bind_eq_bind, Option.bind_some], by omega,
      fun hN d => .loop (f3 (by omega) d) (h3 (by omega) d) (g3 (by omega) d) (e3 hN d)⟩
  | doW b c ib =>
    intro h k
    simp only [XStmt.typed, Bool.and_eq_true] at h
    obtain ⟨b', k1, h1, h2, h3⟩ := ib h.2 k
    obtain ⟨c', k2, f1, f2, f3⟩ := lower_e H hS (okC_okE h.1) k1
    exact ⟨.doW b' c'.e, k2, by simp only [trS, f1, h1, Option.bind_eq_bind, Option.bind_some], by omega,
      fun hN d => .doW (f3 hN d) (h3 (by omega) d)⟩
  | switch c b ib =>
    intro h k
    simp only [XStmt.typed, Bool.and_eq_true] at h
    obtain ⟨c', k1, f1, f2, f3, f4⟩ := lower_sw H hS h.1 k
    obtain ⟨b', k2, h1, h2, h3⟩ := ib h.2 k1
    exact ⟨.switch c'.e b', k2, by simp only [trS, f1, h1, Option.bind_eq_bind, Option.bind_some], by omega,
      fun hN d => .switch (f4 (by omega) d) f3 (h3 hN d)⟩
  | case lo hi s is =>
    intro h k
    obtain ⟨s', k1, h1, h2, h3⟩ := is h k
    exact ⟨.case lo hi s', k1, by simp only [trS, h1]; rfl, h2, fun hN d => .case (h3 hN d)⟩
  | dflt s is =>
    intro h k
    obtain ⟨s', k1, h1, h2, h3⟩ := is h k
    exact ⟨.dflt s', k1, by simp only [trS, h1]; rfl, h2, fun hN d => .dflt (h3 hN d)⟩
  | label n s is =>
    intro h k
    obtain ⟨s', k1, h1, h2, h3⟩ := is h k
    exact ⟨.label n s', k1, by simp only [trS, h1]; rfl, h2, fun hN d => .label (h3 hN d)⟩
  | ret e =>
    intro h k
    cases e with
    | none => exact ⟨_, k, rfl, Nat.le_refl _, fun _ _ => .retN⟩
    | some e =>
      obtain ⟨n, k1, h1, h2, h3⟩ := lower_e H hS h k
      simp only [tr, Option.bind_eq_bind, Option.bind_eq_some_iff, Option.some.injEq, Prod.mk.injEq] at h1
      obtain ⟨p, q1, rfl, rfl⟩ := h1
      exact ⟨.ret (some (castN p.1 rt).e), p.2, by simp only [trS, q1]; rfl, h2, fun hN d => .ret (h3 hN d)⟩

end Toycc.Src
