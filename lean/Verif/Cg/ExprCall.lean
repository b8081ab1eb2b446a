import Verif.Cg.ExprCases3
/-! Correctness of generated expression code: function calls; the main induction. -/
namespace Toycc.Cg
open Toycc.Rv

variable {E : CEnv} {B : W} {env : Env} {P : Prog}

/-- The arguments from index `k` on. -/
def dropE : Nat → Exprs → Exprs
  | 0, a => a
  | _ + 1, .nil => .nil
  | k + 1, .cons _ r => dropE k r

theorem dropE_nil (k : Nat) : dropE k .nil = .nil := by cases k <;> rfl

theorem dropE_length (k : Nat) (a : Exprs) : (dropE k a).length = a.length - k := by
  induction k generalizing a with
  | zero => rfl
  | succ k ih =>
    cases a with
    | nil => simp [dropE, Exprs.length]
    | cons e r => rw [dropE, ih, Exprs.length]; omega

/-- The pushed arguments: the first one is on top. -/
def SlotsOk (B : W) (d : Nat) (vs : List (Ty × Int)) (mm : Mem) : Prop :=
  ∀ (j : Nat) (t : Ty) (x : Int), vs[j]? = some (t, x) → ArgRep t x (slot B mm (d + vs.length - 1 - j))

theorem SlotsOk.keeps (hw : World E B env P) {d vs a b} (h : SlotsOk B d vs a) (hr : d + vs.length ≤ E.room)
    (hk : Keeps E B (d + vs.length) a b) : SlotsOk B d vs b := by
  intro j t x hj
  have hlt : j < vs.length := by
    rcases Nat.lt_or_ge j vs.length with h | h
    · exact h
    · rw [List.getElem?_eq_none h] at hj; simp at hj
  rw [slot_keeps hw (by omega) (by omega) hk]
  exact h j t x hj

theorem evalArgsS_length : ∀ (a : Exprs) {d m vs m'}, evalArgsS E d a m = some (vs, m') → vs.length = a.length
  | .nil, d, m, vs, m', h => by simp only [evalArgsS, Option.some.injEq, Prod.mk.injEq] at h; rw [← h.1]; rfl
  | .cons e r, d, m, vs, m', h => by
    simp only [evalArgsS, bindSome] at h
    obtain ⟨⟨ws, m1⟩, h1, ⟨v, f, m2⟩, h2, _, h3, h4⟩ := h
    simp only [Option.some.injEq, Prod.mk.injEq] at h4
    rw [← h4.1, List.length_cons, evalArgsS_length r h1, Exprs.length]

theorem genArgs_skip : ∀ (a : Exprs) (i : Nat) (gs : GS), 8 ≤ i → genArgs false i a gs = some ([], gs)
  | .nil, i, gs, h => by simp [genArgs]
  | .cons e r, i, gs, h => by
    simp only [genArgs, genArgs_skip r (i + 1) gs (by omega)]
    simp [h]

theorem argRep_of {f : Ext} {v : Int} {x : W} {t : Ty} (h : Rep f v x) (hf : (f == .full || (f != .junk && decide (t.size ≤ 4))) = true) :
    ArgRep t v x := by
  unfold ArgRep
  split
  · exact h.lo (by intro e; subst e; simp at hf)
  · rename_i hs
    have : f = .full := by simpa [hs] using hf
    subst this; exact h.1

/-- Evaluating one argument and pushing it. -/
theorem push_arg (hw : World E B env P) {e : Expr} (he : Good E B env P e) {gs : GS} {c gs' d n ws m v f m' pc s}
    (hg : gen false e gs = some (c, gs')) (hev : evalS E false (d + n) e m = some (v, f, m')) (hd : gs.depth = d + n)
    (hf : (f == .full || (f != .junk && decide (e.ty.size ≤ 4))) = true) (hn : ws.length = n)
    (hr : d + n + 1 ≤ E.room) (hc : CodeAt P pc (c ++ pushI .a0)) (hm : Match E B (d + n) m s) (hs : SlotsOk B d ws s.mem) :
    ∃ s', Runs P env (pc, s) (pc + (c ++ pushI .a0).length, s') ∧ Match E B (d + (n + 1)) m' s' ∧
      SlotsOk B d ((e.ty, v) :: ws) s'.mem ∧ Keeps E B d s.mem s'.mem := by
  rw [← hd] at hev hm
  obtain ⟨s1, a1, a2, a3, a4⟩ := he _ _ _ _ _ _ _ _ _ _ hg hev hc.left hm
  rw [hd] at a2 a4
  obtain ⟨s2, b1, b2, b3, b4, b5⟩ := sim_push hw (r := .a0) (by decide) a2 (by omega) hc.right
  refine ⟨s2, ?_, b2, ?_, (a4.mono (by omega)).trans (b3.mono (by omega))⟩
  · rw [List.length_append, ← Nat.add_assoc]
    exact a1.trans b1
  · intro j t x hj
    rw [List.length_cons, hn]
    cases j with
    | zero =>
      simp only [List.getElem?_cons_zero, Option.some.injEq, Prod.mk.injEq] at hj
      obtain ⟨rfl, rfl⟩ := hj
      rw [show d + (n + 1) - 1 - 0 = d + n by omega, b4]
      exact argRep_of a3 hf
    | succ j =>
      simp only [List.getElem?_cons_succ] at hj
      have := (hs.keeps hw (by omega) (by rw [hn]; exact a4.trans b3)) j t x hj
      rw [hn] at this
      rwa [show d + (n + 1) - 1 - (j + 1) = d + n - 1 - j by omega]

/-- The two passes of pushing arguments. -/
def GoodArgs (E : CEnv) (B : W) (env : Env) (P : Prog) (a : Exprs) : Prop :=
  (∀ i gs c gs' d m vs m' pc s, genArgs true i a gs = some (c, gs') → gs.depth = d →
    evalArgsS E d (dropE (8 - i) a) m = some (vs, m') → d + (dropE (8 - i) a).length ≤ E.room → CodeAt P pc c → Match E B d m s →
    ∃ s', Runs P env (pc, s) (pc + c.length, s') ∧ Match E B (d + (dropE (8 - i) a).length) m' s' ∧ SlotsOk B d vs s'.mem ∧
      Keeps E B d s.mem s'.mem) ∧
  (∀ i gs c gs' d m0 vs2 m2 vs m' pc s, genArgs false i a gs = some (c, gs') → gs.depth = d + (dropE (8 - i) a).length →
    evalArgsS E d a m0 = some (vs, m') → evalArgsS E d (dropE (8 - i) a) m0 = some (vs2, m2) → d + a.length ≤ E.room →
    CodeAt P pc c → Match E B (d + (dropE (8 - i) a).length) m2 s → SlotsOk B d vs2 s.mem →
    ∃ s', Runs P env (pc, s) (pc + c.length, s') ∧ Match E B (d + a.length) m' s' ∧ SlotsOk B d vs s'.mem ∧
      Keeps E B d s.mem s'.mem)

theorem goodArgs_nil : GoodArgs E B env P .nil := by
  constructor
  · intro i gs c gs' d m vs m' pc s hg hd he hr hc hm
    simp only [genArgs, Option.some.injEq, Prod.mk.injEq] at hg
    obtain ⟨rfl, rfl⟩ := hg
    rw [dropE_nil] at *
    simp only [evalArgsS, Option.some.injEq, Prod.mk.injEq] at he
    obtain ⟨rfl, rfl⟩ := he
    exact ⟨s, .refl, hm, fun j t x h => by simp at h, Keeps.refl⟩
  · intro i gs c gs' d m0 vs2 m2 vs m' pc s hg hd he he2 hr hc hm hs
    simp only [genArgs, Option.some.injEq, Prod.mk.injEq] at hg
    obtain ⟨rfl, rfl⟩ := hg
    rw [dropE_nil] at *
    rw [he] at he2
    simp only [Option.some.injEq, Prod.mk.injEq] at he2
    obtain ⟨rfl, rfl⟩ := he2
    exact ⟨s, .refl, hm, hs, Keeps.refl⟩

theorem goodArgs_cons (hw : World E B env P) {e : Expr} {r : Exprs} (ie : Good E B env P e) (ir : GoodArgs E B env P r) :
    GoodArgs E B env P (.cons e r) := by
  constructor
  · intro i gs c gs' d m vs m' pc s hg hd he hr hc hm
    simp only [genArgs, bindSome] at hg
    obtain ⟨⟨c1, s1⟩, h1, h2⟩ := hg
    simp only at h2
    by_cases hi : i < 8
    · have hdrop : dropE (8 - i) (.cons e r) = dropE (8 - (i + 1)) r := by
        rw [show 8 - i = (8 - (i + 1)) + 1 by omega]; rfl
      rw [hdrop] at he hr ⊢
      rw [if_pos (by simp [hi])] at h2
      simp only [Option.some.injEq, Prod.mk.injEq] at h2
      obtain ⟨rfl, rfl⟩ := h2
      exact ir.1 _ _ _ _ _ _ _ _ _ _ h1 hd he hr hc hm
    · have hdrop : dropE (8 - i) (.cons e r) = .cons e r := by
        rw [show 8 - i = 0 by omega]; rfl
      have hdrop' : dropE (8 - (i + 1)) r = r := by
        rw [show 8 - (i + 1) = 0 by omega]; rfl
      rw [hdrop] at he hr ⊢
      rw [if_neg (by simp [hi])] at h2
      simp only [bindSome] at h2
      obtain ⟨⟨c2, s2⟩, h2, h3⟩ := h2
      simp only [Option.some.injEq, Prod.mk.injEq] at h3
      obtain ⟨rfl, rfl⟩ := h3
      simp only [evalArgsS, bindSome] at he
      obtain ⟨⟨ws, m1⟩, e1, ⟨v, f, m2⟩, e2, _, e3, e4⟩ := he
      simp only [Option.some.injEq, Prod.mk.injEq] at e4
      obtain ⟨rfl, rfl⟩ := e4
      simp only [Exprs.length] at hr
      rw [List.append_assoc] at hc
      obtain ⟨t1, a1, a2, a3, a4⟩ := ir.1 _ _ _ _ _ _ _ _ _ _ h1 hd (by rw [hdrop']; exact e1) (by rw [hdrop']; omega) hc.left hm
      rw [hdrop'] at a2
      have hdep := (genArgs_depth r _ _ _ _ _ h1).1
      simp only [if_true] at hdep
      obtain ⟨t2, b1, b2, b3, b4⟩ := push_arg hw ie (n := r.length) h2 e2 (by omega) (guard_some e3) (evalArgsS_length r e1)
        (by omega) hc.right a2 a3
      refine ⟨t2, ?_, b2, b3, a4.trans b4⟩
      rw [List.append_assoc, List.length_append, ← Nat.add_assoc]
      exact a1.trans b1
  · intro i gs c gs' d m0 vs2 m2 vs m' pc s hg hd he he2 hr hc hm hs
    by_cases hi : i < 8
    · simp only [genArgs, bindSome] at hg
      obtain ⟨⟨c1, s1⟩, h1, h2⟩ := hg
      simp only at h2
      have hdrop : dropE (8 - i) (.cons e r) = dropE (8 - (i + 1)) r := by
        rw [show 8 - i = (8 - (i + 1)) + 1 by omega]; rfl
      rw [hdrop] at hd he2 hm
      rw [if_neg (by simp [hi])] at h2
      simp only [bindSome] at h2
      obtain ⟨⟨c2, s2⟩, h2, h3⟩ := h2
      simp only [Option.some.injEq, Prod.mk.injEq] at h3
      obtain ⟨rfl, rfl⟩ := h3
      simp only [evalArgsS, bindSome] at he
      obtain ⟨⟨ws, m1⟩, e1, ⟨v, f, m3⟩, e2, _, e3, e4⟩ := he
      simp only [Option.some.injEq, Prod.mk.injEq] at e4
      obtain ⟨rfl, rfl⟩ := e4
      simp only [Exprs.length] at hr
      rw [List.append_assoc] at hc
      obtain ⟨t1, a1, a2, a3, a4⟩ := ir.2 _ _ _ _ _ _ _ _ _ _ _ _ h1 hd e1 he2 (by omega) hc.left hm hs
      have hdep := (genArgs_depth r _ _ _ _ _ h1).1
      rw [hd, dropE_length] at hdep
      simp only [Bool.false_eq_true, if_false] at hdep
      obtain ⟨t2, b1, b2, b3, b4⟩ := push_arg hw ie (n := r.length) h2 e2 (by omega) (guard_some e3) (evalArgsS_length r e1)
        (by omega) hc.right a2 a3
      refine ⟨t2, ?_, b2, b3, a4.trans b4⟩
      rw [List.append_assoc, List.length_append, ← Nat.add_assoc]
      exact a1.trans b1
    · have hdrop : dropE (8 - i) (.cons e r) = .cons e r := by
        rw [show 8 - i = 0 by omega]; rfl
      rw [genArgs_skip _ _ _ (by omega)] at hg
      simp only [Option.some.injEq, Prod.mk.injEq] at hg
      obtain ⟨rfl, rfl⟩ := hg
      rw [hdrop] at hd he2 hm
      rw [he] at he2
      simp only [Option.some.injEq, Prod.mk.injEq] at he2
      obtain ⟨rfl, rfl⟩ := he2
      exact ⟨s, .refl, hm, hs, Keeps.refl⟩

/-- Popping a list of registers. -/
theorem sim_pops : ∀ (L : List Reg) {k m s pc}, (∀ r ∈ L, r ≠ .sp ∧ r ≠ .zero ∧ r ≠ .fp) → L.Nodup → Match E B (k + L.length) m s →
    CodeAt P pc (L.flatMap popI) →
    ∃ s', Runs P env (pc, s) (pc + (L.flatMap popI).length, s') ∧ Match E B k m s' ∧ s'.mem = s.mem ∧ Same (.sp :: L) s s' ∧
      ∀ (j : Nat) (r : Reg), L[j]? = some r → s'.r r = slot B s.mem (k + L.length - 1 - j)
  | [], k, m, s, pc, _, _, hm, _ => ⟨s, .refl, hm, rfl, Same.refl, fun j r h => by simp at h⟩
  | r :: L, k, m, s, pc, hL, hnd, hm, hc => by
    rw [List.flatMap_cons] at hc ⊢
    have hr := hL r (by simp)
    rw [List.nodup_cons] at hnd
    rw [List.length_cons, ← Nat.add_assoc] at hm
    obtain ⟨s1, a1, a2, a3, a4, a5⟩ := sim_pop (env := env) hr.1 hr.2.1 hr.2.2 hm hc.left
    obtain ⟨s2, b1, b2, b3, b4, b5⟩ := sim_pops L (fun x hx => hL x (by simp [hx])) hnd.2 a2 hc.right
    refine ⟨s2, ?_, b2, b3.trans a3, ?_, ?_⟩
    · rw [List.length_append, ← Nat.add_assoc]
      exact a1.trans b1
    · exact (a5.mono (by simp +contextual)).trans (b4.mono (by simp +contextual))
    · intro j x hj
      cases j with
      | zero =>
        simp only [List.getElem?_cons_zero, Option.some.injEq] at hj
        subst hj
        rw [b4 r (by simp [hr.1, hnd.1]), a4, List.length_cons]
        congr 1
      | succ j =>
        simp only [List.getElem?_cons_succ] at hj
        rw [b5 j x hj, a3, List.length_cons]
        congr 1; omega

theorem shiftVal_eq' {t : Ty} (hs : t.size = 1 ∨ t.size = 2) {v : Int} {X : W} (h : X.setWidth t.bits = BitVec.ofInt t.bits v) :
    shiftVal t.unsigned (64 - t.bits) X = BitVec.ofInt 64 (if t.unsigned then v % 2 ^ t.bits else v.bmod (2 ^ t.bits)) := by
  have e : lo X = BitVec.ofInt 32 (lo X).toInt := by simp
  rw [shiftVal_eq (by omega) e]
  have hv : (lo X).toInt % (2 ^ t.bits : Nat) = v % (2 ^ t.bits : Nat) := by
    have h := congrArg BitVec.toNat h
    rw [BitVec.toNat_setWidth, BitVec.toNat_ofInt] at h
    have h2 : ((lo X).toNat : Int) % (2 ^ 32 : Nat) = (lo X).toInt % (2 ^ 32 : Nat) := by
      rw [BitVec.toInt_eq_toNat_bmod, Int.bmod_emod]
    rw [lo, BitVec.toNat_setWidth] at h2
    rw [← lo] at h2
    rcases hs with hs | hs <;> simp only [Ty.bits, hs] at h ⊢ <;> omega
  split
  · refine congrArg _ ?_
    simpa using hv
  · rw [← Int.emod_bmod, ← Int.emod_bmod (x := v), hv]

theorem evalArgsS_drop : ∀ (k : Nat) (a : Exprs) {d m vs m'}, evalArgsS E d a m = some (vs, m') →
    ∃ vs2 m2, evalArgsS E d (dropE k a) m = some (vs2, m2)
  | 0, a, d, m, vs, m', h => ⟨vs, m', h⟩
  | k + 1, .nil, d, m, vs, m', h => ⟨vs, m', h⟩
  | k + 1, .cons e r, d, m, vs, m', h => by
    simp only [evalArgsS, bindSome] at h
    obtain ⟨⟨ws, m1⟩, h1, _⟩ := h
    exact evalArgsS_drop k r h1

/-- The upper bits of a function result. -/
theorem trunc_correct (t : Ty) {v : Int} (s : St) (h : RetRep t v (s.r .a0)) :
    ∃ s', execL env (truncResult t) s = some s' ∧ Same [.a0] s s' ∧ s'.mem = s.mem ∧ Rep (retExt t) v (s'.r .a0) := by
  have sh : ∀ u n, truncResult t = shiftExt u n → Rep (retExt t) v (shiftVal u n (s.r .a0)) →
      ∃ s', execL env (truncResult t) s = some s' ∧ Same [.a0] s s' ∧ s'.mem = s.mem ∧ Rep (retExt t) v (s'.r .a0) := by
    intro u n e hr
    obtain ⟨s1, h1, h2, h3, h4⟩ := exec_shiftExt env s u n
    exact ⟨s1, by rw [e]; exact h1, h2, h4, by rw [h3]; exact hr⟩
  have id : truncResult t = [] → Rep (retExt t) v (s.r .a0) →
      ∃ s', execL env (truncResult t) s = some s' ∧ Same [.a0] s s' ∧ s'.mem = s.mem ∧ Rep (retExt t) v (s'.r .a0) := by
    intro e hr
    exact ⟨s, by rw [e]; rfl, Same.refl, rfl, hr⟩
  cases t with
  | bool =>
    refine sh false 56 rfl ?_
    have := shiftVal_eq' (t := .bool) (Or.inl rfl) h.1
    have hr := of_decide_eq_true h.2
    simp only [Ty.unsigned, Bool.false_eq_true, if_false, Ty.bits, Ty.size] at this
    rw [Int.bmod_eq_of_le (by omega) (by omega)] at this
    exact ⟨this, by omega, by omega⟩
  | char u =>
    refine sh u 56 rfl ?_
    have := shiftVal_eq' (t := .char u) (Or.inl rfl) h.1
    cases u
    · have hr : -(2 ^ 7) ≤ v ∧ v < 2 ^ 7 := of_decide_eq_true h.2
      simp only [Ty.unsigned, Bool.false_eq_true, if_false, Ty.bits, Ty.size] at this
      rw [Int.bmod_eq_of_le (by omega) (by omega)] at this
      exact ⟨this, by omega, by omega⟩
    · have hr : 0 ≤ v ∧ v < 2 ^ 8 := of_decide_eq_true h.2
      simp only [Ty.unsigned, if_true, Ty.bits, Ty.size] at this
      rw [Int.emod_eq_of_lt (by omega) (by omega)] at this
      exact ⟨this, by omega, by omega⟩
  | short u =>
    refine sh u 48 rfl ?_
    have := shiftVal_eq' (t := .short u) (Or.inr rfl) h.1
    cases u
    · have hr : -(2 ^ 15) ≤ v ∧ v < 2 ^ 15 := of_decide_eq_true h.2
      simp only [Ty.unsigned, Bool.false_eq_true, if_false, Ty.bits, Ty.size] at this
      rw [Int.bmod_eq_of_le (by omega) (by omega)] at this
      exact ⟨this, by omega, by omega⟩
    · have hr : 0 ≤ v ∧ v < 2 ^ 16 := of_decide_eq_true h.2
      simp only [Ty.unsigned, if_true, Ty.bits, Ty.size] at this
      rw [Int.emod_eq_of_lt (by omega) (by omega)] at this
      exact ⟨this, by omega, by omega⟩
  | int u =>
    refine id rfl ?_
    cases u
    · have hr : -(2 ^ 31) ≤ v ∧ v < 2 ^ 31 := of_decide_eq_true h.2
      exact ⟨h.1, by omega, by omega⟩
    · have hr : 0 ≤ v ∧ v < 2 ^ 32 := of_decide_eq_true h.2
      exact ⟨h.1, by omega, by omega⟩
  | enum =>
    refine id rfl ?_
    have hr : -(2 ^ 31) ≤ v ∧ v < 2 ^ 31 := of_decide_eq_true h.2
    exact ⟨h.1, by omega, by omega⟩
  | long u =>
    refine id rfl ?_
    cases u
    · have hr : -(2 ^ 63) ≤ v ∧ v < 2 ^ 63 := of_decide_eq_true h.2
      exact ⟨h.1, by omega, by omega⟩
    · have hr : 0 ≤ v ∧ v < 2 ^ 64 := of_decide_eq_true h.2
      exact ⟨h.1, by omega, by omega⟩
  | ptr =>
    refine id rfl ?_
    have hr : 0 ≤ v ∧ v < 2 ^ 64 := of_decide_eq_true h.2
    exact ⟨h.1, by omega, by omega⟩
  | _ => exact id rfl trivial

theorem sub_8n (k n : Nat) : B - BitVec.ofNat 64 (8 * (k + n)) + BitVec.ofInt 64 (8 * (n : Int)) = B - BitVec.ofNat 64 (8 * k) := by
  have e : BitVec.ofInt 64 (8 * (n : Int)) = BitVec.ofNat 64 (8 * n) := by
    rw [← BitVec.ofInt_natCast]; rfl
  rw [e]
  apply BitVec.eq_of_toNat_eq
  simp only [BitVec.toNat_add, BitVec.toNat_sub, BitVec.toNat_ofNat]
  have := B.isLt
  omega

theorem good_call {f : Expr} {args : Exprs} (ty : Ty) (hw : World E B env P) (jf : Good E B env P f)
    (ja : GoodArgs E B env P args) : Good E B env P (.call ty f args) := by
  intro ad gs c gs' m v fx m' pc s hg he hc hm
  simp only [gen, evalS] at hg he
  split at hg
  · rename_i h; simp [h] at he
  rename_i had
  split at hg
  · simp at hg
  rename_i hal
  simp only [had, hal, Bool.or_self, Bool.false_eq_true, if_false, bindSome] at hg he
  obtain ⟨⟨c1, s1⟩, h1, ⟨c2, s2⟩, h2, ⟨c3, s3⟩, h3, h4⟩ := hg
  obtain ⟨_, e1, ⟨vs, m1⟩, e2, ⟨a, x, m2⟩, e3, _, e4, ⟨w, m3⟩, e5, e6⟩ := he
  simp only [Option.some.injEq, Prod.mk.injEq] at h4 h3 h2 e6
  obtain ⟨rfl, rfl⟩ := h4
  obtain ⟨rfl, rfl, rfl⟩ := e6
  have hroom := of_decide_eq_true (guard_some e1)
  have e4 := guard_some e4
  simp only [beq_iff_eq] at e4
  subst e4
  clear e1
  have hD : gs.depth = gs.depth := rfl
  generalize hn : args.length = n at *
  generalize hpad : (gs.depth + (n - 8)) % 2 = pad at *
  have hpad2 : pad < 2 := by omega
  have hw8 := hw.room
  simp only [List.append_assoc] at hc
  -- alignment padding
  have A : ∃ t, Runs P env (pc, s) (pc + (if pad = 1 then [Instr.addi .sp .sp (-8)] else []).length, t) ∧
      Match E B (gs.depth + pad) m t ∧ t.mem = s.mem := by
    have hcl := hc.left
    by_cases hp : pad = 1
    · rw [if_pos hp] at hcl ⊢
      refine ⟨s.set .sp (s.r .sp + BitVec.ofInt 64 (-8)), Runs.one (step_exec hcl.head rfl), ⟨?_, ?_, hm.mem⟩, rfl⟩
      · rw [r_set_same _ _ _ (by decide), hm.sp, ofInt_neg8, sub_8, hp]
      · rw [r_set_ne _ _ _ _ (by decide), hm.fp]
    · rw [if_neg hp, show pad = 0 by omega]
      exact ⟨s, .refl, hm, rfl⟩
  obtain ⟨t0, r0, k0, l0⟩ := A
  have hc1 := hc.right
  have A1 : ∃ t, execL env [Instr.mv .t1 .sp, .addi .sp .sp 0] t0 = some t ∧ Match E B (gs.depth + pad) m t ∧ t.mem = t0.mem := by
    simp only [execL, exec, Option.bind_some, Option.some.injEq, exists_eq_left', mem_set]
    refine ⟨⟨?_, ?_, k0.mem⟩, trivial⟩
    · rw [r_set_same _ _ _ (by decide), r_set_ne _ _ _ _ (by decide), k0.sp]; simp
    · rw [r_set_ne _ _ _ _ (by decide), r_set_ne _ _ _ _ (by decide), k0.fp]
  obtain ⟨t1, r1, k1, l1⟩ := A1
  have r1 := runs_execL hc1.left r1
  have hc2 := hc1.right
  -- stack arguments
  obtain ⟨vs2, mm2, ev2⟩ := evalArgsS_drop 8 args e2
  have hlen8 := dropE_length 8 args
  obtain ⟨t2, r2, k2, l2, q2⟩ := ja.1 0 _ _ _ _ _ _ _ _ _ h1 rfl ev2 (by rw [hlen8]; show gs.depth + pad + _ ≤ _; omega) hc2.left k1
  have hc3 := hc2.right
  have d1 := (genArgs_depth args _ _ _ _ _ h1).1
  simp only [if_true] at d1
  -- register arguments
  obtain ⟨t3, r3, k3, l3, q3⟩ := ja.2 0 _ _ _ _ _ _ _ _ _ _ _ h2 (by simp only [Nat.sub_zero, hlen8]; omega) e2 ev2
    (by rw [hn]; exact hroom) hc3.left k2 l2
  have hc4 := hc3.right
  have d2 := (genArgs_depth args _ _ _ _ _ h2).1
  simp only [Bool.false_eq_true, if_false] at d2
  rw [hn] at k3
  -- the function
  have d2' : s2.depth = gs.depth + pad + n := by omega
  rw [← d2'] at e3 k3
  obtain ⟨t4, r4, k4, p4, q4⟩ := jf _ _ _ _ _ _ _ _ _ _ h3 e3 hc4.left k3
  rw [d2'] at k4 q4
  have hc5 := hc4.right
  have r5 : Runs P env _ _ := Runs.one (step_exec (env := env) (s := t4) hc5.left.head rfl)
  have k5 := k4.set (r := .t0) (x := t4.r .a0) (by decide) (by decide)
  have hvl := evalArgsS_length args e2
  have l5 : SlotsOk B (gs.depth + pad) vs t4.mem := l3.keeps hw (by omega) (by rw [hvl, hn]; exact q4)
  -- argument registers
  have hc6 := hc5.right
  have hreg : (argRegs.take (min n 8)).length = min n 8 := by rw [List.length_take]; simp [argRegs]
  have hcs : callSlots gs.depth n = gs.depth + pad + (n - 8) := by unfold callSlots; rw [hpad]
  obtain ⟨t6, r6, k6, l6, q6, p6⟩ := sim_pops (env := env) (argRegs.take (min n 8)) (k := gs.depth + pad + (n - 8))
    (fun r hr => (show ∀ r ∈ argRegs, r ≠ .sp ∧ r ≠ .zero ∧ r ≠ .fp by decide) r (List.mem_of_mem_take hr))
    (by
      refine List.Sublist.nodup (List.take_sublist _ _) ?_
      decide) (by rw [hreg, show gs.depth + pad + (n - 8) + min n 8 = gs.depth + pad + n by omega]; exact k5) hc6.left
  have hc7 := hc6.right
  -- the call
  have hfa : t6.r .t0 = adr a := by
    rw [q6 .t0 (by
      have : Reg.t0 ∉ argRegs := by decide
      simp only [List.mem_cons, reduceCtorEq, false_or]
      exact fun h => this (List.mem_of_mem_take h)), r_set_same _ _ _ (by decide)]
    exact p4.1
  have hargs : ∀ (i : Nat) (t : Ty) (y : Int), vs[i]? = some (t, y) → ArgRep t y (argAt t6 i) := by
    intro i t y hi
    have hil : i < n := by
      rcases Nat.lt_or_ge i vs.length with h | h
      · omega
      · rw [List.getElem?_eq_none h] at hi; simp at hi
    have := l5 i t y hi
    rw [hvl, hn] at this
    unfold argAt
    by_cases hi8 : i < 8
    · obtain ⟨r, hr⟩ : ∃ r, argRegs[i]? = some r := ⟨argRegs[i]'(by simp [argRegs]; omega), by simp⟩
      rw [hr]
      simp only
      have hr' : (argRegs.take (min n 8))[i]? = some r := by
        rw [List.getElem?_take_of_lt (by omega), hr]
      rw [p6 i r hr', hreg, show gs.depth + pad + (n - 8) + min n 8 - 1 - i = gs.depth + pad + n - 1 - i by omega]
      exact this
    · rw [List.getElem?_eq_none (by simp [argRegs]; omega)]
      simp only
      rw [k6.sp, l6]
      have e : B - BitVec.ofNat 64 (8 * (gs.depth + pad + (n - 8))) + BitVec.ofNat 64 (8 * (i - 8)) =
          B - BitVec.ofNat 64 (8 * (gs.depth + pad + n - 1 - i + 1)) := by
        apply BitVec.eq_of_toNat_eq
        simp only [BitVec.toNat_add, BitVec.toNat_sub, BitVec.toNat_ofNat]
        have := B.isLt
        omega
      rw [e]; exact this
  rw [hcs] at e5
  obtain ⟨t7, r7, k7, p7, q7⟩ := hw.call _ _ _ _ _ _ _ e5 _ _ hc7.left.head hfa k6 hargs
  have hc8 := hc7.right
  -- the stack
  have A8 : ∀ q, CodeAt P q (if n - 8 + pad = 0 then [] else [Instr.addi .sp .sp (8 * ((n - 8 + pad : Nat) : Int))]) →
      ∃ t, Runs P env (q, t7) (q + (if n - 8 + pad = 0 then [] else [Instr.addi .sp .sp (8 * ((n - 8 + pad : Nat) : Int))]).length, t) ∧
      Match E B gs.depth m3 t ∧ t.mem = t7.mem ∧ t.r .a0 = t7.r .a0 := by
    intro q hcl
    by_cases hst : n - 8 + pad = 0
    · rw [if_pos hst]
      rw [show gs.depth + pad + (n - 8) = gs.depth by omega] at k7
      exact ⟨t7, .refl, k7, rfl, rfl⟩
    · rw [if_neg hst] at hcl ⊢
      refine ⟨_, Runs.one (step_exec hcl.head rfl), ⟨?_, ?_, k7.mem⟩, rfl, ?_⟩
      · rw [r_set_same _ _ _ (by decide), k7.sp, show gs.depth + pad + (n - 8) = gs.depth + (n - 8 + pad) by omega, sub_8n]
      · rw [r_set_ne _ _ _ _ (by decide), k7.fp]
      · rw [r_set_ne _ _ _ _ (by decide)]
  obtain ⟨t8, r8, k8, l8, p8⟩ := A8 _ hc8.left
  have hc9 := hc8.right
  obtain ⟨t9, x9, y9, l9, p9⟩ := trunc_correct (env := env) ty t8 (by rw [p8]; exact p7)
  obtain ⟨r9, k9, q9⟩ := sim_piece k8 hc9 x9 y9 (by decide) (by decide) l9
  refine ⟨t9, ?_, k9, p9, ?_⟩
  · have := r0.trans (r1.trans (r2.trans (r3.trans (r4.trans (r5.trans (r6.trans (r7.trans (r8.trans r9))))))))
    simp only [List.length_append, ← Nat.add_assoc] at this ⊢
    exact this
  · have z1 : Keeps E B gs.depth s.mem t2.mem := by rw [← l0, ← l1]; exact q2.mono (Nat.le_add_right _ _)
    have z2 : Keeps E B gs.depth t2.mem t4.mem := (q3.mono (by omega)).trans (q4.mono (by omega))
    have z3 : Keeps E B gs.depth t4.mem t7.mem := by
      have : t4.mem = t6.mem := by rw [l6]; rfl
      rw [this]; exact q7.mono (by omega)
    have z4 : Keeps E B gs.depth t7.mem t9.mem := by rw [← l8]; exact q9
    exact z1.trans (z2.trans (z3.trans z4))

mutual
/-- Every expression is compiled correctly, as far as strict evaluation goes. -/
theorem gen_good (hw : World E B env P) : ∀ e, Good E B env P e
  | .null => good_null
  | .num t x => good_num t x
  | .neg t e => good_neg t (gen_good hw e)
  | .var t x => good_var hw t x
  | .member f e => good_member f (gen_good hw e)
  | .deref t e => good_deref t (gen_good hw e)
  | .addr e => good_addr (gen_good hw e)
  | .assign t l r => good_assign t hw (gen_good hw l) (gen_good hw r)
  | .comma l r => good_comma (gen_good hw l) (gen_good hw r)
  | .cast t e => good_cast t (gen_good hw e)
  | .memzero o n => good_memzero o n hw
  | .cond t a b e => good_cond t hw (gen_good hw a) (gen_good hw b) (gen_good hw e)
  | .not e => good_not (gen_good hw e)
  | .bitnot e => good_bitnot (gen_good hw e)
  | .logand l r => good_logand hw (gen_good hw l) (gen_good hw r)
  | .logor l r => good_logor hw (gen_good hw l) (gen_good hw r)
  | .bin op t l r => good_bin op t hw (gen_good hw l) (gen_good hw r)
  | .vlaPtr o => good_vlaPtr o
  | .call t f a => good_call t hw (gen_good hw f) (genArgs_good hw a)
theorem genArgs_good (hw : World E B env P) : ∀ a, GoodArgs E B env P a
  | .nil => goodArgs_nil
  | .cons e r => goodArgs_cons hw (gen_good hw e) (genArgs_good hw r)
end

end Toycc.Cg
