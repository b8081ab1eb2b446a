import Verif.Fn.Imm
import Verif.Frame.LayProps
import Verif.Stm.Props
/-! C63: the immediates of emitted instructions. -/
namespace Toycc.Fn
open Toycc.Rv Toycc.Cg Toycc.Stm Toycc.Frame Toycc.Util

/-! ### Statements -/

theorem genList_enc : ∀ (l : List Expr) (gs : GS) (c : List Instr) (gs' : GS), genList l gs = some (c, gs') → (∀ e ∈ l, immOk e = true) → Enc c := by
  intro l
  induction l with
  | nil => intro gs c gs' h _; simp only [genList, Option.some.injEq, Prod.mk.injEq] at h; rw [← h.1]; simp [enc_nil]
  | cons e r ih =>
    intro gs c gs' h hk
    simp only [genList, bindSome, Option.some.injEq, Prod.mk.injEq] at h
    obtain ⟨⟨c1, s1⟩, h1, ⟨c2, s2⟩, h2, h3, -⟩ := h
    rw [← h3, enc_append]
    exact ⟨gen_enc e _ _ _ _ h1 (hk e List.mem_cons_self), ih _ _ _ h2 (fun e he => hk e (List.mem_cons_of_mem _ he))⟩

theorem enc_caseTest (c : Case) : Enc (caseTest c) := by
  unfold caseTest; split <;> simp [enc_cons, enc_nil, Encodable]

theorem genStmt_enc {fn : String} : ∀ (st : Stmt) (gs : GS) (c : List Instr) (gs' : GS), genStmt fn st gs = some (c, gs') →
    (∀ e ∈ st.exprs, immOk e = true) → Enc c := by
  intro st
  induction st with
  | skip => intro gs c gs' h _; simp only [genStmt, Option.some.injEq, Prod.mk.injEq] at h; rw [← h.1]; simp [enc_nil]
  | seq a b ia ib =>
    intro gs c gs' h hk
    simp only [genStmt, bindSome, Option.some.injEq, Prod.mk.injEq] at h
    obtain ⟨⟨c1, s1⟩, h1, ⟨c2, s2⟩, h2, h3, -⟩ := h
    rw [← h3, enc_append]
    exact ⟨ia _ _ _ h1 (fun e he => hk e (by simp [Stmt.exprs, he])), ib _ _ _ h2 (fun e he => hk e (by simp [Stmt.exprs, he]))⟩
  | expr e => intro gs c gs' h hk; exact gen_enc e _ _ _ _ h (hk e (by simp [Stmt.exprs]))
  | ifs x a b ia ib =>
    intro gs c gs' h hk
    simp only [genStmt, bindSome, Option.some.injEq, Prod.mk.injEq] at h
    obtain ⟨⟨c0, s0⟩, h0, ⟨c1, s1⟩, h1, ⟨c2, s2⟩, h2, h3, -⟩ := h
    have e0 := gen_enc x _ _ _ _ h0 (hk x (by simp [Stmt.exprs]))
    have e1 := ia _ _ _ h1 (fun e he => hk e (by simp [Stmt.exprs, he]))
    have e2 := ib _ _ _ h2 (fun e he => hk e (by simp [Stmt.exprs, he]))
    rw [← h3]
    simp [enc_append, enc_cons, enc_nil, Encodable, e0, e1, e2, enc_cmpZero]
  | loop init x inc body b k ib =>
    intro gs c gs' h hk
    simp only [genStmt, bindSome, Option.some.injEq, Prod.mk.injEq] at h
    obtain ⟨⟨c0, s0⟩, h0, ⟨c1, s1⟩, h1, ⟨c2, s2⟩, h2, ⟨c3, s3⟩, h3, h4, -⟩ := h
    have e0 := genList_enc _ _ _ _ h0 (fun e he => hk e (by simp [Stmt.exprs, he]))
    have e1 : Enc c1 := by
      cases x with
      | none => simp only [genCond, Option.some.injEq, Prod.mk.injEq] at h1; rw [← h1.1]; simp [enc_nil]
      | some x =>
        simp only [genCond, bindSome, Option.some.injEq, Prod.mk.injEq] at h1
        obtain ⟨⟨d, t⟩, h1, h5, -⟩ := h1
        have := gen_enc x _ _ _ _ h1 (hk x (by simp [Stmt.exprs]))
        rw [← h5]
        simp [enc_append, enc_cons, enc_nil, Encodable, this, enc_cmpZero]
    have e2 := ib _ _ _ h2 (fun e he => hk e (by simp [Stmt.exprs, he]))
    have e3 := genList_enc _ _ _ _ h3 (fun e he => hk e (by
      simp only [Option.mem_toList] at he
      simp [Stmt.exprs, he]))
    rw [← h4]
    simp [enc_append, enc_cons, enc_nil, Encodable, e0, e1, e2, e3]
  | doW body x b k ib =>
    intro gs c gs' h hk
    simp only [genStmt, bindSome, Option.some.injEq, Prod.mk.injEq] at h
    obtain ⟨⟨c0, s0⟩, h0, ⟨c1, s1⟩, h1, h3, -⟩ := h
    have e0 := ib _ _ _ h0 (fun e he => hk e (by simp [Stmt.exprs, he]))
    have e1 := gen_enc x _ _ _ _ h1 (hk x (by simp [Stmt.exprs]))
    rw [← h3]
    simp [enc_append, enc_cons, enc_nil, Encodable, e0, e1, enc_cmpZero]
  | switch x cs d body b ib =>
    intro gs c gs' h hk
    simp only [genStmt, bindSome, Option.some.injEq, Prod.mk.injEq] at h
    obtain ⟨⟨c0, s0⟩, h0, ⟨c1, s1⟩, h1, h3, -⟩ := h
    have e0 := gen_enc x _ _ _ _ h0 (hk x (by simp [Stmt.exprs]))
    have e1 := ib _ _ _ h1 (fun e he => hk e (by simp [Stmt.exprs, he]))
    have e2 : Enc (cs.flatMap caseTest) := by rw [enc_flatMap]; intro x _; exact enc_caseTest x
    have e3 : Enc (dfltJump d) := by cases d <;> simp [dfltJump, enc_cons, enc_nil, Encodable]
    rw [← h3]
    simp [enc_append, enc_cons, enc_nil, Encodable, e0, e1, e2, e3]
  | label l s ih =>
    intro gs c gs' h hk
    simp only [genStmt, bindSome, Option.some.injEq, Prod.mk.injEq] at h
    obtain ⟨⟨c0, s0⟩, h0, h3, -⟩ := h
    rw [← h3, enc_cons]
    exact ⟨trivial, ih _ _ _ h0 (fun e he => hk e (by simpa [Stmt.exprs] using he))⟩
  | goto t =>
    intro gs c gs' h _
    cases t with
    | lab l => simp only [genStmt, Option.some.injEq, Prod.mk.injEq] at h; rw [← h.1]; simp [enc_cons, enc_nil, Encodable]
    | name n => simp [genStmt] at h
  | ret e =>
    intro gs c gs' h hk
    cases e with
    | none => simp only [genStmt, Option.some.injEq, Prod.mk.injEq] at h; rw [← h.1]; simp [enc_cons, enc_nil, Encodable]
    | some e =>
      simp only [genStmt, bindSome, Option.some.injEq, Prod.mk.injEq] at h
      obtain ⟨⟨c0, s0⟩, h0, h3, -⟩ := h
      have := gen_enc e _ _ _ _ h0 (hk e (by simp [Stmt.exprs]))
      rw [← h3]
      simp [enc_append, enc_cons, enc_nil, Encodable, this]

/-- C63, code of expressions: whatever the offsets of members and variables, the sizes of structures and the frame. -/
theorem C63_expression_partial (ad : Bool) (e : Expr) (gs gs' : GS) (c : List Instr) (h : gen ad e gs = some (c, gs')) (he : immOk e = true) :
    ∀ i ∈ c, Encodable i := gen_enc e ad gs c gs' h he

/-- C63, code of function bodies. -/
theorem C63_body_partial (fn : String) (uid uid' : Nat) (body : SStmt) (gs gs' : GS) (c : List Instr)
    (h : compileBody fn uid body gs = some (c, uid', gs')) (he : ∀ p ∈ body.uses, immOk p.2 = true) : ∀ i ∈ c, Encodable i := by
  obtain ⟨st, c0, h1, h2, rfl⟩ := Stm.Props.compile_inv h
  simp only [elabBody, bindSome, Option.some.injEq, Prod.mk.injEq] at h1
  obtain ⟨⟨st0, b⟩, e1, st', e2, rfl, -⟩ := h1
  have hx : ∀ e ∈ st'.exprs, immOk e = true := by
    rw [(Stm.Props.resolve_exprs _ _ e2).1, Stm.Props.elab_exprs _ _ _ _ _ _ e1]
    intro e he'
    obtain ⟨p, hp, rfl⟩ := List.mem_map.mp he'
    exact he p hp
  have := genStmt_enc _ _ _ _ h2 hx
  show Enc _
  simp only [enc_append]
  refine ⟨⟨this, ?_⟩, by simp [enc_cons, enc_nil, Encodable]⟩
  split <;> simp [enc_cons, enc_nil, Encodable]

/-! ### Prologue and epilogue -/

theorem enc_storeReg {r : Reg} {off : Int} {base : Reg} {sz : Nat} (h1 : Imm12 off) (h2 : off + sz ≤ 2048) : Enc (storeReg r off base sz) := by
  unfold storeReg
  repeat' split
  iterate 4 simpa [enc_cons, enc_nil, Encodable] using h1
  rw [enc_flatMap]
  intro i hi
  have := List.mem_range.mp hi
  simp only [enc_cons, enc_nil, Encodable, Imm12, and_true] at h1 ⊢
  omega

theorem enc_storeReg' {r : Reg} {off : Int} {base : Reg} (h1 : Imm12 off) : Enc (storeReg r off base 8) := by
  simpa [storeReg, enc_cons, enc_nil, Encodable] using h1

theorem enc_storeArgs {r : Nat} {off : Int} {sz : Nat} {c : List Instr} (hs : sz = 8 ∨ sz ≤ 2048 ∧ off + sz ≤ 2048 ∨ off + sz ≤ 0 ∧ Imm12 off)
    (hb : Imm12 off ∨ sz ≤ 2048) (h : storeArgs r off sz = some c) : Enc c := by
  unfold storeArgs at h
  cases hr : argRegs[r]? with
  | none =>
    rw [hr] at h
    simp only at h
    split at h
    · simp only [Option.some.injEq] at h
      rw [← h]
      split <;> simp [enc_cons, enc_nil, Encodable]
    · simp at h
  | some x =>
    rw [hr] at h
    simp only [Option.some.injEq] at h
    rw [← h]
    cases hb' : beyondInstructionOffset off with
    | false =>
      have := beyond_iff.mp hb'
      simp only [Bool.false_eq_true, if_false]
      rcases hs with rfl | hs
      · exact enc_storeReg' this
      · exact enc_storeReg this (by omega)
    | true =>
      have hn : ¬ Imm12 off := by rw [← beyond_iff, hb']; simp
      have hsz : sz ≤ 2048 := hb.resolve_left hn
      simp only [if_true]
      rw [enc_append]
      refine ⟨by simp [enc_cons, enc_nil, Encodable], enc_storeReg ⟨by omega, by omega⟩ (by omega)⟩

/-- All but the stores of floating-point registers, which are at offsets of floating-point parameters. -/
def EncF (ps : List (Frame.Var × Int)) (c : List PI) : Prop :=
  ∀ p ∈ c, match p with
    | .i x => Encodable x
    | .fstore _ _ off => ∃ v, (v, off) ∈ ps ∧ v.cls = .flt
    | .fmove _ _ => True

theorem encF_ints {ps c} (h : Enc c) : EncF ps (ints c) := by
  intro p hp
  obtain ⟨x, hx, rfl⟩ := List.mem_map.mp hp
  exact h x hx

theorem encF_append {ps a b} (h1 : EncF ps a) (h2 : EncF ps b) : EncF ps (a ++ b) := by
  intro p hp
  rcases List.mem_append.mp hp with h | h
  · exact h1 p h
  · exact h2 p h

theorem encF_mono {ps qs c} (h : EncF ps c) (hs : ∀ x ∈ ps, x ∈ qs) : EncF qs c := by
  intro p hp
  have := h p hp
  cases p with
  | i x => exact this
  | fstore d r off => obtain ⟨v, h1, h2⟩ := this; exact ⟨v, hs _ h1, h2⟩
  | fmove b k => trivial

theorem saveParam_enc {v : Frame.Var} {o : Int} {g f : Nat} {c : List PI} {g' f' : Nat} (h : saveParam v o g f = some (c, g', f'))
    (ho : 0 < o ∨ o + v.size ≤ 0) (hsz : 0 < o ∨ v.size ≤ 2048) : EncF [(v, o)] c := by
  unfold saveParam at h
  by_cases hp : 0 < o
  · rw [if_pos hp] at h
    split at h
    · split at h
      · simp only [Option.some.injEq, Prod.mk.injEq] at h; rw [← h.1]; intro p hp; simp at hp
      · simp at h
    · simp only [Option.some.injEq, Prod.mk.injEq] at h; rw [← h.1]; intro p hp; simp at hp
  · rw [if_neg hp] at h
    have ho' : o + v.size ≤ 0 := ho.resolve_left hp
    have hz : v.size ≤ 2048 := hsz.resolve_left hp
    cases hc : v.cls with
    | agg =>
      rw [hc] at h
      simp only [bindSome] at h
      obtain ⟨c1, h1, h2⟩ := h
      have e1 : Enc c1 := enc_storeArgs (.inr (.inl ⟨by omega, by omega⟩)) (.inr (by omega)) h1
      split at h2
      · simp only [bindSome, Option.some.injEq, Prod.mk.injEq] at h2
        obtain ⟨c2, h2, h3, -⟩ := h2
        have e2 : Enc c2 := enc_storeArgs (.inr (.inl ⟨by omega, by omega⟩)) (.inr (by omega)) h2
        rw [← h3]
        exact encF_ints (enc_append.mpr ⟨e1, e2⟩)
      · simp only [Option.some.injEq, Prod.mk.injEq] at h2
        rw [← h2.1]
        exact encF_ints e1
    | flt =>
      rw [hc] at h
      simp only at h
      split at h
      · simp only [Option.map_eq_some_iff, Prod.mk.injEq, storeFlt] at h
        obtain ⟨c1, h1, rfl, -⟩ := h
        split at h1
        · simp only [Option.some.injEq] at h1
          rw [← h1]
          intro p hp
          simp only [List.mem_singleton] at hp
          subst hp
          exact ⟨v, by simp, hc⟩
        · split at h1
          · simp only [Option.some.injEq] at h1
            rw [← h1]
            intro p hp
            simp only [List.mem_singleton] at hp
            subst hp
            exact ⟨v, by simp, hc⟩
          · simp at h1
      · split at h
        · simp only [Option.map_eq_some_iff, Prod.mk.injEq] at h
          obtain ⟨c1, h1, rfl, -⟩ := h
          exact encF_ints (enc_storeArgs (.inr (.inl ⟨hz, by omega⟩)) (.inr hz) h1)
        · simp only [Option.some.injEq, Prod.mk.injEq] at h; rw [← h.1]; intro p hp; simp at hp
    | ld =>
      rw [hc] at h
      simp only at h
      split at h
      · simp only [bindSome, Option.some.injEq, Prod.mk.injEq] at h
        obtain ⟨c1, h1, c2, h2, h3, -⟩ := h
        rw [← h3]
        exact encF_ints (enc_append.mpr ⟨enc_storeArgs (.inl rfl) (.inr (by omega)) h1, enc_storeArgs (.inl rfl) (.inr (by omega)) h2⟩)
      · simp only [Option.some.injEq, Prod.mk.injEq] at h; rw [← h.1]; intro p hp; simp at hp
    | int =>
      rw [hc] at h
      simp only at h
      split at h
      · simp only [Option.map_eq_some_iff, Prod.mk.injEq] at h
        obtain ⟨c1, h1, rfl, -⟩ := h
        exact encF_ints (enc_storeArgs (.inr (.inl ⟨hz, by omega⟩)) (.inr hz) h1)
      · simp only [Option.some.injEq, Prod.mk.injEq] at h; rw [← h.1]; intro p hp; simp at hp

theorem saveParams_enc : ∀ (ps : List (Frame.Var × Int)) (g f : Nat) (c : List PI) (g' : Nat), saveParams ps g f = some (c, g') →
    (∀ p ∈ ps, (0 < p.2 ∨ p.2 + p.1.size ≤ 0) ∧ (0 < p.2 ∨ p.1.size ≤ 2048)) → EncF ps c
  | [], g, f, c, g', h, _ => by
    simp only [saveParams, Option.some.injEq, Prod.mk.injEq] at h; rw [← h.1]; intro p hp; simp at hp
  | (v, o) :: r, g, f, c, g', h, hp => by
    simp only [saveParams, bindSome, Option.some.injEq, Prod.mk.injEq] at h
    obtain ⟨⟨c1, g1, f1⟩, h1, ⟨cs, g2⟩, h2, h3, -⟩ := h
    rw [← h3]
    have a := hp (v, o) List.mem_cons_self
    refine encF_append (encF_mono (saveParam_enc h1 a.1 a.2) (by simp)) (encF_mono (saveParams_enc r _ _ _ _ h2 (fun p h => hp p (List.mem_cons_of_mem _ h))) ?_)
    intro x hx
    exact List.mem_cons_of_mem _ hx

theorem saveVa_enc : ∀ (n g : Nat) (off : Int) (c : List Instr), saveVa g off n = some c → Enc c
  | 0, g, off, c, h => by simp only [saveVa, Option.some.injEq] at h; rw [← h]; simp [enc_nil]
  | n + 1, g, off, c, h => by
    simp only [saveVa, bindSome, Option.some.injEq] at h
    obtain ⟨c1, h1, c2, h2, h3⟩ := h
    rw [← h3, enc_append]
    exact ⟨enc_storeArgs (.inl rfl) (.inr (by omega)) h1, saveVa_enc n _ _ _ h2⟩

theorem vaSize_range (fn : Frame.Fn) : 0 ≤ vaSize fn ∧ vaSize fn ≤ 64 := by
  unfold vaSize maxRegs
  split <;> omega

theorem paramOffsets_small : ∀ (ps : List Frame.Var) (g f : Nat) (top : Int) (os : List (Option Int)) (t : Int),
    paramOffsets ps g f top = .ok (os, t) → ∀ (i : Nat) v, ps[i]? = some v → v.cls = .agg → os[i]? = some none → v.size ≤ 16
  | [], _, _, _, _, _, _, i, v, hi, _, _ => by simp at hi
  | w :: r, g, f, top, os, t, h, i, v, hi, hv, ho => by
    simp only [paramOffsets, bind, Except.bind] at h
    cases hp : place w g f with
    | error e => rw [hp] at h; cases h
    | ok pl =>
      rw [hp] at h
      cases pl with
      | reg g' f' =>
        simp only at h
        cases hr : paramOffsets r g' f' top with
        | error e => rw [hr] at h; cases h
        | ok q =>
          rw [hr] at h
          cases h
          cases i with
          | succ i => exact paramOffsets_small r _ _ _ _ _ hr i v (by simpa using hi) hv (by simpa using ho)
          | zero =>
            simp only [List.getElem?_cons_zero, Option.some.injEq] at hi
            subst hi
            unfold place at hp
            rw [hv] at hp
            simp only at hp
            have : words w.size ≤ 2 := by
              apply Classical.byContradiction
              intro hn
              rw [if_neg hn] at hp
              cases hp
            unfold words at this
            omega
      | stack g' f' =>
        simp only at h
        cases ha : alignE top 8 with
        | error e => rw [ha] at h; cases h
        | ok top' =>
          rw [ha] at h
          simp only at h
          cases hr : paramOffsets r g' f' (top' + w.size) with
          | error e => rw [hr] at h; cases h
          | ok q =>
            rw [hr] at h
            cases h
            cases i with
            | succ i => exact paramOffsets_small r _ _ _ _ _ hr i v (by simpa using hi) hv (by simpa using ho)
            | zero => simp at ho

/-- The parameters of a function with their offsets. -/
def paramSlots (fn : Frame.Fn) (fr : Frame) : List (Frame.Var × Int) := fn.params.zip (fr.offs.drop (fr.offs.length - fn.params.length))

/-- An aggregate parameter that is saved by the prologue has at most 16 bytes. -/
theorem agg_small {fn : Frame.Fn} {fr : Frame} (hal : ∀ v ∈ fn.locals, 0 < v.align) (h : layout fn = .ok fr) :
    ∀ p ∈ paramSlots fn fr, p.1.cls = .agg → 0 < p.2 ∨ p.1.size ≤ 16 := by
  simp only [layout, bind, Except.bind] at h
  cases hp : paramOffsets fn.params 0 0 16 with
  | error e => rw [hp] at h; cases h
  | ok q =>
    obtain ⟨ps, top⟩ := q
    rw [hp] at h
    simp only at h
    cases ha : alignE top 8 with
    | error e => rw [ha] at h; cases h
    | ok va =>
      rw [ha] at h
      simp only at h
      generalize hpre : fn.others.map (fun _ => (none : Option Int)) ++ (if fn.variadic then [some va] else []) ++ ps = pre at h
      cases hl : localOffsets (fn.locals.zip pre) 0 with
      | error e => rw [hl] at h; cases h
      | ok q2 =>
        obtain ⟨os, b⟩ := q2
        rw [hl] at h
        simp only at h
        cases hs : alignE b 8 with
        | error e => rw [hs] at h; cases h
        | ok sz =>
          rw [hs] at h
          cases h
          obtain ⟨p1, p2, p3, p4⟩ := paramOffsets_spec _ _ _ _ _ _ (by omega) hp
          have hlen : pre.length = fn.locals.length := by
            rw [← hpre]; unfold Fn.locals; simp only [List.length_append, List.length_map, p1]
            split <;> rfl
          obtain ⟨l1, l2, l3, l4, l5⟩ := localOffsets_spec _ _ _ _ (by omega) (by
            intro p hp
            exact hal _ (List.of_mem_zip hp).1) hl
          intro p hm hc
          obtain ⟨i, hi⟩ := List.mem_iff_getElem?.mp hm
          obtain ⟨v, o⟩ := p
          simp only [paramSlots, List.getElem?_zip_eq_some, List.getElem?_drop] at hi
          obtain ⟨hi1, hi2⟩ := hi
          by_cases ho : 0 < o
          · exact .inl ho
          right
          generalize hk : os.length - fn.params.length = k at hi2
          have hlp : i < fn.params.length := (List.getElem?_eq_some_iff.mp hi1).1
          have hlz : (fn.locals.zip pre).length = fn.locals.length := by rw [List.length_zip, hlen, Nat.min_self]
          have hloc : fn.locals.length = fn.others.length + (if fn.variadic then 1 else 0) + fn.params.length := by
            unfold Fn.locals; simp only [List.length_append]; split <;> simp
          have hk' : k = fn.others.length + (if fn.variadic then 1 else 0) := by omega
          have hloci : fn.locals[k + i]? = some v := by
            unfold Fn.locals
            have : (fn.others ++ if fn.variadic = true then [vaArea] else []).length = k := by rw [hk', List.length_append]; split <;> simp
            rw [List.getElem?_append_right (by omega), this, Nat.add_sub_cancel_left]
            exact hi1
          have hprei : pre[k + i]? = ps[i]? := by
            rw [← hpre]
            have : (fn.others.map (fun _ => (none : Option Int)) ++ (if fn.variadic then [some va] else [])).length = k := by
              rw [hk', List.length_append, List.length_map]; split <;> simp
            rw [List.getElem?_append_right (by omega), this, Nat.add_sub_cancel_left]
          obtain ⟨x, hx⟩ : ∃ x, ps[i]? = some x := ⟨ps[i], List.getElem?_eq_getElem (by omega)⟩
          have hz : (fn.locals.zip pre)[k + i]? = some (v, x) := by
            rw [List.getElem?_zip_eq_some]; exact ⟨hloci, by rw [hprei, hx]⟩
          cases x with
          | none => exact paramOffsets_small _ _ _ _ _ _ hp i v hi1 hc hx
          | some y =>
            have e := l3 _ _ _ hz
            rw [hi2] at e
            cases e
            have := (p3 i v o hi1 hx).1
            omega

/-- C63, prologues: all immediates of the prologue fit, with the exception of the stores of floating-point parameters, which are at the offsets of these
parameters from the frame pointer. The scalars have at most 16 bytes. -/
theorem C63_prologue_partial (fn : Frame.Fn) (fr : Frame) (c : List PI) (hal : ∀ v ∈ fn.locals, 0 < v.align) (hsz : ∀ v ∈ fn.params, v.cls ≠ .agg → v.size ≤ 16)
    (hl : layout fn = .ok fr) (h : prologue fn fr = some c) :
    (∀ x, PI.i x ∈ c → Encodable x) ∧ (∀ d r off, PI.fstore d r off ∈ c → ∃ v, (v, off) ∈ paramSlots fn fr ∧ v.cls = .flt) := by
  have hE : EncF (paramSlots fn fr) c := by
    unfold prologue at h
    split at h
    · simp at h
    simp only [bindSome, Option.some.injEq] at h
    obtain ⟨⟨c1, g⟩, h1, c2, h2, al, h3, h4⟩ := h
    have e1 := saveParams_enc _ _ _ _ _ h1 (by
      obtain ⟨q1, q2, q3, q4, q5, -⟩ := C48_frame fn fr hal hl
      intro p hp
      have ha := agg_small hal hl p hp
      obtain ⟨i, hi⟩ := List.mem_iff_getElem?.mp hp
      obtain ⟨v, o⟩ := p
      simp only [List.getElem?_zip_eq_some, List.getElem?_drop] at hi
      obtain ⟨hi1, hi2⟩ := hi
      obtain ⟨o', ho', hc⟩ := q5 i v hi1
      rw [hi2] at ho'
      cases ho'
      dsimp only at ha ⊢
      refine ⟨?_, ?_⟩
      · rcases hc with hc | hc
        · exact .inr hc.2.1
        · exact .inl (by have := hc.1; omega)
      · by_cases hcl : v.cls = .agg
        · rcases ha hcl with h | h
          · exact .inl h
          · exact .inr (by omega)
        · have := hsz v (List.mem_of_getElem? hi1) hcl
          exact .inr (by omega))
    have e2 : Enc c2 := by
      unfold vaSaves at h2
      split at h2
      · simp only [Option.bind_eq_some_iff] at h2
        obtain ⟨off, -, h2⟩ := h2
        exact saveVa_enc _ _ _ _ h2
      · simp only [Option.some.injEq] at h2; rw [← h2]; simp [enc_nil]
    have e3 : Enc (reserve fr.size) := by
      unfold reserve
      cases hb : beyondInstructionOffset (-fr.size) with
      | true => simp [enc_cons, enc_nil, Encodable]
      | false => simp [enc_cons, enc_nil, Encodable, beyond_iff.mp hb]
    have hv := vaSize_range fn
    rw [← h4]
    refine encF_append (encF_append (encF_append (encF_append (encF_ints ?_) (encF_ints ?_)) ?_) e1) (encF_ints ?_)
    · split
      · simp [enc_nil]
      · simp only [enc_cons, enc_nil, Encodable, Imm12, and_true]; omega
    · simp [enc_append, enc_push, enc_cons, enc_nil, Encodable]
    · intro p hp
      obtain ⟨k, -, rfl⟩ := List.mem_map.mp hp
      trivial
    · simp [enc_append, e2, e3, enc_cons, enc_nil, Encodable, Imm12]
  exact ⟨fun x hx => hE _ hx, fun d r off hx => hE _ hx⟩

/-- C63, prologues: all fit if no parameter is floating-point, and also if the frame has at most 2048 bytes. -/
theorem C63_prologue_all_partial (fn : Frame.Fn) (fr : Frame) (c : List PI) (hal : ∀ v ∈ fn.locals, 0 < v.align)
    (hsz : ∀ v ∈ fn.params, v.cls ≠ .agg → v.size ≤ 16) (hl : layout fn = .ok fr) (h : prologue fn fr = some c)
    (hf : (∀ v ∈ fn.params, v.cls ≠ .flt) ∨ (fr.size ≤ 2048 ∧ ∀ p ∈ paramSlots fn fr, p.1.cls = .flt → p.2 ≤ 2047)) : ∀ p ∈ c, EncodablePI p := by
  obtain ⟨h1, h2⟩ := C63_prologue_partial fn fr c hal hsz hl h
  intro p hp
  cases p with
  | i x => exact h1 x hp
  | fmove b k => trivial
  | fstore d r off =>
    obtain ⟨v, hv, hc⟩ := h2 d r off hp
    rcases hf with hf | ⟨hf, hf'⟩
    · exact absurd hc (hf v (List.of_mem_zip hv).1)
    · obtain ⟨q1, q2, q3, q4, q5, -⟩ := C48_frame fn fr hal hl
      have := hf' _ hv hc
      obtain ⟨i, hi⟩ := List.mem_iff_getElem?.mp hv
      simp only [paramSlots, List.getElem?_zip_eq_some, List.getElem?_drop] at hi
      obtain ⟨o', ho', hcc⟩ := q5 i v hi.1
      rw [hi.2] at ho'
      cases ho'
      dsimp only at this
      refine ⟨?_, this⟩
      rcases hcc with hcc | hcc
      · have := hcc.1; omega
      · have := hcc.1; omega

/-- C63, epilogues. -/
theorem C63_epilogue (fn : Frame.Fn) : ∀ p ∈ epilogue fn, EncodablePI p := by
  have hv := vaSize_range fn
  have : Enc ([.mv .sp .fp] ++ popI .fp ++ popI .ra ++ (if vaSize fn = 0 then [] else [.addi .sp .sp (vaSize fn)]) ++ [.ret]) := by
    simp only [enc_append, enc_pop]
    refine ⟨⟨⟨⟨?_, trivial⟩, trivial⟩, ?_⟩, ?_⟩
    · simp [enc_cons, enc_nil, Encodable]
    · split
      · simp [enc_nil]
      · simp only [enc_cons, enc_nil, Encodable, Imm12, and_true]; omega
    · simp [enc_cons, enc_nil, Encodable]
  intro p hp
  rcases List.mem_append.mp hp with h | h
  · obtain ⟨k, -, rfl⟩ := List.mem_map.mp h; trivial
  · obtain ⟨x, hx, rfl⟩ := List.mem_map.mp h; exact this x hx

/-! ### Aggregates: exactly when the immediates fit -/

/-- Passing an aggregate: up to 2048 bytes. -/
theorem C63_push_struct_partial (size : Nat) : (∀ i ∈ pushStruct size, Encodable i) ↔ size ≤ 2048 := by
  show Enc _ ↔ _
  unfold pushStruct
  have hw : words size ≤ 2 ↔ size ≤ 16 := by unfold words; omega
  have hw' : words size ≤ 256 ↔ size ≤ 2048 := by unfold words; omega
  simp only
  split
  · rename_i h
    rw [enc_flatMap]
    refine ⟨fun _ => by omega, fun _ x hx => ?_⟩
    rw [List.mem_reverse, List.mem_range] at hx
    simp only [enc_append, enc_push, enc_cons, enc_nil, Encodable, Imm12, and_true]
    omega
  · simp only [enc_append, enc_push, enc_flatMap, enc_cons, enc_nil, Encodable, Imm12, and_true, List.mem_range]
    refine ⟨fun h => by omega, fun h => ⟨by omega, fun x hx => by omega⟩⟩

/-- Fetching an aggregate returned in registers: its buffer must be near the frame pointer. -/
theorem C63_ret_buffer_partial (off : Int) (size : Nat) :
    (∀ i ∈ copyRetBuffer off size, Encodable i) ↔ size = 0 ∨ (-2048 ≤ off ∧ off + (min 16 size : Nat) ≤ 2048) := by
  show Enc _ ↔ _
  unfold copyRetBuffer
  rw [enc_append, enc_flatMap]
  simp only [enc_cons, enc_nil, Encodable, Imm12, and_true, List.mem_range]
  constructor
  · rintro ⟨h1, h2⟩
    by_cases h0 : size = 0
    · exact .inl h0
    right
    have a := (h1 0 (by omega)).1
    refine ⟨by omega, ?_⟩
    by_cases h8 : 8 < size
    · rw [if_pos h8, enc_flatMap] at h2
      simp only [enc_cons, enc_nil, Encodable, Imm12, and_true, List.mem_range] at h2
      have := (h2 (min 16 size - 8 - 1) (by omega)).1
      omega
    · have := (h1 (size - 1) (by omega)).1
      omega
  · intro h
    refine ⟨fun x hx => by omega, ?_⟩
    split
    · rw [enc_flatMap]
      simp only [enc_cons, enc_nil, Encodable, Imm12, and_true, List.mem_range]
      intro x hx
      omega
    · simp [enc_nil]

/-- Returning an aggregate in registers. -/
theorem C63_struct_reg (size : Nat) (h : size ≤ 16) : ∀ i ∈ copyStructReg size, Encodable i := by
  show Enc _
  unfold copyStructReg
  rw [enc_append, enc_flatMap]
  refine ⟨by simp [enc_cons, enc_nil, Encodable], fun x hx => ?_⟩
  have : x < 2 := by
    have := List.mem_range.mp hx
    unfold words at this
    omega
  unfold copyStructRegStep
  simp only
  split
  · simp only [enc_cons, enc_nil, Encodable, Imm12, and_true, true_and]; omega
  · simp [enc_nil]

/-- Returning an aggregate in memory: up to 2048 bytes, and the hidden parameter must be near the frame pointer. -/
theorem C63_struct_mem_partial (off : Int) (size : Nat) :
    (∀ i ∈ copyStructMem off size, Encodable i) ↔ (-2048 ≤ off ∧ off ≤ 2047) ∧ size ≤ 2048 := by
  show Enc _ ↔ _
  unfold copyStructMem
  simp only [enc_append, enc_flatMap, enc_cons, enc_nil, Encodable, Imm12, and_true, List.mem_range]
  constructor
  · rintro ⟨h1, h2⟩
    refine ⟨h1, ?_⟩
    apply Classical.byContradiction
    intro hn
    have := h2 2048 (by omega)
    omega
  · rintro ⟨h1, h2⟩
    exact ⟨h1, fun x hx => by omega⟩

theorem C63_buf_addr_partial (off : Int) : (∀ i ∈ bufAddr off, Encodable i) ↔ -2048 ≤ off ∧ off ≤ 2047 := by
  simp [bufAddr, Encodable, Imm12]

/-- Stack arguments: up to 255 words are released, up to 256 words reserved for aggregates. -/
theorem C63_stack_args_partial (n : Nat) : ((∀ i ∈ releaseArgs n, Encodable i) ↔ n ≤ 255) ∧ ((∀ i ∈ reserveStructs n, Encodable i) ↔ n ≤ 256) := by
  constructor
  · unfold releaseArgs
    split
    · subst n; simp
    · simp [Encodable, Imm12]; omega
  · simp [reserveStructs, Encodable, Imm12]; omega

/-! ### Concrete cases -/

def exDeep : Expr := .assign (.struc 5000) (.member ⟨.struc 5000, 70000, none⟩ (.var (.struc 80000) (.loc (-80000)))) (.deref (.struc 5000) (.var .ptr (.loc (-8))))

/-- `s.big = *p` with large offsets and a large structure. -/
example : immOk exDeep = true ∧ (gen false exDeep ⟨0, 0⟩).isSome = true := by decide

/-- `f(long a, double d, struct {char c[13];} s, char b)` with an array of 3000 bytes: the layout and the prologue exist. -/
example : ((layout ⟨[⟨.int, 3000, 1⟩, ⟨.int, 8, 8⟩], false, [⟨.int, 8, 8⟩, ⟨.agg, 13, 1⟩, ⟨.int, 1, 1⟩]⟩).toOption.bind
    (prologue ⟨[⟨.int, 3000, 1⟩, ⟨.int, 8, 8⟩], false, [⟨.int, 8, 8⟩, ⟨.agg, 13, 1⟩, ⟨.int, 1, 1⟩]⟩)).isSome = true := by decide +kernel

def exFlt : Frame.Fn := ⟨[⟨.int, 3000, 1⟩, ⟨.int, 8, 8⟩], false, [⟨.flt, 4, 4⟩]⟩

/-- `void f(float x) { char a[3000]; ... }`: the prologue has `fsw fa0, -3012(sp)`, which the assembler rejects. -/
theorem C63_violated_float_param : ∃ fr c, layout exFlt = .ok fr ∧ prologue exFlt fr = some c ∧ PI.fstore false 0 (-3012) ∈ c ∧ ¬ EncodablePI (.fstore false 0 (-3012)) := by
  refine ⟨⟨[-3000, -3008, -3012], 3016⟩, _, by decide +kernel, rfl, by decide +kernel, by decide⟩

def manyArgs : Nat → Exprs
  | 0 => .nil
  | n + 1 => .cons (.num (.int false) 0) (manyArgs n)

/-- A call with 264 arguments: `addi sp, sp, 2048`. -/
theorem C63_violated_call : ∃ c gs', gen false (.call (.int false) (.var .func (.glob "f")) (manyArgs 264)) ⟨0, 0⟩ = some (c, gs') ∧ ∃ i ∈ c, ¬ Encodable i := by
  have h : (match gen false (.call (.int false) (.var .func (.glob "f")) (manyArgs 264)) ⟨0, 0⟩ with
    | some (c, _) => c.any (fun i => !decide (Encodable i))
    | none => false) = true := by decide +kernel
  cases hg : gen false (.call (.int false) (.var .func (.glob "f")) (manyArgs 264)) ⟨0, 0⟩ with
  | none => rw [hg] at h; simp at h
  | some p =>
    obtain ⟨c, gs'⟩ := p
    rw [hg] at h
    simp only [List.any_eq_true, Bool.not_eq_true', decide_eq_false_iff_not] at h
    exact ⟨c, gs', rfl, h⟩

/-- `f(s)` where `s` has 2056 bytes: `add t1, t1, -2056`. -/
theorem C63_violated_struct_arg : ¬ ∀ i ∈ pushStruct 2056, Encodable i := by rw [C63_push_struct_partial]; decide
/-- `return s;` where `s` has 2049 bytes. -/
theorem C63_violated_struct_return : ¬ ∀ i ∈ copyStructMem (-16) 2049, Encodable i := by rw [C63_struct_mem_partial]; decide
/-- The result of a function returning `struct {long a;}` stored in a buffer below a large array. -/
theorem C63_violated_buffer : ¬ ∀ i ∈ copyRetBuffer (-4000) 8, Encodable i := by rw [C63_ret_buffer_partial]; decide

end Toycc.Fn
