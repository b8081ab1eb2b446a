import Verif.Ip.Main2
/-! Expressions and lists for a subobject, and the induction (for C68). -/
namespace Toycc.Ip
open Toycc.Parse (Tok P)
open Toycc.Init (Ini Inis)
variable {α : Type} {O : Oracle α} {w : String → Nat}

theorem setVal_sc (ts : List Tok) (e : α) (t : Init.Ty) (x : Ini α) : setVal O w ts e (.sc t) x = some (setExpr x (some e)) := by
  cases x; rfl

theorem setVal_struc {ts : List Tok} {e : α} {m : Nat} {ms : IMems} {x y : Ini α} (h : setVal O w ts e (.struc m ms) x = some y) : y = setExpr x (some e) := by
  cases x
  simp only [setVal] at h
  split at h
  · cases h; rfl
  · cases h

theorem init2_sc_tok {t0 : Tok} (h : t0 ≠ .p .lbrace) (n : Nat) (t : Init.Ty) (r : List Tok) (x : Ini α) :
    init2 O (n + 1) (.sc t) (t0 :: r) x = (do let (e, _, r) ← O.assign (t0 :: r); .ok (setExpr x (some e), r)) := by
  rw [init2.eq_def]
  dsimp only
  split
  · rename_i heq; cases heq; exact absurd rfl h
  · rfl

theorem init2_arr_tok {t0 : Tok} (h : t0 ≠ .p .lbrace) (h2 : ∀ s, t0 ≠ .str s) (n : Nat) (b : ITy) (k : Nat) (r : List Tok) (x : Ini α) :
    init2 O (n + 1) (.arr b k) (t0 :: r) x = arr2 O n b k 0 (t0 :: r) x := by
  rw [init2.eq_def]
  dsimp only
  split
  · rename_i heq; cases heq; exact absurd rfl (h2 _)
  · rename_i heq; cases heq; exact absurd rfl h
  · rfl

theorem init2_struc_tok {t0 : Tok} (h : t0 ≠ .p .lbrace) (n m : Nat) (ms : IMems) (r : List Tok) (x : Ini α) :
    init2 O (n + 1) (.struc m ms) (t0 :: r) x = (do
      let (e, st, r') ← O.assign (t0 :: r)
      if st then .ok (setExpr x (some e), r') else struct2 O n ms true 0 (t0 :: r) x) := by
  rw [init2.eq_def]
  dsimp only
  split
  · rename_i heq; cases heq; exact absurd rfl h
  · rfl

theorem unionI_tok {t0 : Tok} (h : t0 ≠ .p .lbrace) (n : Nat) (ms : IMems) (r : List Tok) (x : Ini α) {t : ITy} (hm : ms.get? 0 = some t) :
    unionI O (n + 1) ms (t0 :: r) x = (do
        let c ← child x 0
        let (c, ts) ← init2 O n t (t0 :: r) c
        .ok (setChild (setMem x 0) 0 c, ts)) := by
  rw [unionI.eq_def]
  dsimp only
  split
  · rename_i heq; cases heq; exact absurd rfl h
  · rename_i heq; cases heq; exact absurd rfl h
  · rw [hm]

theorem unionI_brace {t0 : Tok} (h : t0 ≠ .p .dot) (n : Nat) (ms : IMems) (r : List Tok) (x : Ini α) {t : ITy} (hm : ms.get? 0 = some t) :
    unionI O (n + 1) ms (.p .lbrace :: t0 :: r) x = (do
        let c ← child x 0
        let (c, ts) ← init2 O n t (t0 :: r) c
        let ts ← skip (dropComma ts) .rbrace
        .ok (setChild (setMem x 0) 0 c, ts)) := by
  rw [unionI.eq_def]
  dsimp only
  split
  · rename_i heq; cases heq; exact absurd rfl h
  · rename_i heq; cases heq; simp only [hm]
  · rename_i h; exact absurd rfl (h _)

/-- An expression for a scalar. -/
theorem init2_sc {ts r : List Tok} {e : α} {st : Bool} {wh : ITy → Bool} (h : (Src.expr ts e st wh).Reads O) (hr : StopE r) (t : Init.Ty) (x : Ini α) :
    Ev (fun n => init2 O n (.sc t) (ts ++ r) x) (setExpr x (some e), r) := by
  rw [Src.Reads] at h
  obtain ⟨h1, t0, r0, rfl, h2, _⟩ := h
  refine Ev.of_succ ((Ev.pure _).congr fun n => ?_)
  have h1 := h1 r hr
  rw [List.cons_append] at h1 ⊢
  rw [init2_sc_tok h2.1, h1]; rfl

/-- A literal for an array of characters. -/
theorem init2_str {ts : List Tok} {e : α} {st : Bool} {wh : ITy → Bool} (hw : ∀ s, w s = 1 ∨ w s = 2 ∨ w s = 4) (h : (Src.expr ts e st wh).Reads O) {s : String} (hs : litOf ts = some s)
    {b : ITy} (hb : isChars w b s = true) (k : Nat) {x y : Ini α} (hy : setVal O w ts e (.arr b k) x = some y) (r : List Tok) :
    Ev (fun n => init2 O n (.arr b k) (ts ++ r) x) (y, r) := by
  have hts : ts = [.str s] := by
    unfold litOf at hs
    split at hs
    · cases hs; rfl
    · cases hs
  subst hts
  have hsz : b.size = w s := by
    unfold isChars at hb
    split at hb
    · simp only [Bool.and_eq_true, beq_iff_eq] at hb
      exact hb.2
    · cases hb
  refine Ev.of_succ ((Ev.pure _).congr fun n => ?_)
  cases x with
  | mk ex m cs =>
    simp only [setVal, litOf] at hy
    split at hy
    · cases hy
      simp only [List.cons_append, List.nil_append, init2, stringInit, hsz, if_pos (hw s), bind, Except.bind]
    · cases hy

theorem place_descend {T U V : ITy} {p : Path} {ts : List Tok} {e : α} {st : Bool} {wh : ITy → Bool} (hV : U.child? 0 = some V)
    (hl : (Src.expr ts e st wh).land w U = 0 :: (Src.expr ts e st wh).land w V) (t : Ini α) :
    place O w T p U (.expr ts e st wh) t = place O w T (p ++ [0]) V (.expr ts e st wh) t := by
  simp only [place, hl, ITy.sub, hV, List.append_assoc, List.cons_append, List.nil_append]

/-- An expression for the current subobject. -/
theorem pa_expr {N : Nat} (hw : ∀ s, w s = 1 ∨ w s = 2 ∨ w s = 4) (hL : ∀ M < N, PL O w M) (hS : ∀ M < N, PS O w M) (ts : List Tok) (e : α) (st : Bool) (wh : ITy → Bool)
    (hrd : (Src.expr ts e st wh).Reads O) : ∀ (B : Nat) (its : Items α) (T U : ITy) (p : Path) (t x t1 fin : Ini α) (cl : List Tok), sizeOf U ≤ B →
    its.size < N → EndCl cl → T.sub p = some U → U.Ok → get t p = some x → place O w T p U (.expr ts e st wh) t = some t1 →
    Good O w T its (next T (p ++ (Src.expr ts e st wh).land w U)) t1 fin → TameSrc w U (.expr ts e st wh) →
    Res O w T p t fin (next T (p ++ (Src.expr ts e st wh).land w U)) its cl (fun n => init2 O n U (ts ++ (its.text false ++ cl)) x) := by
  intro B
  induction B with
  | zero => intro its T U; cases U <;> simp
  | succ B ih =>
    intro its T U p t x t1 fin cl hB hN hcl hT ho hx hpl hg htame
    have hrd' := hrd
    rw [Src.Reads] at hrd'
    obtain ⟨hread, t0, r0, e0, hst, hstr⟩ := hrd'
    have hread := hread (its.text false ++ cl) (stopE_text its hcl)
    -- the expression is for `U` itself
    have whole : (Src.expr ts e st wh).land w U = [] → (∀ y, setVal O w ts e U x = some y → Ev (fun n => init2 O n U (ts ++ (its.text false ++ cl)) x) (y, its.text false ++ cl)) →
        Res O w T p t fin (next T (p ++ (Src.expr ts e st wh).land w U)) its cl (fun n => init2 O n U (ts ++ (its.text false ++ cl)) x) := by
      intro hl hy
      simp only [place, hl, List.append_nil, ITy.sub, Option.bind_eq_bind, Option.bind_some] at hpl
      rw [hl, List.append_nil] at hg
      obtain ⟨x0, x1, h1, h2, h3⟩ := put_some p T _ t t1 hpl
      rw [hx] at h1; cases h1
      exact ⟨x1, its, t1, hy x1 h2, h3, hg, Nat.le_refl _, fun h => h, by rw [hl, List.append_nil]; exact .refl⟩
    -- it is for the first element or member
    have first : ∀ V, U.child? 0 = some V → (Src.expr ts e st wh).land w U = 0 :: (Src.expr ts e st wh).land w V → V.Ok → sizeOf V ≤ B → TameSrc w V (.expr ts e st wh) →
        ∃ c, child x 0 = .ok c ∧ Res O w T (p ++ [0]) t fin (next T (p ++ (Src.expr ts e st wh).land w U)) its cl (fun n => init2 O n V (ts ++ (its.text false ++ cl)) c) := by
      intro V hV hl hVo hVB hVt
      have hsub := sub_child hT hV
      rw [place_descend hV hl] at hpl
      obtain ⟨c, hc⟩ := place_get hsub hpl
      refine ⟨c, child_get (by rw [get_append, hx] at hc; exact hc), ?_⟩
      rw [hl] at hg ⊢
      have e1 : p ++ 0 :: (Src.expr ts e st wh).land w V = (p ++ [0]) ++ (Src.expr ts e st wh).land w V := by simp
      rw [e1] at hg ⊢
      exact ih its T V (p ++ [0]) t c t1 fin cl hVB hN hcl hsub hVo hc hpl hg hVt
    cases U with
    | sc ty =>
      refine whole rfl fun y hy => ?_
      rw [setVal_sc] at hy; cases hy
      exact init2_sc hrd (stopE_text its hcl) ty x
    | arr b k =>
      rw [ITy.Ok] at ho
      cases hlit : litOf ts with
      | some s =>
        rw [TameSrc, hlit, Lands] at htame
        refine whole (by simp only [Src.land, hlit, land, htame, if_true]) fun y hy => init2_str hw hrd hlit htame k hy _
      | none =>
        rw [TameSrc, hlit, Lands] at htame
        have hch : (ITy.arr b k).child? 0 = some b := by simp only [ITy.child?, if_pos ho.1]
        obtain ⟨c, hc, c', its1, t2, a1, a2, a3, a4, a5, a6⟩ := first b hch (by simp only [Src.land, hlit, land]) ho.2 (by simp at hB; omega) (by rw [TameSrc, hlit]; exact htame)
        obtain ⟨d1, _⟩ := down (V := b) hT hx a2
        rw [next_child hT hch (fun _ _ h => by cases h)] at a3 a6
        have := hL its.size hN its1 T b k (0 + 1) p t2 (upd (.arr b k) x 0 c') fin cl a4 hcl hT ho.2 (at_of_put d1) (by omega) a3
        refine Res.comp d1 a4 a5 a6.child this fun v hv => Ev.of_succ (Ev.of_succ ?_)
        have hv' : Ev (fun n => arr2 O (n + 0) b k 1 (its1.text false ++ cl) (setChild x 0 c')) v := hv
        refine (a1.bind (g := fun n y => arr2 O n b k (0 + 1) y.2 (setChild x 0 y.1)) hv').congr fun n => ?_
        subst e0
        have ht : ∀ s, t0 ≠ .str s := by
          intro s hs
          obtain ⟨rfl, _⟩ := hstr s hs
          subst hs; cases hlit
        have hne : isEnd (t0 :: (r0 ++ (its.text false ++ cl))) = false := by
          rw [isEnd, consumeEnd_start hst.2.1 hst.2.2.2.2.1]; rfl
        have hnd : isDesg (t0 :: (r0 ++ (its.text false ++ cl))) = false := by
          unfold isDesg
          split
          · rename_i heq; cases heq; exact absurd rfl hst.2.2.1
          · rename_i heq; cases heq; exact absurd rfl hst.2.2.2.1
          · rfl
        rw [List.cons_append, init2_arr_tok hst.1 ht]
        · simp only [arr2, ho.1, hne, and_self, if_true, sep, bind, Except.bind, beq_self_eq_true, hnd, Bool.false_eq_true, if_false, hc]
    | struc m ms =>
      rw [ITy.Ok] at ho
      rw [TameSrc, Lands] at htame
      cases hwh : wh (.struc m ms) with
      | true =>
        refine whole (by simp only [Src.land, land, hwh, if_true]) fun y hy => ?_
        have := setVal_struc hy; subst this
        have hst1 : st = true := by rw [htame.1, hwh]
        subst hst1
        refine Ev.of_succ ((Ev.pure _).congr fun n => ?_)
        subst e0
        rw [List.cons_append] at hread ⊢
        rw [init2_struc_tok hst.1]
        simp only [hread, bind, Except.bind, if_true]
      | false =>
        have hst1 : st = false := by rw [htame.1, hwh]
        have htame := htame.2 hst1
        cases ms with
        | nil => exact absurd ho.1 (by simp [IMems.get?])
        | cons nm off bits b r =>
          rw [LandsM] at htame
          rw [IMems.Ok] at ho
          have hmo : (IMems.cons nm off bits b r).Ok := by rw [IMems.Ok]; exact ho.2
          have hch : (ITy.struc m (.cons nm off bits b r)).child? 0 = some b := rfl
          obtain ⟨c, hc, c', its1, t2, a1, a2, a3, a4, a5, a6⟩ := first b hch (by simp only [Src.land, land, hwh, Bool.false_eq_true, if_false, landM]) ho.2.1 (by simp at hB; omega)
            (by rw [TameSrc]; exact htame)
          obtain ⟨d1, _⟩ := down (V := b) hT hx a2
          rw [next_child hT hch (fun _ _ h => by cases h)] at a3 a6
          have := hS its.size hN its1 T m _ (0 + 1) p t2 (upd (.struc m (.cons nm off bits b r)) x 0 c') fin cl a4 hcl hT hmo (at_of_put d1) a3
          refine Res.comp d1 a4 a5 a6.child this fun v hv => Ev.of_succ (Ev.of_succ ?_)
          refine (a1.bind (g := fun n y => struct2 O n (.cons nm off bits b r) false (0 + 1) y.2 (setChild x 0 y.1)) hv).congr fun n => ?_
          subst e0 hst1
          have hne : isEnd (t0 :: (r0 ++ (its.text false ++ cl))) = false := by
            rw [isEnd, consumeEnd_start hst.2.1 hst.2.2.2.2.1]; rfl
          have hnd : isDesg (t0 :: (r0 ++ (its.text false ++ cl))) = false := by
            unfold isDesg
            split
            · rename_i heq; cases heq; exact absurd rfl hst.2.2.1
            · rename_i heq; cases heq; exact absurd rfl hst.2.2.2.1
            · rfl
          rw [List.cons_append] at hread ⊢
          rw [init2_struc_tok hst.1]
          · simp only [hread, bind, Except.bind, Bool.false_eq_true, if_false]
            rw [struct2]
            simp only [IMems.get?, hne, sep, if_true, bind, Except.bind, hnd, Bool.false_eq_true, if_false, hc]
    | union m ms =>
      rw [ITy.Ok] at ho
      rw [TameSrc, Lands] at htame
      cases ms with
      | nil => exact absurd ho.1 (by simp [IMems.get?])
      | cons nm off bits b r =>
        rw [LandsM] at htame
        rw [IMems.Ok] at ho
        have hch : (ITy.union m (.cons nm off bits b r)).child? 0 = some b := rfl
        obtain ⟨c, hc, c', its1, t2, a1, a2, a3, a4, a5, a6⟩ := first b hch (by simp only [Src.land, land, htame.1, Bool.false_eq_true, if_false, landM]) ho.2.1 (by simp at hB; omega)
          (by rw [TameSrc]; exact htame.2)
        obtain ⟨d1, _⟩ := down (V := b) hT hx a2
        rw [next_union hT hch] at a3 a6
        refine ⟨_, its1, t2, Ev.of_succ (Ev.of_succ ?_), d1, a3, a4, a5, a6.child⟩
        refine (a1.bind (g := fun n y => .ok (setChild (setMem x 0) 0 y.1, y.2)) (Ev.pure _)).congr fun n => ?_
        subst e0
        rw [List.cons_append]
        rw [init2, unionI_tok hst.1 n _ _ _ (t := b) rfl]
        simp only [bind, Except.bind, hc]

theorem Good.only {T : ITy} {its : Items α} {t fin : Ini α} (h : Good O w T its none t fin) (hp : its.plain = true) : its = .nil := by
  cases its with
  | nil => rfl
  | cons ds s r =>
    simp only [Items.plain, Bool.and_eq_true] at hp
    exact (h.stop hp.1).elim

/-- A list for the current subobject. -/
theorem pa_list {N : Nat} (hA : ∀ M < N, PA O w M) (hD : ∀ M < N, PD O w M) (hB1 : ∀ M < N, PB1 O w M) (hB2 : ∀ M < N, PB2 O w M) (its : Items α) (c : Bool) (U : ITy) (x y : Ini α) (r : List Tok)
    (hN : its.size < N) (ho : U.Ok) (hb : bracesFor O w U its x = some y) (ht : TameSrc w U (.list its c)) (hrd : its.Reads O) :
    Ev (fun n => init2 O n U (.p .lbrace :: (its.text true ++ (closing c ++ r))) x) (y, r) := by
  have hcl : EndCl (closing c ++ r) := ⟨c, r, rfl⟩
  cases U with
  | sc ty =>
    rw [TameSrc] at ht; subst ht
    rw [bracesFor.eq_def] at hb
    dsimp only at hb
    split at hb
    · rename_i ts e st wh
      rw [setVal_sc] at hb; cases hb
      rw [Items.Reads] at hrd
      have h1 := init2_sc hrd.2.1 (r := .p .rbrace :: r) (by simp [StopE]) ty x
      refine Ev.of_succ ((h1.bind (g := fun _ y => do let ts ← skip y.2 .rbrace; .ok (y.1, ts)) ?_).congr fun n => ?_)
      · refine (Ev.pure _).congr fun n => ?_
        simp [skip, bind, Except.bind]
      · rw [text_true, itemText_nil]
        simp only [init2, Src.text, Items.text, List.nil_append, closing, Bool.false_eq_true, if_false, List.cons_append]
    · cases hb
  | arr b k =>
    rw [ITy.Ok] at ho
    rw [TameSrc] at ht
    have hb : run O w (.arr b k) its (some [0]) x = some y := by
      rw [bracesFor.eq_def] at hb
      dsimp only at hb
      split at hb
      · rename_i ts e st wh
        cases hl : litOf ts with
        | none => rw [hl] at hb; exact hb
        | some s =>
          rw [hl] at hb
          dsimp only at hb
          rw [ht.1 ts e st wh s rfl hl] at hb
          exact hb
      · exact hb
    have hch : ((ITy.arr b k).child? 0).isSome = true := by rw [child_arr, decide_eq_true ho.1]
    have := hB1 its.size hN its b k 0 true c x y r (Nat.le_refl _) ho.2 (by rw [if_pos hch]; exact ⟨hb, ht.2, hrd⟩)
    refine Ev.of_succ (this.congr fun n => ?_)
    rw [init2]
  | struc m ms =>
    rw [ITy.Ok] at ho
    rw [TameSrc] at ht
    have hb : run O w (.struc m ms) its (some [0]) x = some y := by rw [bracesFor.eq_def] at hb; exact hb
    have := hB2 its.size hN its m ms 0 true c x y r (Nat.le_refl _) ho.2 (by rw [if_pos (show ((ITy.struc m ms).child? 0).isSome = true from ho.1)]; exact ⟨hb, ht, hrd⟩)
    refine Ev.of_succ (this.congr fun n => ?_)
    rw [init2]
  | union m ms =>
    rw [ITy.Ok] at ho
    rw [TameSrc] at ht
    have hb : run O w (.union m ms) its (some [0]) x = some y := by rw [bracesFor.eq_def] at hb; exact hb
    have hg : Good O w (.union m ms) its (some [0]) x y := ⟨hb, ht.2.1, hrd⟩
    cases its with
    | nil => cases ht.1
    | cons ds s its =>
      obtain ⟨hpl, hc⟩ := ht.2.2 ds s its rfl
      simp only [Items.size] at hN
      obtain ⟨p, U, t1, h1, h2, h3, h4, h5, h6, h7, h8⟩ := hg.cons
      cases ds with
      | nil =>
        simp only [List.isEmpty_nil, if_true, Option.some.injEq] at h1
        subst h1
        cases hch : ms.get? 0 with
        | none => rw [hch] at ho; exact absurd ho.1 (by simp)
        | some b =>
          have hch1 : (ITy.union m ms).child? 0 = some b := hch
          have hsub : (ITy.union m ms).sub [0] = some b := by simp only [ITy.sub, hch1]
          have hUb := Option.some.inj (hsub.symm.trans h2); subst hUb
          obtain ⟨cx, hx⟩ := place_get hsub h3
          obtain ⟨c', its1, t2, a1, a2, a3, a4, a5, _⟩ := hA (s.size + its.size) (by omega) s its _ b [0] x cx t1 y _ (Nat.le_refl _) hcl hsub (ho.2.get hch) hx h3 h4 h5 h7
          rw [show next (.union m ms) [0] = none by simp only [next, hch1]] at a3
          have := a3.only (a5 hpl); subst this
          obtain ⟨rfl, _⟩ := put_upd a2
          have hrun := a3.run
          rw [run] at hrun; cases hrun
          refine Ev.of_succ (Ev.of_succ ?_)
          refine (a1.bind (g := fun _ y => do
            let ts ← skip (dropComma y.2) .rbrace
            .ok (setChild (setMem x 0) 0 y.1, ts)) ?_).congr fun n => ?_
          · refine (Ev.pure _).congr fun n => ?_
            cases c <;> simp [Items.text, closing, skip, bind, Except.bind, upd, dropComma]
          · simp only [text_true, itemText_nil]
            obtain ⟨t0, r0, e0, st0⟩ := Src.start h7
            rw [e0, List.cons_append]
            rw [init2, unionI_brace st0.2.2.1 n _ _ _ hch]
            simp only [bind, Except.bind, child_get hx]
      | cons d ds =>
        have := hc (by simp); subst this
        simp only [List.isEmpty_cons, Bool.false_eq_true, if_false] at h1
        cases d with
        | idx ts i => cases h1
        | field z =>
          obtain ⟨k, b, ds', pd', e1, e2, hch, rfl, hres, e5⟩ := field_step rfl ho.2 h1 (.p .eq :: (s.text ++ (its.text false ++ (closing false ++ r))))
          have hsub : (ITy.union m ms).sub [k] = some b := by simp only [ITy.sub, hch]
          have hx : ∃ cx, get x [k] = some cx := by
            obtain ⟨y, hy⟩ := place_get h2 h3
            rw [show k :: pd' = [k] ++ pd' from rfl, get_append] at hy
            cases hg' : get x [k] with
            | none => rw [hg'] at hy; cases hy
            | some c => exact ⟨c, rfl⟩
          obtain ⟨cx, hx⟩ := hx
          obtain ⟨c', its1, t2, a1, a2, a3, a4, a5, _⟩ := hD (s.size + its.size) (by omega) pd' ds' s its _ b U [k] x cx t1 y (closing false ++ r) (Nat.le_refl _) hcl hsub (ho.2.get e2) hx hres
            h2 h3 h4 h5 h7 (fun ts i h => h8 ts i (List.mem_cons_of_mem _ (e5 ts i h))) (fun h => h6 (by simp) h k pd' b rfl hch)
          rw [show next (.union m ms) [k] = none by simp only [next, hch]] at a3
          have := a3.only (a5 hpl); subst this
          obtain ⟨rfl, _⟩ := put_upd a2
          have hrun := a3.run
          rw [run] at hrun; cases hrun
          refine Ev.of_succ (Ev.of_succ ?_)
          refine (a1.bind (g := fun _ y => do
            let ts ← skip y.2 .rbrace
            .ok (setChild (setMem x k) k y.1, ts)) ?_).congr fun n => ?_
          · refine (Ev.pure _).congr fun n => ?_
            simp [Items.text, closing, skip, bind, Except.bind, upd]
          · simp only [text_true, itemText_cons, desText, Des.text, List.cons_append, List.nil_append, init2, unionI]
            rw [e1]
            simp only [bind, Except.bind, child_get hx]

theorem pa_step {N : Nat} (hw : ∀ s, w s = 1 ∨ w s = 2 ∨ w s = 4) (hA : ∀ M < N, PA O w M) (hD : ∀ M < N, PD O w M) (hL : ∀ M < N, PL O w M) (hS : ∀ M < N, PS O w M)
    (hB1 : ∀ M < N, PB1 O w M) (hB2 : ∀ M < N, PB2 O w M) : PA O w N := by
  intro s its T U p t x t1 fin cl hN hcl hT ho hx hpl hg htame hrd
  cases s with
  | expr ts e st wh =>
    simp only [Src.size] at hN
    exact pa_expr hw hL hS ts e st wh hrd (sizeOf U) its T U p t x t1 fin cl (Nat.le_refl _) (by omega) hcl hT ho hx hpl hg htame
  | list its0 c =>
    simp only [Src.size] at hN
    rw [place] at hpl
    obtain ⟨x0, x1, h1, h2, h3⟩ := put_some p T _ t t1 hpl
    rw [hx] at h1; cases h1
    by_cases hc : clean x = true
    · rw [if_pos hc] at h2
      rw [Src.Reads] at hrd
      have := pa_list hA hD hB1 hB2 its0 c U x x1 (its.text false ++ cl) (by omega) ho h2 htame hrd
      refine ⟨x1, its, t1, this.congr fun n => ?_, h3, ?_, Nat.le_refl _, fun h => h, by rw [Src.land, List.append_nil]; exact .refl⟩
      · simp only [Src.text, List.cons_append, List.append_assoc]
      · rw [Src.land, List.append_nil] at hg; exact hg
    · rw [if_neg hc] at h2; cases h2

theorem all (hw : ∀ s, w s = 1 ∨ w s = 2 ∨ w s = 4) (N : Nat) : PA O w N ∧ PD O w N ∧ PL O w N ∧ PS O w N ∧ PB1 O w N ∧ PB2 O w N := by
  induction N using Nat.strongRecOn with
  | ind N ih =>
    have hA := pa_step hw (fun M h => (ih M h).1) (fun M h => (ih M h).2.1) (fun M h => (ih M h).2.2.1) (fun M h => (ih M h).2.2.2.1)
      (fun M h => (ih M h).2.2.2.2.1) (fun M h => (ih M h).2.2.2.2.2)
    exact ⟨hA, pd_step hA (fun M h => (ih M h).2.2.1), pl_step (fun M h => (ih M h).1) (fun M h => (ih M h).2.2.1), ps_step (fun M h => (ih M h).1) (fun M h => (ih M h).2.2.2.1),
      pb1_step (fun M h => (ih M h).1) (fun M h => (ih M h).2.1) (fun M h => (ih M h).2.2.2.2.1), pb2_step (fun M h => (ih M h).1) (fun M h => (ih M h).2.1) (fun M h => (ih M h).2.2.2.2.2)⟩

/-- The initialiser of an object. -/
theorem value_correct (hw : ∀ s, w s = 1 ∨ w s = 2 ∨ w s = 4) (T : ITy) (s : Src α) (r : List Tok) (fin : Ini α) (ho : T.Ok) (ht : TameSrc w T s) (hrd : s.Reads O) (hr : StopE r)
    (h : value O w T s = some fin) : Ev (fun n => initializer O n T (s.text ++ r)) (fin, r) := by
  cases s with
  | list its c =>
    rw [value, place, put_nil] at h
    split at h
    · rw [Src.Reads] at hrd
      have := pa_list (N := its.size + 1) (fun M _ => (all hw M).1) (fun M _ => (all hw M).2.1) (fun M _ => (all hw M).2.2.2.2.1) (fun M _ => (all hw M).2.2.2.2.2) its c T _ fin r
        (by omega) ho h ht hrd
      refine this.congr fun n => ?_
      simp only [initializer, Src.text, List.cons_append, List.append_assoc]
    · cases h
  | expr ts e st wh =>
    rw [value] at h
    split at h
    · rename_i hl
      cases T with
      | sc ty =>
        rw [setVal_sc] at h; cases h
        refine (init2_sc hrd hr ty _).congr fun n => ?_
        simp only [initializer, Src.text]
      | arr b k =>
        cases hlit : litOf ts with
        | none => simp only [Src.land, hlit, land] at hl; cases hl
        | some s =>
          rw [TameSrc, hlit, Lands] at ht
          refine (init2_str hw hrd hlit ht k h r).congr fun n => ?_
          simp only [initializer, Src.text]
      | struc m ms =>
        rw [TameSrc, Lands] at ht
        have := setVal_struc h; subst this
        have hst1 : st = true := by
          rw [ht.1]
          cases hwh : wh (.struc m ms) with
          | true => rfl
          | false => simp only [Src.land, land, hwh] at hl; cases hl
        subst hst1
        rw [Src.Reads] at hrd
        obtain ⟨hread, t0, r0, rfl, hst, _⟩ := hrd
        have hread := hread r hr
        refine Ev.of_succ ((Ev.pure _).congr fun n => ?_)
        simp only [initializer, Src.text]
        rw [List.cons_append] at hread ⊢
        rw [init2_struc_tok hst.1]
        simp only [hread, bind, Except.bind, if_true]
      | union m ms =>
        rw [TameSrc, Lands] at ht
        simp only [Src.land, land, ht.1] at hl
        cases hl
    · cases h

end Toycc.Ip
