import Verif.Pp.GlueProof
/-! C88: chains, parts and the whole replacement list. -/
namespace Toycc.Pp.Glue
open Toycc.Lex (asc)

theorem lexed_ne {h : Lex.Host} {t : PTok} (hl : Lexed h t) : t.text ≠ [] := by
  intro e
  unfold Lexed at hl
  rw [e] at hl
  simp [Lex.lexOne] at hl

theorem join_ne {h : Lex.Host} {v b w : List Bytes} (hv : v ≠ []) (hj : Join h v b w) : w ≠ [] := by
  cases hj with
  | left => exact absurd rfl hv
  | right => exact hv
  | join => simp

/-- A token of the source. -/
def Plain (h : Lex.Host) (t : PTok) : Prop := t.isEof = false ∧ Lexed h t

section
variable {env : Env} {rec : Rec} {st : St} {ps : List Bytes} {va : Bytes → Prop} {σ : Bytes → Actual} {calm : Bytes → Prop} {P : Bytes → List PTok → Prop}
variable {D : Bytes → Prop} {args : List Arg}

theorem not_str_spell {e : El} (hn : ∀ p, e ≠ .str p) : ∃ s, e.spell = [s] := by
  cases e with
  | tok s => exact ⟨s, rfl⟩
  | par p => exact ⟨p, rfl⟩
  | str p => exact absurd rfl (hn p)

theorem map_cons_inv {f : PTok → Bytes} {bs : List PTok} {x : Bytes} {l : List Bytes} (h : bs.map f = x :: l) : ∃ b r, bs = b :: r ∧ f b = x ∧ r.map f = l := by
  cases bs with
  | nil => cases h
  | cons b r =>
    simp only [List.map_cons, List.cons.injEq] at h
    exact ⟨b, r, rfl, h.1, h.2⟩

theorem chain_run (hA : ArgsOk env ps va σ P D args) (acc rest : List PTok) : ∀ (es : List El) {v r : List Bytes} {bs out : List PTok}, v ≠ [] → Chain env.host σ v es r →
    (∀ e ∈ es, e.Ok ps ∧ ∀ p, e ≠ .str p) → (∀ p, .par p ∈ es → ¬ D p) → bs.map (·.text) = (es.flatMap fun e => asc "##" :: e.spell) → (∀ t ∈ bs, Plain env.host t) →
    out.map (·.text) = v → (∀ t ∈ out, Lexed env.host t) →
    ∃ out' : List PTok, subst env rec { st := st, args := args, acc := out.reverse ++ acc, rest := bs ++ rest } =
      subst env rec { st := st, args := args, acc := out'.reverse ++ acc, rest := rest } ∧ out'.map (·.text) = r ∧ ∀ t ∈ out', Lexed env.host t := by
  intro es
  induction es with
  | nil =>
    intro v r bs out _ hc _ _ hb _ ho hl
    cases hc
    simp only [List.flatMap_nil, List.map_eq_nil_iff] at hb
    subst hb
    exact ⟨out, rfl, ho, hl⟩
  | cons e es ih =>
    intro v r bs out hv hc hok hD hb hp ho hl
    cases hc with
    | @cons _ _ _ w _ hj hc =>
    obtain ⟨s, hs⟩ := not_str_spell (hok e List.mem_cons_self).2
    rw [List.flatMap_cons, hs] at hb
    replace hb := map_cons_inv hb
    obtain ⟨x, b1, rfl, hx, hb⟩ := hb
    replace hb := map_cons_inv hb
    obtain ⟨u, b2, rfl, hu, hb⟩ := hb
    have hpu : Plain env.host u := hp u (by simp)
    have hpx : Plain env.host x := hp x (by simp)
    obtain ⟨o0, h0, h1, h2⟩ := paste_step (rec := rec) (st := st) (r := b2 ++ rest) (acc := acc) hA hx hv (by rw [hs, hu]) (hok e List.mem_cons_self).1
      (fun p ep => hD p (by simp [ep])) hpu.1 hj ho (fun y hy => lexed_ne (hl y hy)) hl
    obtain ⟨out', g1, g2, g3⟩ := ih (bs := b2) (out := o0) (join_ne hv hj) hc (fun e he => hok e (List.mem_cons_of_mem _ he)) (fun p hp => hD p (List.mem_cons_of_mem _ hp)) hb
      (fun t ht => hp t (by simp [ht])) h1 h2
    exact ⟨out', by rw [List.cons_append, List.cons_append, round rfl hpx.1 h0, g1], g2, g3⟩

theorem next_not {rest : List PTok} (h : nextIs rest "##" = false) {x u : PTok} {r : List PTok} (e : rest = x :: u :: r) : x.text ≠ asc "##" := by
  subst e
  simpa [nextIs, PTok.is] using h

theorem looks_mem {e : El} {es : List El} (hes : es ≠ []) {p : Bytes} (h : .par p ∈ e :: es ∨ .str p ∈ e :: es) : p ∈ (Item.chain e es).looks := by
  have : (Item.chain e es).looks = (e :: es).filterMap fun | .par p => some p | .str p => some p | .tok _ => none := by
    cases es with
    | nil => exact absurd rfl hes
    | cons => cases e <;> rfl
  rw [this, List.mem_filterMap]
  rcases h with h | h
  · exact ⟨_, h, rfl⟩
  · exact ⟨_, h, rfl⟩

/-- One part of the replacement list. -/
theorem item_run (hW : World env rec st ps σ calm P) (hA : ArgsOk env ps va σ P D args) {i : Item} {v : List Bytes} (hi : i.Ok ps va σ) (hv : ItemVal env.host σ i v) (hD : ∀ p ∈ i.looks, ¬ D p)
    {bs acc rest : List PTok} (hb : bs.map (·.text) = i.spell) (hp : ∀ t ∈ bs, Plain env.host t) (hn : nextIs rest "##" = false) :
    ∃ (out : List PTok) (args' : List Arg), subst env rec { st := st, args := args, acc := acc, rest := bs ++ rest } =
      subst env rec { st := st, args := args', acc := out.reverse ++ acc, rest := rest } ∧ out.map (·.text) = v ∧ (∀ t ∈ out, Lexed env.host t) ∧
      ArgsOk env ps va σ P (fun p => D p ∨ (p ∈ i.uses ∧ ¬ calm p)) args' := by
  have wk : ∀ {E : Bytes → Prop} {args : List Arg}, ArgsOk env ps va σ P D args → (∀ p, D p → E p) → ArgsOk env ps va σ P E args := fun h hE =>
    ⟨h.other, fun p hp => by
      obtain ⟨a, h1, h2, h3, h4⟩ := h.par p hp
      exact ⟨a, h1, h2, h3, fun hd => h4 fun hh => hd (hE p hh)⟩⟩
  cases hv with
  | alone e =>
    cases e with
    | tok s =>
      simp only [Item.spell, El.spell, List.flatMap_nil, List.append_nil] at hb
      replace hb := map_cons_inv hb
      obtain ⟨t, b1, rfl, ht, hb⟩ := hb
      simp only [List.map_eq_nil_iff] at hb; subst hb; subst ht
      have := tok_step (env := env) (rec := rec) (st := st) (acc := acc) hA (t := t) hi.1 (r := rest) fun _ x u r' e h => absurd h (next_not hn e)
      refine ⟨[copyTok t], args, round rfl (hp t (by simp)).1 this, rfl, ?_, wk hA fun p h => .inl h⟩
      intro y hy
      simp only [List.mem_singleton] at hy; subst hy
      exact (hp t (by simp)).2
    | par q =>
      simp only [Item.spell, El.spell, List.flatMap_nil, List.append_nil] at hb
      replace hb := map_cons_inv hb
      obtain ⟨t, b1, rfl, ht, hb⟩ := hb
      simp only [List.map_eq_nil_iff] at hb; subst hb; subst ht
      obtain ⟨out, args', h1, h2, h3, h4⟩ := full_step (acc := acc) hW hA (t := t) hi.1 hn
      refine ⟨out, args', round rfl (hp t (by simp)).1 h1, h2, h3, ?_⟩
      have : (fun p => D p ∨ p ∈ (Item.chain (El.par t.text) []).uses ∧ ¬calm p) = fun p => D p ∨ (p = t.text ∧ ¬ calm p) := by
        funext p
        simp [Item.uses]
      rw [this]; exact h4
    | str q =>
      simp only [Item.spell, El.spell, List.flatMap_nil, List.append_nil] at hb
      replace hb := map_cons_inv hb
      obtain ⟨t, b1, rfl, ht, hb⟩ := hb
      replace hb := map_cons_inv hb
      obtain ⟨u, b2, rfl, hu, hb⟩ := hb
      simp only [List.map_eq_nil_iff] at hb; subst hb; subst hu
      obtain ⟨x, h1, h2, h3⟩ := str_step (acc := acc) (r := rest) hW hA ht hi.1 (hD _ (by simp [Item.looks]))
      refine ⟨[x], args, round rfl (hp t (by simp)).1 h1, by simp [h2, El.alone], ?_, wk hA fun p h => .inl h⟩
      intro y hy
      simp only [List.mem_singleton] at hy; subst hy
      exact h3
  | @chain e e2 es r hc =>
    obtain ⟨ok1, ok2, ok3, ok4⟩ := hi
    have hu : (Item.chain e (e2 :: es)).uses = [] := by cases e <;> rfl
    have hAfin : ArgsOk env ps va σ P (fun p => D p ∨ p ∈ (Item.chain e (e2 :: es)).uses ∧ ¬calm p) args := wk hA fun p h => .inl h
    have hDe : ∀ p, .par p ∈ e :: e2 :: es → ¬ D p := fun p h => hD p (looks_mem (by simp) (.inl h))
    have rest_run : ∀ {bs' out : List PTok}, e.operand σ ≠ [] → bs'.map (·.text) = ((e2 :: es).flatMap fun e => asc "##" :: e.spell) → (∀ t ∈ bs', Plain env.host t) →
        out.map (·.text) = e.operand σ → (∀ t ∈ out, Lexed env.host t) → ∃ out' : List PTok,
        subst env rec { st := st, args := args, acc := out.reverse ++ acc, rest := bs' ++ rest } = subst env rec { st := st, args := args, acc := out'.reverse ++ acc, rest := rest } ∧
          out'.map (·.text) = v ∧ ∀ t ∈ out', Lexed env.host t := fun h1 h2 h3 h4 h5 =>
      chain_run hA acc rest (e2 :: es) h1 hc ok2 (fun p h => hDe p (List.mem_cons_of_mem _ h)) h2 h3 h4 h5
    simp only [Item.spell] at hb
    obtain ⟨s2, hs2⟩ := not_str_spell (ok2 e2 List.mem_cons_self).2
    cases e with
    | tok s =>
      rw [show (El.tok s).spell = [s] from rfl] at hb
      replace hb := map_cons_inv hb
      obtain ⟨t, b1, rfl, ht, hb⟩ := hb
      subst ht
      have hcp : ∀ x u r', b1 ++ rest = x :: u :: r' → u.text = s2 := by
        intro x u r' e
        rw [List.flatMap_cons, hs2] at hb
        replace hb := map_cons_inv hb
        obtain ⟨x', b2, rfl, hx', hb⟩ := hb
        replace hb := map_cons_inv hb
        obtain ⟨u', b3, rfl, hu', hb⟩ := hb
        simp only [List.cons_append, List.cons.injEq] at e
        rw [← e.2.1, hu']
      have h1 := tok_step (env := env) (rec := rec) (st := st) (acc := acc) hA (t := t) ok1 (r := b1 ++ rest) (by
        intro hcm x u r' e hx hbad
        have hu2 := hcp x u r' e
        cases e2 with
        | str p => simp [El.spell] at hs2
        | tok s =>
          simp only [El.spell, List.cons.injEq, and_true] at hs2
          exact (ok2 _ List.mem_cons_self).1.1 (by rw [hs2, ← hu2]; exact hbad.1)
        | par p =>
          simp only [El.spell, List.cons.injEq, and_true] at hs2
          exact ok4 p es rfl (by rw [hs2, ← hu2]; exact hbad.2) (by rw [hcm]))
      obtain ⟨out', g1, g2, g3⟩ := rest_run (bs' := b1) (out := [copyTok t]) (by simp [El.operand]) hb (fun x hx => hp x (List.mem_cons_of_mem _ hx)) rfl (by
        intro y hy
        simp only [List.mem_singleton] at hy; subst hy
        exact (hp t (by simp)).2)
      exact ⟨out', args, (round rfl (hp t (by simp)).1 h1).trans g1, g2, g3, hAfin⟩
    | str q =>
      rw [show (El.str q).spell = [asc "#", q] from rfl] at hb
      replace hb := map_cons_inv hb
      obtain ⟨t, b1, rfl, ht, hb⟩ := hb
      replace hb := map_cons_inv hb
      obtain ⟨u, b2, rfl, hu', hb⟩ := hb
      subst hu'
      obtain ⟨x, h1, h2, h3⟩ := str_step (acc := acc) (r := b2 ++ rest) hW hA ht ok1 (hD _ (looks_mem (by simp) (.inr (by simp))))
      obtain ⟨out', g1, g2, g3⟩ := rest_run (bs' := b2) (out := [x]) (by simp [El.operand]) hb (fun y hy => hp y (by simp [hy])) (by simp [El.operand, h2]) (by
        intro y hy
        simp only [List.mem_singleton] at hy; subst hy
        exact h3)
      exact ⟨out', args, (round rfl (hp t (by simp)).1 h1).trans g1, g2, g3, hAfin⟩
    | par q =>
      rw [show (El.par q).spell = [q] from rfl] at hb
      replace hb := map_cons_inv hb
      obtain ⟨t, b1, rfl, ht, hb⟩ := hb
      subst ht
      have hDt : ¬ D t.text := hDe _ (by simp)
      by_cases hraw : (σ t.text).raw = []
      · have hb' := hb
        rw [List.flatMap_cons, hs2] at hb'
        replace hb' := map_cons_inv hb'
        obtain ⟨x, b2, rfl, hx, hb'⟩ := hb'
        replace hb' := map_cons_inv hb'
        obtain ⟨u, b3, rfl, hu', hb'⟩ := hb'
        obtain ⟨o1, h1, h2, h3⟩ := empty_step (acc := acc) (r := b3 ++ rest) hW hA ok1 hDt hx hraw (u := u) (e := e2) (by rw [hs2, hu']) (ok2 e2 List.mem_cons_self).1
          (fun p ep => hDe p (by simp [ep])) (hp u (by simp)).2
        cases hc with
        | @cons _ _ _ w _ hj hc =>
        have hw : w = e2.operand σ := by
          rw [show (El.par t.text).operand σ = [] from hraw] at hj
          generalize hz : ([] : List Bytes) = z at hj
          generalize hy : e2.operand σ = y at hj
          cases hj with
          | left => rfl
          | right => rw [← hz]
          | join => simp at hz
        rw [hw] at hc
        cases es with
        | nil =>
          cases hc
          have hb' : b3.map (·.text) = [] := hb'
          rw [List.map_eq_nil_iff] at hb'
          subst hb'
          exact ⟨o1, args, round rfl (hp t (by simp)).1 h1, h2, h3, hAfin⟩
        | cons e3 es =>
          have hne := ok3 e2 e3 es rfl hraw
          obtain ⟨out', g1, g2, g3⟩ := chain_run hA acc rest (e3 :: es) hne hc (fun e he => ok2 e (List.mem_cons_of_mem _ he))
            (fun p h => hDe p (List.mem_cons_of_mem _ (List.mem_cons_of_mem _ h))) hb' (fun y hy => hp y (by simp [hy])) h2 h3
          exact ⟨out', args, (round rfl (hp t (by simp)).1 h1).trans g1, g2, g3, hAfin⟩
      · have hnx : nextIs (b1 ++ rest) "##" = true := by
          have hb' := hb
          rw [List.flatMap_cons] at hb'
          replace hb' := map_cons_inv hb'
          obtain ⟨x, b2, rfl, hx, hb'⟩ := hb'
          simp [nextIs, PTok.is, hx]
        obtain ⟨o1, h1, h2, h3⟩ := left_step (acc := acc) hW hA ok1 hDt hnx hraw
        obtain ⟨out', g1, g2, g3⟩ := rest_run (bs' := b1) (out := o1) hraw hb (fun y hy => hp y (List.mem_cons_of_mem _ hy)) h2 h3
        exact ⟨out', args, (round rfl (hp t (by simp)).1 h1).trans g1, g2, g3, hAfin⟩
  | gnu q =>
    simp only [Item.spell] at hb
    replace hb := map_cons_inv hb
    obtain ⟨t, b1, rfl, ht, hb⟩ := hb
    replace hb := map_cons_inv hb
    obtain ⟨x, b2, rfl, hx, hb⟩ := hb
    replace hb := map_cons_inv hb
    obtain ⟨u, b3, rfl, hu, hb⟩ := hb
    simp only [List.map_eq_nil_iff] at hb; subst hb; subst hu
    obtain ⟨a, ha, hPa, hva, hwa⟩ := hA.par _ hi.1
    have hw := hwa (hD _ (by simp [Item.looks]))
    have hfa : findArg args u = some a := ha
    have hv' : a.isVa = true := hva.2 hi.2
    have n1 : t.is "#" = false := is_not (by rw [ht]; decide)
    have hnx : nextIs (x :: u :: rest) "##" = true := by simp [nextIs, PTok.is, hx]
    have h1 : substStep env rec { st := st, args := args, acc := acc, rest := t :: x :: u :: rest } t (x :: u :: rest) =
        if isEmptyArg a then .ok { st := st, args := args, acc := acc, rest := rest } else .ok { st := st, args := args, acc := copyTok t :: acc, rest := u :: rest } := by
      unfold substStep
      rw [n1, is_iff.2 ht, hnx]
      simp only [Bool.false_eq_true, if_false, Bool.and_self, if_true, hfa, Option.filter, hv', List.drop_succ_cons, List.drop_zero]
    by_cases he : (σ u.text).raw = []
    · rw [if_pos ((written_empty hw).2 he)] at h1
      rw [if_pos he]
      exact ⟨[], args, round rfl (hp t (by simp)).1 h1, rfl, by simp, wk hA fun p h => .inl h⟩
    · rw [if_neg (fun h => he ((written_empty hw).1 h))] at h1
      rw [if_neg he]
      obtain ⟨out, args', g1, g2, g3, g4⟩ := full_step (acc := copyTok t :: acc) hW hA (t := u) hi.1 hn
      refine ⟨copyTok t :: out, args', ?_, by simp [g2, copyTok, ht], ?_, ?_⟩
      · refine (round rfl (hp t (by simp)).1 h1).trans ((round rfl (hp u (by simp)).1 g1).trans ?_)
        simp
      · intro y hy
        rcases List.mem_cons.1 hy with rfl | hy
        · exact (hp t (by simp)).2
        · exact g3 y hy
      · have : (fun p => D p ∨ p ∈ (Item.gnu u.text).uses ∧ ¬calm p) = fun p => D p ∨ (p = u.text ∧ ¬ calm p) := by
          funext p
          simp [Item.uses]
        rw [this]; exact g4

theorem spell_head {i : Item} (hi : i.Ok ps va σ) (hps : ∀ p ∈ ps, p ≠ asc "##") : ∃ s l, i.spell = s :: l ∧ s ≠ asc "##" := by
  cases i with
  | gnu p => exact ⟨_, _, rfl, by decide⟩
  | chain e es =>
    cases e with
    | tok s => exact ⟨s, _, rfl, hi.1.2.2.1⟩
    | par p => exact ⟨p, _, rfl, hps p hi.1⟩
    | str p => exact ⟨_, _, rfl, by decide⟩

theorem body_run (hW : World env rec st ps σ calm P) {e : PTok} (he : e.isEof = true) (het : e.text = []) : ∀ (is : List Item) {v : List Bytes} {D : Bytes → Prop} {args : List Arg} {bs acc : List PTok},
    ArgsOk env ps va σ P D args → (∀ i ∈ is, i.Ok ps va σ) → BodyVal env.host σ is v → Ordered calm is → (∀ i ∈ is, ∀ p ∈ i.looks, ¬ D p) → bs.map (·.text) = is.flatMap Item.spell →
    (∀ t ∈ bs, Plain env.host t) → ∃ out : List PTok, subst env rec { st := st, args := args, acc := acc, rest := bs ++ [e] } = .ok (st, acc.reverse ++ out ++ [e]) ∧
      out.map (·.text) = v ∧ ∀ t ∈ out, Lexed env.host t := by
  intro is
  induction is with
  | nil =>
    intro v D args bs acc hA _ hv _ _ hb _
    cases hv
    simp only [List.flatMap_nil, List.map_eq_nil_iff] at hb
    subst hb
    refine ⟨[], ?_, rfl, by simp⟩
    rw [List.nil_append, subst.eq_def]
    dsimp only
    rw [he]; simp
  | cons i is ih =>
    intro v D args bs acc hA hok hv ho hD hb hp
    cases hv with
    | @cons _ _ v1 w hv1 hv2 =>
    rw [List.flatMap_cons] at hb
    obtain ⟨b1, b2, rfl, hb1, hb2⟩ := List.map_eq_append_iff.1 hb
    have hn : nextIs (b2 ++ [e]) "##" = false := by
      cases is with
      | nil =>
        simp only [List.flatMap_nil, List.map_eq_nil_iff] at hb2
        subst hb2
        simp [nextIs, PTok.is, het]
        decide
      | cons j js =>
        obtain ⟨s, l, hs, hne⟩ := spell_head (hok j (by simp)) fun p hp => (hW.params p hp).2.1
        rw [List.flatMap_cons, hs] at hb2
        obtain ⟨x, b3, rfl, hx, -⟩ := map_cons_inv hb2
        simp [nextIs, PTok.is, hx, hne]
    obtain ⟨o1, args', h1, h2, h3, h4⟩ := item_run (acc := acc) hW hA (hok i List.mem_cons_self) hv1 (hD i List.mem_cons_self) hb1 (fun t ht => hp t (List.mem_append_left _ ht)) hn
    obtain ⟨o2, g1, g2, g3⟩ := ih (acc := o1.reverse ++ acc) h4 (fun j hj => hok j (List.mem_cons_of_mem _ hj)) hv2 ho.2 (by
      intro j hj p hpj hd
      rcases hd with hd | ⟨hu, hc⟩
      · exact hD j (List.mem_cons_of_mem _ hj) p hpj hd
      · rcases ho.1 p hu with h | h
        · exact hc h
        · exact h j hj hpj) hb2 (fun t ht => hp t (List.mem_append_right _ ht))
    refine ⟨o1 ++ o2, ?_, by simp [h2, g2], fun t ht => ?_⟩
    · rw [List.append_assoc, h1, g1]
      simp
    · rcases List.mem_append.1 ht with ht | ht
      · exact h3 t ht
      · exact g3 t ht

end
end Toycc.Pp.Glue
