import Verif.Pp.OptSpec
import Verif.Pp.GlueProps
/-! C96: `__VA_OPT__`. -/
namespace Toycc.Pp.Glue
open Toycc.Lex (asc)

section
variable {env : Env} {rec : Rec} {st : St} {ps : List Bytes} {va : Bytes → Prop} {σ : Bytes → Actual} {calm : Bytes → Prop} {P : Bytes → List PTok → Prop}

/-- Up to the parenthesis that closes. -/
theorem readArg_balanced {t : PTok} (ht : t.text = asc ")") (r : List PTok) : ∀ (bs : List PTok) (n : Nat), Balanced n (bs.map (·.text)) → (∀ u ∈ bs, u.isEof = false) →
    readArg true n (bs ++ t :: r) = .ok (bs.map ownTok ++ [ownTok (newEof t)], t :: r)
  | [], n, h, _ => by
    have h : n = 0 := h
    subst h
    rw [List.nil_append, readArg, if_pos (by rw [is_iff.2 ht]; rfl)]
    rfl
  | u :: bs, n, h, he => by
    have hu := he u List.mem_cons_self
    have ih := readArg_balanced ht r bs
    rw [List.map_cons, Balanced] at h
    rw [List.cons_append, readArg]
    by_cases h1 : u.text = asc "("
    · rw [if_pos h1] at h
      have n1 : u.is ")" = false := is_not (by rw [h1]; decide)
      rw [n1, hu, is_iff.2 h1]
      simp only [Bool.and_false, Bool.false_eq_true, if_false, Bool.not_true, Bool.false_and, if_true]
      rw [ih _ h fun w hw => he w (List.mem_cons_of_mem _ hw)]
      rfl
    · rw [if_neg h1] at h
      by_cases h2 : u.text = asc ")"
      · rw [if_pos h2] at h
        have n0 : (n == 0) = false := by simpa using h.1
        rw [n0, hu, is_not h1, is_iff.2 h2]
        simp only [Bool.false_and, Bool.false_eq_true, if_false, if_true]
        rw [ih _ h.2 fun w hw => he w (List.mem_cons_of_mem _ hw)]
        rfl
      · rw [if_neg h2] at h
        rw [hu, is_not h1, is_not h2]
        simp only [Bool.and_false, Bool.false_eq_true, if_false, Bool.not_true, Bool.false_and]
        rw [ih _ h fun w hw => he w (List.mem_cons_of_mem _ hw)]
        rfl

theorem plain_body {h : Lex.Host} {ps : List Bytes} : ∀ {is : List Item} {v : List Bytes}, (∀ i ∈ is, ∃ s, i = .chain (.tok s) [] ∧ (El.tok s).Ok ps) → BodyVal h σ is v → v = is.flatMap Item.spell
  | [], v, _, hv => by cases hv; rfl
  | i :: is, v, hk, hv => by
    obtain ⟨s, rfl, _⟩ := hk i List.mem_cons_self
    cases hv with
    | @cons _ _ v1 w h1 h2 =>
      have ih := plain_body (fun j hj => hk j (List.mem_cons_of_mem _ hj)) h2
      cases h1 with
      | alone =>
        rw [List.flatMap_cons, ih]
        rfl

theorem varargs_eq {D : Bytes → Prop} {args : List Arg} (hA : ArgsOk env ps va σ P D args) (hm : asc "__VA_ARGS__" ∈ ps) (hD : ¬ D (asc "__VA_ARGS__")) :
    hasVarargs args = false ↔ (σ (asc "__VA_ARGS__")).raw = [] := by
  obtain ⟨a, h1, -, -, h4⟩ := hA.par _ hm
  have := written_empty (h4 hD)
  rw [← this]
  unfold hasVarargs isEmptyArg
  rw [h1]
  simp

theorem opt_run (hW : World env rec st ps σ calm P) {D : Bytes → Prop} {args : List Arg} (hA : ArgsOk env ps va σ P D args) {is : List Item} {v : List Bytes} (hi : (Part.opt is).Ok ps va σ)
    (hv : PartVal env.host σ (.opt is) v) (hD : ¬ D (asc "__VA_ARGS__")) {bs acc rest : List PTok} (hb : bs.map (·.text) = (Part.opt is).spell) (hp : ∀ t ∈ bs, Plain env.host t) :
    ∃ out : List PTok, subst env rec { st := st, args := args, acc := acc, rest := bs ++ rest } = subst env rec { st := st, args := args, acc := out.reverse ++ acc, rest := rest } ∧
      out.map (·.text) = v ∧ ∀ t ∈ out, Lexed env.host t := by
  obtain ⟨k1, k2, k3, k4⟩ := hi
  simp only [Part.spell, List.cons_append, List.nil_append] at hb
  obtain ⟨t, b1, rfl, ht, hb⟩ := map_cons_inv hb
  obtain ⟨x, b2, rfl, hx, hb⟩ := map_cons_inv hb
  obtain ⟨b3, b4, rfl, hb3, hb4⟩ := List.map_eq_append_iff.1 hb
  obtain ⟨c, b5, rfl, hc, hb5⟩ := map_cons_inv hb4
  rw [List.map_eq_nil_iff] at hb5
  subst hb5
  have hpl : ∀ u ∈ b3, Plain env.host u := fun u hu => hp u (by simp [hu])
  have hread := readArg_balanced hc rest b3 0 (by rw [hb3]; exact k4) (fun u hu => (hpl u hu).1)
  have hbody : body (b3.map ownTok ++ [ownTok (newEof c)]) = b3.map ownTok := body_append (by
    intro u hu
    obtain ⟨w, hw, rfl⟩ := List.mem_map.1 hu
    exact (hpl w hw).1) rfl
  have hvo : substVaOpt { st := st, args := args, acc := acc, rest := t :: x :: (b3 ++ c :: rest) } (b3 ++ c :: rest) =
      .ok { st := st, args := args, acc := (if hasVarargs args then (b3.map ownTok).map copyTok else []).reverse ++ acc, rest := rest } := by
    unfold substVaOpt
    rw [hread]
    simp only [skip, is_iff.2 hc, if_true, hbody]
  have hnp : asc "__VA_OPT__" ∉ ps := fun h => (hW.params _ h).2.2.2 rfl
  have hfa : findArg args t = none := by unfold findArg; rw [ht]; exact hA.other _ hnp
  have hnx : nextIs (x :: (b3 ++ c :: rest)) "(" = true := by simp [nextIs, PTok.is, hx]
  have hstep : substStep env rec { st := st, args := args, acc := acc, rest := t :: x :: (b3 ++ c :: rest) } t (x :: (b3 ++ c :: rest)) =
      .ok { st := st, args := args, acc := (if hasVarargs args then (b3.map ownTok).map copyTok else []).reverse ++ acc, rest := rest } := by
    unfold substStep
    rw [is_not (s := "#") (by rw [ht]; decide), is_not (s := ",") (by rw [ht]; decide), is_not (s := "##") (by rw [ht]; decide), hfa, is_iff.2 ht, hnx]
    simp only [Bool.false_eq_true, if_false, Bool.false_and, Bool.and_self, if_true, List.drop_succ_cons, List.drop_zero]
    exact hvo
  refine ⟨if hasVarargs args then (b3.map ownTok).map copyTok else [], ?_, ?_, ?_⟩
  · have e : (t :: x :: (b3 ++ [c])) ++ rest = t :: x :: (b3 ++ c :: rest) := by simp
    rw [e]
    exact round rfl (hp t (by simp)).1 hstep
  · have hh := varargs_eq hA k1 hD
    rw [k2] at hh
    cases hv with
    | present hf hbv =>
      have : hasVarargs args = true := by
        cases hx : hasVarargs args with
        | true => rfl
        | false => exact absurd (hh.1 hx) hf
      rw [this, if_pos rfl, plain_body k3 hbv, ← hb3]
      simp [ownTok, copyTok]
    | absent _ hf => rw [hh.2 hf]; rfl
  · intro u hu
    cases hx : hasVarargs args with
    | false => rw [hx] at hu; cases hu
    | true =>
      rw [hx, if_pos rfl] at hu
      obtain ⟨w, hw, rfl⟩ := List.mem_map.1 hu
      obtain ⟨y, hy, rfl⟩ := List.mem_map.1 hw
      exact (hpl y hy).2

theorem part_head {i : Part} (hi : i.Ok ps va σ) (hps : ∀ p ∈ ps, p ≠ asc "##") : ∃ s l, i.spell = s :: l ∧ s ≠ asc "##" := by
  cases i with
  | plain i => exact spell_head hi hps
  | opt is => exact ⟨_, _, rfl, by decide⟩

theorem parts_run (hW : World env rec st ps σ calm P) {e : PTok} (he : e.isEof = true) (het : e.text = []) : ∀ (is : List Part) {v : List Bytes} {D : Bytes → Prop} {args : List Arg} {bs acc : List PTok},
    ArgsOk env ps va σ P D args → (∀ i ∈ is, i.Ok ps va σ) → PartsVal env.host σ is v → PartsOrdered calm is → (∀ i ∈ is, ∀ p ∈ i.looks, ¬ D p) → bs.map (·.text) = is.flatMap Part.spell →
    (∀ t ∈ bs, Plain env.host t) → ∃ out : List PTok, subst env rec { st := st, args := args, acc := acc, rest := bs ++ [e] } = .ok (st, acc.reverse ++ out ++ [e]) ∧
      out.map (·.text) = v ∧ ∀ t ∈ out, Lexed env.host t := by
  intro is
  induction is with
  | nil =>
    intro v D args bs acc hA _ hv _ _ hb _
    cases hv
    simp only [List.flatMap_nil, List.map_eq_nil_iff] at hb
    subst hb
    refine ⟨[], ?_, rfl, by simp⟩
    rw [List.nil_append, subst.eq_def]
    dsimp only
    rw [he]; simp
  | cons i is ih =>
    intro v D args bs acc hA hok hv ho hD hb hp
    cases hv with
    | @cons _ _ v1 w hv1 hv2 =>
    rw [List.flatMap_cons] at hb
    obtain ⟨b1, b2, rfl, hb1, hb2⟩ := List.map_eq_append_iff.1 hb
    have hn : nextIs (b2 ++ [e]) "##" = false := by
      cases is with
      | nil =>
        simp only [List.flatMap_nil, List.map_eq_nil_iff] at hb2
        subst hb2
        simp [nextIs, PTok.is, het]
        decide
      | cons j js =>
        obtain ⟨s, l, hs, hne⟩ := part_head (hok j (by simp)) fun p hp => (hW.params p hp).2.1
        rw [List.flatMap_cons, hs] at hb2
        obtain ⟨x, b3, rfl, hx, -⟩ := map_cons_inv hb2
        simp [nextIs, PTok.is, hx, hne]
    have key : ∃ (out : List PTok) (args' : List Arg), subst env rec { st := st, args := args, acc := acc, rest := b1 ++ (b2 ++ [e]) } =
        subst env rec { st := st, args := args', acc := out.reverse ++ acc, rest := b2 ++ [e] } ∧ out.map (·.text) = v1 ∧ (∀ t ∈ out, Lexed env.host t) ∧
        ArgsOk env ps va σ P (fun p => D p ∨ (p ∈ i.uses ∧ ¬ calm p)) args' := by
      have hpb : ∀ t ∈ b1, Plain env.host t := fun t ht => hp t (List.mem_append_left _ ht)
      cases i with
      | plain i =>
        cases hv1 with
        | plain hv1 => exact item_run (acc := acc) hW hA (hok (.plain i) List.mem_cons_self) hv1 (hD (.plain i) List.mem_cons_self) hb1 hpb hn
      | opt js =>
        obtain ⟨out, g1, g2, g3⟩ := opt_run (acc := acc) (rest := b2 ++ [e]) hW hA (hok _ List.mem_cons_self) hv1 (hD _ List.mem_cons_self _ (by simp [Part.looks])) hb1 hpb
        refine ⟨out, args, g1, g2, g3, hA.other, fun p hp => ?_⟩
        obtain ⟨a, h1, h2, h3, h4⟩ := hA.par p hp
        exact ⟨a, h1, h2, h3, fun hd => h4 fun hh => hd (.inl hh)⟩
    obtain ⟨o1, args', h1, h2, h3, h4⟩ := key
    obtain ⟨o2, g1, g2, g3⟩ := ih (acc := o1.reverse ++ acc) h4 (fun j hj => hok j (List.mem_cons_of_mem _ hj)) hv2 ho.2 (by
      intro j hj p hpj hd
      rcases hd with hd | ⟨hu, hc⟩
      · exact hD j (List.mem_cons_of_mem _ hj) p hpj hd
      · rcases ho.1 p hu with h | h
        · exact hc h
        · exact h j hj hpj) hb2 (fun t ht => hp t (List.mem_append_right _ ht))
    refine ⟨o1 ++ o2, ?_, by simp [h2, g2], fun t ht => ?_⟩
    · rw [List.append_assoc, h1, g1]
      simp
    · rcases List.mem_append.1 ht with ht | ht
      · exact h3 t ht
      · exact g3 t ht

/-- **C96**, for any complete macro replacement `rec` of arguments. If the parts `is` of a replacement list, with `__VA_OPT__` anywhere among them, become `v` by C, then subst turns tokens that spell the
list into tokens that spell `v`. Partial (`Part.Ok`): no parameters, # and ## in the parentheses, and variable arguments that are not empty do not become empty; both are needed
(`C96_parameter_wrong`, `C96_string_wrong`, `C96_empty_wrong`). `__VA_OPT__` as an operand of ## is not covered (`C96_operand_wrong`). What C88 leaves out is left out here. -/
theorem C96_va_opt_partial (hW : World env rec st ps σ calm P) {args : List Arg} (hA : ArgsOk env ps va σ P (fun _ => False) args) {is : List Part} (hok : ∀ i ∈ is, i.Ok ps va σ)
    (ho : PartsOrdered calm is) {v : List Bytes} (hv : PartsVal env.host σ is v) {bs : List PTok} {e : PTok} (hb : bs.map (·.text) = is.flatMap Part.spell) (hp : ∀ t ∈ bs, Plain env.host t)
    (he : e.isEof = true) (het : e.text = []) :
    ∃ out : List PTok, subst env rec { st := st, args := args, acc := [], rest := bs ++ [e] } = .ok (st, out ++ [e]) ∧ out.map (·.text) = v ∧ ∀ t ∈ out, Lexed env.host t := by
  obtain ⟨out, h1, h2, h3⟩ := parts_run hW he het is (acc := []) hA hok hv ho (fun _ _ _ _ h => h) hb hp
  exact ⟨out, by simpa using h1, h2, h3⟩

end

/-- **C96** for calls with arguments in which no macro is named, which may be used any number of times in any way. -/
theorem C96_calls_partial {env : Env} (hs : env.strict = false) {st : St} {ps : List Bytes} {va : Bytes → Prop} {σ : Bytes → Actual} {n : Nat} {args : List Arg}
    (hps : ∀ p ∈ ps, p ≠ asc "#" ∧ p ≠ asc "##" ∧ p ≠ asc "," ∧ p ≠ asc "__VA_OPT__") (hother : ∀ s, s ∉ ps → args.find? (fun a => a.name == s) = none)
    (hpar : ∀ p ∈ ps, ∃ a, args.find? (fun a => a.name == p) = some a ∧ (a.isVa = true ↔ va p) ∧ Calm env st (σ p) n a.toks)
    (hfull : ∀ p ∈ ps, (σ p).full = (σ p).raw ∧ (10 : UInt8) ∉ (σ p).text) {is : List Part} (hok : ∀ i ∈ is, i.Ok ps va σ) {v : List Bytes} (hv : PartsVal env.host σ is v)
    {bs : List PTok} {e : PTok} (hb : bs.map (·.text) = is.flatMap Part.spell) (hp : ∀ t ∈ bs, Plain env.host t) (he : e.isEof = true) (het : e.text = []) :
    ∃ out : List PTok, subst env (pp env n false) { st := st, args := args, acc := [], rest := bs ++ [e] } = .ok (st, out ++ [e]) ∧ out.map (·.text) = v ∧ ∀ t ∈ out, Lexed env.host t := by
  have hW : World env (pp env n false) st ps σ (fun _ => True) (fun p l => Calm env st (σ p) n l) :=
    ⟨hs, hps, fun p hp l h => calm_serve (hfull p hp).1 h, fun p _ _ l h => calm_written h, fun p hp => (hfull p hp).2⟩
  refine C96_va_opt_partial (va := va) hW ⟨hother, fun p hp => ?_⟩ hok ?_ hv hb hp he het
  · obtain ⟨a, h1, h2, h3⟩ := hpar p hp
    exact ⟨a, h1, h3, h2, fun _ => calm_written h3⟩
  · clear hv hok hb
    induction is with
    | nil => exact trivial
    | cons i is ih => exact ⟨fun _ _ => .inl trivial, ih⟩

/-! ### Example: `__VA_ARGS__ __VA_OPT__(,(z))` with the variable arguments `c` -/

def opArgs (ts : List PTok) : List Arg := [{ name := asc "__VA_ARGS__", isVa := true, toks := ts ++ [exEof] }]
def opσ (l : List String) (_ : Bytes) : Actual := ⟨l.map asc, l.map asc, l.flatMap asc⟩
def opBody : List Part := [.plain (.chain (.par (asc "__VA_ARGS__")) []), .opt [.chain (.tok (asc ",")) [], .chain (.tok (asc "(")) [], .chain (.tok (asc "z")) [], .chain (.tok (asc ")")) []]]
def opToks : List PTok :=
  [tk .ident "__VA_ARGS__" false, tk .ident "__VA_OPT__" true, tk .punct "(" false, tk .punct "," false, tk .punct "(" false, tk .ident "z" false, tk .punct ")" false, tk .punct ")" false]

theorem op_ok {l : List String} : ∀ i ∈ opBody, i.Ok [asc "__VA_ARGS__"] (fun _ => True) (opσ l) := by
  intro i hi
  simp only [opBody, List.mem_cons, List.not_mem_nil, or_false] at hi
  rcases hi with rfl | rfl
  · exact ⟨by simp [El.Ok], by simp, by simp, by simp⟩
  · refine ⟨by simp, Iff.rfl, ?_, by simp [Item.spell, El.spell, Balanced, asc]⟩
    intro i hi
    simp only [List.mem_cons, List.not_mem_nil, or_false] at hi
    rcases hi with rfl | rfl | rfl | rfl <;> exact ⟨_, rfl, by simp only [El.Ok]; decide +kernel⟩

theorem op_toks : ∀ t ∈ opToks, Plain exEnv.host t := by
  intro t ht
  simp only [opToks, List.mem_cons, List.not_mem_nil, or_false] at ht
  rcases ht with rfl | rfl | rfl | rfl | rfl | rfl | rfl | rfl <;> exact ⟨rfl, by unfold Lexed; decide +kernel⟩

theorem op_other (ts : List PTok) (s : Bytes) (hs : s ∉ [asc "__VA_ARGS__"]) : (opArgs ts).find? (fun a => a.name == s) = none := by
  simp only [List.mem_cons, List.not_mem_nil, or_false] at hs
  simp [opArgs, List.find?, beq_eq_false_iff_ne.2 (Ne.symm hs)]

/-- With arguments: `c , ( z )`. -/
example : ∃ out : List PTok, subst exEnv (pp exEnv 9 false) { st := {}, args := opArgs [tk .ident "c" false], acc := [], rest := opToks ++ [exEof] } = .ok ({}, out ++ [exEof]) ∧
    out.map (·.text) = [asc "c", asc ",", asc "(", asc "z", asc ")"] ∧ ∀ t ∈ out, Lexed exEnv.host t := by
  refine C96_calls_partial (ps := [asc "__VA_ARGS__"]) (va := fun _ => True) (σ := opσ ["c"]) (is := opBody) rfl (by decide +kernel) (op_other _) ?_ ?_ op_ok ?_ (by decide +kernel) op_toks rfl rfl
  · intro p hp
    simp only [List.mem_cons, List.not_mem_nil, or_false] at hp
    subst hp
    refine ⟨{ name := asc "__VA_ARGS__", isVa := true, toks := [tk .ident "c" false] ++ [exEof] }, by simp [opArgs, List.find?], by simp, ?_⟩
    refine ex_calm (ts := [tk .ident "c" false]) ?_ rfl rfl (by decide)
    intro t ht
    simp only [List.mem_cons, List.not_mem_nil, or_false] at ht
    subst ht
    exact ex_tok rfl (by unfold Lexed; decide +kernel) (by decide +kernel) (by decide +kernel)
  · decide +kernel
  · have i1 : PartVal exEnv.host (opσ ["c"]) (.plain (.chain (.par (asc "__VA_ARGS__")) [])) [asc "c"] := .plain (.alone _)
    have i2 : PartVal exEnv.host (opσ ["c"]) (.opt [.chain (.tok (asc ",")) [], .chain (.tok (asc "(")) [], .chain (.tok (asc "z")) [], .chain (.tok (asc ")")) []]) _ :=
      .present (by simp [opσ]) (.cons (.alone _) (.cons (.alone _) (.cons (.alone _) (.cons (.alone _) .nil))))
    exact .cons i1 (.cons i2 .nil)

/-- Without: nothing. -/
example : ∃ out : List PTok, subst exEnv (pp exEnv 9 false) { st := {}, args := opArgs [], acc := [], rest := opToks ++ [exEof] } = .ok ({}, out ++ [exEof]) ∧
    out.map (·.text) = [] ∧ ∀ t ∈ out, Lexed exEnv.host t := by
  refine C96_calls_partial (ps := [asc "__VA_ARGS__"]) (va := fun _ => True) (σ := opσ []) (is := opBody) rfl (by decide +kernel) (op_other _) ?_ ?_ op_ok ?_ (by decide +kernel) op_toks rfl rfl
  · intro p hp
    simp only [List.mem_cons, List.not_mem_nil, or_false] at hp
    subst hp
    exact ⟨{ name := asc "__VA_ARGS__", isVa := true, toks := [] ++ [exEof] }, by simp [opArgs, List.find?], by simp, ex_calm (ts := []) (by simp) rfl rfl (by decide)⟩
  · decide +kernel
  · have i1 : PartVal exEnv.host (opσ []) (.plain (.chain (.par (asc "__VA_ARGS__")) [])) [] := .plain (.alone _)
    exact .cons i1 (.cons (.absent _ rfl) .nil)

/-! ### From text -/

example : outTexts exEnv 60 "#define F(f,...) f __VA_OPT__((1,(2))) __VA_ARGS__\nF(a,b)F(a)F(a,)\n" =
    some [asc "a", asc "(", asc "1", asc ",", asc "(", asc "2", asc ")", asc ")", asc "b", asc "a", asc "a", []] := by decide +kernel

/-- **C96** fails for parameters in the parentheses, which stay: `F(1, 2)` should become `1`, and with `__VA_ARGS__` in the parentheses `f ( 1 , 2 )`. -/
theorem C96_parameter_wrong : outTexts exEnv 60 "#define F(x,...) __VA_OPT__(x)\nF(1,2)\n" = some [asc "x", []] ∧
    outTexts exEnv 60 "#define P(x,...) f(x __VA_OPT__(,__VA_ARGS__))\nP(1,2)\n" = some [asc "f", asc "(", asc "1", asc ",", asc "__VA_ARGS__", asc ")", []] := by decide +kernel

/-- **C96** fails for # and ## in the parentheses, which stay: `F(1, 2)` should become `y "1"`, `G(1)` should become `ab`. -/
theorem C96_string_wrong : outTexts exEnv 60 "#define F(x,...) y __VA_OPT__(#x)\nF(1,2)\n" = some [asc "y", asc "#", asc "x", []] ∧
    outTexts exEnv 60 "#define G(...) __VA_OPT__(a##b)\nG(1)\n" = some [asc "a", asc "##", asc "b", []] := by decide +kernel

/-- At the beginning of a line the # that stays is taken for a directive, and the file is refused. -/
theorem C96_string_refused : outTexts exEnv 60 "#define F(x,...) __VA_OPT__(#x)\nF(1,2)\n" = none := by decide +kernel

/-- **C96** fails for `__VA_OPT__` as the right operand of ##: `F(b, 2)` should become `ba`. -/
theorem C96_operand_wrong : outTexts exEnv 60 "#define F(x,...) x ## __VA_OPT__(a)\nF(b,2)\n" = some [asc "b__VA_OPT__", asc "(", asc "a", asc ")", []] := by decide +kernel

/-- **C96** fails for variable arguments that become nothing: `F(E)` should become nothing. -/
theorem C96_empty_wrong : outTexts exEnv 60 "#define E\n#define F(...) __VA_OPT__(x)\nF(E)\n" = some [asc "x", []] := by decide +kernel

end Toycc.Pp.Glue
