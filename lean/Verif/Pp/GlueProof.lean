import Verif.Pp.GlueSpec
import Verif.Pp.Args
/-! C88: the loop of subst, operand by operand. -/
namespace Toycc.Pp.Glue
open Toycc.Lex (asc)

/-- The token is what tokenizing its spelling gives. -/
def Lexed (h : Lex.Host) (t : PTok) : Prop := Lex.lexOne h t.text = .ok (.tok t.kind t.text.length t.payload)

/-- A list with its TK_EOF that spells this argument. -/
def Written (h : Lex.Host) (A : Actual) (l : List PTok) : Prop :=
  ∃ ts e, l = ts ++ [e] ∧ e.isEof = true ∧ (∀ t ∈ ts, t.isEof = false ∧ Lexed h t) ∧ ts.map (·.text) = A.raw ∧ joinToks ts = A.text

/-- `P p` are the lists the argument for `p` may be; complete macro replacement (`rec`) of any of them gives what it should and leaves such a list. -/
structure World (env : Env) (rec : Rec) (st : St) (ps : List Bytes) (σ : Bytes → Actual) (calm : Bytes → Prop) (P : Bytes → List PTok → Prop) : Prop where
  strict : env.strict = false
  params : ∀ p ∈ ps, p ≠ asc "#" ∧ p ≠ asc "##" ∧ p ≠ asc "," ∧ p ≠ asc "__VA_OPT__"
  serve : ∀ p ∈ ps, ∀ l, P p l → ∃ out e pre, rec st l = .ok (st, out ++ [e], pre) ∧ e.isEof = true ∧ (∀ t ∈ out, t.isEof = false ∧ Lexed env.host t) ∧
    out.map (·.text) = (σ p).full ∧ ∀ b sp, P p (residue pre (setFlags b sp (out ++ [e])))
  calm : ∀ p ∈ ps, calm p → ∀ l, P p l → Written env.host (σ p) l
  line : ∀ p ∈ ps, (10 : UInt8) ∉ (σ p).text

/-- The arguments as they are now; `D` are those that may have been changed. -/
structure ArgsOk (env : Env) (ps : List Bytes) (va : Bytes → Prop) (σ : Bytes → Actual) (P : Bytes → List PTok → Prop) (D : Bytes → Prop) (args : List Arg) : Prop where
  other : ∀ s, s ∉ ps → args.find? (fun a => a.name == s) = none
  par : ∀ p ∈ ps, ∃ a, args.find? (fun a => a.name == p) = some a ∧ P p a.toks ∧ (a.isVa = true ↔ va p) ∧ (¬ D p → Written env.host (σ p) a.toks)

theorem body_append {ts : List PTok} {e : PTok} (h : ∀ t ∈ ts, t.isEof = false) (he : e.isEof = true) : body (ts ++ [e]) = ts := by
  unfold body
  induction ts with
  | nil => simp [he]
  | cons t ts ih =>
    rw [List.cons_append, List.takeWhile_cons, h t List.mem_cons_self]
    simp only [Bool.not_false, if_true, ih fun u hu => h u (List.mem_cons_of_mem _ hu)]

theorem find_set (args : List Arg) (nme : Bytes) (l : List PTok) (k : Bytes) :
    (setArg args nme l).find? (fun a => a.name == k) = (args.find? fun a => a.name == k).map fun a => if a.name == nme then { a with toks := l } else a := by
  unfold setArg
  induction args with
  | nil => rfl
  | cons a as ih =>
    simp only [List.map_cons, List.find?_cons]
    have : (if a.name == nme then { a with toks := l } else a : Arg).name = a.name := by split <;> rfl
    rw [this]
    split
    · rfl
    · exact ih

section
variable {env : Env} {rec : Rec} {st : St} {ps : List Bytes} {va : Bytes → Prop} {σ : Bytes → Actual} {calm : Bytes → Prop} {P : Bytes → List PTok → Prop}

/-- One token is read from a text that spells one. -/
theorem one_scan {s : Bytes} {k : Lex.Kind} {pl : Lex.Payload} (hne : s ≠ []) (h : Lex.lexOne env.host s = .ok (.tok k s.length pl)) (f : FileRef) :
    ∃ t e, tokens env f s = .ok [t, e] ∧ t.text = s ∧ t.kind = k ∧ t.payload = pl ∧ e.isEof = true := by
  have hscan : Lex.scan env.host 0 s true false = .ok
      [{ kind := k, loc := 0, len := s.length, atBol := true, hasSpace := false, payload := pl },
       { kind := .eof, loc := s.length, len := 0, atBol := false, hasSpace := false, payload := .none }] := by
    rw [Lex.scan, if_neg hne]
    split
    · rename_i e he; rw [h] at he; cases he
    · rename_i n he; rw [h] at he; cases he
    · rename_i n he; rw [h] at he; cases he
    · rename_i he; rw [h] at he; cases he
    · rename_i he; rw [h] at he; cases he
    · rename_i k' n pl' he
      rw [h] at he
      simp only [Except.ok.injEq, Lex.Piece.tok.injEq] at he
      obtain ⟨rfl, rfl, rfl⟩ := he
      rw [List.drop_length, Lex.scan, if_pos rfl]
      simp
  refine ⟨ofLex f s (Lex.setLine s { kind := k, loc := 0, len := s.length, atBol := true, hasSpace := false, payload := pl }),
    ofLex f s (Lex.setLine s { kind := .eof, loc := s.length, len := 0, atBol := false, hasSpace := false, payload := .none }), ?_, ?_, rfl, rfl, rfl⟩
  · unfold tokens
    rw [Lex.tokenize_eq, hscan]
    rfl
  · simp [ofLex, Lex.setLine]

theorem paste_one {c f : PTok} (hc : c.text ≠ []) (h : OneToken env.host (c.text ++ f.text)) :
    ∃ t, paste env c f = .ok t ∧ t.text = c.text ++ f.text ∧ Lexed env.host t := by
  obtain ⟨k, pl, h⟩ := h
  obtain ⟨t, e, h1, h2, h3, h4, h5⟩ := one_scan (env := env) (by simp [hc]) h ⟨none, c.file.name⟩
  refine ⟨t, ?_, h2, by unfold Lexed; rw [h2, h3, h4]; exact h⟩
  unfold paste
  rw [h1]
  simp only [h5, if_true]

theorem quote_lexed (s : Bytes) (tmpl : PTok) (hs : (10 : UInt8) ∉ s) :
    ∃ t, newStr env s tmpl = .ok t ∧ t.text = quoted s ∧ Lexed env.host t := by
  have hb := quoted_body s hs
  have hu := quoted_units env.host s [34]
  generalize hq : (s.flatMap fun b => if b == 92 || b == 34 then [92, b] else [b] : Bytes) = q at hb hu
  have hqs : quoteString s = 34 :: (q ++ [34]) := by simp only [quoteString, hq, List.cons_append, List.nil_append]
  have hqd : quoted s = 34 :: (q ++ [34]) := by
    rw [← hq]
    have : (fun b : UInt8 => if b = 34 ∨ b = 92 then [92, b] else [b]) = fun b => if b == 92 || b == 34 then [92, b] else [b] := by
      funext b
      by_cases h1 : b = 34 <;> by_cases h2 : b = 92 <;> simp [h1, h2]
    simp only [quoted, this]
    rfl
  have hread : Lex.readString env.host 0 .char (q ++ [34]) =
      .ok (.tok .str (0 + 1 + q.length + 1) (.str .char (s.map UInt8.toNat ++ [0]))) := by
    unfold Lex.readString
    rw [(Lex.C19_string_end (q ++ [34]) q.length).mpr ⟨q, [], rfl, rfl, hb⟩]
    simp only [hu]
  have hone : Lex.lexOne env.host (34 :: (q ++ [34])) =
      .ok (.tok .str (34 :: (q ++ [34])).length (.str .char (s.map UInt8.toNat ++ [0]))) := by
    simp only [Lex.lexOne, Lex.lexCons]
    rw [if_neg (by simp [Lex.startsWith, asc]), if_neg (by simp [Lex.startsWith, asc]), if_neg (by decide),
      if_neg (by decide), if_neg (by simp [Lex.isDig])]
    simp only [if_true]
    rw [hread]
    simp; omega
  obtain ⟨t, e, h1, h2, h3, h4, -⟩ := one_scan (env := env) (by simp) hone ⟨none, tmpl.file.name⟩
  refine ⟨t, ?_, by rw [h2, hqd], by unfold Lexed; rw [h2, h3, h4]; exact hone⟩
  unfold newStr firstTok
  rw [hqs, h1]

/-- One round of the loop. -/
theorem round {s s' : Sub} {t : PTok} {r : List PTok} (hr : s.rest = t :: r) (ht : t.isEof = false) (h : substStep env rec s t r = .ok s') :
    subst env rec s = subst env rec s' := by
  conv => lhs; rw [subst.eq_def]
  split
  · next h' => rw [hr] at h'; cases h'
  · next t' r' h' =>
    rw [hr] at h'; cases h'
    rw [ht]
    simp only [Bool.false_eq_true, if_false]
    split
    · next e' h' => rw [h] at h'; cases h'
    · next s2 h' => rw [h] at h'; cases h'; rfl

theorem is_iff {t : PTok} {s : String} : t.is s = true ↔ t.text = asc s := by simp [PTok.is]
theorem is_not {t : PTok} {s : String} (h : t.text ≠ asc s) : t.is s = false := by simpa [PTok.is] using h

theorem written_copy {A : Actual} {l : List PTok} (h : Written env.host A l) :
    (body l).map (·.text) = A.raw ∧ (∀ t ∈ body l, Lexed env.host t) ∧ joinToks (body l) = A.text := by
  obtain ⟨ts, e, rfl, he, h1, h2, h3⟩ := h
  rw [body_append (fun t ht => (h1 t ht).1) he]
  exact ⟨h2, fun t ht => (h1 t ht).2, h3⟩

theorem copy_lexed {l : List PTok} (h : ∀ t ∈ l, Lexed env.host t) : ∀ t ∈ l.map copyTok, Lexed env.host t := by
  intro t ht
  obtain ⟨u, hu, rfl⟩ := List.mem_map.1 ht
  exact h u hu

theorem copy_text (l : List PTok) : (l.map copyTok).map (·.text) = l.map (·.text) := by simp [copyTok]

theorem written_empty {A : Actual} {a : Arg} (h : Written env.host A a.toks) : isEmptyArg a = true ↔ A.raw = [] := by
  obtain ⟨ts, e, h0, he, h1, h2, -⟩ := h
  unfold isEmptyArg
  rw [h0, ← h2]
  cases ts with
  | nil => simp [he]
  | cons t ts => simp [(h1 t List.mem_cons_self).1]

variable {D : Bytes → Prop} {args : List Arg}

/-- A token that is no parameter is copied, unless it is the comma of the extension. -/
theorem tok_step (hA : ArgsOk env ps va σ P D args) {t : PTok} (ht : (El.tok t.text).Ok ps) {r acc : List PTok}
    (hva : t.text = asc "," → ∀ x u r', r = x :: u :: r' → x.text = asc "##" → ¬ (u.text ∈ ps ∧ va u.text)) :
    substStep env rec { st := st, args := args, acc := acc, rest := t :: r } t r = .ok { st := st, args := args, acc := copyTok t :: acc, rest := r } := by
  obtain ⟨h1, h2, h3, h4, h5⟩ := ht
  have hf : findArg args t = none := hA.other _ h1
  unfold substStep
  rw [is_not h2, is_not h3, is_not h4]
  simp only [Bool.false_eq_true, if_false, Bool.false_and]
  by_cases hc : (t.is "," && nextIs r "##") = true
  · rw [if_pos hc]
    simp only [Bool.and_eq_true, is_iff] at hc
    match r, hc, hva with
    | [], hc, _ => simp [nextIs] at hc
    | [x], hc, _ => simp only [hf]
    | x :: u :: r', hc, hva =>
      have hx : x.text = asc "##" := by simpa [nextIs, PTok.is] using hc.2
      have hn := hva hc.1 x u r' rfl hx
      have hv : (findArg args u).filter (·.isVa) = none := by
        by_cases hu : u.text ∈ ps
        · obtain ⟨a, ha, -, hva', -⟩ := hA.par _ hu
          have : findArg args u = some a := ha
          rw [this]
          have : a.isVa = false := by
            cases h : a.isVa
            · rfl
            · exact absurd ⟨hu, hva'.1 h⟩ hn
          simp [Option.filter, this]
        · have : findArg args u = none := hA.other _ hu
          rw [this]; rfl
      simp only [hv, hf]
  · rw [if_neg hc]
    simp only [hf]

theorem str_step (hW : World env rec st ps σ calm P) (hA : ArgsOk env ps va σ P D args) {t u : PTok} (ht : t.text = asc "#") (hu : u.text ∈ ps) (hD : ¬ D u.text) {r acc : List PTok} :
    ∃ x, substStep env rec { st := st, args := args, acc := acc, rest := t :: u :: r } t (u :: r) = .ok { st := st, args := args, acc := x :: acc, rest := r } ∧
      x.text = quoted (σ u.text).text ∧ Lexed env.host x := by
  obtain ⟨a, ha, -, -, hw⟩ := hA.par _ hu
  have hf : findArg args u = some a := ha
  obtain ⟨-, -, hj⟩ := written_copy (hw hD)
  obtain ⟨x, h1, h2, h3⟩ := quote_lexed (env := env) (σ u.text).text t (hW.line _ hu)
  refine ⟨x, ?_, h2, h3⟩
  unfold substStep stringize
  rw [if_pos (is_iff.2 ht)]
  dsimp only
  rw [hf]
  dsimp only
  rw [hj, h1]

/-- The parts of the step for a parameter that do not matter. -/
theorem par_step (hW : World env rec st ps σ calm P) {t : PTok} (hu : t.text ∈ ps) {r acc : List PTok} {a : Arg} (ha : findArg args t = some a) :
    substStep env rec { st := st, args := args, acc := acc, rest := t :: r } t r =
      if nextIs r "##" then substLeft { st := st, args := args, acc := acc, rest := t :: r } a r
      else substArg env rec { st := st, args := args, acc := acc, rest := t :: r } a t r := by
  obtain ⟨h1, h2, h3, h4⟩ := hW.params _ hu
  unfold substStep
  rw [is_not h1, is_not h2, is_not h3, is_not h4]
  simp only [Bool.false_eq_true, if_false, Bool.false_and, ha]

theorem full_step (hW : World env rec st ps σ calm P) (hA : ArgsOk env ps va σ P D args) {t : PTok} (hu : t.text ∈ ps) {r acc : List PTok} (hn : nextIs r "##" = false) :
    ∃ (out : List PTok) (args' : List Arg), substStep env rec { st := st, args := args, acc := acc, rest := t :: r } t r = .ok { st := st, args := args', acc := out.reverse ++ acc, rest := r } ∧
      out.map (·.text) = (σ t.text).full ∧ (∀ x ∈ out, Lexed env.host x) ∧ ArgsOk env ps va σ P (fun p => D p ∨ (p = t.text ∧ ¬ calm p)) args' := by
  obtain ⟨a, ha, hP, hv, -⟩ := hA.par _ hu
  have hf : findArg args t = some a := ha
  have hname : a.name = t.text := by simpa using List.find?_some ha
  obtain ⟨out, e, pre, h1, h2, h3, h4, h5⟩ := hW.serve _ hu _ hP
  have hfl : ∃ o2 e2, setFlags t.bol t.sp (out ++ [e]) = o2 ++ [e2] ∧ e2.isEof = true ∧ (∀ x ∈ o2, x.isEof = false ∧ Lexed env.host x) ∧ o2.map (·.text) = out.map (·.text) := by
    cases out with
    | nil => exact ⟨[], _, rfl, h2, by simp, rfl⟩
    | cons y ys =>
      refine ⟨{ y with bol := t.bol, sp := t.sp } :: ys, e, rfl, h2, fun x hx => ?_, rfl⟩
      rcases List.mem_cons.1 hx with rfl | hx
      · exact h3 y List.mem_cons_self
      · exact h3 x (List.mem_cons_of_mem _ hx)
  obtain ⟨o2, e2, f1, f2, f3, f4⟩ := hfl
  refine ⟨o2.map copyTok, setArg args t.text (residue pre (setFlags t.bol t.sp (out ++ [e]))), ?_, by rw [copy_text, f4, h4], copy_lexed fun x hx => (f3 x hx).2, ?_, ?_⟩
  · rw [par_step hW hu hf, hn]
    simp only [Bool.false_eq_true, if_false]
    unfold substArg
    dsimp only
    rw [h1]
    have hne : ∃ y ys, out ++ [e] = y :: ys := by cases out <;> exact ⟨_, _, rfl⟩
    obtain ⟨y, ys, hy⟩ := hne
    dsimp only
    rw [hy]
    dsimp only
    rw [← hy, hW.strict, hname, f1, body_append (fun x hx => (f3 x hx).1) f2]
    simp only [Bool.false_and, Bool.false_eq_true, if_false]
  · intro s hs
    rw [find_set, hA.other s hs]; rfl
  · intro p hp
    obtain ⟨b, hb, hPb, hvb, hwb⟩ := hA.par p hp
    have hbn : b.name = p := by simpa using List.find?_some hb
    by_cases hpt : p = t.text
    · subst hpt
      rw [ha] at hb
      cases hb
      refine ⟨{ a with toks := residue pre (setFlags t.bol t.sp (out ++ [e])) }, ?_, h5 _ _, hv, fun hd => ?_⟩
      · rw [find_set, ha]
        simp [hname]
      · have hc : calm t.text := Classical.byContradiction fun hc => hd (.inr ⟨rfl, hc⟩)
        exact hW.calm _ hu hc _ (h5 _ _)
    · refine ⟨b, ?_, hPb, hvb, fun hd => hwb fun h => hd (.inl h)⟩
      rw [find_set, hb]
      simp [hbn, hpt]

/-- A parameter with a non-empty argument before ##. -/
theorem left_step (hW : World env rec st ps σ calm P) (hA : ArgsOk env ps va σ P D args) {t : PTok} (hu : t.text ∈ ps) (hD : ¬ D t.text) {r acc : List PTok} (hn : nextIs r "##" = true)
    (he : (σ t.text).raw ≠ []) :
    ∃ out : List PTok, substStep env rec { st := st, args := args, acc := acc, rest := t :: r } t r = .ok { st := st, args := args, acc := out.reverse ++ acc, rest := r } ∧
      out.map (·.text) = (σ t.text).raw ∧ ∀ x ∈ out, Lexed env.host x := by
  obtain ⟨a, ha, hP, hv, hw⟩ := hA.par _ hu
  have hf : findArg args t = some a := ha
  have hw := hw hD
  obtain ⟨w1, w2, -⟩ := written_copy hw
  refine ⟨(body a.toks).map copyTok, ?_, by rw [copy_text, w1], copy_lexed w2⟩
  rw [par_step hW hu hf, hn]
  simp only [if_true, substLeft]
  rw [if_neg (fun h => he ((written_empty hw).1 h))]

/-- A parameter with an empty argument before ##: the right operand is copied. -/
theorem empty_step (hW : World env rec st ps σ calm P) (hA : ArgsOk env ps va σ P D args) {t : PTok} (hu : t.text ∈ ps) (hD : ¬ D t.text) {x u : PTok} {r acc : List PTok}
    (hx : x.text = asc "##") (he : (σ t.text).raw = []) {e : El} (heu : e.spell = [u.text]) (hok : e.Ok ps) (hDe : ∀ p, e = .par p → ¬ D p) (hlu : Lexed env.host u) :
    ∃ out : List PTok, substStep env rec { st := st, args := args, acc := acc, rest := t :: x :: u :: r } t (x :: u :: r) = .ok { st := st, args := args, acc := out.reverse ++ acc, rest := r } ∧
      out.map (·.text) = e.operand σ ∧ ∀ y ∈ out, Lexed env.host y := by
  obtain ⟨a, ha, hP, hv, hw⟩ := hA.par _ hu
  have hf : findArg args t = some a := ha
  have hw := hw hD
  have hn : nextIs (x :: u :: r) "##" = true := by simp [nextIs, PTok.is, hx]
  rw [par_step hW hu hf, hn]
  simp only [if_true, substLeft]
  rw [if_pos ((written_empty hw).2 he)]
  cases e with
  | str p => simp [El.spell] at heu
  | tok s =>
    simp only [El.spell, List.cons.injEq, and_true] at heu
    subst heu
    have : findArg args u = none := hA.other _ hok.1
    rw [this]
    exact ⟨[copyTok u], rfl, rfl, fun y hy => by simp only [List.mem_singleton] at hy; subst hy; exact hlu⟩
  | par p =>
    simp only [El.spell, List.cons.injEq, and_true] at heu
    subst heu
    obtain ⟨b, hb, -, -, hwb⟩ := hA.par _ hok
    have hfb : findArg args u = some b := hb
    rw [hfb]
    obtain ⟨w1, w2, -⟩ := written_copy (hwb (hDe _ rfl))
    exact ⟨(body b.toks).map copyTok, rfl, by rw [copy_text, w1]; rfl, copy_lexed w2⟩

/-- `## e` with something on the left. -/
theorem paste_step (hA : ArgsOk env ps va σ P D args) {t u : PTok} (ht : t.text = asc "##") {v w : List Bytes} (hv : v ≠ []) {e : El} (heu : e.spell = [u.text]) (hok : e.Ok ps)
    (hDe : ∀ p, e = .par p → ¬ D p) (hue : u.isEof = false) (hj : Join env.host v (e.operand σ) w) {out : List PTok} (ho : out.map (·.text) = v) (hne : ∀ x ∈ out, x.text ≠ []) (hl : ∀ x ∈ out, Lexed env.host x)
    {r acc : List PTok} :
    ∃ out' : List PTok, substStep env rec { st := st, args := args, acc := out.reverse ++ acc, rest := t :: u :: r } t (u :: r) =
        .ok { st := st, args := args, acc := out'.reverse ++ acc, rest := r } ∧ out'.map (·.text) = w ∧ ∀ x ∈ out', Lexed env.host x := by
  have hstep : substStep env rec { st := st, args := args, acc := out.reverse ++ acc, rest := t :: u :: r } t (u :: r) =
      substPaste env { st := st, args := args, acc := out.reverse ++ acc, rest := t :: u :: r } (u :: r) := by
    unfold substStep
    have n1 : t.is "#" = false := is_not (by rw [ht]; decide)
    have n2 : t.is "," = false := is_not (by rw [ht]; decide)
    rw [n1, n2, is_iff.2 ht]
    simp only [Bool.false_eq_true, if_false, Bool.false_and, if_true]
  rw [hstep]
  obtain ⟨o1, c, rfl⟩ : ∃ o1 c, out = o1 ++ [c] := by
    have : out ≠ [] := by intro h; subst h; exact hv ho.symm
    exact ⟨out.dropLast, out.getLast this, (List.dropLast_concat_getLast this).symm⟩
  have hvs : v = o1.map (·.text) ++ [c.text] := by rw [← ho]; simp
  have hacc : (o1 ++ [c]).reverse ++ acc = c :: (o1.reverse ++ acc) := by simp
  have hc : c.text ≠ [] := hne c (by simp)
  have hl1 : ∀ x ∈ o1, Lexed env.host x := fun x hx => hl x (by simp [hx])
  cases e with
  | str p => simp [El.spell] at heu
  | tok s =>
    simp only [El.spell, List.cons.injEq, and_true] at heu
    subst heu
    have hf : findArg args u = none := hA.other _ hok.1
    simp only [El.operand] at hj
    have hone : OneToken env.host (c.text ++ u.text) ∧ w = o1.map (·.text) ++ [c.text ++ u.text] := by
      rw [hvs] at hj
      generalize hq : o1.map (·.text) ++ [c.text] = q at hj
      generalize hz : [u.text] = z at hj
      cases hj with
      | left => simp at hq
      | right => simp at hz
      | join a x f b h1 =>
        simp only [List.cons.injEq] at hz
        obtain ⟨rfl, rfl⟩ := hz
        obtain ⟨rfl, h2⟩ := List.append_inj' hq rfl
        simp only [List.cons.injEq, and_true] at h2
        subst h2
        exact ⟨h1, rfl⟩
    obtain ⟨p, p1, p2, p3⟩ := paste_one (env := env) hc hone.1
    refine ⟨o1 ++ [p], ?_, by rw [hone.2]; simp [p2], fun x hx => ?_⟩
    · unfold substPaste
      dsimp only
      rw [hacc]
      dsimp only
      rw [hue, hf]
      simp only [Bool.false_eq_true, if_false, p1]
      simp
    · rcases List.mem_append.1 hx with hx | hx
      · exact hl1 x hx
      · simp only [List.mem_singleton] at hx; subst hx; exact p3
  | par q =>
    simp only [El.spell, List.cons.injEq, and_true] at heu
    subst heu
    obtain ⟨b, hb, -, -, hwb⟩ := hA.par _ hok
    have hf : findArg args u = some b := hb
    obtain ⟨ts, e0, h0, he0, h1, h2, -⟩ := hwb (hDe _ rfl)
    simp only [El.operand] at hj
    cases ts with
    | nil =>
      simp only [List.map_nil] at h2
      rw [← h2] at hj
      have hw : w = v := by
        generalize hz : ([] : List Bytes) = z at hj
        cases hj with
        | left => exact absurd rfl hv
        | right => rfl
        | join => simp at hz
      refine ⟨o1 ++ [c], ?_, by rw [hw, hvs]; simp, hl⟩
      unfold substPaste
      dsimp only
      rw [hacc]
      dsimp only
      rw [hue, hf]
      simp only [Bool.false_eq_true, if_false, h0, List.nil_append, he0, if_true]
    | cons f ts =>
      simp only [List.map_cons] at h2
      rw [← h2] at hj
      have hone : OneToken env.host (c.text ++ f.text) ∧ w = o1.map (·.text) ++ (c.text ++ f.text) :: ts.map (·.text) := by
        rw [hvs] at hj
        generalize hq : o1.map (·.text) ++ [c.text] = q at hj
        generalize hz : f.text :: ts.map (·.text) = z at hj
        cases hj with
        | left => simp at hq
        | right => simp at hz
        | join a x f b h1 =>
          simp only [List.cons.injEq] at hz
          obtain ⟨rfl, rfl⟩ := hz
          obtain ⟨rfl, h2⟩ := List.append_inj' hq rfl
          simp only [List.cons.injEq, and_true] at h2
          subst h2
          exact ⟨h1, rfl⟩
      obtain ⟨p, p1, p2, p3⟩ := paste_one (env := env) hc hone.1
      have hfe : f.isEof = false := (h1 f List.mem_cons_self).1
      refine ⟨o1 ++ p :: ts.map copyTok, ?_, by rw [hone.2]; simp [p2, copyTok], fun x hx => ?_⟩
      · unfold substPaste
        dsimp only
        rw [hacc]
        dsimp only
        rw [hue, hf]
        simp only [Bool.false_eq_true, if_false, h0, List.cons_append, hfe, p1]
        rw [body_append (fun x hx => (h1 x (List.mem_cons_of_mem _ hx)).1) he0]
        simp
      · rcases List.mem_append.1 hx with hx | hx
        · exact hl1 x hx
        · rcases List.mem_cons.1 hx with rfl | hx
          · exact p3
          · exact copy_lexed (fun y hy => (h1 y (List.mem_cons_of_mem _ hy)).2) x hx

end

end Toycc.Pp.Glue
