import Verif.Pp.CondBad
import Verif.Pp.Args
/-! C21: the property, its error cases, and examples. -/
namespace Toycc.Pp
open Toycc.Lex (asc)

/-! ### Text -/

/-- A token that is not a macro to be expanded and not a directive is passed through. -/
theorem Steps.pass {env : Env} {st : St} {t : PTok} {r : List PTok} (h1 : t.isEof = false) (h2 : isHash t = false)
    (h3 : findMacro st t = none ∨ hsContains t.hs t.text = true) : Steps env st (t :: r) [mark st t] st r := by
  refine ⟨1, 0, fun n _ => ?_⟩
  have he : expandMacro env (pp env n false) st t r = .ok none := by
    unfold expandMacro
    split
    · rfl
    · rename_i hc
      rcases h3 with h3 | h3
      · rw [h3]
      · exact absurd h3 hc
  unfold ppO
  rw [pp, he]
  simp only [h1, h2, Bool.not_false, Bool.false_eq_true, if_false, if_true]
  cases pp env n true st r with
  | error e => rfl
  | ok r => rfl

/-- Text without macros and directives is output as it is, whatever follows. -/
theorem Steps.inert {env : Env} {st : St} {l : List PTok} (rest : List PTok)
    (h : ∀ t ∈ l, t.isEof = false ∧ isHash t = false ∧ findMacro st t = none) :
    Steps env st (l ++ rest) (l.map (mark st)) st rest := by
  induction l with
  | nil => exact Steps.refl _ _ _
  | cons t r ih =>
    obtain ⟨h1, h2, h3⟩ := h t (by simp)
    exact (Steps.pass h1 h2 (Or.inl h3)).trans (ih fun u hu => h u (by simp [hu]))

theorem Text.inert (env : Env) (st : St) (l : List PTok)
    (h : ∀ t ∈ l, t.isEof = false ∧ isHash t = false ∧ findMacro st t = none) :
    Text env st l st (l.map (mark st)) :=
  fun cs rest _ => Steps.inert (st := withConds st cs) rest h

theorem copyLine_line (l : List PTok) (t : PTok) (r : List PTok) (hl : ∀ u ∈ l, u.bol = false) (ht : t.bol = true) :
    copyLine (l ++ t :: r) = .ok (l.map ownTok ++ [ownTok (newEof t)], t :: r) := by
  induction l with
  | nil => simp [copyLine, ht]
  | cons u l ih =>
    rw [List.cons_append, copyLine, if_neg (by rw [hl u (by simp)]; decide), ih fun v hv => hl v (by simp [hv])]
    rfl

/-- The TK_EOF token at the end of a copied line. -/
def lineEnd : PTok := { kind := .eof, text := [], bol := true, sp := false, own := true }

/-- A `#define` line of an object-like macro defines it and outputs nothing. -/
theorem Text.define {env : Env} (hs : env.strict = false) (st : St) (d : Dir) (m b0 : PTok) (b l2 : List PTok)
    (st' : St) (out : List PTok)
    (h1 : isHash d.hash = true) (h2 : d.hash.kind = .punct) (h3 : d.name.is "define" = true)
    (hm : m.kind = .ident) (hl : d.line = m :: b0 :: b) (hb : ∀ t ∈ b0 :: b, t.bol = false)
    (hp : b0.sp = true) (hl2 : ∀ t ∈ l2.head?, t.bol = true)
    (h : Text env (addMacro st { name := m.text, objlike := true, body := (b0 :: b).map ownTok ++ [lineEnd] }) l2 st' out) :
    Text env st (d.flat ++ l2) st' out := by
  intro cs rest hr
  have hb2 : Bol (l2 ++ rest) := by
    cases l2 with
    | nil => exact at_bol hr
    | cons t l2 => exact ⟨t, l2 ++ rest, rfl, hl2 t rfl⟩
  have h := h cs rest hr
  rw [List.append_assoc]
  have e : out = [] ++ out := rfl
  rw [e]
  refine Steps.trans (Steps.dir hs h1 h2 ⟨0, fun n _ => ?_⟩) h
  have hdir : ∀ r, directive env (pp env n false) n (withConds st cs) d.hash (d.name :: r) = readMacroDefinition (withConds st cs) r := by
    intro r
    unfold directive
    dsimp only
    rw [asc_inj_ne _ _ "include" h3 (by decide +kernel), asc_inj_ne _ _ "include_next" h3 (by decide +kernel), h3]
    simp only [Bool.false_eq_true, if_false, if_true]
  show directive env (pp env n false) n (withConds st cs) d.hash (d.name :: (d.line ++ (l2 ++ rest))) = _
  rw [hdir, hl]
  obtain ⟨t, r, hb3, hbol⟩ := hb2
  rw [hb3]
  have hcl := copyLine_line (b0 :: b) t r hb hbol
  have hne : ownTok (newEof t) = lineEnd := by
    unfold newEof ownTok lineEnd; rw [hbol]
  rw [hne] at hcl
  simp only [List.cons_append, readMacroDefinition, hm, hp] at hcl ⊢
  rw [hcl]
  rfl

/-! ### The property -/

theorem withConds_self (st : St) (h : st.conds = []) : withConds st [] = st := by
  unfold withConds; cases st; simp only at h; subst h; rfl

theorem map_own (l : List PTok) (h : ∀ t ∈ l, t.own = true) : l.map ownTok = l := by
  induction l with
  | nil => rfl
  | cons t r ih =>
    have h1 := h t (by simp)
    rw [List.map_cons, ih fun u hu => h u (by simp [hu])]
    congr 1
    unfold ownTok; cases t; simp only at h1; subst h1; rfl

theorem preprocess_ppO (env : Env) (n : Nat) (st : St) (l : List PTok) (h : ∀ t ∈ l, t.own = true) :
    preprocess env n st l = match ppO env n st l with
      | .error e => .error e
      | .ok (st', out) => if st'.conds.isEmpty then .ok (st', out) else .error (.diag .unterminated) := by
  unfold preprocess ppO
  rw [map_own l h]
  cases pp env n true st l with
  | error e => rfl
  | ok r => rfl

theorem ppO_eof (env : Env) (n : Nat) (st : St) (e : PTok) (he : e.isEof = true) : ppO env (n + 1) st [e] = .ok (st, [e]) := by
  unfold ppO
  rw [pp, if_pos he]; rfl

/-- **C21** (the groups selected). For every file that is a group of text and nested sections, the preprocessor
succeeds and its output is the output of the groups that C selects, in order; the conditions of the others are not
evaluated and their text is not looked at.

`_partial`: a `#` on a line of its own must not be followed by a line that starts with the name of a conditional
directive, and nothing but blanks may follow `#else` and `#endif` in sections that are not skipped; see
`C21_null_directive_wrong`. -/
theorem C21_selected_partial (env : Env) (hs : env.strict = false) (g : Group) (st st' : St) (out : List PTok) (e : PTok)
    (hg : g.Wf) (h : Sel env st g st' out) (hc : st.conds = []) (hc' : st'.conds = [])
    (he : e.isEof = true) (hb : e.bol = true) (ho : ∀ t ∈ g.flat ++ [e], t.own = true) :
    ∃ N, ∀ n, N ≤ n → preprocess env n st (g.flat ++ [e]) = .ok (st', out ++ [e]) := by
  have hsteps := group_steps hs g st st' out [e] [] hg h (eof_at e he hb)
  rw [withConds_self st hc, withConds_self st' hc'] at hsteps
  obtain ⟨k, N, hsteps⟩ := hsteps
  refine ⟨N + 1 + k, fun n hn => ?_⟩
  have hn2 := hsteps (n - k) (by omega)
  have : n - k + k = n := by omega
  rw [this] at hn2
  obtain ⟨m, hm⟩ : ∃ m, n - k = m + 1 := ⟨n - k - 1, by omega⟩
  rw [preprocess_ppO env n st _ ho, hn2, hm, ppO_eof env m st' e he]
  simp only [Except.map, hc', List.isEmpty_nil, if_true]

/-- A directive that fails ends the run. -/
theorem error_dir {env : Env} (hs : env.strict = false) {st st' : St} {l l1 out : List PTok} {d : Dir} {ns : List String}
    {rest : List PTok} {x : PErr} (h1 : Steps env st l out st' l1) (hl : l1 = d.flat ++ rest) (hd : d.Wf ns)
    (hx : ∀ n, directive env (pp env n false) n st' d.hash (d.name :: (d.line ++ rest)) = .error x)
    (ho : ∀ t ∈ l, t.own = true) : ∃ N, ∀ n, N ≤ n → preprocess env n st l = .error x := by
  obtain ⟨k, N, h1⟩ := h1
  refine ⟨N + 1 + k, fun n hn => ?_⟩
  have hn2 := h1 (n - k) (by omega)
  have : n - k + k = n := by omega
  rw [this] at hn2
  obtain ⟨m, hm⟩ : ∃ m, n - k = m + 1 := ⟨n - k - 1, by omega⟩
  have he : ppO env (m + 1) st' l1 = .error x := by
    have he : expandMacro env (pp env m false) st' d.hash (d.name :: (d.line ++ rest)) = .ok none := by
      unfold expandMacro
      split
      · rfl
      · have : findMacro st' d.hash = none := by unfold findMacro; rw [hd.2.1]; rfl
        rw [this]
    rw [hl]
    show ppO env (m + 1) st' (d.hash :: (d.name :: (d.line ++ rest))) = _
    unfold ppO
    rw [pp, he]
    simp only [hash_not_eof _ hd.2.1, hd.1, hs, hx m, Bool.not_true, Bool.false_and, Bool.false_eq_true, if_false]
    rfl
  rw [preprocess_ppO env n st _ ho, hn2, hm, he]
  rfl

/-- **C21** (unbalanced): `#elif`, `#else` and `#endif` outside any section are diagnosed. -/
theorem C21_stray (env : Env) (hs : env.strict = false) (g : Group) (st st' : St) (out rest : List PTok) (d : Dir)
    (hg : g.Wf) (h : Sel env st g st' out) (hc : st.conds = []) (ho : ∀ t ∈ g.flat ++ (d.flat ++ rest), t.own = true) :
    ∃ N, ∀ n, N ≤ n →
      (d.Wf ["elif"] → preprocess env n st (g.flat ++ (d.flat ++ rest)) = .error (.diag .strayElif)) ∧
      (d.Wf ["else"] → preprocess env n st (g.flat ++ (d.flat ++ rest)) = .error (.diag .strayElse)) ∧
      (d.Wf ["endif"] → preprocess env n st (g.flat ++ (d.flat ++ rest)) = .error (.diag .strayEndif)) := by
  have key : ∀ (s : String) (x : PErr), d.Wf [s] →
      (∀ n, directive env (pp env n false) n (withConds st' []) d.hash (d.name :: (d.line ++ rest)) = .error x) →
      ∃ N, ∀ n, N ≤ n → preprocess env n st (g.flat ++ (d.flat ++ rest)) = .error x := by
    intro s x hd hx
    have hst := group_steps hs g st st' out (d.flat ++ rest) [] hg h (dir_at d _ hd _)
    rw [withConds_self st hc] at hst
    exact error_dir hs hst rfl hd hx ho
  by_cases h1 : d.Wf ["elif"]
  · obtain ⟨N, hN⟩ := key _ (.diag .strayElif) h1 (fun n => by
      rw [directive_elif _ _ _ _ _ _ _ (name_is h1)]; rfl)
    refine ⟨N, fun n hn => ⟨fun _ => hN n hn, fun h2 => ?_, fun h2 => ?_⟩⟩
    · have := asc_inj_ne _ _ "else" (name_is h1) (by decide +kernel); rw [name_is h2] at this; cases this
    · have := asc_inj_ne _ _ "endif" (name_is h1) (by decide +kernel); rw [name_is h2] at this; cases this
  · by_cases h2 : d.Wf ["else"]
    · obtain ⟨N, hN⟩ := key _ (.diag .strayElse) h2 (fun n => by
        rw [directive_else _ _ _ _ _ _ _ (name_is h2)]; rfl)
      refine ⟨N, fun n hn => ⟨fun h => absurd h h1, fun _ => hN n hn, fun h3 => ?_⟩⟩
      have := asc_inj_ne _ _ "endif" (name_is h2) (by decide +kernel); rw [name_is h3] at this; cases this
    · by_cases h3 : d.Wf ["endif"]
      · obtain ⟨N, hN⟩ := key _ (.diag .strayEndif) h3 (fun n => by
          rw [directive_endif _ _ _ _ _ _ _ (name_is h3)]; rfl)
        exact ⟨N, fun n hn => ⟨fun h => absurd h h1, fun h => absurd h h2, fun _ => hN n hn⟩⟩
      · exact ⟨0, fun n _ => ⟨fun h => absurd h h1, fun h => absurd h h2, fun h => absurd h h3⟩⟩

/-- **C21** (unbalanced): a file that ends inside one or more sections, at any depth, in a selected or a skipped group,
is diagnosed. -/
theorem C21_unterminated (env : Env) (hs : env.strict = false) (pre : Group) (o : Dir) (t : UTail) (st : St) (e : PTok)
    (hu : (UGroup.sect pre o t).Wf) (h : UOk env st (.sect pre o t)) (hc : st.conds = [])
    (he : e.isEof = true) (hx : e.text = []) (hb : e.bol = true)
    (ho : ∀ x ∈ (UGroup.sect pre o t).flat ++ [e], x.own = true) :
    ∃ N, ∀ n, N ≤ n → preprocess env n st ((UGroup.sect pre o t).flat ++ [e]) = .error (.diag .unterminated) := by
  obtain ⟨out, st', xs, hst, hne⟩ := ugroup_stuck hs (.sect pre o t) st [] e hu h he hx hb
  have hne := hne ⟨pre, o, t, rfl⟩
  rw [withConds_self st hc] at hst
  obtain ⟨k, N, hst⟩ := hst
  refine ⟨N + 1 + k, fun n hn => ?_⟩
  have hn2 := hst (n - k) (by omega)
  have : n - k + k = n := by omega
  rw [this] at hn2
  obtain ⟨m, hm⟩ : ∃ m, n - k = m + 1 := ⟨n - k - 1, by omega⟩
  rw [preprocess_ppO env n st _ ho, hn2, hm, ppO_eof env m _ e he]
  have : (withConds st' (xs ++ [])).conds.isEmpty = false := by
    cases xs with
    | nil => exact absurd rfl hne
    | cons c xs => rfl
  simp only [Except.map, this, Bool.false_eq_true, if_false]

/-- A section with `#elif`s whose `#else` group is followed by another `#elif` or `#else`. -/
inductive ATail where
  | els (d : Dir) (g : Group) (d2 : Dir) (rest : List PTok)
  | elif (d : Dir) (g : Group) (t : ATail)

def ATail.flat : ATail → List PTok
  | .els d g d2 rest => d.flat ++ (g.flat ++ (d2.flat ++ rest))
  | .elif d g t => d.flat ++ (g.flat ++ t.flat)

def ATail.Wf (s : String) : ATail → Prop
  | .els d g d2 _ => d.Wf ["else"] ∧ g.Wf ∧ d2.Wf [s]
  | .elif d g t => d.Wf ["elif"] ∧ g.Wf ∧ t.Wf s

/-- The selected group up to the second `#else` is processed without error. -/
inductive AOther (env : Env) : St → ATail → Prop
  | els (st st' d g d2 rest o) : d.line = [] → Sel env st g st' o → AOther env st (.els d g d2 rest)
  | elifT (st st1 st2 d g t v o) : Val env st d.line v st1 → v ≠ 0 → Sel env st1 g st2 o → AOther env st (.elif d g t)
  | elifF (st st1 d g t) : Val env st d.line 0 st1 → AOther env st1 t → AOther env st (.elif d g t)

/-- The second `#else` (or `#elif`) and what follows. -/
def ATail.again : ATail → Dir × List PTok
  | .els _ _ d2 rest => (d2, rest)
  | .elif _ _ t => t.again

theorem atail_at (t : ATail) (s : String) (ht : t.Wf s) : AtDirective t.flat := by
  cases t with
  | els d g d2 rest => exact dir_at d _ ht.1 _
  | elif d g t => exact dir_at d _ ht.1 _

theorem again_wf (t : ATail) (s : String) (ht : t.Wf s) : t.again.1.Wf [s] := by
  match t with
  | .els d g d2 rest => exact ht.2.2
  | .elif d g t => exact again_wf t s ht.2.2

theorem skip_atail (g : Group) (t : ATail) (s : String) (hg : g.Wf) (ht : t.Wf s) :
    skipCond (g.flat ++ t.flat) = .ok t.flat := by
  cases t with
  | els d g2 d2 rest =>
    have hq := dir_quiet d _ ht.1 (g2.flat ++ (d2.flat ++ rest))
    rw [ATail.flat, skip_group g _ hg hq.1 hq.2, skip_stop "else" (by simp) d _ ht.1]
  | elif d g2 t =>
    have hq := dir_quiet d _ ht.1 (g2.flat ++ t.flat)
    rw [ATail.flat, skip_group g _ hg hq.1 hq.2, skip_stop "elif" (by simp) d _ ht.1]

theorem atail_rest {env : Env} (hs : env.strict = false) (t : ATail) (s : String) (hse : s = "else" ∨ s = "elif")
    (st : St) (ctx : Ctx) (cs : List Cond) (ht : t.Wf s) (hctx : ctx ≠ .inElse) :
    Steps env (withConds st (⟨ctx, true⟩ :: cs)) t.flat [] (withConds st (⟨.inElse, true⟩ :: cs))
      (t.again.1.flat ++ t.again.2) := by
  have hce : (ctx == Ctx.inElse) = false := by simp [hctx]
  match t with
  | .els d g d2 rest =>
    obtain ⟨h1, h2, h3⟩ := ht
    have hq := dir_quiet d2 _ h3 rest
    refine Steps.dirD hs h1 ⟨0, fun n _ => ?_⟩
    rw [directive_else _ _ _ _ _ _ _ (name_is h1)]
    have hne : d.line ++ (g.flat ++ (d2.flat ++ rest)) ≠ [] := by simp [Dir.flat]
    simp only [dirElse, withConds, hce, skipLine_ne _ hne, Bool.false_eq_true, if_false, if_true]
    rw [skip_line _ _ h1.2.2.2.2.2, skip_group g _ h2 hq.1 hq.2,
      skip_stop s (by rcases hse with h | h <;> simp [h]) d2 rest h3]
    rfl
  | .elif d g t =>
    obtain ⟨h1, h2, h3⟩ := ht
    refine Steps.trans (o1 := []) (o2 := []) (Steps.dirD hs h1 ⟨0, fun n _ => ?_⟩)
      (atail_rest hs t s hse st .inElif cs h3 (by decide))
    rw [directive_elif _ _ _ _ _ _ _ (name_is h1)]
    simp only [dirElif, withConds, hce, Bool.false_eq_true, if_false, if_true]
    rw [skip_tok _ _ (ident_not_eof _ h1.2.2.1) (by simp [isHash, h1.2.2.2.1]), skip_line _ _ h1.2.2.2.2.2,
      skip_atail g t s h2 h3]
    rfl

theorem atail_other {env : Env} (hs : env.strict = false) (t : ATail) (s : String) (hse : s = "else" ∨ s = "elif")
    (st : St) (ctx : Ctx) (cs : List Cond) (ht : t.Wf s) (h : AOther env st t) (hctx : ctx ≠ .inElse) :
    ∃ out st' b, Steps env (withConds st (⟨ctx, false⟩ :: cs)) t.flat out (withConds st' (⟨.inElse, b⟩ :: cs))
      (t.again.1.flat ++ t.again.2) := by
  have hce : (ctx == Ctx.inElse) = false := by simp [hctx]
  match t with
  | .els d g d2 rest =>
    obtain ⟨h1, h2, h3⟩ := ht
    cases h with
    | els _ st' _ _ _ _ o hl hg =>
      refine ⟨[] ++ o, st', false, Steps.trans (l1 := g.flat ++ (d2.flat ++ rest))
        (st1 := withConds st (⟨.inElse, false⟩ :: cs)) (Steps.dirD hs h1 ⟨0, fun n _ => ?_⟩)
        (group_steps hs g st st' o _ _ h2 hg (dir_at d2 _ h3 _))⟩
      have hne : g.flat ++ (d2.flat ++ rest) ≠ [] := by simp [Dir.flat]
      rw [directive_else _ _ _ _ _ _ _ (name_is h1), hl]
      simp only [dirElse, withConds, hce, List.nil_append, skipLine_ne _ hne, Bool.false_eq_true, if_false]
  | .elif d g t =>
    obtain ⟨h1, h2, h3⟩ := ht
    have htb := at_bol (atail_at t s h3)
    cases h with
    | elifT _ st1 st2 _ _ _ v o hv hz hg =>
      obtain ⟨N, hv⟩ := hv (⟨.inElif, false⟩ :: cs) (g.flat ++ t.flat) (group_bol g h2 _ htb)
      refine ⟨[] ++ (o ++ []), st2, true, Steps.trans (l1 := g.flat ++ t.flat)
        (st1 := withConds st1 (⟨.inElif, true⟩ :: cs)) (Steps.dirD hs h1 ⟨N, fun n hn => ?_⟩)
        ((group_steps hs g st1 st2 o _ _ h2 hg (atail_at t s h3)).trans
          (atail_rest hs t s hse st2 .inElif cs h3 (by decide)))⟩
      have hv := hv n hn
      have hvz : (v != 0) = true := by simp [hz]
      rw [directive_elif _ _ _ _ _ _ _ (name_is h1)]
      simp only [dirElif, withConds, hce, Bool.false_eq_true, if_false] at hv ⊢
      rw [hv]
      simp only [hvz, if_true]
    | elifF _ st1 _ _ _ hv ht2 =>
      obtain ⟨N, hv⟩ := hv (⟨.inElif, false⟩ :: cs) (g.flat ++ t.flat) (group_bol g h2 _ htb)
      obtain ⟨out, st', b, ih⟩ := atail_other hs t s hse st1 .inElif cs h3 ht2 (by decide)
      refine ⟨[] ++ out, st', b, Steps.trans (Steps.dirD hs h1 ⟨N, fun n hn => ?_⟩) ih⟩
      have hv := hv n hn
      rw [directive_elif _ _ _ _ _ _ _ (name_is h1)]
      simp only [dirElif, withConds, hce, Bool.false_eq_true, if_false] at hv ⊢
      rw [hv]
      simp only [bne_self_eq_false, Bool.false_eq_true, if_false]
      rw [skip_atail g t s h2 h3]
      rfl

/-- **C21** (unbalanced): `#else` or `#elif` after the `#else` of a section is diagnosed, whichever group of the section
was selected. -/
theorem C21_else_again (env : Env) (hs : env.strict = false) (pre b : Group) (o : Dir) (t : ATail) (s : String)
    (hse : s = "else" ∨ s = "elif") (st st1 st2 st3 : St) (o1 o2 : List PTok) (v : Bool)
    (hp : pre.Wf) (hb : b.Wf) (ho : o.Wf openers) (ht : t.Wf s) (hc : st.conds = [])
    (h1 : Sel env st pre st1 o1) (h2 : Holds env st1 o v st2)
    (h3 : if v then Sel env st2 b st3 o2 else AOther env st2 t)
    (hown : ∀ x ∈ pre.flat ++ (o.flat ++ (b.flat ++ t.flat)), x.own = true) :
    ∃ N, ∀ n, N ≤ n → preprocess env n st (pre.flat ++ (o.flat ++ (b.flat ++ t.flat))) =
      .error (.diag (if s = "else" then .strayElse else .strayElif)) := by
  have hat := atail_at t s ht
  have hw := again_wf t s ht
  obtain ⟨out, st', x, hst⟩ : ∃ out st' x, Steps env (withConds st []) (pre.flat ++ (o.flat ++ (b.flat ++ t.flat))) out
      (withConds st' [⟨.inElse, x⟩]) (t.again.1.flat ++ t.again.2) := by
    cases v with
    | true =>
      rw [if_pos rfl] at h3
      exact ⟨_, st3, true, (group_steps hs pre st st1 o1 _ [] hp h1 (dir_at o _ ho _)).trans
        ((step_open hs st1 st2 o true [] _ _ ho h2 (group_bol b hb _ (at_bol hat)) (by rw [if_pos rfl])).trans
          ((group_steps hs b st2 st3 o2 _ _ hb h3 hat).trans (atail_rest hs t s hse st3 .inThen [] ht (by decide))))⟩
    | false =>
      rw [if_neg (by decide)] at h3
      obtain ⟨out, st', x, ih⟩ := atail_other hs t s hse st2 .inThen [] ht h3 (by decide)
      exact ⟨_, st', x, (group_steps hs pre st st1 o1 _ [] hp h1 (dir_at o _ ho _)).trans
        ((step_open hs st1 st2 o false [] _ t.flat ho h2 (group_bol b hb _ (at_bol hat))
          (by rw [if_neg (by decide)]; exact skip_atail b t s hb ht)).trans ih)⟩
  rw [withConds_self st hc] at hst
  refine error_dir hs hst rfl hw (fun n => ?_) hown
  rcases hse with rfl | rfl
  · rw [directive_else _ _ _ _ _ _ _ (name_is hw)]; rfl
  · rw [directive_elif _ _ _ _ _ _ _ (name_is hw)]; rfl

/-! ### Conditions -/

theorem pp_inert (env : Env) (st : St) (l : List PTok) (e : PTok) (n : Nat) (hn : l.length < n) (top : Bool)
    (h : ∀ t ∈ l, t.isEof = false ∧ isHash t = false ∧ findMacro st t = none) (he : e.isEof = true) :
    ∃ pre, pp env n top st (l ++ [e]) = .ok (st, l.map (mark st) ++ [e], pre) := by
  induction l generalizing n with
  | nil =>
    obtain ⟨m, rfl⟩ : ∃ m, n = m + 1 := ⟨n - 1, by omega⟩
    exact ⟨[], by rw [List.nil_append, pp, if_pos he]; rfl⟩
  | cons t r ih =>
    obtain ⟨m, rfl⟩ : ∃ m, n = m + 1 := ⟨n - 1, by omega⟩
    obtain ⟨h1, h2, h3⟩ := h t (by simp)
    obtain ⟨pre, ih⟩ := ih m (by simp only [List.length_cons] at hn; omega) (fun u hu => h u (by simp [hu]))
    have hx : expandMacro env (pp env m false) st t (r ++ [e]) = .ok none := by
      unfold expandMacro
      split
      · rfl
      · rw [h3]
    rw [List.cons_append, pp, hx]
    simp only [h1, h2, ih, Bool.not_false, Bool.false_eq_true, if_false, if_true]
    exact ⟨_, rfl⟩

/-- The value of a condition without macros, identifiers and `defined` is what the parser's evaluator gives. -/
theorem Val.inert (env : Env) (st : St) (line : List PTok) (v : Int) (hne : line ≠ [])
    (h : ∀ t ∈ line, t.isEof = false ∧ t.bol = false ∧ t.kind ≠ .ident ∧ t.is "defined" = false)
    (hv : ∃ r, env.constExpr (line.map (fun t => mark st (ownTok t)) ++ [lineEnd]) = some (v, r) ∧
      ∀ u ∈ r.head?, u.isEof = true) : Val env st line v st := by
  intro cs rest hr
  obtain ⟨t, r, rfl, hb⟩ := hr
  obtain ⟨r', hv, hr'⟩ := hv
  refine ⟨line.length + 1, fun n hn => ?_⟩
  have hcl := copyLine_line line t r (fun u hu => (h u hu).2.1) hb
  have hne2 : ownTok (newEof t) = lineEnd := by
    unfold newEof ownTok lineEnd; rw [hb]
  rw [hne2] at hcl
  have hrc : ∀ l : List PTok, (∀ t ∈ l, t.isEof = false ∧ t.bol = false ∧ t.kind ≠ .ident ∧ t.is "defined" = false) →
      readConstExpr env (withConds st cs) (l.map ownTok ++ [lineEnd]) = .ok (l.map ownTok ++ [lineEnd]) := by
    intro l
    induction l with
    | nil => intro _; rfl
    | cons u l ih =>
      intro h
      have hu := h u (by simp)
      have e1 : (ownTok u).isEof = false := hu.1
      have e2 : (ownTok u).is "defined" = false := hu.2.2.2
      rw [List.map_cons, List.cons_append, readConstExpr.eq_def]
      simp only [e1, e2, ih fun w hw => h w (by simp [hw]), Bool.false_eq_true, if_false]
  have hzi : ∀ l : List PTok, (∀ t ∈ l, t.isEof = false ∧ t.bol = false ∧ t.kind ≠ .ident ∧ t.is "defined" = false) →
      zeroIdents env (l.map (fun t => mark st (ownTok t)) ++ [lineEnd]) = .ok (l.map (fun t => mark st (ownTok t)) ++ [lineEnd]) := by
    intro l
    induction l with
    | nil => intro _; rfl
    | cons u l ih =>
      intro h
      have hu := h u (by simp)
      have e1 : (mark st (ownTok u)).isEof = false := hu.1
      have e2 : ((mark st (ownTok u)).kind == .ident) = false := by
        have := hu.2.2.1
        exact beq_false_of_ne this
      rw [List.map_cons, List.cons_append, zeroIdents, e1, e2, ih fun w hw => h w (by simp [hw])]
      rfl
  have hmm : (line.map ownTok ++ [lineEnd]).map ownTok = line.map ownTok ++ [lineEnd] := by
    rw [List.map_append, List.map_map]; rfl
  obtain ⟨pre, hpp⟩ := pp_inert env (withConds st cs) (line.map ownTok) lineEnd n (by rw [List.length_map]; omega) false
    (by
      intro t ht
      obtain ⟨u, hu, rfl⟩ := List.mem_map.mp ht
      have := h u hu
      refine ⟨this.1, ?_, ?_⟩
      · show isHash u = false
        simp [isHash, this.2.1]
      · unfold findMacro
        rw [if_neg (by
          have hk := this.2.2.1
          show ¬ (u.kind == .ident) = true
          simpa using hk)]) rfl
  rw [List.map_map] at hpp
  have hpp : pp env n false (withConds st cs) (line.map ownTok ++ [lineEnd]) =
    .ok (withConds st cs, line.map (fun t => mark st (ownTok t)) ++ [lineEnd], pre) := hpp
  unfold evalConst
  rw [hcl]
  dsimp only
  rw [hrc line h]
  dsimp only
  rw [hmm, hpp]
  dsimp only
  rw [hzi line h]
  dsimp only
  rw [hv]
  cases line with
  | nil => exact absurd rfl hne
  | cons u l =>
    have e1 : (mark st (ownTok u)).isEof = false := (h u (by simp)).1
    simp only [List.map_cons, List.cons_append, e1]
    cases r' with
    | nil => rfl
    | cons w r' =>
      have : w.isEof = true := hr' w rfl
      simp [this]

/-! ### Examples -/

section Examples

/-- A token of a file being preprocessed. -/
def ft (s : String) (k : Lex.Kind) (bol : Bool) : PTok := { kind := k, text := asc s, bol := bol, sp := false, own := true }
/-- A directive line. -/
def ln (name : String) (line : List PTok) : Dir := ⟨ft "#" .punct true, ft name .ident false, line⟩
def fileEnd : PTok := { kind := .eof, text := [], bol := true, sp := false, own := true }

/--
```
#if 0
  a
  #if 1 ... (not evaluated)
  #else
  #endif
#elif 1
  #ifdef M
  b
  #else
  c
  #endif
#elif 1
  d
#else
  e
#endif
f
```
-/
def exGroup : Group :=
  .sect (ln "if" [ft "0" .ppNum false])
    (.text [ft "a" .ident true] (.sect (ln "if" [ft "1" .ppNum false]) .nil (.els (ln "else" []) .nil (ln "endif" [])) .nil))
    (.elif (ln "elif" [ft "1" .ppNum false])
      (.sect (ln "ifdef" [ft "M" .ident false]) (.text [ft "b" .ident true] .nil)
        (.els (ln "else" []) (.text [ft "c" .ident true] .nil) (ln "endif" [])) .nil)
      (.elif (ln "elif" [ft "1" .ppNum false]) (.text [ft "d" .ident true] .nil)
        (.els (ln "else" []) (.text [ft "e" .ident true] .nil) (ln "endif" []))))
    (.text [ft "f" .ident true] .nil)

theorem ln_wf (s : String) (line : List PTok) (ns : List String) (h : s ∈ ns)
    (hl : ∀ t ∈ line, t.bol = false ∧ t.isEof = false) : (ln s line).Wf ns :=
  ⟨by simp [ln, ft, isHash, PTok.is], rfl, rfl, rfl, ⟨s, h, by simp [ln, ft, PTok.is]⟩, hl⟩

theorem exGroup_wf : exGroup.Wf := by
  simp only [exGroup, Group.Wf, Tail.Wf]
  have hl1 : ∀ s, ∀ t ∈ [ft s .ppNum false], t.bol = false ∧ t.isEof = false := by
    intro s t ht; simp only [List.mem_singleton] at ht; subst ht; exact ⟨rfl, rfl⟩
  have hl2 : ∀ s, ∀ t ∈ [ft s .ident false], t.bol = false ∧ t.isEof = false := by
    intro s t ht; simp only [List.mem_singleton] at ht; subst ht; exact ⟨rfl, rfl⟩
  have hl0 : ∀ t ∈ ([] : List PTok), t.bol = false ∧ t.isEof = false := by intro t ht; cases ht
  have hp : ∀ s, plain [ft s .ident true] = true := by
    intro s; simp [plain, ft, PTok.isEof]
  have hh : ∀ s, ∀ t ∈ [ft s .ident true].head?, t.bol = true := by
    intro s t ht; cases ht; rfl
  have hn : ∀ l' g', Group.nil ≠ .text l' g' := by intro l' g' h; cases h
  refine ⟨ln_wf _ _ _ (by simp [openers]) (hl1 _), ⟨hp _, hh _, (by intro l' g' h; cases h), ln_wf _ _ _ (by simp [openers]) (hl1 _), trivial,
    ⟨ln_wf _ _ _ (by simp) hl0, trivial, ln_wf _ _ _ (by simp) hl0⟩, trivial⟩, ⟨ln_wf _ _ _ (by simp) (hl1 _), ?_, ?_⟩,
    hp _, hh _, hn, trivial⟩
  · exact ⟨ln_wf _ _ _ (by simp [openers]) (hl2 _), ⟨hp _, hh _, hn, trivial⟩,
      ⟨ln_wf _ _ _ (by simp) hl0, ⟨hp _, hh _, hn, trivial⟩, ln_wf _ _ _ (by simp) hl0⟩, trivial⟩
  · exact ⟨ln_wf _ _ _ (by simp) (hl1 _), ⟨hp _, hh _, hn, trivial⟩, ln_wf _ _ _ (by simp) hl0, ⟨hp _, hh _, hn, trivial⟩,
      ln_wf _ _ _ (by simp) hl0⟩

theorem exText (s : String) (hs : (asc s == asc "#") = false) :
    Text exEnv {} [ft s .ident true] {} [mark {} (ft s .ident true)] := by
  refine Text.inert exEnv {} [ft s .ident true] (fun t ht => ?_)
  simp only [List.mem_singleton] at ht
  subst ht
  exact ⟨rfl, by simp only [isHash, ft, PTok.is, hs, Bool.and_false], rfl⟩

theorem exVal (s : String) (v : Int) (hv : v = if asc s == asc "0" then 0 else 1)
    (hd : (asc s == asc "defined") = false) : Val exEnv {} [ft s .ppNum false] v {} := by
  refine Val.inert exEnv {} _ v (by simp) (fun t ht => ?_) ⟨[lineEnd], ?_, ?_⟩
  · simp only [List.mem_singleton] at ht
    subst ht
    exact ⟨rfl, rfl, by simp [ft], hd⟩
  · rw [hv]
    rfl
  · intro u hu; cases hu; rfl

/-- The selection for the example: `c` and `f`. -/
theorem exGroup_sel : Sel exEnv {} exGroup {} ([mark {} (ft "c" .ident true)] ++ [mark {} (ft "f" .ident true)]) := by
  have hf : Sel exEnv {} (.text [ft "f" .ident true] .nil) {} ([mark {} (ft "f" .ident true)] ++ []) :=
    .text _ _ _ _ _ _ _ (exText "f" (by decide +kernel)) (.nil _)
  have hc : Sel exEnv {} (.text [ft "c" .ident true] .nil) {} ([mark {} (ft "c" .ident true)] ++ []) :=
    .text _ _ _ _ _ _ _ (exText "c" (by decide +kernel)) (.nil _)
  have h0 : Holds exEnv {} (ln "if" [ft "0" .ppNum false]) false {} := by
    have := Holds.ifE (env := exEnv) (st := {}) (d := ln "if" [ft "0" .ppNum false]) 0 {} (by decide +kernel)
      (exVal "0" 0 (by decide +kernel) (by decide +kernel))
    exact this
  have hm : Holds exEnv {} (ln "ifdef" [ft "M" .ident false]) false {} :=
    Holds.ifdef (env := exEnv) (st := {}) (d := ln "ifdef" [ft "M" .ident false]) (ft "M" .ident false) (by decide +kernel) rfl
  refine .other _ _ _ _ _ _ _ _ _ _ h0 (.elifT _ _ _ _ _ _ 1 _ (exVal "1" 1 (by decide +kernel) (by decide +kernel))
    (by decide) ?_ rfl) hf
  have := Sel.other (env := exEnv) _ _ _ _ _ (.text [ft "b" .ident true] .nil) _ _ _ _ hm
    (.els _ _ (ln "else" []) _ (ln "endif" []) _ rfl rfl hc) (.nil _)
  exact this

/-- The theorem applies to the example. -/
example : ∃ N, ∀ n, N ≤ n → preprocess exEnv n {} (exGroup.flat ++ [fileEnd]) =
    .ok ({}, ([mark {} (ft "c" .ident true)] ++ [mark {} (ft "f" .ident true)]) ++ [fileEnd]) :=
  C21_selected_partial exEnv rfl exGroup {} {} _ fileEnd exGroup_wf exGroup_sel rfl rfl rfl rfl (by decide +kernel)

/-- A stray `#endif` after the example. -/
example : ∃ N, ∀ n, N ≤ n →
    preprocess exEnv n {} (exGroup.flat ++ ((ln "endif" []).flat ++ [fileEnd])) = .error (.diag .strayEndif) := by
  obtain ⟨N, hN⟩ := C21_stray exEnv rfl exGroup {} {} _ [fileEnd] (ln "endif" []) exGroup_wf exGroup_sel rfl (by decide +kernel)
  exact ⟨N, fun n hn => (hN n hn).2.2 (ln_wf _ _ _ (by simp) (by intro t ht; cases ht))⟩

/-- `#if 0` / `#if 1` / `#else` and the end of the file. -/
example : ∃ N, ∀ n, N ≤ n →
    preprocess exEnv n {} ((UGroup.sect .nil (ln "if" [ft "0" .ppNum false])
      (.grp (.sect .nil (ln "if" [ft "1" .ppNum false]) (.next .nil (ln "else" []) (.grp (.here .nil)))))).flat ++ [fileEnd]) =
        .error (.diag .unterminated) := by
  have hl1 : ∀ s, ∀ t ∈ [ft s .ppNum false], t.bol = false ∧ t.isEof = false := by
    intro s t ht; simp only [List.mem_singleton] at ht; subst ht; exact ⟨rfl, rfl⟩
  refine C21_unterminated exEnv rfl _ _ _ {} fileEnd ⟨trivial, ln_wf _ _ _ (by simp [openers]) (hl1 _), trivial,
    ln_wf _ _ _ (by simp [openers]) (hl1 _), trivial, Or.inr ⟨ln_wf _ _ _ (by simp) (by intro t ht; cases ht), rfl⟩, trivial⟩ ?_ rfl rfl rfl rfl
    (by decide +kernel)
  have h0 : Holds exEnv {} (ln "if" [ft "0" .ppNum false]) false {} :=
    Holds.ifE (env := exEnv) (st := {}) (d := ln "if" [ft "0" .ppNum false]) 0 {} (by decide +kernel)
      (exVal "0" 0 (by decide +kernel) (by decide +kernel))
  exact .other _ _ _ _ _ _ _ (.nil _) h0 (.grp _ _)

/-- `#ifdef M` / `#else` / `#else`. -/
example : ∃ N, ∀ n, N ≤ n →
    preprocess exEnv n {} ((ln "ifdef" [ft "M" .ident false]).flat ++ ((ln "else" []).flat ++ ((ln "else" []).flat ++ [fileEnd]))) =
      .error (.diag .strayElse) := by
  have hl0 : ∀ t ∈ ([] : List PTok), t.bol = false ∧ t.isEof = false := by intro t ht; cases ht
  have := C21_else_again exEnv rfl .nil .nil (ln "ifdef" [ft "M" .ident false])
    (.els (ln "else" []) .nil (ln "else" []) [fileEnd]) "else" (Or.inl rfl) {} {} {} {} [] [] false trivial trivial
    (ln_wf _ _ _ (by simp [openers]) (by intro t ht; simp only [List.mem_singleton] at ht; subst ht; exact ⟨rfl, rfl⟩))
    ⟨ln_wf _ _ _ (by simp) hl0, trivial, ln_wf _ _ _ (by simp) hl0⟩ rfl (.nil _)
    (Holds.ifdef (env := exEnv) (st := {}) (d := ln "ifdef" [ft "M" .ident false]) (ft "M" .ident false) (by decide +kernel) rfl)
    (by rw [if_neg (by decide)]; exact .els _ _ _ _ _ _ _ rfl (.nil _)) (by decide +kernel)
  exact this

/-- A null directive before a line that starts with `else` is taken for `#else`: the file
```
#
else
```
contains no directive of conditional inclusion, but is rejected. -/
theorem C21_null_directive_wrong :
    preprocess exEnv 10 {} [ft "#" .punct true, ft "else" .ident true, fileEnd] = .error (.diag .strayElse) := by
  decide +kernel

/-- Tokens after `#endif` are output (the function skip_line does not skip). -/
theorem C21_extra_tokens_wrong :
    (preprocess exEnv 10 {} ((ln "ifdef" [ft "M" .ident false]).flat ++ ((ln "endif" [ft "x" .ident false]).flat ++ [fileEnd]))).map
      (fun r => r.2.map (·.text)) = .ok [asc "x", []] := by
  decide +kernel

/-- `#define A` followed by a line that starts with a parenthesis defines a function-like macro. -/
theorem define_paren_wrong :
    outTexts exEnv 60 "#define A\n(b) c\nA x\n" = some [asc "A", asc "x", []] := by decide +kernel

end Examples

end Toycc.Pp
