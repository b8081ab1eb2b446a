import Verif.Driver.Deps
import Verif.Driver.DepsSpec
import Verif.Driver.QuoteProps
/-! C82: the dependencies written for -M and -MD. -/
namespace Toycc.Driver
open Toycc.Lex (asc)

theorem joined_app (b : List UInt8) : ∀ (a : List UInt8), 10 ∉ a → a.getLast? ≠ some 92 → joined (a ++ b) = a ++ joined b
  | [], _, _ => rfl
  | [c], h1, h2 => by
    have : c ≠ 92 := fun e => h2 (by rw [e]; rfl)
    rw [List.singleton_append, joined.eq_def]
    split
    · simp_all
    · simp_all
    · rename_i h; injection h with h3 h4; subst h3 h4; rfl
    · rename_i h; cases h
  | c :: d :: a, h1, h2 => by
    have h3 : (d :: a).getLast? ≠ some 92 := by rwa [List.getLast?_cons_cons] at h2
    have h4 : 10 ∉ d :: a := fun e => h1 (List.mem_cons_of_mem _ e)
    have h5 : d ≠ 10 := fun e => h4 (by rw [e]; exact List.mem_cons_self)
    have i1 := joined_app b (d :: a) h4 h3
    rw [List.cons_append, List.cons_append, joined.eq_def]
    split
    · rename_i h; injection h with _ h; injection h with h _; exact absurd h h5
    · rename_i r h
      injection h with e1 h
      injection h with e2 h
      subst e1 e2 h
      have h6 : a.getLast? ≠ some 92 := by
        cases a with
        | nil => simp
        | cons x a => rwa [List.getLast?_cons_cons] at h3
      rw [joined_app b a (fun e => h4 (List.mem_cons_of_mem _ e)) h6]; rfl
    · rename_i h
      injection h with e1 e2
      subst e1 e2
      rw [show d :: (a ++ b) = (d :: a) ++ b from rfl, i1]; rfl
    · rename_i h; cases h

theorem linesOf_line (r : List UInt8) : ∀ (a : List UInt8), 10 ∉ a → linesOf (a ++ 10 :: r) = a :: linesOf r
  | [], _ => rfl
  | c :: a, h => by
    have h1 : c ≠ 10 := fun e => h (by rw [e]; exact List.mem_cons_self)
    have ih := linesOf_line r a fun e => h (List.mem_cons_of_mem _ e)
    rw [List.cons_append, linesOf.eq_def]
    split
    · rename_i h; cases h
    · rename_i h; injection h with h _; exact absurd h h1
    · rename_i h
      injection h with e1 e2
      subst e1 e2
      rw [ih]

theorem quoted_nl : ∀ (s : List UInt8) (k : Nat), 10 ∉ s → 10 ∉ quoted k s := by
  intro s
  induction s with
  | nil => intro k _; simp [quoted]
  | cons c s ih =>
    intro k h
    have h1 : c ≠ 10 := fun e => h (by rw [e]; exact List.mem_cons_self)
    have h2 := ih (if c = 92 then k + 1 else 0) fun e => h (List.mem_cons_of_mem _ e)
    rw [quoted, List.mem_append, not_or]
    refine ⟨?_, h2⟩
    split
    · decide
    split
    · decide
    split
    · rename_i h3
      simp only [List.mem_append, List.mem_replicate, List.mem_cons, List.not_mem_nil, or_false, not_or]
      exact ⟨fun e => absurd e.2 (by decide), by decide, fun e => h1 e.symm⟩
    · simp only [List.mem_cons, List.not_mem_nil, or_false]
      exact fun e => h1 e.symm

/-- A quoted name does not begin with a blank. -/
theorem quoted_head (s : List UInt8) (h : 58 ∉ s) : ∀ c ∈ (quoted 0 s).head?, special c = false := by
  cases s with
  | nil => intro c hc; cases hc
  | cons d s =>
    intro c hc
    have hd : d ≠ 58 := fun e => h (by rw [e]; exact List.mem_cons_self)
    rw [quoted] at hc
    split at hc
    · cases hc; decide
    split at hc
    · cases hc; decide
    split at hc
    · cases hc; decide
    · cases hc
      simp only [not_or] at *
      unfold special
      simp_all

/-- Names that come back although they are not quoted. -/
structure Bare (s : List UInt8) : Prop where
  ne : s ≠ []
  free : ∀ c ∈ s, special c = false ∧ c ≠ 36 ∧ c ≠ 10
  last : s.getLast? ≠ some 92

/-- What may follow. -/
def Ends (t : List UInt8) : Prop := t = [] ∨ ∃ r, t = 32 :: r

theorem bare_name {t : List UInt8} (ht : Ends t) : ∀ (s : List UInt8) (k : Nat), (∀ c ∈ s, special c = false ∧ c ≠ 36 ∧ c ≠ 10) → (List.replicate k 92 ++ s).getLast? ≠ some 92 →
    makeName k false (s ++ t) = some (List.replicate k 92 ++ s, t)
  | [], k, _, hl => by
    have hk : k = 0 := by
      cases k with
      | zero => rfl
      | succ k => rw [List.append_nil, List.replicate_succ', List.getLast?_concat] at hl; exact absurd rfl hl
    subst hk
    rcases ht with rfl | ⟨r, rfl⟩
    · rfl
    · rw [List.nil_append, makeName]; rfl
  | c :: s, k, h, hl => by
    obtain ⟨h1, h2, h3⟩ := h c List.mem_cons_self
    have h4 := fun d hd => h d (List.mem_cons_of_mem _ hd)
    rw [List.cons_append, makeName, if_neg (by decide)]
    by_cases hc : c = 92
    · subst hc
      have e : List.replicate k 92 ++ 92 :: s = List.replicate (k + 1) 92 ++ s := by rw [List.replicate_succ']; simp
      rw [if_pos rfl, bare_name ht s (k + 1) h4 (by rw [← e]; exact hl), e]
    · rw [if_neg hc, if_neg h3, h1, if_neg (by simp), if_neg h2, bare_name ht s 0 h4]
      · simp [before]
      · cases s with
        | nil => simp
        | cons d s =>
          intro e
          apply hl
          rw [show List.replicate k 92 ++ c :: d :: s = (List.replicate k 92 ++ [c]) ++ d :: s from by simp, List.getLast?_append]
          rw [show (List.replicate 0 (92 : UInt8) ++ d :: s) = d :: s from rfl] at e
          rw [e]; rfl

/-- The list of prerequisites. -/
theorem bare_names : ∀ (fs : List (List UInt8)), (∀ f ∈ fs, Bare f) → Names (fs.flatMap fun f => [32, 32, 9] ++ f) fs []
  | [], _ => .nil
  | f :: fs, h => by
    have hf := h f List.mem_cons_self
    have ih := bare_names fs fun g hg => h g (List.mem_cons_of_mem _ hg)
    refine .blank (.inl rfl) (.blank (.inl rfl) (.blank (.inr rfl) ?_))
    have hends : Ends (fs.flatMap fun f => [32, 32, 9] ++ f) := by
      cases fs with
      | nil => exact .inl rfl
      | cons g fs => exact .inr ⟨_, rfl⟩
    have := bare_name hends f 0 hf.free (by simpa using hf.last)
    refine .name ?_ this hf.ne ih
    intro c hc
    cases f with
    | nil => exact absurd rfl hf.ne
    | cons d f =>
      cases hc
      exact (hf.free _ List.mem_cons_self).1

theorem joined_bare {fs : List (List UInt8)} (h : ∀ f ∈ fs, Bare f) (r : List UInt8) :
    joined (fs.flatMap (fun f => [32, 92, 10, 9] ++ f) ++ 10 :: r) = fs.flatMap (fun f => [32, 32, 9] ++ f) ++ 10 :: joined r := by
  induction fs with
  | nil => rfl
  | cons f fs ih =>
    have hf := h f List.mem_cons_self
    rw [List.flatMap_cons, List.flatMap_cons, List.append_assoc, List.append_assoc, List.append_assoc, List.append_assoc]
    show 32 :: 32 :: 9 :: joined (f ++ (fs.flatMap (fun f => [32, 92, 10, 9] ++ f) ++ 10 :: r)) = _
    rw [joined_app _ f (fun e => (hf.free 10 e).2.2 rfl) hf.last, ih fun g hg => h g (List.mem_cons_of_mem _ hg)]
    rfl

theorem bare_nl {fs : List (List UInt8)} (h : ∀ f ∈ fs, Bare f) : 10 ∉ fs.flatMap fun f => [32, 32, 9] ++ f := by
  intro e
  obtain ⟨f, hf, e⟩ := List.mem_flatMap.mp e
  rcases List.mem_append.mp e with e | e
  · exact absurd e (by decide)
  · exact ((h f hf).free 10 e).2.2 rfl

theorem phony_rules : ∀ (fs : List (List UInt8)), (∀ f ∈ fs, Plain f ∧ f ≠ []) →
    ∃ qs, fs.mapM quoteMakefile = some qs ∧ Rules (linesOf (joined (qs.flatMap fun q => q ++ [58, 10, 10]))) (fs.map fun f => ⟨[f], []⟩)
  | [], _ => ⟨[], rfl, .nil⟩
  | f :: fs, h => by
    obtain ⟨hp, hne⟩ := h f List.mem_cons_self
    obtain ⟨qs, h1, h2⟩ := phony_rules fs fun g hg => h g (List.mem_cons_of_mem _ hg)
    have hn := quoted_nl f 0 hp.newline
    refine ⟨quoted 0 f :: qs, by rw [List.mapM_cons, quoteMakefile_eq, h1]; rfl, ?_⟩
    rw [List.flatMap_cons, show quoted 0 f ++ [58, 10, 10] ++ (qs.flatMap fun q => q ++ [58, 10, 10]) = (quoted 0 f ++ [58]) ++ 10 :: 10 :: (qs.flatMap fun q => q ++ [58, 10, 10]) from by simp,
      joined_app _ _ (by simp [hn]) (by simp), show joined (10 :: 10 :: qs.flatMap fun q => q ++ [58, 10, 10]) = 10 :: 10 :: joined (qs.flatMap fun q => q ++ [58, 10, 10]) from rfl,
      linesOf_line _ _ (by simp [hn]), show linesOf (10 :: joined (qs.flatMap fun q => q ++ [58, 10, 10])) = [] :: linesOf (joined (qs.flatMap fun q => q ++ [58, 10, 10])) from rfl]
    have hh := quoted_head f hp.colon
    have hh' : ∀ c ∈ (quoted 0 f ++ [58]).head?, c ≠ 9 := by
      intro c hc
      cases hq : quoted 0 f with
      | nil => rw [hq] at hc; cases hc; decide
      | cons d q =>
        rw [hq] at hc hh
        cases hc
        intro e
        rw [e] at hh
        exact absurd (hh 9 rfl) (by decide)
    have hrt := roundTrip [] f 0 hp.colon hp.newline (by simpa using hp.hash) (by simpa using hp.last)
    refine .rule hh' (.name ?_ hrt hne .colon) .nil (.empty h2)
    intro c hc
    cases hq : quoted 0 f with
    | nil =>
      rw [hq] at hrt
      have : makeName 0 false ([] ++ 58 :: []) = some ([], [58]) := rfl
      rw [this] at hrt
      injection hrt with e
      injection e with e _
      exact absurd e.symm (by simpa using hne)
    | cons d q =>
      rw [hq] at hc hh
      cases hc
      exact hh _ rfl

/-- The text before the colon of the first rule is read as the targets `ts`. -/
structure Target (q : List UInt8) (ts : List (List UInt8)) : Prop where
  newline : 10 ∉ q
  tab : ∀ c ∈ (q ++ [58]).head?, c ≠ 9
  reads : ∀ r, Names (q ++ 58 :: r) ts (58 :: r)

theorem plain_target {s : List UInt8} (h : Plain s) (hne : s ≠ []) : Target (quoted 0 s) [s] := by
  have hh := quoted_head s h.colon
  have hq : quoted 0 s ≠ [] := by
    cases s with
    | nil => exact absurd rfl hne
    | cons c s =>
      rw [quoted]
      intro e
      have := (List.append_eq_nil_iff.mp e).1
      revert this
      split
      · simp
      split
      · simp
      split <;> simp
  have hhead : ∀ {t : List UInt8} {c : UInt8}, c ∈ (quoted 0 s ++ t).head? → special c = false := by
    intro t c hc
    cases e : quoted 0 s with
    | nil => exact absurd e hq
    | cons d q => rw [e] at hc hh; cases hc; exact hh _ rfl
  refine ⟨quoted_nl s 0 h.newline, fun c hc e => ?_, fun r => ?_⟩
  · have := hhead hc
    rw [e] at this
    exact absurd this (by decide)
  · exact .name (fun c hc => hhead hc) (roundTrip r s 0 h.colon h.newline (by simpa using h.hash) (by simpa using h.last)) (by simpa using hne) .colon

theorem target_rules {q : List UInt8} {ts fs : List (List UInt8)} (hq : Target q ts) (hf : ∀ f ∈ fs, Bare f) {r : List UInt8} {rs : List Rule} (hr : Rules (linesOf (joined r)) rs) :
    IsMakefile (q ++ [58] ++ fs.flatMap (fun f => [32, 92, 10, 9] ++ f) ++ [10] ++ r) (⟨ts, fs⟩ :: rs) := by
  unfold IsMakefile
  have hn := hq.newline
  rw [show q ++ [58] ++ fs.flatMap (fun f => [32, 92, 10, 9] ++ f) ++ [10] ++ r = (q ++ [58]) ++ (fs.flatMap (fun f => [32, 92, 10, 9] ++ f) ++ 10 :: r) from by simp,
    joined_app _ _ (by simp [hn]) (by simp), joined_bare hf, ← List.append_assoc, linesOf_line]
  · refine .rule (l' := fs.flatMap fun f => [32, 32, 9] ++ f) ?_ ?_ (bare_names fs hf) hr
    · intro c hc
      refine hq.tab c ?_
      cases q <;> exact hc
    · rw [List.append_assoc]
      exact hq.reads _
  · rw [List.mem_append, not_or]
    exact ⟨by simp [hn], bare_nl hf⟩

/-- The file lies beneath one of the directories. -/
def Beneath (dirs : List Str) (f : Str) : Prop := ∃ d ∈ dirs, ∃ r, f = d ++ 47 :: r

theorem inStd_iff (std : List Str) (f : Str) : inStd std f = true ↔ Beneath std f := by
  unfold inStd Beneath
  rw [List.any_eq_true]
  constructor
  · rintro ⟨d, hd, h⟩
    rw [Bool.and_eq_true, List.isPrefixOf_iff_prefix] at h
    obtain ⟨⟨t, rfl⟩, h⟩ := h
    rw [List.getElem?_append_right (Nat.le_refl _), Nat.sub_self] at h
    cases t with
    | nil => cases h
    | cons c t =>
      have : c = 47 := by simpa using h
      exact ⟨d, hd, t, by rw [this]⟩
  · rintro ⟨d, hd, r, rfl⟩
    refine ⟨d, hd, ?_⟩
    rw [Bool.and_eq_true, List.isPrefixOf_iff_prefix]
    refine ⟨⟨_, rfl⟩, ?_⟩
    rw [List.getElem?_append_right (Nat.le_refl _), Nat.sub_self]
    rfl

/-- **C82**. make reads what is written for -M, -MD and -MMD as a rule for the object file (or the targets of -MT) that has the input files as prerequisites, in the order they were read, without
those beneath standard directories with -MMD, and with -MP as further rules without prerequisites for all files but the first (the source file,
unless there are options -include: `C82_phony_wrong`).

Missing: input files with blanks, `$`, `#` or a backslash at the end in their names, of which the first three are legal (`C82_unquoted_wrong`), and names that quote_makefile does not quote (C56). -/
theorem C82_rules_partial {o : Opts} {base : Str} {std files : List Str} {ts : List Str}
    (ht : (o.MT = none ∧ ts = [replaceExtn base (asc ".o")] ∧ Plain (replaceExtn base (asc ".o"))) ∨ ∃ t, o.MT = some t ∧ Target t ts)
    {keep : Str → Bool} (hk : ∀ f, keep f = true ↔ ¬ (o.MMD = true ∧ Beneath std f)) (hf : ∀ f ∈ files, keep f = true → Bare f) (hp : o.MP = true → ∀ f ∈ files.drop 1, Plain f ∧ f ≠ []) :
    ∃ text, depsText o base std files = some text ∧
      IsMakefile text (⟨ts, files.filter keep⟩ :: if o.MP then (files.drop 1).map fun f => ⟨[f], []⟩ else []) := by
  have hfil : (files.filter fun f => !(o.MMD && inStd std f)) = files.filter keep := by
    congr 1
    funext f
    cases hkf : keep f with
    | true =>
      have := (hk f).mp hkf
      rw [← inStd_iff] at this
      cases h1 : o.MMD <;> cases h2 : inStd std f <;> simp_all
    | false =>
      have : o.MMD = true ∧ Beneath std f := by
        apply Classical.byContradiction
        intro hn
        rw [(hk f).mpr hn] at hkf; cases hkf
      rw [← inStd_iff] at this
      rw [this.1, this.2]; rfl
  have hb : ∀ f ∈ files.filter keep, Bare f := by
    intro f hf'
    rw [List.mem_filter] at hf'
    exact hf f hf'.1 hf'.2
  obtain ⟨q, hq1, hq2⟩ : ∃ q, depsTarget o base = some q ∧ Target q ts := by
    unfold depsTarget
    rcases ht with ⟨h1, rfl, h3⟩ | ⟨t, h1, h2⟩
    · have e : asc ".o" = [46, 111] := by decide
      rw [e] at h3 ⊢
      refine ⟨_, by rw [h1]; exact quoteMakefile_eq _, plain_target h3 ?_⟩
      unfold replaceExtn
      simp
    · exact ⟨t, by rw [h1], h2⟩
  cases hmp : o.MP with
  | false =>
    refine ⟨_, ?_, target_rules hq2 hb (r := []) (rs := []) .nil⟩
    unfold depsText
    rw [hq1, show depsPhony o files = some [] from by unfold depsPhony; rw [hmp]; rfl, hfil]
    rfl
  | true =>
    obtain ⟨qs, h1, h2⟩ := phony_rules (files.drop 1) (hp hmp)
    refine ⟨_, ?_, target_rules hq2 hb h2⟩
    unfold depsText
    rw [hq1, show depsPhony o files = some qs from by unfold depsPhony; rw [hmp]; exact h1, hfil]

/-- **C82**, the list of input files: after the files `fs` were read it has exactly their names, in that order, up to its null pointer, and nothing is written outside of it. -/
theorem C82_inputs (fs : List Str) (hne : fs ≠ []) : ∃ a, fs.foldlM Inputs.add {} = some a ∧ Inputs.upTo a.data = some fs ∧ a.data.length ≤ a.cap := by
  have key : ∀ (gs done : List Str) (a : Inputs), a.fileNo = done.length → (done ≠ [] → a.data = done.map some ++ [none] ∧ a.cap = done.length + 1) → (done = [] → a.data = []) → (gs = [] → done ≠ []) →
      ∃ b, gs.foldlM Inputs.add a = some b ∧ b.data = (done ++ gs).map some ++ [none] ∧ b.data.length ≤ b.cap := by
    intro gs
    induction gs with
    | nil =>
      intro done a _ h2 _ h4
      obtain ⟨h5, h6⟩ := h2 (h4 rfl)
      exact ⟨a, rfl, by rw [List.append_nil]; exact h5, by rw [h5, h6]; simp⟩
    | cons g gs ih =>
      intro done a h1 h2 h3 _
      have hadd : a.add g = some { cap := done.length + 2, data := (done ++ [g]).map some ++ [none], fileNo := done.length + 1 } := by
        unfold Inputs.add Inputs.put
        simp only [h1, Option.bind_eq_bind]
        rw [if_pos (by omega)]
        simp only [Option.bind_some]
        rw [if_pos (by omega)]
        simp only [Option.bind_some, Option.pure_def, Option.some.injEq]
        have : (a.data.take done.length ++ some g :: a.data.drop (done.length + 1)) = done.map some ++ [some g] := by
          by_cases hd : done = []
          · rw [h3 hd, hd]; rfl
          · rw [(h2 hd).1, List.take_append_of_le_length (by simp), List.drop_append]
            rw [List.take_of_length_le (by simp), List.drop_of_length_le (by simp)]
            simp
        rw [this]
        rw [List.take_of_length_le (by simp), List.drop_of_length_le (by simp)]
        simp
      obtain ⟨b, g1, g2, g3⟩ := ih (done ++ [g]) { cap := done.length + 2, data := (done ++ [g]).map some ++ [none], fileNo := done.length + 1 } (by simp) (fun _ => ⟨rfl, by simp⟩) (by simp) (by simp)
      refine ⟨b, ?_, by rw [g2]; simp, g3⟩
      rw [List.foldlM_cons, hadd]
      exact g1
  obtain ⟨b, h1, h2, h3⟩ := key fs [] {} rfl (fun h => absurd rfl h) (fun _ => rfl) (fun h => absurd h hne)
  refine ⟨b, h1, ?_, h3⟩
  rw [h2]
  clear h1 h2 h3 key hne
  rw [List.nil_append]
  induction fs with
  | nil => rfl
  | cons f fs ih => rw [List.map_cons, List.cons_append, Inputs.upTo, ih]; rfl

/-- **C82**, where it is written: the file of -MF; else with -MD a file in the working directory, with the name of the output (of the source if there is no -o) and the extension .d; else the
output; else the standard output. -/
theorem C82_path (o : Opts) (base : Str) :
    (∀ p, o.MF = some p → depsPath o base = p) ∧
    (o.MF = none → o.MD = true → (∀ p, o.o = some p → depsPath o base = replaceExtn p (asc ".d")) ∧ (o.o = none → depsPath o base = replaceExtn base (asc ".d"))) ∧
    (o.MF = none → o.MD = false → (∀ p, o.o = some p → depsPath o base = p) ∧ (o.o = none → depsPath o base = asc "-")) := by
  have e : asc ".d" = [46, 100] := by decide
  have e2 : asc "-" = [45] := by decide
  rw [e, e2]
  unfold depsPath
  refine ⟨fun p h => by rw [h], fun h1 h2 => ⟨fun p h3 => ?_, fun h3 => ?_⟩, fun h1 h2 => ⟨fun p h3 => ?_, fun h3 => ?_⟩⟩ <;> simp [h1, h2, h3]

/-! ### Examples -/

def exDeps : Opts := { MD := true, MMD := true, MP := true }
def exInputs : List Str := [asc "src/a.c", asc "src/a\\b.h", asc "/usr/include/stdio.h"]

/-- All hypotheses are met: `toycc -MMD -MP 'my $file.c'` with a header of the project and one beneath a standard directory. -/
example : ∃ text, depsText exDeps (asc "src/my $file.c") [asc "/usr/include"] exInputs = some text ∧
    IsMakefile text [⟨[asc "my $file.o"], [asc "src/a.c", asc "src/a\\b.h"]⟩, ⟨[asc "src/a\\b.h"], []⟩, ⟨[asc "/usr/include/stdio.h"], []⟩] := by
  have hk : ∀ f, (!(exDeps.MMD && inStd [asc "/usr/include"] f)) = true ↔ ¬ (exDeps.MMD = true ∧ Beneath [asc "/usr/include"] f) := by
    intro f
    rw [← inStd_iff]
    cases exDeps.MMD <;> cases inStd [asc "/usr/include"] f <;> simp
  have bare : ∀ f : Str, f ≠ [] → (f.all fun c => !special c && c != 36 && c != 10) = true → f.getLast? ≠ some 92 → Bare f := by
    intro f h1 h2 h3
    refine ⟨h1, fun c hc => ?_, h3⟩
    have := List.all_eq_true.mp h2 c hc
    simpa [and_assoc] using this
  have := C82_rules_partial (o := exDeps) (base := asc "src/my $file.c") (files := exInputs)
    (.inl ⟨rfl, rfl, ⟨by decide +kernel, by decide +kernel, by decide +kernel, by decide +kernel⟩⟩) hk (by
      intro f hf _
      simp only [exInputs, List.mem_cons, List.not_mem_nil, or_false] at hf
      rcases hf with rfl | rfl | rfl <;> exact bare _ (by decide +kernel) (by decide +kernel) (by decide +kernel)) (by
      intro _ f hf
      simp only [exInputs, List.drop_succ_cons, List.drop_zero, List.mem_cons, List.not_mem_nil, or_false] at hf
      rcases hf with rfl | rfl <;> exact ⟨⟨by decide +kernel, by decide +kernel, by decide +kernel, by decide +kernel⟩, by decide +kernel⟩)
  exact this

/-- A header `a b.h`: make reads two prerequisites, `a` and `b.h`. -/
theorem C82_unquoted_wrong : ∃ text, depsText { M := true } (asc "f.c") [] [asc "f.c", asc "a b.h"] = some text ∧ IsMakefile text [⟨[asc "f.o"], [asc "f.c", asc "a", asc "b.h"]⟩] := by
  refine ⟨asc "f.o: \\\n\tf.c \\\n\ta b.h\n", by decide +kernel, ?_⟩
  show Rules [asc "f.o:  \tf.c  \ta b.h"] _
  refine .rule (l' := asc "  \tf.c  \ta b.h") (by decide +kernel) ?_ ?_ .nil
  · exact .name (by decide +kernel) (show makeName 0 false _ = some (asc "f.o", asc ":  \tf.c  \ta b.h") from by decide +kernel) (by decide +kernel) .colon
  · refine .blank (.inl rfl) (.blank (.inl rfl) (.blank (.inr rfl) ?_))
    refine .name (by decide +kernel) (show makeName 0 false _ = some (asc "f.c", asc "  \ta b.h") from by decide +kernel) (by decide +kernel) ?_
    refine .blank (.inl rfl) (.blank (.inl rfl) (.blank (.inr rfl) ?_))
    refine .name (by decide +kernel) (show makeName 0 false _ = some (asc "a", asc " b.h") from by decide +kernel) (by decide +kernel) ?_
    refine .blank (.inl rfl) ?_
    exact .name (by decide +kernel) (show makeName 0 false _ = some (asc "b.h", []) from by decide +kernel) (by decide +kernel) .nil

/-- `toycc -M -MP -include p.h f.c`: there is a rule without prerequisites for the source file, and none for the header. -/
theorem C82_phony_wrong : depsText { M := true, MP := true, optInclude := [asc "p.h"] } (asc "f.c") [] [asc "p.h", asc "f.c"] = some (asc "f.o: \\\n\tp.h \\\n\tf.c\nf.c:\n\n") := by decide +kernel

end Toycc.Driver
