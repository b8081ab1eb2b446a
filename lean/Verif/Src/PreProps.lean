import Verif.Src.PreMain
import Verif.Src.CharsProps
/-!
C79: source files with directives, from characters to tokens and to the machine.

Vocabulary of the statements (Verif.Src.PreSpec): `IsGrp env path G`: in the file `path` the group `G` is written, in characters. `Runs`: what preprocessing a group outputs, by C11 6.10.
`RunsFiles env files s fs s' out`: preprocessing the files `fs` one after the other outputs `out`; `files` are those that may be included; `s`, `s'` say which macros are defined before and after.
`Models M st`: the macros of the state `st` of the preprocessor are `M`.
-/
namespace Toycc.Src
open Toycc.Lex (asc)
open Toycc.Pp (Bytes PTok Steps Bol withConds)
open Toycc.Parse (Tok P Tree)

/-- The tokens of files. -/
inductive Segs : List (Bytes × Grp) → List PTok → Prop where
  | nil : Segs [] []
  | cons {p G fs l l'} : Items p G.items l → Segs fs l' → Segs ((p, G) :: fs) (l ++ l')

theorem Segs.noEof {fs : List (Bytes × Grp)} {l : List PTok} (h : Segs fs l) : ∀ p ∈ l, p.isEof = false := by
  induction h with
  | nil => intro p hp; cases hp
  | cons h1 _ ih =>
    intro p hp
    rcases List.mem_append.mp hp with hp | hp
    · exact h1.noEof p hp
    · exact ih p hp

theorem Segs.own {fs : List (Bytes × Grp)} {l : List PTok} (h : Segs fs l) : Segs fs (l.map Pp.ownTok) := by
  induction h with
  | nil => exact .nil
  | cons h1 _ ih =>
    rw [List.map_append]
    exact .cons (h1.map fun p => ⟨rfl, rfl, rfl, rfl, rfl, rfl, rfl⟩) ih

theorem Segs.append {fs gs : List (Bytes × Grp)} {l l' : List PTok} (h : Segs fs l) (h' : Segs gs l') : Segs (fs ++ gs) (l ++ l') := by
  induction h with
  | nil => exact h'
  | cons h1 _ ih => rw [List.append_assoc]; exact .cons h1 ih

theorem Segs.bol {fs : List (Bytes × Grp)} {l rest : List PTok} (h : Segs fs l) (hok : ∀ f ∈ fs, f.2.Ok) (hr : Bol rest) : Bol (l ++ rest) := by
  induction h with
  | nil => exact hr
  | @cons p G fs l l' h1 _ ih =>
    rw [List.append_assoc]
    exact grp_bol (hok (p, G) List.mem_cons_self) h1 (ih fun f hf => hok f (List.mem_cons_of_mem _ hf))

theorem files_notParen {env : Pp.Env} {files : Bytes → Option Grp} {fs : List (Bytes × Grp)} {l rest : List PTok} (h : Segs fs l) : ∀ {s s' : PState} {out : List Tok},
    RunsFiles env files s fs s' out → NotParen rest → s.bare = true → NotParen (l ++ rest) := by
  induction h with
  | nil => intro s s' out _ hp _; exact hp
  | cons h1 _ ih =>
    intro s s' out hr hp hb
    cases hr with
    | cons g1 g2 =>
      rw [List.append_assoc]
      exact runs_notParen g1 h1 (fun hb' => ih g2 hp hb') hb

theorem files_ok {env : Pp.Env} {files : Bytes → Option Grp} (hs : env.strict = false) (hfiles : ∀ p G, files p = some G → IsGrp env p G) :
    ∀ (fs : List (Bytes × Grp)) {s s' : PState} {out : List Tok}, RunsFiles env files s fs s' out → (∀ f ∈ fs, f.2.Ok) → ∃ K, ∀ k, K ≤ k → ∀ (st : Pp.St) (l rest : List PTok),
      Inv env files s.mac s.once st → Segs fs l → Bol rest → NotParen rest →
      ∃ st' ps, Inv env files s'.mac s'.once st' ∧ All out ps ∧ Steps (envK env k) (withConds st []) (l ++ rest) ps (withConds st' []) rest := by
  intro fs
  induction fs with
  | nil =>
    intro s s' out h _
    cases h
    exact ⟨0, fun k _ st l rest hI hl _ _ => by cases hl; exact ⟨st, [], hI, .nil, Steps.refl _ _ _⟩⟩
  | cons f fs ih =>
    intro s s' out h hok
    cases h with
    | cons h1 h2 =>
      obtain ⟨K1, hK1⟩ := runs_ok hs hfiles h1 (hok _ List.mem_cons_self)
      obtain ⟨K2, hK2⟩ := ih h2 fun f hf => hok f (List.mem_cons_of_mem _ hf)
      refine ⟨max K1 K2, fun k hk st l rest hI hl hr hp => ?_⟩
      cases hl with
      | cons g1 g2 =>
        obtain ⟨st1, p1, a1, a2, a3⟩ := hK1 k (by omega) st _ _ [] hI g1 (g2.bol (fun f hf => hok f (List.mem_cons_of_mem _ hf)) hr) (fun hb => files_notParen g2 h2 hp hb)
        obtain ⟨st2, p2, b1, b2, b3⟩ := hK2 k (by omega) st1 _ rest a1 g2 hr hp
        refine ⟨st2, p1 ++ p2, b1, a2.append b2, ?_⟩
        rw [List.append_assoc]
        exact a3.trans b3

theorem body_segs {fs : List (Bytes × Grp)} {l : List PTok} (h : Segs fs l) {e : PTok} (he : e.isEof = true) : Pp.body (l ++ [e]) = l := by
  unfold Pp.body
  rw [List.takeWhile_append_of_pos (by intro p hp; simp [h.noEof p hp])]
  simp [he]

theorem include_written {env : Pp.Env} : ∀ (fs : List (Bytes × Grp)), (∀ f ∈ fs, env.fileExists f.1 = true ∧ IsGrp env f.1 f.2) →
    ∀ (st : Pp.St) (l : List PTok) (gs : List (Bytes × Grp)), Segs gs (Pp.body l) →
    ∃ l', includeTokens env st (fs.map (·.1)) l = some ({ st with nfiles := st.nfiles + fs.length }, l') ∧ Segs (gs ++ fs) (Pp.body l') := by
  intro fs
  induction fs with
  | nil => intro _ st l gs hl; exact ⟨l, rfl, by rw [List.append_nil]; exact hl⟩
  | cons f fs ih =>
    intro hf st l gs hl
    obtain ⟨h1, h2⟩ := hf f List.mem_cons_self
    obtain ⟨ps1, e1, h3, h4, _, _, h5⟩ := file_written h2 st
    have hseg : Segs (gs ++ [f]) (Pp.body l ++ ps1) := by
      have := hl.append (.cons (p := f.1) (G := f.2) h5 .nil)
      rwa [List.append_nil] at this
    obtain ⟨l', g1, g2⟩ := ih (fun g hg => hf g (List.mem_cons_of_mem _ hg)) { st with nfiles := st.nfiles + 1 } (appendTokens l (ps1 ++ [e1])) (gs ++ [f])
      (by rw [appendTokens, ← List.append_assoc, body_segs hseg h4]; exact hseg)
    refine ⟨l', ?_, by rw [List.append_assoc] at g2; exact g2⟩
    rw [List.map_cons, includeTokens]
    simp only [h1, if_true, Option.bind_eq_bind, Option.bind_some, h3, Except.toOption, Option.join, id]
    rw [g1]
    rw [show st.nfiles + 1 + fs.length = st.nfiles + (f :: fs).length from by rw [List.length_cons]; omega]

theorem preprocess_steps {env : Pp.Env} {st st' : Pp.St} {l out : List PTok} {e : PTok} (h : Steps env (withConds st []) (l ++ [e]) out (withConds st' []) [e]) (hc : st.conds = [])
    (he : e.isEof = true) (ho : ∀ t ∈ l ++ [e], t.own = true) : ∃ N, ∀ n, N ≤ n → Pp.preprocess env n st (l ++ [e]) = .ok (withConds st' [], out ++ [e]) := by
  rw [Pp.withConds_self st hc] at h
  obtain ⟨k, N, h⟩ := h
  refine ⟨N + 1 + k, fun n hn => ?_⟩
  have hn2 := h (n - k) (by omega)
  have : n - k + k = n := by omega
  rw [this] at hn2
  obtain ⟨m, hm⟩ : ∃ m, n - k = m + 1 := ⟨n - k - 1, by omega⟩
  rw [Pp.preprocess_ppO env n st _ ho, hn2, hm, Pp.ppO_eof env m _ e he]
  rfl

theorem preprocess_own (env : Pp.Env) (n : Nat) (st : Pp.St) (l : List PTok) : Pp.preprocess env n st (l.map Pp.ownTok) = Pp.preprocess env n st l := by
  unfold Pp.preprocess
  have : (l.map Pp.ownTok).map Pp.ownTok = l.map Pp.ownTok := by rw [List.map_map]; rfl
  rw [this]

/-- The state of the preprocessor before the first file: the macros are `M` and nothing has been included. -/
structure Fresh (M : Macros) (st : Pp.St) : Prop where
  mac : Models M st
  conds : st.conds = []
  once : st.once = []
  guards : st.guards = []
  cache : st.cache = []

namespace Props

/-- **C79**, tokens. If preprocessing the files of the options -include and then the source file outputs the tokens `out` according to C, then these are the tokens the parser is given.

Missing: the operators # and ##, calls of which the arguments leave names that are not replaced because their macro is being replaced, and handlers like `__LINE__`, where they
are expanded (C22-C26 are about them); `#line`, `#error` and other directives where they are not skipped; string literals outside of `#include`; lines of text of which the last token vanishes or is
the name of a function-like macro before a directive (`C79_empty_wrong`); a `#define` without replacement list that is followed by a line that begins with a parenthesis
(`Pp.define_paren_wrong`); a `#` alone on its line (`Pp.C21_null_directive_wrong`); files that only begin like one with an include guard (`Pp.C28_second_section_wrong`, `Pp.C28_else_wrong`); unsigned
arithmetic in `#if`. -/
theorem C79_tokens_partial {env : Pp.Env} (hs : env.strict = false) {files : Bytes → Option Grp} (hfiles : ∀ p G, files p = some G → IsGrp env p G)
    {M : Macros} {st : Pp.St} (hst : Fresh M st) {fs : List (Bytes × Grp)} (hf : ∀ f ∈ fs, env.fileExists f.1 = true ∧ IsGrp env f.1 f.2) {base : Bytes} {G : Grp} (hb : IsGrp env base G)
    {s' : PState} {out : List Tok} (h : RunsFiles env files { mac := M } (fs ++ [(base, G)]) s' out) :
    ∃ K, ∀ k, K ≤ k → ∃ N, ∀ n, N ≤ n → cc1Tokens { env with constExpr := constExpr k } n st (fs.map (·.1)) base = some out := by
  obtain ⟨K, hK⟩ := files_ok hs hfiles _ h (by
    intro f hf'
    rcases List.mem_append.mp hf' with hf' | hf'
    · exact (hf f hf').2.ok
    · rw [List.mem_singleton.mp hf']; exact hb.ok)
  refine ⟨K, fun k hk => ?_⟩
  have hfK : ∀ f ∈ fs, (envK env k).fileExists f.1 = true ∧ IsGrp (envK env k) f.1 f.2 := fun f hf' => ⟨(hf f hf').1, ⟨(hf f hf').2.ex, (hf f hf').2.ok⟩⟩
  obtain ⟨l, h1, h2⟩ := include_written fs hfK st [] [] .nil
  rw [List.nil_append] at h2
  obtain ⟨ps1, e1, h3, h4, h4t, h4b, h5⟩ := file_written (env := envK env k) ⟨hb.ex, hb.ok⟩ { st with nfiles := st.nfiles + fs.length }
  have hseg : Segs (fs ++ [(base, G)]) (Pp.body l ++ ps1) := by
    have := h2.append (.cons (p := base) (G := G) h5 .nil)
    rwa [List.append_nil] at this
  have hI : Inv env files M [] { st with nfiles := st.nfiles + fs.length + 1 } := by
    refine ⟨hst.mac.congr rfl, ?_, fun p => ?_, ?_⟩
    · intro p hp
      have hp : p ∈ st.cache := hp
      rw [hst.cache] at hp; cases hp
    · show p ∈ st.once ↔ _
      rw [hst.once]
    · intro p x hp
      have hp : (p, x) ∈ st.guards := hp
      rw [hst.guards] at hp; cases hp
  obtain ⟨st', ps, g1, g2, g3⟩ := hK k hk { st with nfiles := st.nfiles + fs.length + 1 } _ [Pp.ownTok e1] hI hseg.own ⟨_, _, rfl, h4b⟩ (by
    intro p hp
    cases hp
    show (e1.text == asc "(") = false
    rw [h4t]; rfl)
  obtain ⟨N, hN⟩ := preprocess_steps g3 hst.conds h4 (by
    intro t ht
    rcases List.mem_append.mp ht with ht | ht
    · obtain ⟨q, _, rfl⟩ := List.mem_map.mp ht; rfl
    · rw [List.mem_singleton.mp ht]; rfl)
  refine ⟨N, fun n hn => ?_⟩
  have hp := hN n hn
  rw [show List.map Pp.ownTok (Pp.body l ++ ps1) ++ [Pp.ownTok e1] = List.map Pp.ownTok (Pp.body l ++ (ps1 ++ [e1])) from by simp, preprocess_own] at hp
  unfold cc1Tokens
  rw [h1]
  simp only [Option.bind_eq_bind, Option.bind_some, h3, Except.toOption, Option.join, id, appendTokens]
  rw [hp]
  simp only [Option.bind_some]
  rw [join_all _ g2 (show (Pp.ownTok e1).isEof = true from h4)]
  exact convert_all g2 h4

/-- The macros of a state, without their replacement lists. -/
def namesOf (st : Pp.St) : Macros := fun x => (Pp.lookup st x).map fun _ => .other

theorem models_names (st : Pp.St) : Models (namesOf st) st := by
  refine ⟨⟨fun s b h => ?_, fun s ps va b h => ?_, fun s h => ?_⟩, fun s h => ?_⟩
  · replace h : namesOf st (asc s) = _ := h
    unfold namesOf at h
    cases hl : Pp.lookup st (asc s) <;> rw [hl] at h <;> cases h
  · replace h : namesOf st (asc s) = _ := h
    unfold namesOf at h
    cases hl : Pp.lookup st (asc s) <;> rw [hl] at h <;> cases h
  · replace h : namesOf st (asc s) = _ := h
    show Pp.lookup st (asc s) = none
    unfold namesOf at h
    cases hl : Pp.lookup st (asc s) with
    | none => rfl
    | some m => rw [hl] at h; cases h
  · unfold namesOf at h
    cases hl : Pp.lookup st (asc s) with
    | none => rw [hl] at h; cases h
    | some m => rfl

theorem defineMacros_fresh {env : Pp.Env} : ∀ (l : List (String × String)) {st st' : Pp.St}, defineMacros env st l = .ok st' →
    st'.conds = st.conds ∧ st'.once = st.once ∧ st'.guards = st.guards ∧ st'.cache = st.cache
  | [], st, st', h => by cases h; exact ⟨rfl, rfl, rfl, rfl⟩
  | m :: l, st, st', h => by
    rw [defineMacros] at h
    cases h1 : defineMacro env st m with
    | error e => rw [h1] at h; cases h
    | ok s1 =>
      rw [h1] at h
      have g := defineMacros_fresh l h
      unfold defineMacro at h1
      cases h2 : Pp.tokens env ⟨none, asc "<built-in>"⟩ (asc m.2) with
      | error e => rw [h2] at h1; cases h1
      | ok ts => rw [h2] at h1; cases h1; exact g

/-- **C79**, the state after init_macros is one the first file can be preprocessed in; no word is the name of a macro except `unix`, `linux` and words that begin with `_`. -/
theorem C79_initial (env : Pp.Env) {date time : String} (hd : ∃ ts, Lex.tokenize env.host (asc date) = .ok ts) (ht : ∃ ts, Lex.tokenize env.host (asc time) = .ok ts) :
    ∃ st M, initMacros env date time = .ok st ∧ Fresh M st ∧ ∀ s, Word s → ¬ Reserved s → M.free s := by
  obtain ⟨st, h1, h2, h3⟩ := C75_predefined env hd ht
  have hf : st.conds = [] ∧ st.once = [] ∧ st.guards = [] ∧ st.cache = [] := by
    unfold initMacros at h1
    cases e : defineMacros env {} predefined with
    | error x => rw [e] at h1; cases h1
    | ok s1 =>
      rw [e] at h1
      obtain ⟨_, a2, a3, a4⟩ := defineMacros_fresh _ e
      obtain ⟨_, b2, b3, b4⟩ := defineMacros_fresh _ h1
      exact ⟨h2, b2.trans a2, b3.trans a3, b4.trans a4⟩
  refine ⟨st, namesOf st, h1, ⟨models_names st, hf.1, hf.2.1, hf.2.2.1, hf.2.2.2⟩, fun s hw hr => ?_⟩
  unfold Macros.free namesOf
  rw [h3 s hw hr]; rfl

variable (val : Sc → Tree TN → Option Int)

/-- **C79**. If preprocessing the files according to C outputs the tokens of a file that defines the functions `U`, then cc1 makes of the files some text `P`, and if C says that calling `f` of
these functions with arguments `vs` yields `v` and leaves `m'`, then the machine with `P` loaded does that.

Missing: what C79_tokens_partial and C74_file_partial lack. -/
theorem C79_file_partial {penv : Pp.Env} (hs : penv.strict = false) {files : Bytes → Option Grp} (hfiles : ∀ p G, files p = some G → IsGrp penv p G)
    {M : Macros} {st : Pp.St} (hst : Fresh M st) {fs : List (Bytes × Grp)} (hf : ∀ f ∈ fs, penv.fileExists f.1 = true ∧ IsGrp penv f.1 f.2) {base : Bytes} {G : Grp} (hb : IsGrp penv base G)
    {s' : PState} {out : List Tok} (hr : RunsFiles penv files { mac := M } (fs ++ [(base, G)]) s' out)
    {U : List Def} (h : IsFile val out U) {Xs : List XFunc} (hX : U.mapM Def.fn = some Xs) {Gs : List Whole.Func} (hG : Xs.mapM XFunc.low = some Gs)
    (hx : ∀ f ∈ Xs, f.Wf) (hw : ∀ g ∈ Gs, Whole.Wf g) :
    ∃ P, (∃ K, ∀ k, K ≤ k → ∃ N, ∀ n, N ≤ n → cc1 { penv with constExpr := constExpr k } val n st (fs.map (·.1)) base = some P) ∧
      ∀ {env : Rv.Env} {sym : Rv.Label → Rv.W} {X : Whole.Ext} {Y : ExtX} {R C : Nat}, Whole.Loaded P env sym Gs → Whole.ExtOk env X → ExtSim Y X R → R ≤ C →
        (∀ g ∈ Gs, ∀ fr, g.lay = some fr → Whole.Func.bytes fr / 8 + g.temps ≤ C) →
        ∀ {D it lo hi room : Nat} {sp : Rv.W} {valid : Rv.W → Bool}, (D + 1) * C ≤ room → lo + 8 * room ≤ sp.toNat → sp.toNat ≤ hi → (∀ b, Cg.idx sp b < 8 * room → valid b = false) →
        ∀ f ∈ Xs, ∀ {vs : List Int} {m m' : Rv.Mem} {v : Int},
        callsX Xs Y sym lo hi it D valid (sym (.sym f.name)) f.ret.low ((f.params.map (·.low)).zip vs) m = some (v, m') →
        ∀ {s : Rv.St}, s.r .sp = sp → (∀ b, valid b = true → s.mem b = m b) →
        (∀ (i : Nat) (t : Low.CTy) (x : Int), f.params[i]? = some t → vs[i]? = some x → Cg.ArgRep t.low x (Cg.argAt s i)) → ∀ {t : Nat}, env.index (s.r .ra) = some t →
        ∃ pos, Rv.find P (.sym f.name) = some pos ∧ ∃ s', Rv.Runs P env (pos, s) (t, s') ∧ s'.r .sp = s.r .sp ∧ s'.r .fp = s.r .fp ∧
          (∀ b, valid b = true → s'.mem b = m' b) ∧ Cg.RetRep f.ret.low v (s'.r .a0) ∧
          ∀ b, valid b = false → ¬ Cg.idx sp b < 8 * room → s'.mem b = s.mem b := by
  obtain ⟨P, ⟨M', hP⟩, hrun⟩ := C74_file_partial val h hX hG hx hw
  obtain ⟨K, hK⟩ := C79_tokens_partial hs hfiles hst hf hb hr
  refine ⟨P, ⟨K, fun k hk => ?_⟩, hrun⟩
  obtain ⟨N, hN⟩ := hK k hk
  refine ⟨max M' N, fun n hn => ?_⟩
  unfold cc1
  rw [hN n (by omega)]
  exact hP n (by omega)

/-- A line that ends with a macro with an empty replacement list: the directive after it is not recognised (the `#` is passed on as a token), and `B` is not replaced. C says `a c`. -/
theorem C79_empty_wrong :
    Pp.outTexts Pp.exEnv 80 "#define EMPTY\na EMPTY\n#define B c\nB\n" = some [asc "a", asc "#", asc "define", asc "B", asc "c", asc "B", []] := by decide +kernel

end Props
end Toycc.Src
