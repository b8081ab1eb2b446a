import Verif.Src.CharsProof
import Verif.Src.UnitProps
/-!
C75: from the characters of the source files to the machine.

Vocabulary of the statements (Verif.Src.CharsSpec): `Contains env path ts`: in the file `path` the tokens `ts` are written, with white space and comments between them. `words' ts` are the
identifiers and keywords among `ts`. `st` is the state of the preprocessor when it starts: the macros that are predefined or given by options.
-/
namespace Toycc.Src.Props
open Toycc.Rv Toycc.Cg Toycc.Low Toycc.Src
open Toycc.Parse (Tok P Tree)
open Toycc.Frame hiding St
open Toycc.Whole (Func Loaded ExtOk)
open Toycc.Lex (asc GapItem ValidGap gapBytes glues IntConst)
open Toycc.Pp (Bytes PTok)

/-- **C75**, keywords. A preprocessing token that is spelled like a word becomes a keyword if the word is one, and an identifier otherwise. -/
theorem C75_keywords {s : String} (hw : Word s) {p : PTok} (hk : p.kind = .ident) (ht : p.text = asc s) :
    (IsKeyword s → convertTok p = some (.kw s)) ∧ (¬ IsKeyword s → convertTok p = some (.ident s)) :=
  ⟨fun h => convert_is ⟨by rw [hk, ht]; exact .kw h, by rw [hk]; decide, by rw [hk]; decide, fun e => by rw [hk] at e; cases e⟩,
   fun h => convert_is ⟨by rw [hk, ht]; exact .name hw h, by rw [hk]; decide, by rw [hk]; decide, fun e => by rw [hk] at e; cases e⟩⟩

example : IsKeyword "while" ∧ Word "_x1" ∧ ¬ IsKeyword "_x1" ∧ ¬ IsKeyword "inline" := by
  refine ⟨by unfold IsKeyword; decide +kernel, ⟨'_', ['x', '1'], rfl, by unfold Letter; decide +kernel, ?_⟩, by unfold IsKeyword; decide +kernel, by unfold IsKeyword; decide +kernel⟩
  unfold Letter
  decide +kernel

/-! ### Gaps -/

theorem starts_sub {s r q : Bytes} (h : Lex.startsWith (s ++ 32 :: r) q = true) (hl : s.length < q.length) : (32 : UInt8) ∈ q := by
  obtain ⟨t, ht⟩ : q <+: s ++ 32 :: r := by simpa [Lex.startsWith] using h
  have e : (q ++ t)[s.length]? = (s ++ 32 :: r)[s.length]? := by rw [ht]
  rw [List.getElem?_append_left hl, List.getElem?_append_right (Nat.le_refl _), Nat.sub_self] at e
  exact List.mem_of_getElem? e

/-- White space does not continue a token. -/
theorem glues_blank (k : Lex.Kind) (w r : Bytes) : glues k w (32 :: r) = false := by
  unfold glues
  have h1 : Lex.openers.any (fun q => decide (w.length < q.length) && Lex.startsWith (w ++ 32 :: r) q) = false := by
    rw [List.any_eq_false]
    intro q hq h
    rw [Bool.and_eq_true, decide_eq_true_eq] at h
    exact absurd (starts_sub h.2 h.1) (by clear h; revert q; decide)
  have h2 : Lex.punctTable.any (fun q => decide (w.length < q.length) && Lex.startsWith (w ++ 32 :: r) q) = false := by
    rw [List.any_eq_false]
    intro q hq h
    rw [Bool.and_eq_true, decide_eq_true_eq] at h
    exact absurd (starts_sub h.2 h.1) (by clear h; revert q; decide)
  rw [h1, Bool.false_or]
  have h3 : Lex.isDig 32 = false := by decide
  have h4 : Lex.isAlnum 32 = false := by decide
  have h5 : Lex.identByte 32 = false := by decide
  cases k
  case ident => simpa using h5
  case ppNum => simp [h4]
  case punct => simp [h2, h3]
  all_goals rfl

/-- Tokens with a blank, and perhaps more white space and comments, after each. -/
def spread : List (Bytes × List GapItem) → Bytes
  | [] => []
  | (w, g) :: r => w ++ (32 :: (gapBytes g ++ spread r))

/-- **C75**, layout. Tokens may be written in any way, with any white space and comments between them: tokens with a blank after each are read as these tokens. (`Laid` also allows no blank
where the next character does not continue the token.) -/
theorem C75_layout : ∀ {ts : List Tok} {ws : List (Bytes × List GapItem)}, ts.length = ws.length → (∀ p ∈ ts.zip ws, (∃ k, Spelling p.1 p.2.1 k) ∧ ValidGap p.2.2) →
    ∀ {g : List GapItem}, ValidGap g → Laid (gapBytes g ++ spread ws) ts
  | [], [], _, _, g, hg => by rw [spread, List.append_nil]; exact .nil hg
  | t :: ts, (w, gw) :: ws, hl, h, g, hg => by
    obtain ⟨⟨k, hs⟩, hgw⟩ := h (t, (w, gw)) List.mem_cons_self
    have hg' : ValidGap (.ws 32 :: gw) := by
      refine ⟨fun i hi => ?_, fun a body b e => ?_⟩
      · rcases List.mem_cons.mp hi with rfl | hi
        · exact Or.inl rfl
        · exact hgw.1 i hi
      · cases a with
        | nil => injection e with e _; cases e
        | cons x a => injection e with _ e; exact hgw.2 a body b e
    have ih := C75_layout (ts := ts) (ws := ws) (by simpa using hl) (fun p hp => h p (List.mem_cons_of_mem _ hp)) hg'
    rw [spread]
    exact .cons hg hs (glues_blank _ _ _) (by simp) ih
  | [], _ :: _, hl, _, _, _ => by simp at hl
  | _ :: _, [], hl, _, _, _ => by simp at hl

theorem newlines_id : ∀ {c : Bytes}, 13 ∉ c → Source.Spec.newlines c = c
  | [], _ => by rw [Source.Spec.newlines]
  | b :: r, h => by
    have hb : b ≠ 13 := fun e => h (e ▸ List.mem_cons_self)
    have ih := newlines_id (c := r) (fun hr => h (List.mem_cons_of_mem _ hr))
    rw [Source.Spec.newlines.eq_def]
    split
    · rename_i e; injection e with e _; exact absurd e hb
    · rename_i e; injection e with e _; exact absurd e hb
    · rename_i e; cases e; rw [ih]
    · rename_i e; cases e

theorem splice_id : ∀ {c : Bytes}, 92 ∉ c → Source.Spec.splice 0 c = c
  | [], _ => by rw [Source.Spec.splice]; rfl
  | b :: r, h => by
    have hb : b ≠ 92 := fun e => h (e ▸ List.mem_cons_self)
    have ih := splice_id (c := r) (fun hr => h (List.mem_cons_of_mem _ hr))
    rw [Source.Spec.splice.eq_def]
    split
    · rename_i e; injection e with e _; exact absurd e hb
    · rename_i e; cases e; rw [ih]; rfl
    · rename_i e; cases e; rw [ih]
    · rename_i e; cases e

theorem ucn_id {c : Bytes} (h : 92 ∉ c) : Source.Spec.ucn c = c := (Source.C11_pieces c [] h).1

/-- **C75**, plain text. In a text without carriage returns and backslashes that ends in a newline the characters are those of the file. -/
theorem C75_plain {c : Bytes} (h1 : 13 ∉ c) (h2 : 92 ∉ c) (h3 : c.getLast? = some 10) : logical c = c := by
  unfold logical
  rw [if_pos h3, newlines_id h1, splice_id h2, ucn_id h2]

/-! ### Predefined macros -/

theorem lookup_add (st : Pp.St) (m : Pp.Macro) (n : Bytes) : Pp.lookup (Pp.addMacro st m) n = if m.name = n then some m else Pp.lookup st n := by
  unfold Pp.lookup Pp.addMacro
  dsimp only
  rw [List.find?_cons]
  by_cases h : m.name = n
  · rw [if_pos h]; simp [h]
  · rw [if_neg h]
    simp only [beq_eq_false_iff_ne.mpr h]
    congr 1
    induction st.macros with
    | nil => rfl
    | cons p l ih =>
      by_cases hp : p.1 = m.name
      · rw [List.filter_cons_of_neg (by simp [hp]), ih, List.find?_cons_of_neg (by simp [hp, h])]
      · rw [List.filter_cons_of_pos (by simp [hp]), List.find?_cons, List.find?_cons, ih]

theorem defineMacros_none {env : Pp.Env} : ∀ (l : List (String × String)) {st st' : Pp.St}, defineMacros env st l = .ok st' →
    st'.conds = st.conds ∧ ∀ n, n ∉ l.map (fun m => asc m.1) → Pp.lookup st' n = Pp.lookup st n
  | [], st, st', h => by cases h; exact ⟨rfl, fun _ _ => rfl⟩
  | m :: l, st, st', h => by
    rw [defineMacros] at h
    cases h1 : defineMacro env st m with
    | error e => rw [h1] at h; cases h
    | ok s1 =>
      rw [h1] at h
      obtain ⟨g1, g2⟩ := defineMacros_none l h
      unfold defineMacro at h1
      cases h2 : Pp.tokens env ⟨none, asc "<built-in>"⟩ (asc m.2) with
      | error e => rw [h2] at h1; cases h1
      | ok ts =>
        rw [h2] at h1
        cases h1
        refine ⟨g1.trans rfl, fun n hn => ?_⟩
        rw [List.map_cons, List.mem_cons, not_or] at hn
        rw [g2 n hn.2, lookup_add, if_neg (Ne.symm hn.1)]

theorem defineMacros_ok {env : Pp.Env} : ∀ (l : List (String × String)) (st : Pp.St), (∀ m ∈ l, ∃ ts, Lex.tokenize env.host (asc m.2) = .ok ts) → ∃ st', defineMacros env st l = .ok st'
  | [], st, _ => ⟨st, rfl⟩
  | m :: l, st, h => by
    obtain ⟨ts, ht⟩ := h m List.mem_cons_self
    rw [defineMacros, defineMacro, Pp.tokens, ht]
    exact defineMacros_ok l _ fun m hm => h m (List.mem_cons_of_mem _ hm)

def readable (h : Lex.Host) (s : String) : Bool :=
  match Lex.tokenize h (asc s) with
  | .ok _ => true
  | .error _ => false

theorem predefined_readable (h : Lex.Host) : predefined.all (fun m => readable h m.2) = true := by cases h <;> decide +kernel

/-- A name the compiler may have made a macro: `unix`, `linux` and names that begin with `_`. -/
def Reserved (s : String) : Prop := s = "unix" ∨ s = "linux" ∨ s.toList.head? = some '_'

theorem names_reserved : ∀ s ∈ predefined.map (·.1) ++ builtins.map (·.1) ++ ["__DATE__", "__TIME__"], ascii s ∧ (s = "unix" ∨ s = "linux" ∨ s.toList.head? = some '_') := by
  have h : (predefined.map (·.1) ++ builtins.map (·.1) ++ ["__DATE__", "__TIME__"]).all (fun s => s.toList.all (fun c => decide (c.toNat < 128)) && (s == "unix" || s == "linux" || s.toList.head? == some '_')) = true := by
    decide +kernel
  intro s hs
  have := List.all_eq_true.mp h s hs
  simp only [Bool.and_eq_true, List.all_eq_true, decide_eq_true_eq, Bool.or_eq_true, beq_iff_eq, or_assoc] at this
  exact this

/-- **C75**, predefined macros. All definitions of init_macros can be read, and afterwards no conditional inclusion is open, and no word is the name of a macro except `unix`, `linux` and words that
begin with `_`. -/
theorem C75_predefined (env : Pp.Env) {date time : String} (hd : ∃ ts, Lex.tokenize env.host (asc date) = .ok ts) (ht : ∃ ts, Lex.tokenize env.host (asc time) = .ok ts) :
    ∃ st, initMacros env date time = .ok st ∧ st.conds = [] ∧ ∀ s, Word s → ¬ Reserved s → Pp.lookup st (asc s) = none := by
  obtain ⟨s1, h1⟩ := defineMacros_ok (env := env) predefined {} (by
    intro m hm
    have := List.all_eq_true.mp (predefined_readable env.host) m hm
    unfold readable at this
    cases e : Lex.tokenize env.host (asc m.2) with
    | error x => rw [e] at this; cases this
    | ok ts => exact ⟨ts, rfl⟩)
  obtain ⟨s2, h2⟩ := defineMacros_ok (env := env) [("__DATE__", date), ("__TIME__", time)] (builtins.foldl addBuiltin s1) (by
    intro m hm
    rcases List.mem_cons.mp hm with rfl | hm
    · exact hd
    · rw [List.mem_singleton.mp hm]; exact ht)
  refine ⟨s2, by rw [initMacros, h1]; exact h2, ?_, ?_⟩
  · have a := (defineMacros_none _ h1).1
    have b := (defineMacros_none _ h2).1
    rw [b]
    exact a
  · intro s hw hr
    have key : ∀ t ∈ predefined.map (·.1) ++ builtins.map (·.1) ++ ["__DATE__", "__TIME__"], asc t ≠ asc s := by
      intro t ht e
      obtain ⟨ha, hres⟩ := names_reserved t ht
      have : t = s := by rw [← str_asc ha, e, str_asc (word_ascii hw)]
      exact hr (this ▸ hres)
    rw [(defineMacros_none _ h2).2 _ (by
      intro hm
      obtain ⟨m, hm, e⟩ := List.mem_map.mp hm
      refine key m.1 (List.mem_append_right _ ?_) e
      rcases List.mem_cons.mp hm with rfl | hm
      · exact List.mem_cons_self
      · rw [List.mem_singleton.mp hm]; exact List.mem_cons_of_mem _ List.mem_cons_self)]
    have hb : ∀ (l : List (String × Pp.Handler)) (st : Pp.St), (∀ m ∈ l, asc m.1 ≠ asc s) → Pp.lookup (l.foldl addBuiltin st) (asc s) = Pp.lookup st (asc s) := by
      intro l
      induction l with
      | nil => intro st _; rfl
      | cons m l ih =>
        intro st h
        rw [List.foldl_cons, ih _ fun m hm => h m (List.mem_cons_of_mem _ hm), addBuiltin, lookup_add, if_neg (h m List.mem_cons_self)]
    rw [hb _ _ fun m hm => key m.1 (List.mem_append_left _ (List.mem_append_right _ (List.mem_map_of_mem hm)))]
    rw [(defineMacros_none _ h1).2 _ (by
      intro hm
      obtain ⟨m, hm, e⟩ := List.mem_map.mp hm
      exact key m.1 (List.mem_append_left _ (List.mem_append_left _ (List.mem_map_of_mem hm))) e)]
    rfl

/-! ### From files to tokens, and to the machine -/

/-- The tokens of files one after the other. -/
def tokensOf (fs : List (Bytes × List Tok)) : List Tok := fs.flatMap (·.2)

theorem flat_eq (fs : List (Bytes × List Tok)) : flat fs = tokensOf fs := by
  induction fs with
  | nil => rfl
  | cons f fs ih => rw [flat, ih]; rfl

/-- **C75**, tokens. The parser is given the tokens of the files of the options -include, in their order, followed by those of the source file, if none of the words is the name of a macro.

Missing: directives and macros, whose effect is stated separately (C21-C28); string literals (C19, C27); names with other than ASCII characters. -/
theorem C75_tokens_partial {env : Pp.Env} {st : Pp.St} (hc : st.conds = []) (fs : List (Bytes × List Tok)) (hf : ∀ f ∈ fs, env.fileExists f.1 = true ∧ Contains env f.1 f.2)
    {base : Bytes} {ts : List Tok} (hb : Contains env base ts) (hm : ∀ s ∈ words' (tokensOf fs ++ ts), Pp.lookup st (asc s) = none) :
    ∃ M, ∀ n, M ≤ n → cc1Tokens env n st (fs.map (·.1)) base = some (tokensOf fs ++ ts) := by
  rw [← flat_eq] at hm ⊢
  exact cc1_laid hc fs hf hb hm

variable (val : Sc → Tree TN → Option Int)

/-- **C75**. In the source file, and in those of the options -include, are written the tokens `ts`, the text of a file that defines the functions `U`. Then cc1 makes of them some text `P`, and
if C says that calling `f` of these functions with arguments `vs` yields `v` and leaves `m'`, then the machine with `P` loaded does that.

Missing: what C75_tokens_partial and C74_file_partial lack. -/
theorem C75_file_partial {penv : Pp.Env} {st : Pp.St} (hconds : st.conds = []) (fs : List (Bytes × List Tok)) (hf : ∀ f ∈ fs, penv.fileExists f.1 = true ∧ Contains penv f.1 f.2)
    {base : Bytes} {ts0 : List Tok} (hb : Contains penv base ts0) (hm : ∀ s ∈ words' (tokensOf fs ++ ts0), Pp.lookup st (asc s) = none)
    {U : List Def} (h : IsFile val (tokensOf fs ++ ts0) U) {Xs : List XFunc} (hX : U.mapM Def.fn = some Xs) {Gs : List Func} (hG : Xs.mapM XFunc.low = some Gs)
    (hx : ∀ f ∈ Xs, f.Wf) (hw : ∀ g ∈ Gs, Whole.Wf g) :
    ∃ P, (∃ M, ∀ n, M ≤ n → cc1 penv val n st (fs.map (·.1)) base = some P) ∧
      ∀ {env : Env} {sym : Label → W} {X : Whole.Ext} {Y : ExtX} {R C : Nat}, Loaded P env sym Gs → ExtOk env X → ExtSim Y X R → R ≤ C →
        (∀ g ∈ Gs, ∀ fr, g.lay = some fr → Func.bytes fr / 8 + g.temps ≤ C) →
        ∀ {D it lo hi room : Nat} {sp : W} {valid : W → Bool}, (D + 1) * C ≤ room → lo + 8 * room ≤ sp.toNat → sp.toNat ≤ hi → (∀ b, idx sp b < 8 * room → valid b = false) →
        ∀ f ∈ Xs, ∀ {vs : List Int} {m m' : Mem} {v : Int},
        callsX Xs Y sym lo hi it D valid (sym (.sym f.name)) f.ret.low ((f.params.map (·.low)).zip vs) m = some (v, m') →
        ∀ {s : St}, s.r .sp = sp → (∀ b, valid b = true → s.mem b = m b) →
        (∀ (i : Nat) (t : CTy) (x : Int), f.params[i]? = some t → vs[i]? = some x → ArgRep t.low x (argAt s i)) → ∀ {t : Nat}, env.index (s.r .ra) = some t →
        ∃ pos, find P (.sym f.name) = some pos ∧ ∃ s', Runs P env (pos, s) (t, s') ∧ s'.r .sp = s.r .sp ∧ s'.r .fp = s.r .fp ∧
          (∀ b, valid b = true → s'.mem b = m' b) ∧ RetRep f.ret.low v (s'.r .a0) ∧
          ∀ b, valid b = false → ¬ idx sp b < 8 * room → s'.mem b = s.mem b := by
  obtain ⟨P, ⟨M, hP⟩, hrun⟩ := C74_file_partial val h hX hG hx hw
  obtain ⟨M', hM'⟩ := C75_tokens_partial hconds fs hf hb hm
  refine ⟨P, ⟨max M M', fun n hn => ?_⟩, hrun⟩
  unfold cc1
  rw [hM' n (by omega)]
  exact hP n (by omega)

end Toycc.Src.Props
