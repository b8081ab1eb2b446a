import Verif.Pp.DynProof
/-! C89: __LINE__, __FILE__, __COUNTER__, __BASE_FILE__ and line markers: the properties. -/
namespace Toycc.Pp.Dyn
open Toycc.Lex (asc Kind)

/-- **C89** Text without directives: every use of __LINE__, __FILE__, __COUNTER__ and __BASE_FILE__, also in the replacement lists of object-like macros,
is replaced by the presumed line number of the outermost macro use, the presumed file name, the next number and the name of the main file; nothing of the state changes except the counter.
(Missing: function-like macros, empty replacement lists.) -/
theorem C89_text_partial {D : Bytes → Meaning} {env : Env} {f : FileRef} {p : Pres} (hn : (10 : UInt8) ∉ p.name) (hb : (10 : UInt8) ∉ env.base)
    {st : St} (hk : Knows D st) (hp : Shown st f p) {c' : Nat} {ss : List SrcTok} {os : List Out} (h : Becomes D env.base p [] st.counter ss os c')
    {ts : List PTok} (ht : All2 (Written f) ss ts) (r : List PTok) :
    ∃ out, Steps env st (ts ++ r) out { st with counter := c' } r ∧ All2 Out.IsTok os out :=
  becomes_steps hn hb h st hk hp rfl ts r (ht.imp fun _ _ => Written.rep)

/-- Markers change nothing but the presumed name and line numbers. -/
theorem knows_after {D : Bytes → Meaning} {st : St} (h : Knows D st) (id : Nat) (s : Bytes) (d : Int) : Knows D (afterMarker st id s d) := h

/-- The directive that the tokens of a marker are. -/
theorem marker_directive {f : FileRef} {l v : Nat} {name : Option Bytes} {ts : List PTok} (h : PartToks f (.marker l v name) ts) :
    ∃ hash tl n s, ts = hash :: tl ∧ isHash hash = true ∧ hash.kind = .punct ∧ n.bol = false ∧ n.kind = .ppNum ∧ n.file = f ∧ n.line = l ∧ Lex.IntConst n.text v .int ∧ NameToks name s ∧
      ∀ env rec k st r, directive env rec k st hash (tl ++ r) = readLineMarker rec st (n :: (s ++ r)) := by
  cases h with
  | @marker h n d s _ _ _ h1 h2 h3 h4 h5 h6 h7 h8 h9 =>
    refine ⟨h, d ++ n :: s, n, s, rfl, h1, h2, h4, h5, h6, h7, h8, h9, fun env rec k st r => ?_⟩
    rcases h3 with rfl | ⟨x, rfl, hx⟩
    · rw [List.nil_append, List.cons_append]
      unfold directive
      have hnot : ∀ w : String, (asc w).head?.any Lex.isDig = false → n.is w = false := by
        intro w hw
        obtain ⟨nt, pre, ds, sf, u, lg, e, hp, ⟨hd1, hd2, -, -⟩, -⟩ := h8
        cases hi : n.is w with
        | false => rfl
        | true =>
          exfalso
          have hi : n.text = asc w := by simpa [PTok.is] using hi
          rw [← hi, e] at hw
          have hdig : ∀ nt : Lex.Notation, ∀ q ∈ nt.prefixes, q ≠ [] → q.head?.any Lex.isDig = true := by
            intro nt
            cases nt <;> decide
          by_cases hpe : pre = []
          · subst hpe
            have hr : nt.radix ≤ 10 := by
              cases nt <;> first | decide | (exfalso; revert hp; decide)
            have k1 : ∀ r : Fin 17, ∀ d : UInt8, Lex.isDigitOf r.val d = true → r.val ≤ 10 → Lex.isDig d = true := by decide +kernel
            cases ds with
            | nil => exact hd1 rfl
            | cons a ds =>
              have := k1 ⟨nt.radix, by omega⟩ a (hd2 a (by simp)) hr
              simp [this] at hw
          · have := hdig nt pre hp hpe
            cases pre with
            | nil => exact hpe rfl
            | cons a pre => simp at hw this; rw [this] at hw; cases hw
      simp only [hnot "include" (by decide), hnot "include_next" (by decide), hnot "define" (by decide), hnot "undef" (by decide), hnot "if" (by decide),
        hnot "ifdef" (by decide), hnot "ifndef" (by decide), hnot "elif" (by decide), hnot "else" (by decide), hnot "endif" (by decide), hnot "line" (by decide),
        Bool.false_eq_true, if_false, h5, beq_self_eq_true, if_true]
    · rw [List.singleton_append, List.cons_append, List.cons_append]
      unfold directive
      have hnot : ∀ w : String, (asc "line" == asc w) = false → x.is w = false := by
        intro w hw; unfold PTok.is; rw [hx, hw]
      have hline : x.is "line" = true := by unfold PTok.is; rw [hx]; exact beq_self_eq_true _
      simp only [hnot "include" (by decide), hnot "include_next" (by decide), hnot "define" (by decide), hnot "undef" (by decide), hnot "if" (by decide),
        hnot "ifdef" (by decide), hnot "ifndef" (by decide), hnot "elif" (by decide), hnot "else" (by decide), hnot "endif" (by decide), hline,
        Bool.false_eq_true, if_false, if_true]

theorem marker_steps {env : Env} (hs : env.strict = false) {st : St} (hc : st.conds = []) {f : FileRef} {id : Nat} (hid : f.id = some id)
    {l v : Nat} {name : Option Bytes} {ts : List PTok} (h : PartToks f (.marker l v name) ts) {r : List PTok} (hr : ∃ u q, r = u :: q ∧ u.bol = true) :
    Steps env st (ts ++ r) [] (afterMarker st id (name.getD (lineState st f).1) ((v : Int) - l)) r := by
  obtain ⟨h, tl, n, s, rfl, h1, h2, h4, h5, h6, rfl, h8, h9, hd⟩ := marker_directive h
  rw [List.cons_append]
  refine Steps.dir hs h1 h2 ⟨4, fun k hk => ?_⟩
  rw [hd]
  exact readMarker hc hid h4 h5 h6 h8 h9 hr k hk

/-- **C89** A line marker in file `f`, outside of conditional sections, on physical line `l` with number `v`: the presumed number of every line `x` of the file becomes `x + v - l`,
the presumed name the one given, if one is given; other files are not affected, and nothing else changes. -/
theorem C89_marker {env : Env} (hs : env.strict = false) {st : St} (hc : st.conds = []) {f : FileRef} {id : Nat} (hid : f.id = some id) {p : Pres} (hp : Shown st f p)
    {l v : Nat} {name : Option Bytes} {ts : List PTok} (h : PartToks f (.marker l v name) ts) {r : List PTok} (hr : ∃ u q, r = u :: q ∧ u.bol = true) :
    ∃ st', Steps env st (ts ++ r) [] st' r ∧ Shown st' f ⟨name.getD p.name, (v : Int) - l⟩ ∧ (∀ g : FileRef, g.id ≠ some id → lineState st' g = lineState st g) ∧
      st' = { st with lines := st'.lines } := by
  refine ⟨_, marker_steps hs hc hid h hr, ?_, fun g hg => after_others _ _ _ _ g hg, rfl⟩
  obtain ⟨_, nm⟩ := f
  cases hid
  unfold Shown at hp ⊢
  rw [after_shown, hp]

theorem FileToks.ne {f : FileRef} {ps : List Part} {us : List PTok} (h : FileToks f ps us) : us ≠ [] := by
  induction h with
  | nil => simp
  | text _ _ ih => simp [ih]
  | marker _ _ _ ih => simp [ih]

/-- **C89** A file of text and line markers, outside of conditional sections, becomes what `FileBecomes` says. -/
theorem C89_file_partial {D : Bytes → Meaning} {env : Env} (hs : env.strict = false) (hb : (10 : UInt8) ∉ env.base) {f : FileRef} {id : Nat} (hid : f.id = some id)
    {p p' : Pres} {c c' : Nat} {ps : List Part} {os : List Out} (h : FileBecomes D env.base p c ps os p' c') (hn : (10 : UInt8) ∉ p.name)
    (hnames : ∀ l n s, Part.marker l n (some s) ∈ ps → (10 : UInt8) ∉ s) {st : St} (hk : Knows D st) (hp : Shown st f p) (hc : st.counter = c) (hst : st.conds = [])
    {ts : List PTok} (ht : FileToks f ps ts) :
    ∃ st' out e N, All2 Out.IsTok os out ∧ e.isEof = true ∧ Shown st' f p' ∧ st'.counter = c' ∧ ∀ n, N ≤ n → ppO env n st ts = .ok (st', out ++ [e]) := by
  have main : ∃ st' out e, Steps env st ts out st' [e] ∧ e.isEof = true ∧ All2 Out.IsTok os out ∧ Shown st' f p' ∧ st'.counter = c' := by
    induction h generalizing st ts with
    | nil =>
      cases ht with
      | nil he hbol => exact ⟨st, [], _, Steps.refl _ _ _, he, .nil, hp, hc⟩
    | @text p p' c c1 c' ss ps o1 o2 hbec _ ih =>
      cases ht with
      | text hpt hft =>
      cases hpt with
      | text ha =>
      subst hc
      obtain ⟨o1, g1, g2⟩ := C89_text_partial hn hb hk hp hbec ha _
      obtain ⟨st', o2, e, k1, k2, k3, k4, k5⟩ := ih hn (fun l n s hm => hnames l n s (by simp [hm])) (st := { st with counter := c1 }) hk hp rfl hst hft
      exact ⟨st', o1 ++ o2, e, g1.trans k1, k2, g2.append k3, k4, k5⟩
    | @marker p p' c c' ps o l n name _ ih =>
      cases ht with
      | @marker _ _ _ _ ts us hpt hft hbol =>
      have hne : ∃ u q, us = u :: q ∧ u.bol = true := by
        cases us with
        | nil => exact absurd rfl hft.ne
        | cons u q => exact ⟨u, q, rfl, hbol u (by simp)⟩
      obtain ⟨st1, g1, g2, -, g4⟩ := C89_marker hs hst hid hp hpt hne
      have hk1 : Knows D st1 := by rw [g4]; exact hk
      have hc1 : st1.counter = c := by rw [g4]; exact hc
      have hs1 : st1.conds = [] := by rw [g4]; exact hst
      obtain ⟨st', o2, e, k1, k2, k3, k4, k5⟩ := ih (by
          cases name with
          | none => exact hn
          | some s => exact hnames l n s (by simp)) (fun l n s hm => hnames l n s (by simp [hm])) hk1 g2 hc1 hs1 hft
      exact ⟨st', o2, e, g1.trans k1, k2, k3, k4, k5⟩
  obtain ⟨st', out, e, ⟨k, N, hst⟩, he, h1, h2, h3⟩ := main
  refine ⟨st', out, e, N + k + 1, h1, he, h2, h3, fun n hn => ?_⟩
  obtain ⟨m, rfl⟩ : ∃ m, n = m + 1 + k := ⟨n - 1 - k, by omega⟩
  rw [hst (m + 1) (by omega)]
  unfold ppO
  rw [pp, if_pos he]
  rfl

/-- **C89** The tokens of a text read as file `f` know the file and the line on which they begin (one more than the number of newlines before). -/
theorem C89_written {env : Env} {f : FileRef} {text : Bytes} {ts : List PTok} (h : tokens env f text = .ok ts) :
    ∀ t ∈ ts, t.file = f ∧ t.origin = none ∧ t.hs = [] ∧ ∃ loc, t.text = (text.drop loc).take t.text.length ∧ t.line = 1 + (text.take loc).count 10 := by
  unfold tokens at h
  cases hl : Lex.tokenize env.host text with
  | error e => rw [hl] at h; cases h
  | ok us =>
    rw [hl] at h
    cases h
    intro t ht
    obtain ⟨u, hu, rfl⟩ := List.mem_map.mp ht
    refine ⟨rfl, rfl, rfl, u.loc, ?_, ?_⟩
    · show (text.drop u.loc).take u.len = (text.drop u.loc).take ((text.drop u.loc).take u.len).length
      rw [List.length_take]
      by_cases hle : u.len ≤ (text.drop u.loc).length
      · rw [Nat.min_eq_left hle]
      · rw [Nat.min_eq_right (by omega), List.take_of_length_le (by omega), List.take_of_length_le (by omega)]
    · exact Lex.C13_line_numbers _ _ _ hl u hu

/-- The numbers in the output. -/
def nums : List Out → List Nat
  | [] => []
  | .num n :: o => n :: nums o
  | _ :: o => nums o

theorem nums_append : ∀ a b : List Out, nums (a ++ b) = nums a ++ nums b
  | [], _ => rfl
  | .num n :: a, b => by simp [nums, nums_append a b]
  | .same _ _ :: a, b => by simp [nums, nums_append a b]
  | .str _ :: a, b => by simp [nums, nums_append a b]

/-- **C89** The uses of __COUNTER__ get the numbers from the counter's value on, one after the other, each once. (Stated for text in which no other macro gives numbers.) -/
theorem C89_counter {D : Bytes → Meaning} {B : Bytes} {p : Pres} {H : List Bytes} {c c' : Nat} {ts : List SrcTok} {o : List Out} (h : Becomes D B p H c ts o c')
    (hl : ∀ s, D s ≠ .line) : c ≤ c' ∧ nums o = List.range' c (c' - c) := by
  induction h with
  | nil => simp [nums]
  | same _ _ ih => exact ih
  | line _ _ hd => exact absurd hd (hl _)
  | file _ _ _ _ ih => exact ih
  | baseFile _ _ _ _ ih => exact ih
  | @counter H c t ts o c' _ _ _ _ ih =>
    refine ⟨by omega, ?_⟩
    show _ :: nums o = _
    rw [ih.2, show c' - c = (c' - (c + 1)) + 1 by omega, List.range'_succ]
  | @object H c t ts o1 o2 c1 c' b _ _ _ _ _ _ ih1 ih2 =>
    refine ⟨by omega, ?_⟩
    rw [nums_append, ih1.2, ih2.2, show c' - c = (c1 - c) + (c' - c1) by omega, ← List.range'_append_1, show c + (c1 - c) = c1 by omega]

/-- **C89** fails for line markers: whatever the number `v`, the line after `#line v` is number `v + 1` (C: `v`). -/
theorem C89_marker_wrong {D : Bytes → Meaning} {B : Bytes} {p : Pres} {c : Nat} (l v : Nat) (s : Bytes) (hs : D s = .line) :
    FileBecomes D B p c [.marker l v none, .text [⟨.ident, s, l + 1⟩]] [.num (v + 1)] ⟨p.name, (v : Int) - l⟩ c :=
  .marker (.text (o1 := [.num (v + 1)]) (o2 := []) (.line rfl (by simp) hs (by simp; omega) .nil) .nil)

theorem section_refused {env : Env} {st : St} (hc : st.conds ≠ []) {name : Option Bytes} {n : PTok} {s r : List PTok}
    (hb : n.bol = false) (hk : n.kind = .ppNum) (hs : NameToks name s) (hr : ∃ u q, r = u :: q ∧ u.bol = true) :
    ∀ k, 4 ≤ k → readLineMarker (pp env k false) st (n :: (s ++ r)) = .error (.diag .unterminated) := by
  intro k hk4
  obtain ⟨u, q, rfl, hu⟩ := hr
  have hsb : ∀ t ∈ s, t.bol = false := by cases hs with | none => simp | some h => simpa using h
  have hcl := copyLine_line (n :: s) u q (by intro t ht; rcases List.mem_cons.mp ht with rfl | ht; exact hb; exact hsb t ht) hu
  have hrun := marker_run (env := env) (st := st) (l := (n :: s).map ownTok) (e := ownTok (newEof u)) rfl (by
    intro t0 ht0
    obtain ⟨t, ht, rfl⟩ := List.mem_map.mp ht0
    clear ht0
    rcases List.mem_cons.mp ht with rfl | ht
    · exact ⟨.inl hk, hb⟩
    · cases hs with
      | none => cases ht
      | some h1 h2 h3 => simp only [List.mem_cons, List.not_mem_nil, or_false] at ht; subst ht; exact ⟨.inr h2, h1⟩) k (by
        have : s.length ≤ 1 := by cases hs <;> simp
        simp; omega)
  obtain ⟨x, hx⟩ := hrun
  unfold readLineMarker
  rw [List.cons_append] at hcl
  rw [List.map_cons, List.cons_append] at hx hcl
  have hce : st.conds.isEmpty = false := by cases h : st.conds with | nil => exact absurd h hc | cons => rfl
  simp only [hcl, hx, hce, Bool.not_false, if_true]

/-- **C89** fails for line markers inside conditional sections: all of them are refused. -/
theorem C89_section_refused {env : Env} (hs : env.strict = false) {st : St} (hc : st.conds ≠ []) {f : FileRef} {l v : Nat} {name : Option Bytes} {ts : List PTok}
    (h : PartToks f (.marker l v name) ts) {r : List PTok} (hr : ∃ u q, r = u :: q ∧ u.bol = true) :
    ∀ k, 5 ≤ k → ppO env k st (ts ++ r) = .error (.diag .unterminated) := by
  intro k hk5
  obtain ⟨x, tl, n, s, rfl, h1, h2, hb, hk, -, -, -, hs', hd⟩ := marker_directive h
  obtain ⟨k, rfl⟩ : ∃ m, k = m + 1 := ⟨k - 1, by omega⟩
  have he : expandMacro env (pp env k false) st x (tl ++ r) = .ok none := by
    unfold expandMacro
    split
    · rfl
    · have : findMacro st x = none := by unfold findMacro; rw [h2]; rfl
      rw [this]
  unfold ppO
  rw [List.cons_append, pp, he]
  simp only [hash_not_eof _ h2, h1, hs, hd, section_refused hc hb hk hs' hr k (by omega), Bool.not_true, Bool.false_and, Bool.false_eq_true, if_false]
  rfl

/-! ### Examples -/

/-- What the names mean in a state. -/
def meaning (st : St) (s : Bytes) : Meaning :=
  match lookup st s with
  | none => .ordinary
  | some m =>
    match m.handler with
    | some .line => .line
    | some .file => .file
    | some .counter => .counter
    | some .baseFile => .baseFile
    | some .timestamp => .other
    | none =>
      if m.objlike = true ∧ m.name = s ∧ m.body = m.body.dropLast ++ [lineEnd] ∧ ∀ t ∈ m.body.dropLast, t.isEof = false ∧ t.hs = [] ∧ t.text ≠ asc "#" then
        .object (m.body.dropLast.map fun t => (t.kind, t.text))
      else .other

/-- Every state is one that `Knows` describes. -/
theorem knows_meaning (st : St) : Knows (meaning st) st := by
  intro s
  cases hl : lookup st s with
  | none => simp only [meaning, hl]
  | some m =>
    cases hh : m.handler with
    | some h => cases h <;> simp [meaning, hl, hh]
    | none =>
      by_cases hc : m.objlike = true ∧ m.name = s ∧ m.body = m.body.dropLast ++ [lineEnd] ∧ ∀ t ∈ m.body.dropLast, t.isEof = false ∧ t.hs = [] ∧ t.text ≠ asc "#"
      · simp only [meaning, hl, hh, if_pos hc]
        exact ⟨m, _, rfl, hh, hc.1, hc.2.1, hc.2.2.1, rfl, hc.2.2.2⟩
      · simp only [meaning, hl, hh, if_neg hc]

/-- The predefined macros of this property. -/
def exSt : St :=
  [("__FILE__", Handler.file), ("__LINE__", .line), ("__COUNTER__", .counter), ("__BASE_FILE__", .baseFile)].foldl
    (fun st m => addMacro st { name := asc m.1, objlike := true, body := [], handler := some m.2 }) {}

def exTexts (n : Nat) (src : String) : Option (List Bytes) :=
  match tokens exEnv ⟨some 0, asc "a.c"⟩ (asc src) with
  | .error _ => none
  | .ok ts => match preprocess exEnv n exSt ts with
    | .error _ => none
    | .ok (_, out) => some (out.map (·.text))

/-- The digits of the number in a line marker are read as an octal constant when they begin with 0: the line after `#line 010` is 9 (C: 10). -/
theorem C89_octal_wrong : exTexts 60 "#line 010\n__LINE__\n" = some [asc "9", []] := by decide +kernel

/-- An argument that is used twice is expanded twice: with `#define D(x) x x`, the two copies of the argument of `D(__COUNTER__)` are different numbers (C expands an argument once). -/
theorem C89_counter_reuse_wrong : exTexts 60 "#define D(x) x x\nD(__COUNTER__)\n" = some [asc "0", asc "1", []] := by decide +kernel

example : exTexts 80 "#define L __LINE__\n#define M L __FILE__\nM\n#line 100 \"b.c\"\n\nM __COUNTER__ __COUNTER__\n" =
    some [asc "3", asc "\"a.c\"", asc "102", asc "\"b.c\"", asc "0", asc "1", []] := by decide +kernel

/-- `#define L __LINE__` -/
def exSt1 : St := addMacro exSt { name := asc "L", objlike := true, body := [{ kind := .ident, text := asc "__LINE__", bol := false, sp := true, own := true }, lineEnd] }

def exF : FileRef := ⟨some 0, asc "a.c"⟩
def exTok (s : String) (l : Nat) : PTok := { kind := .ident, text := asc s, bol := true, sp := false, file := exF, line := l }
def exSrc (s : String) (l : Nat) : SrcTok := ⟨.ident, asc s, l⟩
def exHash : PTok := { kind := .punct, text := asc "#", bol := true, sp := false, file := exF, line := 4 }
def exLine : PTok := { kind := .ident, text := asc "line", bol := false, sp := false, file := exF, line := 4 }
def exNum : PTok := { kind := .ppNum, text := asc "100", bol := false, sp := true, file := exF, line := 4 }
def exEof : PTok := { kind := .eof, text := [], bol := true, sp := false }

theorem ex_written (s : String) (l : Nat) (h : asc s ≠ asc "#") : Written exF (exSrc s l) (exTok s l) := ⟨rfl, rfl, rfl, rfl, rfl, rfl, rfl, h⟩

/-- Line 3: `L x __COUNTER__`, line 4: `#line 100`, line 6: `L __FILE__ __COUNTER__`. -/
def exParts : List Part := [.text [exSrc "L" 3, exSrc "x" 3, exSrc "__COUNTER__" 3], .marker 4 100 none, .text [exSrc "L" 6, exSrc "__FILE__" 6, exSrc "__COUNTER__" 6]]

theorem exParts_becomes : FileBecomes (meaning exSt1) exEnv.base ⟨asc "a.c", 0⟩ 0 exParts
    ([.num 3, .same .ident (asc "x"), .num 0] ++ ([.num 102, .str (asc "a.c"), .num 1] ++ [])) ⟨asc "a.c", 96⟩ 2 := by
  refine .text (.object (o1 := [.num 3]) (o2 := [_, _]) (b := [(.ident, asc "__LINE__")]) rfl (by simp) (by decide +kernel) (by simp) (.line rfl (by decide) (by decide +kernel) (by decide) .nil)
    (.same (.inr (.inl (by decide +kernel))) (.counter rfl (by simp) (by decide +kernel) .nil))) ?_
  refine .marker ?_
  exact .text (.object (o1 := [.num 102]) (o2 := [_, _]) (b := [(.ident, asc "__LINE__")]) rfl (by simp) (by decide +kernel) (by simp) (.line rfl (by decide) (by decide +kernel) (by decide) .nil)
    (.file rfl (by simp) (by decide +kernel) (.counter rfl (by simp) (by decide +kernel) .nil))) .nil

theorem exParts_toks : FileToks exF exParts ([exTok "L" 3, exTok "x" 3, exTok "__COUNTER__" 3] ++ ([exHash, exLine, exNum] ++ ([exTok "L" 6, exTok "__FILE__" 6, exTok "__COUNTER__" 6] ++ [exEof]))) := by
  refine .text (.text (.cons (ex_written _ _ (by decide)) (.cons (ex_written _ _ (by decide)) (.cons (ex_written _ _ (by decide)) .nil)))) ?_
  refine .marker ?_ ?_ (by decide)
  · exact .marker (d := [exLine]) (s := []) rfl rfl (.inr ⟨_, rfl, rfl⟩) rfl rfl rfl rfl
      ⟨.decimal, [], asc "100", [], false, false, by decide, by decide, ⟨by decide, by decide +kernel, by decide, by decide⟩, by decide, by decide +kernel, by decide +kernel⟩ .none
  · exact .text (.text (.cons (ex_written _ _ (by decide)) (.cons (ex_written _ _ (by decide)) (.cons (ex_written _ _ (by decide)) .nil)))) (.nil rfl rfl)

example : ∃ st' out e N, All2 Out.IsTok ([.num 3, .same .ident (asc "x"), .num 0] ++ ([.num 102, .str (asc "a.c"), .num 1] ++ [])) out ∧ e.isEof = true ∧ Shown st' exF ⟨asc "a.c", 96⟩ ∧ st'.counter = 2 ∧
    ∀ n, N ≤ n → ppO exEnv n exSt1 ([exTok "L" 3, exTok "x" 3, exTok "__COUNTER__" 3] ++ ([exHash, exLine, exNum] ++ ([exTok "L" 6, exTok "__FILE__" 6, exTok "__COUNTER__" 6] ++ [exEof]))) = .ok (st', out ++ [e]) :=
  C89_file_partial (env := exEnv) rfl (by decide) (f := exF) rfl exParts_becomes (by decide) (by intro l n s h; simp [exParts] at h) (knows_meaning exSt1) rfl rfl rfl exParts_toks

end Toycc.Pp.Dyn
