import Verif.Pp.GlueRun
import Verif.Pp.CondProps
/-! C88: the operators # and ## in replacement lists. -/
namespace Toycc.Pp.Glue
open Toycc.Lex (asc)

section
variable {env : Env} {rec : Rec} {st : St} {ps : List Bytes} {va : Bytes → Prop} {σ : Bytes → Actual} {calm : Bytes → Prop} {P : Bytes → List PTok → Prop}

/-- **C88**, for any complete macro replacement `rec` of arguments. If the parts `is` of a replacement list become `v` by C, then subst turns tokens that spell the list into tokens that spell `v`, each
of which is the token its spelling stands for.

Missing: `x ## # p`; chains that begin with two empty arguments and go on; arguments used with # or ## after they have been replaced, unless macro replacement leaves them alone; __VA_OPT__. The code is
wrong for the first three (below). -/
theorem C88_operators_partial (hW : World env rec st ps σ calm P) {args : List Arg} (hA : ArgsOk env ps va σ P (fun _ => False) args) {is : List Item} (hok : ∀ i ∈ is, i.Ok ps va σ)
    (ho : Ordered calm is) {v : List Bytes} (hv : BodyVal env.host σ is v) {bs : List PTok} {e : PTok} (hb : bs.map (·.text) = is.flatMap Item.spell) (hp : ∀ t ∈ bs, Plain env.host t)
    (he : e.isEof = true) (het : e.text = []) :
    ∃ out : List PTok, subst env rec { st := st, args := args, acc := [], rest := bs ++ [e] } = .ok (st, out ++ [e]) ∧ out.map (·.text) = v ∧ ∀ t ∈ out, Lexed env.host t := by
  obtain ⟨out, h1, h2, h3⟩ := body_run hW he het is (acc := []) hA hok hv ho (fun _ _ _ _ h => h) hb hp
  exact ⟨out, by simpa using h1, h2, h3⟩

end

/-! ### Arguments without macros -/

theorem pp_own (env : Env) (st : St) (l : List PTok) (e : PTok) (n : Nat) (hn : l.length < n) (top : Bool)
    (h : ∀ t ∈ l, t.isEof = false ∧ isHash t = false ∧ findMacro st t = none ∧ t.own = true) (he : e.isEof = true) :
    pp env n top st (l ++ [e]) = .ok (st, l.map (mark st) ++ [e], []) := by
  induction l generalizing n with
  | nil =>
    obtain ⟨m, rfl⟩ : ∃ m, n = m + 1 := ⟨n - 1, by omega⟩
    rw [List.nil_append, pp, if_pos he]; rfl
  | cons t r ih =>
    obtain ⟨m, rfl⟩ : ∃ m, n = m + 1 := ⟨n - 1, by omega⟩
    obtain ⟨h1, h2, h3, h4⟩ := h t (by simp)
    have ih := ih m (by simp only [List.length_cons] at hn; omega) (fun u hu => h u (by simp [hu]))
    have hx : expandMacro env (pp env m false) st t (r ++ [e]) = .ok none := by
      unfold expandMacro
      split
      · rfl
      · rw [h3]
    rw [List.cons_append, pp, hx]
    simp only [h1, h2, ih, h4, Bool.not_false, Bool.false_eq_true, if_false, if_true]
    rfl

/-- An argument as read_macro_args makes it (the nodes are its own), of at most `n` tokens, none of which is the name of a macro or `#`. -/
def Calm (env : Env) (st : St) (A : Actual) (n : Nat) (l : List PTok) : Prop :=
  ∃ ts e, l = ts ++ [e] ∧ e.isEof = true ∧ e.own = true ∧ (∀ t ∈ ts, t.isEof = false ∧ Lexed env.host t ∧ t.text ≠ asc "#" ∧ findMacro st t = none ∧ t.own = true) ∧
    ts.map (·.text) = A.raw ∧ joinToks ts = A.text ∧ ts.length < n

theorem join_congr {a b : List PTok} (ht : a.map (·.text) = b.map (·.text)) (hs : a.tail.map (·.sp) = b.tail.map (·.sp)) : joinToks a = joinToks b := by
  cases a with
  | nil =>
    cases b with
    | nil => rfl
    | cons => simp at ht
  | cons x a =>
    cases b with
    | nil => simp at ht
    | cons y b =>
      simp only [List.map_cons, List.cons.injEq] at ht
      simp only [List.tail_cons] at hs
      simp only [joinToks, ht.1]
      congr 1
      have h2 := ht.2
      clear ht
      induction a generalizing b with
      | nil =>
        cases b with
        | nil => rfl
        | cons => simp at h2
      | cons u a ih =>
        cases b with
        | nil => simp at h2
        | cons w b =>
          simp only [List.map_cons, List.cons.injEq] at h2 hs
          simp only [List.flatMap_cons, h2.1, hs.1, ih b hs.2 h2.2]

theorem calm_serve {env : Env} {st : St} {A : Actual} {n : Nat} {l : List PTok} (hf : A.full = A.raw) (h : Calm env st A n l) :
    ∃ out e pre, pp env n false st l = .ok (st, out ++ [e], pre) ∧ e.isEof = true ∧ (∀ t ∈ out, t.isEof = false ∧ Lexed env.host t) ∧
      out.map (·.text) = A.full ∧ ∀ b sp, Calm env st A n (residue pre (setFlags b sp (out ++ [e]))) := by
  obtain ⟨ts, e, rfl, he, heo, ht, h1, h2, h3⟩ := h
  refine ⟨ts.map (mark st), e, [], pp_own env st ts e n h3 false (fun t hm => ?_) he, he, fun t hm => ?_, by rw [hf, ← h1]; simp [mark], fun b sp => ?_⟩
  · obtain ⟨a1, a2, a3, a4, a5⟩ := ht t hm
    exact ⟨a1, by simp [isHash, is_not a3], a4, a5⟩
  · obtain ⟨u, hu, rfl⟩ := List.mem_map.1 hm
    exact ⟨(ht u hu).1, (ht u hu).2.1⟩
  · cases ts with
    | nil =>
      refine ⟨[], tailTok { e with bol := b, sp := sp }, ?_, he, rfl, by simp, h1, h2, h3⟩
      simp [residue, setFlags, heo]
    | cons t ts =>
      have ho : (mark st t).own = true := (ht t List.mem_cons_self).2.2.2.2
      refine ⟨({ mark st t with bol := b, sp := sp } :: ts.map (mark st)).map tailTok, tailTok e, ?_, he, rfl, ?_, ?_, ?_, by simpa using h3⟩
      · simp [residue, setFlags, ho]
      · intro u hu
        obtain ⟨w, hw, rfl⟩ := List.mem_map.1 hu
        rcases List.mem_cons.1 hw with rfl | hw
        · obtain ⟨a1, a2, a3, a4, a5⟩ := ht t List.mem_cons_self
          exact ⟨a1, a2, a3, a4, rfl⟩
        · obtain ⟨x, hx, rfl⟩ := List.mem_map.1 hw
          obtain ⟨a1, a2, a3, a4, a5⟩ := ht x (List.mem_cons_of_mem _ hx)
          exact ⟨a1, a2, a3, a4, rfl⟩
      · rw [← h1]
        simp [tailTok, mark]
      · rw [← h2]
        refine join_congr (by simp [tailTok, mark]) (by simp [tailTok, mark])

theorem calm_written {env : Env} {st : St} {A : Actual} {n : Nat} {l : List PTok} (h : Calm env st A n l) : Written env.host A l := by
  obtain ⟨ts, e, h0, he, -, ht, h1, h2, -⟩ := h
  exact ⟨ts, e, h0, he, fun t hm => ⟨(ht t hm).1, (ht t hm).2.1⟩, h1, h2⟩

/-- **C88** for calls with arguments in which no macro is named: every replacement list with # and ## but `x ## # p` and chains that begin with two empty arguments and go on, where arguments may be used
any number of times in any way. -/
theorem C88_calls_partial {env : Env} (hs : env.strict = false) {st : St} {ps : List Bytes} {va : Bytes → Prop} {σ : Bytes → Actual} {n : Nat} {args : List Arg}
    (hps : ∀ p ∈ ps, p ≠ asc "#" ∧ p ≠ asc "##" ∧ p ≠ asc "," ∧ p ≠ asc "__VA_OPT__") (hother : ∀ s, s ∉ ps → args.find? (fun a => a.name == s) = none)
    (hpar : ∀ p ∈ ps, ∃ a, args.find? (fun a => a.name == p) = some a ∧ (a.isVa = true ↔ va p) ∧ Calm env st (σ p) n a.toks)
    (hfull : ∀ p ∈ ps, (σ p).full = (σ p).raw ∧ (10 : UInt8) ∉ (σ p).text) {is : List Item} (hok : ∀ i ∈ is, i.Ok ps va σ) {v : List Bytes} (hv : BodyVal env.host σ is v)
    {bs : List PTok} {e : PTok} (hb : bs.map (·.text) = is.flatMap Item.spell) (hp : ∀ t ∈ bs, Plain env.host t) (he : e.isEof = true) (het : e.text = []) :
    ∃ out : List PTok, subst env (pp env n false) { st := st, args := args, acc := [], rest := bs ++ [e] } = .ok (st, out ++ [e]) ∧ out.map (·.text) = v ∧ ∀ t ∈ out, Lexed env.host t := by
  have hW : World env (pp env n false) st ps σ (fun _ => True) (fun p l => Calm env st (σ p) n l) :=
    ⟨hs, hps, fun p hp l h => calm_serve (hfull p hp).1 h, fun p _ _ l h => calm_written h, fun p hp => (hfull p hp).2⟩
  refine C88_operators_partial (va := va) hW ⟨hother, fun p hp => ?_⟩ hok ?_ hv hb hp he het
  · obtain ⟨a, h1, h2, h3⟩ := hpar p hp
    exact ⟨a, h1, h3, h2, fun _ => calm_written h3⟩
  · clear hv hok hb
    induction is with
    | nil => exact trivial
    | cons i is ih => exact ⟨fun _ _ => .inl trivial, ih⟩

/-! ### Example: `x##y #y , ## r z` with the arguments `ab`, `1 + 2`, `c` -/

def tk (k : Lex.Kind) (s : String) (sp : Bool) : PTok := { kind := k, text := asc s, bol := false, sp := sp, own := true }

def exEof : PTok := { kind := .eof, text := [], bol := false, sp := false, own := true }

def exArgs : List Arg :=
  [{ name := asc "x", toks := [tk .ident "ab" false, exEof] }, { name := asc "y", toks := [tk .ident "n1" false, tk .punct "+" true, tk .ident "q" true, exEof] },
   { name := asc "r", isVa := true, toks := [tk .ident "c" false, exEof] }]

def exσ (p : Bytes) : Actual :=
  if p = asc "x" then ⟨[asc "ab"], [asc "ab"], asc "ab"⟩
  else if p = asc "y" then ⟨[asc "n1", asc "+", asc "q"], [asc "n1", asc "+", asc "q"], asc "n1 + q"⟩
  else ⟨[asc "c"], [asc "c"], asc "c"⟩

def exBody : List Item := [.chain (.par (asc "x")) [.par (asc "y")], .chain (.str (asc "y")) [], .gnu (asc "r"), .chain (.tok (asc "z")) []]

def exToks : List PTok :=
  [tk .ident "x" false, tk .punct "##" false, tk .ident "y" false, tk .punct "#" true, tk .ident "y" false, tk .punct "," true, tk .punct "##" true, tk .ident "r" true, tk .ident "z" true]

def exVa (p : Bytes) : Prop := p = asc "r"


/-- The arguments of the example are as `Calm` asks for. -/
theorem ex_calm {ts : List PTok} {A : Actual} (h : ∀ t ∈ ts, t.isEof = false ∧ Lexed exEnv.host t ∧ t.text ≠ asc "#" ∧ findMacro {} t = none ∧ t.own = true) (h1 : ts.map (·.text) = A.raw)
    (h2 : joinToks ts = A.text) (h3 : ts.length < 9) : Calm exEnv {} A 9 (ts ++ [exEof]) :=
  ⟨ts, exEof, rfl, rfl, rfl, h, h1, h2, h3⟩

theorem ex_tok {k : Lex.Kind} {s : String} {sp : Bool} (h1 : (tk k s sp).isEof = false) (h2 : Lexed exEnv.host (tk k s sp)) (h3 : asc s ≠ asc "#") (h4 : findMacro {} (tk k s sp) = none) :
    (tk k s sp).isEof = false ∧ Lexed exEnv.host (tk k s sp) ∧ (tk k s sp).text ≠ asc "#" ∧ findMacro {} (tk k s sp) = none ∧ (tk k s sp).own = true :=
  ⟨h1, h2, h3, h4, rfl⟩

/-- `M(ab, n1 + q, c)` becomes `abn1 + q "n1 + q" , c z`. -/
example : ∃ out : List PTok, subst exEnv (pp exEnv 9 false) { st := {}, args := exArgs, acc := [], rest := exToks ++ [exEof] } = .ok ({}, out ++ [exEof]) ∧
    out.map (·.text) = [asc "abn1", asc "+", asc "q", asc "\"n1 + q\"", asc ",", asc "c", asc "z"] ∧ ∀ t ∈ out, Lexed exEnv.host t := by
  refine C88_calls_partial (ps := [asc "x", asc "y", asc "r"]) (va := exVa) (σ := exσ) (is := exBody) rfl ?_ ?_ ?_ ?_ ?_ ?_ ?_ ?_ rfl rfl
  · decide +kernel
  · intro s hs
    simp only [List.mem_cons, List.not_mem_nil, or_false, not_or] at hs
    simp [exArgs, List.find?, beq_eq_false_iff_ne.2 (Ne.symm hs.1), beq_eq_false_iff_ne.2 (Ne.symm hs.2.1), beq_eq_false_iff_ne.2 (Ne.symm hs.2.2)]
  · intro p hp
    simp only [List.mem_cons, List.not_mem_nil, or_false] at hp
    rcases hp with rfl | rfl | rfl
    · refine ⟨_, (by decide +kernel : exArgs.find? (fun a => a.name == asc "x") = some { name := asc "x", toks := [tk .ident "ab" false, exEof] }), ?_, ?_⟩
      · simp only [exVa]; decide +kernel
      · refine ex_calm (ts := [tk .ident "ab" false]) ?_ (by decide +kernel) (by decide +kernel) (by decide)
        intro t ht
        simp only [List.mem_cons, List.not_mem_nil, or_false] at ht
        subst ht
        exact ex_tok rfl (by unfold Lexed; decide +kernel) (by decide +kernel) (by decide +kernel)
    · refine ⟨_, (by decide +kernel : exArgs.find? (fun a => a.name == asc "y") =
        some { name := asc "y", toks := [tk .ident "n1" false, tk .punct "+" true, tk .ident "q" true, exEof] }), ?_, ?_⟩
      · simp only [exVa]; decide +kernel
      · refine ex_calm (ts := [tk .ident "n1" false, tk .punct "+" true, tk .ident "q" true]) ?_ (by decide +kernel) (by decide +kernel) (by decide)
        intro t ht
        simp only [List.mem_cons, List.not_mem_nil, or_false] at ht
        rcases ht with rfl | rfl | rfl <;> exact ex_tok rfl (by unfold Lexed; decide +kernel) (by decide +kernel) (by decide +kernel)
    · refine ⟨_, (by decide +kernel : exArgs.find? (fun a => a.name == asc "r") = some { name := asc "r", isVa := true, toks := [tk .ident "c" false, exEof] }), ?_, ?_⟩
      · simp [exVa]
      · refine ex_calm (ts := [tk .ident "c" false]) ?_ (by decide +kernel) (by decide +kernel) (by decide)
        intro t ht
        simp only [List.mem_cons, List.not_mem_nil, or_false] at ht
        subst ht
        exact ex_tok rfl (by unfold Lexed; decide +kernel) (by decide +kernel) (by decide +kernel)
  · decide +kernel
  · intro i hi
    simp only [exBody, List.mem_cons, List.not_mem_nil, or_false] at hi
    rcases hi with rfl | rfl | rfl | rfl
    · refine ⟨by simp only [El.Ok]; decide +kernel, ?_, ?_, ?_⟩
      · intro x hx
        simp only [List.mem_cons, List.not_mem_nil, or_false] at hx
        subst hx
        exact ⟨by simp only [El.Ok]; decide +kernel, fun p h => by cases h⟩
      · intro e2 e3 r h; simp at h
      · intro p r h _ h2; cases h2
    · refine ⟨by simp only [El.Ok]; decide +kernel, by simp, by simp, by simp⟩
    · exact ⟨by decide +kernel, rfl⟩
    · refine ⟨by simp only [El.Ok]; decide +kernel, by simp, by simp, by simp⟩
  · have j : Join exEnv.host [asc "ab"] [asc "n1", asc "+", asc "q"] [asc "abn1", asc "+", asc "q"] :=
      Join.join [] (asc "ab") (asc "n1") [asc "+", asc "q"] ⟨.ident, _, (by decide +kernel : Lex.lexOne exEnv.host (asc "ab" ++ asc "n1") = .ok (.tok .ident 4 .none))⟩
    have i1 : ItemVal exEnv.host exσ (.chain (.par (asc "x")) [.par (asc "y")]) [asc "abn1", asc "+", asc "q"] := .chain (.cons (w := [asc "abn1", asc "+", asc "q"]) j (.nil _))
    have i2 := ItemVal.alone (h := exEnv.host) (σ := exσ) (.str (asc "y"))
    have i3 := ItemVal.gnu (h := exEnv.host) (σ := exσ) (asc "r")
    have i4 := ItemVal.alone (h := exEnv.host) (σ := exσ) (.tok (asc "z"))
    have b := BodyVal.cons i1 (.cons i2 (.cons i3 (.cons i4 .nil)))
    exact (by decide +kernel : [asc "abn1", asc "+", asc "q"] ++ ((El.str (asc "y")).alone exσ ++ ((if (exσ (asc "r")).raw = [] then [] else asc "," :: (exσ (asc "r")).full) ++
      ((El.tok (asc "z")).alone exσ ++ []))) = [asc "abn1", asc "+", asc "q", asc "\"n1 + q\"", asc ",", asc "c", asc "z"]) ▸ b
  · decide +kernel
  · intro t ht
    simp only [exToks, List.mem_cons, List.not_mem_nil, or_false] at ht
    rcases ht with rfl | rfl | rfl | rfl | rfl | rfl | rfl | rfl | rfl <;> exact ⟨rfl, by unfold Lexed; decide +kernel⟩

/-! ### From text -/

/-- The same from the characters of a file. -/
example : outTexts exEnv 60 "#define M(x,y,r...) x##y #y , ## r z\nM(ab, n1 + q, c)\n" =
    some [asc "abn1", asc "+", asc "q", asc "\"n1 + q\"", asc ",", asc "c", asc "z", []] := by decide +kernel

/-- The comma goes if there are no variable arguments. -/
example : outTexts exEnv 60 "#define M(x,...) f(x, ## __VA_ARGS__)\nM(a)\n" = some [asc "f", asc "(", asc "a", asc ")", []] := by decide +kernel

/-- **C88** fails for `p ## q ## r` if the first two arguments are empty: if a token comes before, the third argument is joined to that, `x 1` becomes `x1`. -/
theorem C88_two_empty_wrong : outTexts exEnv 60 "#define M(p,q,r) x p##q##r\nM(,,1)\n" = some [asc "x1", []] := by decide +kernel

/-- If none comes before, the file is refused ("'##' cannot appear at start of macro expansion"). -/
theorem C88_two_empty_refused : outTexts exEnv 60 "#define M(p,q,r) p##q##r\nM(,,1)\n" = none := by decide +kernel

/-- **C88** fails for `x ## # p`: `L ## #x` should become `L"a"`, the file is refused (# is taken for the operand). -/
theorem C88_paste_string_refused : outTexts exEnv 60 "#define W(x) L ## #x\nW(a)\n" = none := by decide +kernel

/-- **C88** fails for an argument that is an operand of ## after it has been replaced: `S(a B)` should become `a 2 a B1`. -/
theorem C88_reuse_wrong : outTexts exEnv 60 "#define B 2\n#define S(x) x x##1\nS(a B)\n" = some [asc "a", asc "2", asc "a", asc "21", []] := by decide +kernel

/-- **C88** fails for object-like macros: their ## stays. -/
theorem C88_objlike_wrong : outTexts exEnv 60 "#define X a ## b\nX\n" = some [asc "a", asc "##", asc "b", []] := by decide +kernel

/-- White space before a pasted token is lost, which # can show: `T(P(1,2))` should become `"x 12"`. -/
theorem C88_space_lost : outTexts exEnv 90 "#define S(x) #x\n#define T(x) S(x)\n#define P(a,b) x a##b\nT(P(1,2))\n" = some [asc "\"x12\"", []] := by decide +kernel

end Toycc.Pp.Glue
