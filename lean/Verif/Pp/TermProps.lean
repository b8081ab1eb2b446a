import Verif.Pp.TermPlain
/-! C22: preprocessing terminates. -/
namespace Toycc.Pp
open Toycc.Lex (Kind asc)

/-- Preprocessing the tokens `l` comes to an end with the outcome `r` (the tokens of the result, or a diagnostic): some
amount of work is enough, and any larger amount gives the same. -/
def EndsWith (env : Env) (st : St) (l : List PTok) (r : Except PErr (St × List PTok)) : Prop :=
  r ≠ .error .fuel ∧ ∃ N, ∀ n, N ≤ n → preprocess env n st l = r

/-- The situations in which nothing is claimed. The run passes through one of them: it takes a directive from the
result of a macro expansion (or from a macro argument), it meets an include, or it uses a macro argument for a second
time, and the list that the first use has left (preprocess2 changes the list it is given) still has something to be
expanded in its part that came out of that first use, or a macro call reaches into that part. -/
def NotClaimed (env : Env) (st : St) (l : List PTok) : Prop :=
  ∃ e ∈ [PErr.generated, .includes, .reused], EndsWith { env with strict := true } st l (.error e)

theorem ends_strict (env : Env) (hs : env.strict = true) (st : St) (hn : ∀ p ∈ st.macros, p.2.name = p.1) (l : List PTok) :
    ∃ r, EndsWith env st l r := by
  obtain ⟨N, hN⟩ := top_term hs _ st (l.map ownTok) hn (Nat.le_refl _)
  refine ⟨preprocess env N st l, ?_, N, fun n hle => ?_⟩
  · unfold preprocess
    split
    · rename_i e he; intro h; cases h; exact hN he
    · split <;> intro h <;> cases h
  · unfold preprocess
    rcases pp_mono env N n hle true st (l.map ownTok) with h | h
    · exact absurd h hN
    · rw [h]

/-- **Preprocessing terminates**, whatever the macros (recursive and mutually recursive ones included) and whatever the
tokens, conditional directives and definitions among them included, unless one of the situations `NotClaimed` is met.
The hypothesis about the table says that every macro is filed under its own name, as add_macro does it. -/
theorem C22_terminates_partial (env : Env) (hs : env.strict = false) (st : St) (hn : ∀ p ∈ st.macros, p.2.name = p.1) (l : List PTok) :
    (∃ r, EndsWith env st l r) ∨ NotClaimed env st l := by
  have hrel : relax { env with strict := true } = env := by
    show ({ env with strict := false } : Env) = env
    rw [← hs]
  obtain ⟨r, hr, N, hN⟩ := ends_strict { env with strict := true } rfl st hn l
  by_cases hsil : Silent r
  · obtain ⟨e, he, rfl⟩ := hsil
    right
    refine ⟨e, ?_, hr, N, hN⟩
    cases e <;> first | (cases he; done) | (simp; done) | (exact absurd rfl hr)
  · left
    refine ⟨r, hr, N, fun n hle => ?_⟩
    have h1 := hN n hle
    rcases pp_sim { env with strict := true } rfl n true st (l.map ownTok) with ⟨e, he, h⟩ | h
    · exfalso
      apply hsil
      refine ⟨e, he, ?_⟩
      rw [← h1]
      unfold preprocess
      rw [h]
    · rw [← h1]
      rw [hrel] at h
      unfold preprocess
      rw [h]

/-- **Texts without directives**: preprocessing terminates, without exceptions, when the tokens have no `#` among them
and no macro uses `#` or `##` or one of its parameters twice. -/
theorem C22_plain_partial (env : Env) (hs : env.strict = false) (st : St) (hn : ∀ p ∈ st.macros, p.2.name = p.1) (l : List PTok)
    (hl : ∀ t ∈ l, t.text ≠ asc "#") (ht : ∀ t ∈ l, t.tail = false)
    (hb : ∀ p ∈ st.macros, ∀ u ∈ p.2.body, u.text ≠ asc "#" ∧ u.text ≠ asc "##" ∧ u.tail = false)
    (ho : ∀ p ∈ st.macros, ∀ x, (x ∈ p.2.params ∨ p.2.va = some x) → p.2.body.countP (·.text == x) ≤ 1) :
    ∃ r, EndsWith env st l r := by
  rcases C22_terminates_partial env hs st hn l with h | ⟨e, he, hne, N, hN⟩
  · exact h
  · exfalso
    have hlin : Linear st.macros :=
      ⟨fun p hp u hu => ⟨⟨(hb p hp u hu).1, (hb p hp u hu).2.2⟩, (hb p hp u hu).2.1⟩, ho⟩
    have hcl : ∀ t ∈ l.map ownTok, Clean t := by
      intro t h
      obtain ⟨u, hu, rfl⟩ := List.mem_map.mp h
      exact ⟨hl u hu, ht u hu⟩
    have h1 := hN N (Nat.le_refl _)
    have hh := (pp_tame hlin { env with strict := true } N true st (l.map ownTok) rfl hcl).1
    have hsil : e.silent = true := by
      simp only [List.mem_cons, List.not_mem_nil, or_false] at he
      rcases he with rfl | rfl | rfl <;> rfl
    unfold preprocess at h1
    split at h1
    · rename_i e' he'
      cases h1
      exact hne (by rw [hh e he' hsil])
    · split at h1
      · cases h1
      · cases h1
        cases hsil

/-! ### Cases -/

/-- `#define a b`, `#define b a`, `#define f(x) g(x) f`, `#define g(x) f(x) g`, `#define m(x, y) x m(y, x)`-like tables:
mutually recursive macros, with and without parameters. -/
def exTable : List (Bytes × Macro) :=
  [(asc "a", { name := asc "a", objlike := true, body := [tk "b", tk "a", eofTok] }),
   (asc "b", { name := asc "b", objlike := true, body := [tk "a", tk "b", eofTok] }),
   (asc "f", { name := asc "f", objlike := false, params := [asc "x"],
               body := [tk "g", pn "(", tk "x", pn ")", tk "f", eofTok] }),
   (asc "g", { name := asc "g", objlike := false, params := [asc "x"], va := some (asc "__VA_ARGS__"),
               body := [tk "f", pn "(", tk "x", pn ")", tk "g", tk "__VA_ARGS__", eofTok] })]

/-- `a f ( f ( a ) , b ) ( g ( b ) )`. -/
def exList : List PTok :=
  [tk "a", tk "f", pn "(", tk "f", pn "(", tk "a", pn ")", pn ",", tk "b", pn ")", pn "(", tk "g", pn "(", tk "b", pn ")", pn ")", eofTok]

theorem plain_ex : ∃ r, EndsWith exEnv { macros := exTable } exList r :=
  C22_plain_partial exEnv rfl { macros := exTable } (by decide +kernel) exList (by decide +kernel) (by decide +kernel)
    (by decide +kernel) (by
      intro p hp x hx
      have key : ∀ p ∈ exTable, ∀ x ∈ p.2.params ++ p.2.va.toList, p.2.body.countP (·.text == x) ≤ 1 := by decide +kernel
      refine key p hp x ?_
      rcases hx with hx | hx
      · simp [hx]
      · simp [hx])

/-- The first alternative of the theorem, with directives and an argument used twice: the result is not one of the
exceptions, it is the list of tokens. -/
example : (match tokens exEnv ⟨some 0, asc "a.c"⟩ (asc "#define N 1\n#if N\n#define M(a) a a b\n#define b M(b)\n#endif\nM(N) M(M)\n") with
    | .error _ => none
    | .ok ts => match preprocess { exEnv with strict := true } 90 {} ts with
      | .error _ => none
      | .ok (_, out) => some (out.map (·.text))) =
    some [asc "1", asc "1", asc "M", asc "(", asc "b", asc ")", asc "M", asc "M", asc "M", asc "(", asc "b", asc ")", []] := by
  decide +kernel

/-- The exceptions are met by: a directive made by a macro, an include, an argument that grows by its first use. -/
def strictErr (s : String) : Option PErr :=
  match tokens exEnv ⟨some 0, asc "a.c"⟩ (asc s) with
  | .error _ => none
  | .ok ts => match preprocess { exEnv with strict := true } 90 {} ts with
    | .error e => some e
    | .ok _ => none

example : strictErr "#define H #\nH define x 1\n" = some .generated := by decide +kernel
example : strictErr "#include \"x.h\"\n" = some .includes := by decide +kernel
example : strictErr "#define lp (\n#define rp )\n#define g(x) x\n#define f(x) x x\nf(g lp 1 rp)\n" = some .reused := by decide +kernel

/-! ### A run that does not end -/

/-- A name that is not a macro, at the place of a file name. -/
def fooTok (own : Bool) (d : Int) (sh : Bytes) : PTok := { (tk "foo") with own := own, delta := d, shown := sh }

theorem include_loops (env : Env) (st : St) (hm : lookup st (asc "foo") = none) (m n : Nat) (u : PTok) (hu : u.kind = .ident ∧ u.text = asc "foo" ∧ u.bol = false)
    (e : PTok) (he : e.bol = true) (r : List PTok) :
    readIncludeFilename (pp env m false) n st (u :: e :: r) = .error .fuel := by
  induction n generalizing u e r with
  | zero => rfl
  | succ n ih =>
    obtain ⟨h1, h2, h3⟩ := hu
    have hlt : u.is "<" = false := by
      rw [Bool.eq_false_iff, Ne, is_eq, h2]; decide +kernel
    have hhash : u.is "#" = false := by
      rw [Bool.eq_false_iff, Ne, is_eq, h2]; decide +kernel
    have hc : copyLine (u :: e :: r) = .ok ([ownTok u, ownTok (newEof e)], e :: r) := by
      rw [copyLine, h3, copyLine, he]; rfl
    rw [readIncludeFilename, h1, hlt, hc]
    have hpp : pp env m false st [ownTok u, ownTok (newEof e)] = .error .fuel ∨
        pp env m false st [ownTok u, ownTok (newEof e)] = .ok (st, [mark st (ownTok u), ownTok (newEof e)], []) := by
      match m with
      | 0 => exact Or.inl rfl
      | 1 =>
        left
        have hf : findMacro st (ownTok u) = none := by
          show (if u.kind == .ident then lookup st u.text else none) = none
          rw [h1, h2, hm]; rfl
        have hex : expandMacro env (pp env 0 false) st (ownTok u) [ownTok (newEof e)] = .ok none := by
          unfold expandMacro; rw [hf]; split <;> rfl
        have hE : (ownTok u).isEof = false := by show (u.kind == .eof) = false; rw [h1]; rfl
        rw [pp, hex, hE]
        have : isHash (ownTok u) = false := by show (u.bol && u.is "#") = false; rw [hhash, Bool.and_false]
        rw [this]; rfl
      | m + 2 =>
        right
        have hf : findMacro st (ownTok u) = none := by
          show (if u.kind == .ident then lookup st u.text else none) = none
          rw [h1, h2, hm]; rfl
        have hex : expandMacro env (pp env (m + 1) false) st (ownTok u) [ownTok (newEof e)] = .ok none := by
          unfold expandMacro; rw [hf]; split <;> rfl
        have hE : (ownTok u).isEof = false := by show (u.kind == .eof) = false; rw [h1]; rfl
        rw [pp, hex, hE]
        have : isHash (ownTok u) = false := by show (u.bol && u.is "#") = false; rw [hhash, Bool.and_false]
        rw [this]
        rfl
    have k1 : (Kind.ident == Kind.str) = false := rfl
    have k2 : (Kind.ident == Kind.ident) = true := rfl
    simp only [k1, k2, Bool.false_eq_true, if_false, if_true]
    rcases hpp with h | h
    · rw [h]
    · rw [h]
      dsimp only
      rw [ih (mark st (ownTok u)) ⟨h1, h2, h3⟩ (ownTok (newEof e)) he []]
      rfl

/-- **The code does not always terminate**: on `#include foo`, with foo not a macro, read_include_filename calls itself
for ever (the line is expanded to itself). No amount of work is enough. -/
theorem C22_violated_include (env : Env) (hs : env.strict = false) (n : Nat) :
    preprocess env n {} [{ (pn "#") with bol := true }, tk "include", tk "foo", eofTok] = .error .fuel := by
  match n with
  | 0 => rfl
  | n + 1 =>
    have hex : expandMacro env (pp env n false) {} (ownTok { (pn "#") with bol := true }) [ownTok (tk "include"), ownTok (tk "foo"), ownTok eofTok] = .ok none := by
      unfold expandMacro
      rw [if_neg (by decide +kernel), show findMacro {} (ownTok { (pn "#") with bol := true }) = none from rfl]
    have hd : directive env (pp env n false) n {} (ownTok { (pn "#") with bol := true }) [ownTok (tk "include"), ownTok (tk "foo"), ownTok eofTok] = .error .fuel := by
      unfold directive
      dsimp only
      rw [if_pos (by decide +kernel), hs, if_neg (by decide)]
      unfold dirInclude
      rw [include_loops env {} rfl n n (ownTok (tk "foo")) ⟨rfl, rfl, rfl⟩ (ownTok eofTok) rfl []]
    unfold preprocess
    show (match pp env (n + 1) true {} [ownTok { (pn "#") with bol := true }, ownTok (tk "include"), ownTok (tk "foo"), ownTok eofTok] with
      | .error e => .error e
      | .ok (st', out, _) => if st'.conds.isEmpty then .ok (st', out) else .error (.diag .unterminated)) = (.error .fuel : Except PErr (St × List PTok))
    rw [pp, hex]
    rw [if_neg (by decide +kernel)]
    dsimp only
    rw [if_neg (by decide +kernel), hs, hd]
    rfl

end Toycc.Pp
