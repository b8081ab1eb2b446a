import Verif.Src.PreProps
import Verif.Src.CharsEx
/-! An example for C79: the file of the example for C75 with directives, and a header with an include guard that is included twice. -/
namespace Toycc.Src.Props.Ex79
open Toycc.Src
open Toycc.Parse (Tok Tree P)
open Toycc.Lex (asc GapItem ValidGap gapBytes Kind glues hasNl)
open Toycc.Pp (Bytes)

/-! ### Writing -/

def spellP : PT → Option (Bytes × Kind)
  | .hash => some (asc "#", .punct)
  | .tok t => Ex75.spell t
  | .str name => if name.all (fun b => b != 0x22 && b != 0x5C && b != 10) then some (0x22 :: (name ++ [0x22]), .str) else none

theorem spellP_ok {t : PT} {w : Bytes} {k : Kind} (h : spellP t = some (w, k)) : SpellP t w k := by
  cases t with
  | hash => cases h; exact .hash
  | tok t => exact .tok (Ex75.spell_ok h)
  | str name =>
    unfold spellP at h
    dsimp only at h
    split at h
    · rename_i h1
      cases h
      refine .str fun b hb => ?_
      have := List.all_eq_true.mp h1 b hb
      simpa [and_assoc] using this
    · cases h

/-- A newline before the first token of a line, a blank before others. -/
def lead (i : Item) : UInt8 := if i.bol then 10 else 32

def isTight : Item → Bool
  | ⟨_, false, .tight⟩ => true
  | _ => false

def text : List Item → Bytes
  | [] => [10]
  | i :: is => (if isTight i then [] else [lead i]) ++ (((spellP i.tok).map (·.1)).getD [] ++ text is)

/-- Every token has a spelling, and those without a gap before do not grow together with the token before. -/
def fits : List Item → Bool
  | [] => true
  | i :: is => (match spellP i.tok, is with
    | none, _ => false
    | some (w, k), j :: _ => !isTight j || !glues k w (text is)
    | some _, [] => true) && (isTight i || !(i.sep matches .tight)) && fits is

theorem glues_nl (k : Kind) (w r : Bytes) : glues k w (10 :: r) = false := by
  have sub : ∀ {s r q : Bytes}, Lex.startsWith (s ++ 10 :: r) q = true → s.length < q.length → (10 : UInt8) ∈ q := by
    intro s r q h hl
    obtain ⟨t, ht⟩ : q <+: s ++ 10 :: r := by simpa [Lex.startsWith] using h
    have e : (q ++ t)[s.length]? = (s ++ 10 :: r)[s.length]? := by rw [ht]
    rw [List.getElem?_append_left hl, List.getElem?_append_right (Nat.le_refl _), Nat.sub_self] at e
    exact List.mem_of_getElem? e
  unfold glues
  have h1 : Lex.openers.any (fun q => decide (w.length < q.length) && Lex.startsWith (w ++ 10 :: r) q) = false := by
    rw [List.any_eq_false]
    intro q hq h
    rw [Bool.and_eq_true, decide_eq_true_eq] at h
    exact absurd (sub h.2 h.1) (by clear h; revert q; decide)
  have h2 : Lex.punctTable.any (fun q => decide (w.length < q.length) && Lex.startsWith (w ++ 10 :: r) q) = false := by
    rw [List.any_eq_false]
    intro q hq h
    rw [Bool.and_eq_true, decide_eq_true_eq] at h
    exact absurd (sub h.2 h.1) (by clear h; revert q; decide)
  rw [h1, Bool.false_or]
  have h3 : Lex.isDig 10 = false := by decide
  have h4 : Lex.isAlnum 10 = false := by decide
  have h5 : Lex.identByte 10 = false := by decide
  cases k
  case ident => simpa using h5
  case ppNum => simp [h4]
  case punct => simp [h2, h3]
  all_goals rfl

theorem glues_text (k : Kind) (w : Bytes) (is : List Item) (h : ∀ j ∈ is.head?, isTight j = true → glues k w (text is) = false) : glues k w (text is) = false := by
  cases is with
  | nil => exact glues_nl k w _
  | cons i is =>
    cases hi : isTight i with
    | true => exact h i rfl hi
    | false =>
      unfold text lead
      rw [hi]
      simp only [Bool.false_eq_true, if_false, List.cons_append, List.nil_append]
      split
      · exact glues_nl k w _
      · exact glues_blank k w _

theorem gap1 (x : GapItem) (h : x = .nl ∨ x = .ws 32) : ValidGap [x] := by
  refine ⟨?_, ?_⟩
  · intro i hi
    rw [List.mem_singleton.mp hi]
    rcases h with rfl | rfl
    · trivial
    · exact Or.inl rfl
  · intro a body b e
    match a, e with
    | [], e => injection e with e _; subst e; rcases h with h | h <;> cases h
    | _ :: a, e => injection e with _ e; cases a <;> cases e

theorem text_ne (is : List Item) : text is ≠ [] := by
  induction is with
  | nil => simp [text]
  | cons i is ih =>
    intro h
    unfold text at h
    exact ih (List.append_eq_nil_iff.mp (List.append_eq_nil_iff.mp h).2).2

theorem gap0 : ValidGap [] := ⟨by simp, by intro a body b e; simp at e⟩

theorem written : ∀ (is : List Item) (start : Bool), fits is = true → (start = true → ∀ i ∈ is.head?, i.bol = true) → WrittenP start (text is) is
  | [], start, _, _ => .nil (g := [.nl]) (gap1 _ (.inl rfl)) (by simp [hasNl])
  | i :: is, start, h, hb => by
    unfold fits at h
    rw [Bool.and_eq_true, Bool.and_eq_true] at h
    obtain ⟨⟨h1, h2⟩, h3⟩ := h
    have ih := written is false h3 (fun e => by cases e)
    cases hw : spellP i.tok with
    | none => rw [hw] at h1; cases h1
    | some wk =>
    obtain ⟨w, k⟩ := wk
    rw [hw] at h1
    have hg : glues k w (text is) = false := by
      refine glues_text k w is fun j hj ht => ?_
      cases is with
      | nil => cases hj
      | cons j' is =>
        cases hj
        dsimp only at h1
        rw [ht] at h1
        simpa using h1
    unfold text
    rw [hw]
    show WrittenP start ((if isTight i then [] else [lead i]) ++ (w ++ text is)) (i :: is)
    cases ht : isTight i with
    | true =>
      have hi : i.bol = false ∧ i.sep = .tight := by
        obtain ⟨t, b, sp⟩ := i
        cases b <;> cases sp <;> first | exact ⟨rfl, rfl⟩ | cases ht
      have hs : start = false := by
        cases start with
        | false => rfl
        | true => have := hb rfl i rfl; rw [hi.1] at this; cases this
      exact WrittenP.cons (g := []) gap0 (by rw [hi.1, hs]; rfl) (by rw [hi.2]; rfl) (spellP_ok hw) hg (text_ne is) ih
    | false =>
    rw [ht, Bool.false_or] at h2
    show WrittenP start (lead i :: (w ++ text is)) (i :: is)
    cases hbol : i.bol with
    | true =>
      rw [show lead i = 10 from by unfold lead; rw [hbol]; rfl]
      refine WrittenP.cons (g := [.nl]) (gap1 _ (.inl rfl)) (by rw [hbol]; simp [hasNl]) ?_ (spellP_ok hw) hg (text_ne is) ih
      cases hsep : i.sep with
      | any => trivial
      | white => exact List.cons_ne_nil _ _
      | tight => rw [hsep] at h2; cases h2
    | false =>
      have hs : start = false := by
        cases start with
        | false => rfl
        | true => have := hb rfl i rfl; rw [hbol] at this; cases this
      rw [show lead i = 32 from by unfold lead; rw [hbol]; rfl]
      refine WrittenP.cons (g := [.ws 32]) (gap1 _ (.inr rfl)) (by rw [hbol, hs]; simp [hasNl]) ?_ (spellP_ok hw) hg (text_ne is) ih
      cases hsep : i.sep with
      | any => trivial
      | white => exact List.cons_ne_nil _ _
      | tight => rw [hsep] at h2; cases h2

/-! ### The files -/

/-- The header: a guard around the first line of the text of the example for C74. -/
def header : Grp := .sect (.ifndef "guard") (.define "guard" [] (.line (.kw "int") [.ident "total", .p .semi] .nil)) .endif .nil

def rest : List Tok := Ex74.text.drop 8

def source : Grp :=
  .incl (.quoted (asc "g.h")) <| .incl (.quoted (asc "g.h")) <| .defineF "word" ["a"] (some "b") [.ident "a", .ident "b"] <|
  .sect (.ifE [.ident "defined", .ident "word"]) (.line (.kw "typedef") [.ident "word", .p .lpar, .kw "long", .p .comma] (.line (.ident "num") [.p .rpar, .p .semi] .nil)) (.elif [.num 1] (.other "error" [.ident "no"] .nil) .endif) <|
  .undef "word" <| .line (.kw "long") (rest) .nil

example : text header.items = asc "\n# ifndef guard\n# define guard\nint total ;\n# endif\n" := by decide +kernel
example : (text source.items).take 188 =
    asc "\n# include \"g.h\"\n# include \"g.h\"\n# define word( a , b ... ) a b\n# if defined word\ntypedef word ( long ,\nnum ) ;\n# elif 1\n# error no\n# endif\n# undef word\nlong f ( long ) ; num f ( num n ) {" := by
  decide +kernel

def penv : Pp.Env :=
  { host := .riscv, fileExists := fun p => p == asc "./g.h" || p == asc "f.c",
    read := fun p => if p = asc "./g.h" then some (text header.items) else if p = asc "f.c" then some (text source.items) else none, constExpr := fun _ => none }

theorem isGrp {path : Bytes} {G : Grp} {c : UInt8} (hr : penv.read path = some (text G.items)) (h0 : 0 ∉ text G.items) (h1 : 13 ∉ text G.items) (h2 : 92 ∉ text G.items)
    (h3 : (text G.items).getLast? = some 10) (h4 : (text G.items).head? = some c) (hc : c ≠ 0xEF) (h5 : fits G.items = true)
    (h6 : ∀ i ∈ G.items.head?, i.bol = true) (hok : G.Ok) : IsGrp penv path G := by
  refine ⟨⟨text G.items, hr, fun b hb e => h0 (e ▸ hb), ?_, ?_⟩, hok⟩
  · intro r e
    rw [e] at h4
    injection h4 with h4
    exact hc h4.symm
  · rw [C75_plain h1 h2 h3]
    exact written _ true h5 fun _ => h6

theorem is_header : IsGrp penv (asc "./g.h") header :=
  isGrp (c := 10) (by rfl) (by decide +kernel) (by decide +kernel) (by decide +kernel) (by decide +kernel) (by decide +kernel) (by decide) (by decide +kernel)
    (by intro i hi; cases hi; rfl) (by simp [header, Grp.Ok, Rest.Ok])

theorem is_source : IsGrp penv (asc "f.c") source :=
  isGrp (c := 10) (by decide +kernel) (by decide +kernel) (by decide +kernel) (by decide +kernel) (by decide +kernel) (by decide +kernel) (by decide) (by decide +kernel)
    (by intro i hi; cases hi; rfl) (by simp [source, Grp.Ok, Rest.Ok])

def files (p : Bytes) : Option Grp := if p = asc "./g.h" then some header else none

/-! ### What they mean -/

theorem expand_free {M : Macros} {H : List String} : ∀ (ts : List Tok), (∀ s ∈ words' ts, M.free s) → Expand M.defs H ts ts !ts.isEmpty
  | [], _ => .nil
  | t :: ts, h => by
    have h1 : (∀ s ∈ words' ts, M.free s) ∧ ∀ s, t = .ident s ∨ t = .kw s → M.free s := by
      cases t <;> simp_all [words']
    have := Expand.keep (t := t) (fun s hs => .inl (h1.2 s hs)) (expand_free (H := H) ts h1.1)
    cases ts <;> exact this

theorem set_free {M : Macros} {x : String} {m : Option Mac} {s : String} (h : M.free s) (hx : asc s ≠ asc x) : (M.set x m).free s := by
  unfold Macros.free Macros.set at *
  rw [if_neg hx]; exact h

theorem set_same {M : Macros} {x : String} {m : Option Mac} : M.set x m (asc x) = m := by
  unfold Macros.set; rw [if_pos rfl]

theorem set_other {M : Macros} {x y : String} {m : Option Mac} (h : asc y ≠ asc x) : M.set x m (asc y) = M (asc y) := by
  unfold Macros.set; rw [if_neg h]

theorem opens : Pp.Opens penv (asc "f.c") true (asc "g.h") (asc "./g.h") := .here rfl (by decide +kernel) (by decide +kernel)

def M1 (M : Macros) : Macros := M.set "guard" (some (.obj []))
def M2 (M : Macros) : Macros := (M1 M).set "word" (some (.fn ["a"] (some "b") [.ident "a", .ident "b"]))
def M3 (M : Macros) : Macros := (M2 M).set "word" none

/-- The words of the text, and the macros of the example. -/
def words : List String := ["guard", "word"] ++ words' Ex74.text

theorem rest_eq : Ex74.text = [.kw "int", .ident "total", .p .semi, .kw "typedef", .kw "long", .ident "num", .p .semi] ++ .kw "long" :: rest := rfl

theorem value (M : Macros) (h : (M (asc "word")).isSome = true) : Value M [.ident "defined", .ident "word"] 1 := by
  have r := Reads.defd (isMacro := fun x => (M (asc x)).isSome) (t := .ident "word") (.inl rfl) .nil
  rw [h] at r
  refine ⟨[.num 1], [.num 1], .num 1, r, ⟨_, .keep (fun s hs => by rcases hs with h | h <;> cases h) .nil⟩, ?_, trivial, ?_, by decide⟩
  · exact Parse.derives_of_print ifO (by simp [Tree.Ok]) (by decide +kernel) (by decide)
  · refine .inr fun v hv => ?_
    have : ifVal (.num 1) = some 1 := by decide
    rw [this] at hv; cases hv; decide

theorem header_first (M : Macros) (hM : ∀ s ∈ words, M.free s) : Runs penv files (asc "./g.h") { mac := M } header { mac := M1 M } [.kw "int", .ident "total", .p .semi] := by
  have hg : M (asc "guard") = none := hM "guard" (by decide +kernel)
  have hc : Cond M (.ifndef "guard") true := by
    have := Cond.ifndef (M := M) (x := "guard")
    rw [hg] at this; exact this
  have hl := Runs.text (env := penv) (files := files) (cur := asc "./g.h") (s := ⟨M1 M, [], true⟩) (t := .kw "int") (ts := [.ident "total", .p .semi]) (ls := [])
    (expand_free [.kw "int", .ident "total", .p .semi] (by
      intro s hs
      have hs : s ∈ ["int", "total"] := hs
      refine set_free (hM s ?_) ?_
      · revert s; decide +kernel
      · revert s; decide +kernel)) (by intro _ h; cases h) .nil
  have := Runs.taken (r := .endif) (g := .nil) (s := ⟨M, [], false⟩) hc (.define (x := "guard") (b := []) hl) .nil
  exact this

theorem header_again (M : Macros) : Runs penv files (asc "./g.h") { mac := M1 M } header { mac := M1 M } [] := by
  have hc : Cond (M1 M) (.ifndef "guard") false := by
    have := Cond.ifndef (M := M1 M) (x := "guard")
    rw [show M1 M (asc "guard") = some (.obj []) from set_same] at this; exact this
  exact Runs.skipped (o1 := []) (o2 := []) hc .endif .nil

theorem runs_source (M : Macros) (hM : ∀ s ∈ words, M.free s) : Runs penv files (asc "f.c") { mac := M } source { mac := M3 M } Ex74.text := by
  have hfile : files (asc "./g.h") = some header := if_pos rfl
  have hw : ∀ s ∈ words' Ex74.text, (M2 M).free s ∨ s = "word" := by
    intro s hs
    by_cases e : s = "word"
    · exact .inr e
    · refine .inl (set_free (set_free (hM s (List.mem_append_right _ hs)) ?_) ?_)
      · revert s; decide +kernel
      · revert s; decide +kernel
  have f3 : ∀ s ∈ words' Ex74.text, (M3 M).free s := by
    intro s hs
    refine set_free (set_free (set_free (hM s (List.mem_append_right _ hs)) ?_) ?_) ?_ <;> (revert s; decide +kernel)
  have l1 : Runs penv files (asc "f.c") { mac := M3 M } (.line (.kw "long") rest .nil) { mac := M3 M } (.kw "long" :: rest ++ []) :=
    .text (ls := []) (expand_free (.kw "long" :: rest ++ []) fun s hs => f3 s (by
      rw [rest_eq]
      exact List.mem_cons_of_mem _ (List.mem_cons_of_mem _ (List.mem_cons_of_mem _ (List.mem_cons_of_mem _ (List.mem_cons_of_mem _ (by rwa [List.append_nil] at hs))))))) (by intro h; cases h) .nil
  have l2 : Runs penv files (asc "f.c") { mac := M2 M } (.undef "word" (.line (.kw "long") rest .nil)) { mac := M3 M } (.kw "long" :: rest ++ []) := .undef l1
  have hword : M2 M (asc "word") = some (.fn ["a"] (some "b") [.ident "a", .ident "b"]) := set_same
  have fM2 : ∀ s ∈ ["typedef", "num", "long"], (M2 M).free s := by
    intro s hs
    refine set_free (set_free (hM s ?_) ?_) ?_ <;> (revert s; decide +kernel)
  have hex : Expand (M2 M).defs [] [.kw "typedef", .ident "word", .p .lpar, .kw "long", .p .comma, .ident "num", .p .rpar, .p .semi] [.kw "typedef", .kw "long", .ident "num", .p .semi] true := by
    have e1 : Expand (M2 M).defs [] [.p .semi] [.p .semi] true := expand_free [.p .semi] fun s hs => by cases hs
    have ea : Expand (M2 M).defs [] [.kw "long"] [.kw "long"] true := expand_free [.kw "long"] fun s hs => fM2 s (by
      have hs : s ∈ ["long"] := hs
      rw [List.mem_singleton.mp hs]; decide)
    have eb : Expand (M2 M).defs [] [.ident "num"] [.ident "num"] true := expand_free [.ident "num"] fun s hs => fM2 s (by
      have hs : s ∈ ["num"] := hs
      rw [List.mem_singleton.mp hs]; decide)
    have e2 : Expand (M2 M).defs ["word"] [.kw "long", .ident "num"] [.kw "long", .ident "num"] true := expand_free [.kw "long", .ident "num"] fun s hs => fM2 s (by
      have hs : s ∈ ["long", "num"] := hs
      revert s; decide)
    have hst : ∀ {t : Tok} {x}, nameOf t = some x → x ∈ ["typedef", "num", "long"] → Stop (M2 M).defs [] t := by
      intro t x h hx s hs
      rcases hs with rfl | rfl <;> cases h <;> exact .inl (fM2 _ hx)
    have e3 := Expand.callV (t := .ident "word") (hid := []) (ps := ["a"]) (va := "b") (b := [.ident "a", .ident "b"]) (args := [[.kw "long"]]) (xs := [[.kw "long"]])
      (w := [.ident "num"]) (y := [.ident "num"]) (zs := fun _ => true) (.inl rfl) (by simp) hword rfl rfl (by
        intro a ha
        rw [List.mem_singleton.mp ha]
        exact .tok (by simp) (by simp) (by simp) .nil) (.tok (by simp) (by simp) (by simp) .nil) .some (by
        intro q hq
        rw [List.mem_singleton.mp hq]
        exact ea) eb (by
        intro x hx u hu
        rw [List.mem_singleton.mp hx] at hu
        rw [List.mem_singleton.mp hu]
        exact hst rfl (by decide)) (by
        intro u hu
        rw [List.mem_singleton.mp hu]
        exact hst rfl (by decide)) (by simp) e2 e1
    exact .keep (hst rfl (by decide)) e3
  have l3 : Runs penv files (asc "f.c") { mac := M2 M } (.line (.kw "typedef") [.ident "word", .p .lpar, .kw "long", .p .comma] (.line (.ident "num") [.p .rpar, .p .semi] .nil)) { mac := M2 M }
      ([.kw "typedef", .kw "long", .ident "num", .p .semi] ++ []) :=
    .text (ls := [(.ident "num", [.p .rpar, .p .semi])]) hex (by intro h; cases h) .nil
  have hc : Cond (M2 M) (.ifE [.ident "defined", .ident "word"]) true := .ifE (v := 1) (value (M2 M) (by rw [hword]; rfl))
  have l4 := Runs.taken (r := .elif [.num 1] (.other "error" [.ident "no"] .nil) .endif) (s := ⟨M2 M, [], false⟩) hc l3 l2
  have l5 := Runs.defineF (s := ⟨M1 M, [], false⟩) (x := "word") (ps := ["a"]) (va := some "b") (b := [.ident "a", .ident "b"]) l4
  have l6 := Runs.incl (s := ⟨M1 M, [], false⟩) (h := .quoted (asc "g.h")) .quoted opens (by intro h; cases h) hfile (fun _ => ⟨rfl, rfl⟩) (header_again M) l5
  have l7 := Runs.incl (s := ⟨M, [], false⟩) (h := .quoted (asc "g.h")) .quoted opens (by intro h; cases h) hfile (fun _ => ⟨rfl, rfl⟩) (header_first M hM) l6
  have he : [.kw "int", .ident "total", .p .semi] ++ ([] ++ ([.kw "typedef", .kw "long", .ident "num", .p .semi] ++ [] ++ (.kw "long" :: rest ++ []))) = Ex74.text := by
    rw [rest_eq]; simp
  rw [he] at l7
  exact l7

theorem words_free : ∀ s ∈ words, Word s ∧ ¬ Reserved s := by
  have h : words.all (fun s => s.toList ≠ [] && s.toList.all (fun c => decide ('a' ≤ c ∧ c ≤ 'z')) && s != "unix" && s != "linux") = true := by decide +kernel
  intro s hs
  have := List.all_eq_true.mp h s hs
  simp only [Bool.and_eq_true, decide_eq_true_eq, bne_iff_ne, ne_eq] at this
  obtain ⟨⟨⟨h1, h2⟩, h3⟩, h4⟩ := this
  cases e : s.toList with
  | nil => exact absurd e h1
  | cons c r =>
    rw [e, List.all_eq_true] at h2
    have hc : 'a' ≤ c ∧ c ≤ 'z' := by simpa using h2 c List.mem_cons_self
    refine ⟨⟨c, r, e, Or.inl hc, fun d hd => Or.inl (Or.inl (by simpa using h2 d (List.mem_cons_of_mem _ hd)))⟩, ?_⟩
    rintro (h | h | h)
    · exact h3 h
    · exact h4 h
    · rw [e] at h
      injection h with h
      subst h
      exact absurd hc (by decide)

/-- All hypotheses of `C79_tokens_partial` are met, with the macros of init_macros: from the characters of the two files cc1 makes the text `P` of the example for C73, and for every `k` below a
million the function, called with `k` and enough stack, returns with the sum of the numbers up to `k`. -/
theorem runs : ∃ st, initMacros penv "\"Nov 15 2026\"" "\"12:00:00\"" = .ok st ∧
    (∃ K, ∀ k, K ≤ k → ∃ N, ∀ n, N ≤ n → cc1 { penv with constExpr := constExpr k } Ex74.val0 n st [] (asc "f.c") = some Ex73.P) ∧
    ∀ (k : Nat), k < 1000000 → ∀ (s : Rv.St), 2000 * (k + 2) ≤ (s.r .sp).toNat → s.r .a0 = BitVec.ofNat 64 k → s.r .ra = BitVec.ofNat 64 (4096 + Ex73.P.length) →
      ∃ pos s', Rv.find Ex73.P (.sym "f") = some pos ∧ Rv.Runs Ex73.P Ex73.env (pos, s) (Ex73.P.length, s') ∧ s'.r .a0 = BitVec.ofNat 64 (Ex73.sum k) := by
  have rd : ∀ s, readable .riscv s = true → ∃ ts, Lex.tokenize penv.host (asc s) = .ok ts := by
    intro s h
    unfold readable at h
    show ∃ ts, Lex.tokenize .riscv (asc s) = .ok ts
    cases e : Lex.tokenize .riscv (asc s) with
    | error x => rw [e] at h; cases h
    | ok ts => exact ⟨ts, rfl⟩
  obtain ⟨st, M, h1, h2, h3⟩ := C79_initial penv (rd "\"Nov 15 2026\"" (by decide +kernel)) (rd "\"12:00:00\"" (by decide +kernel))
  refine ⟨st, h1, ?_, Ex74.runs.2⟩
  have hr := runs_source M fun s hs => h3 s (words_free s hs).1 (words_free s hs).2
  have hr' := RunsFiles.cons hr .nil
  rw [List.append_nil] at hr'
  obtain ⟨K, hK⟩ := C79_tokens_partial (fs := []) rfl (files := files) (fun p G h => by
    unfold files at h
    split at h
    · rename_i e; cases h; rw [e]; exact is_header
    · cases h) h2 (fun f hf => by cases hf) is_source hr'
  obtain ⟨M', hM'⟩ := Ex74.compiled
  refine ⟨K, fun k hk => ?_⟩
  obtain ⟨N, hN⟩ := hK k hk
  refine ⟨max M' N, fun n hn => ?_⟩
  unfold cc1
  have e : cc1Tokens { penv with constExpr := constExpr k } n st [] (asc "f.c") = some Ex74.text := hN n (by omega)
  rw [e]
  exact hM' n (by omega)

end Toycc.Src.Props.Ex79
