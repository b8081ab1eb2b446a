import Verif.Loc.Model
/-! C99: the numbers of files in the assembly text. -/
namespace Toycc.Loc

/-- The files that are read, in order. -/
def reads : List Op → List Str
  | [] => []
  | .read p :: l => p :: reads l
  | _ :: l => reads l

/-- Which source file each text comes from (`none`: from the compiler itself). -/
def origins : List (Option Str) → List Op → List (Option Str)
  | o, [] => o
  | o, .read p :: l => origins (o ++ [some p]) l
  | o, .builtin :: l => origins (o ++ [none]) l
  | o, .derive k :: l => match o[k]? with
    | some x => origins (o ++ [x]) l
    | none => origins o l
  | o, .line .. :: l => origins o l

/-- The files as numbered by their order. -/
def Numbered (ps : List Str) (n : Nat) (p : Str) : Prop := 1 ≤ n ∧ ps[n - 1]? = some p

structure Inv (s : St) (ps : List Str) (o : List (Option Str)) : Prop where
  len : s.inputs.length = ps.length
  files : ∀ (i : Nat) (p : Str), ps[i]? = some p → ∃ k f, s.inputs[i]? = some k ∧ s.objs[k]? = some f ∧ f.no = i + 1 ∧ f.name = p
  olen : o.length = s.objs.length
  org : ∀ (k : Nat) (f : File) (x : Option Str), s.objs[k]? = some f → o[k]? = some x → (∀ p, x = some p → Numbered ps f.no p) ∧ (x = none → f.no = 1)

theorem get_app {α : Type} {l : List α} {x y : α} {k : Nat} (h : (l ++ [x])[k]? = some y) : l[k]? = some y ∨ (k = l.length ∧ y = x) := by
  by_cases hk : k < l.length
  · rw [List.getElem?_append_left hk] at h; exact .inl h
  · rw [List.getElem?_append_right (by omega)] at h
    by_cases h0 : k = l.length
    · subst h0; simp at h; exact .inr ⟨rfl, h.symm⟩
    · have : k - l.length = (k - l.length - 1) + 1 := by omega
      rw [this] at h; simp at h

theorem app_get {α : Type} {l : List α} {x y : α} {k : Nat} (h : l[k]? = some y) : (l ++ [x])[k]? = some y := by
  have hk : k < l.length := by
    obtain ⟨h, _⟩ := List.getElem?_eq_some_iff.1 h
    exact h
  rw [List.getElem?_append_left hk]; exact h

theorem fm_congr {α β : Type} {f g : α → Option β} : ∀ {l : List α}, (∀ x ∈ l, f x = g x) → l.filterMap f = l.filterMap g
  | [], _ => rfl
  | a :: l, h => by
    rw [List.filterMap_cons, List.filterMap_cons, h a List.mem_cons_self, fm_congr fun x hx => h x (List.mem_cons_of_mem _ hx)]

/-- A new text of file k, or of the compiler. -/
theorem Inv.add {s : St} {ps : List Str} {o : List (Option Str)} (h : Inv s ps o) {f : File} {x : Option Str} (hp : ∀ p, x = some p → Numbered ps f.no p) (hn : x = none → f.no = 1) :
    Inv { s with objs := s.objs ++ [f] } ps (o ++ [x]) where
  len := h.len
  files i p hi := by
    obtain ⟨k, g, h1, h2, h3⟩ := h.files i p hi
    exact ⟨k, g, h1, app_get h2, h3⟩
  olen := by simp [h.olen]
  org k g y hk hy := by
    rcases get_app hk with hk | ⟨hk', rfl⟩ <;> rcases get_app hy with hy | ⟨hy', rfl⟩
    · exact h.org k g y hk hy
    · obtain ⟨hl, _⟩ := List.getElem?_eq_some_iff.1 hk
      rw [h.olen] at hy'; omega
    · obtain ⟨hl, _⟩ := List.getElem?_eq_some_iff.1 hy
      rw [h.olen] at hl; omega
    · exact ⟨hp, hn⟩

theorem Inv.step : ∀ (l : List Op) {s : St} {ps : List Str} {o : List (Option Str)}, Inv s ps o → Inv (l.foldl op s) (ps ++ reads l) (origins o l)
  | [], s, ps, o, h => by simpa [reads, origins] using h
  | .read p :: l, s, ps, o, h => by
    have e : ps ++ reads (.read p :: l) = (ps ++ [p]) ++ reads l := by simp [reads]
    rw [e]
    have hnum : ∀ {n q}, Numbered ps n q → Numbered (ps ++ [p]) n q := fun hq => ⟨hq.1, app_get hq.2⟩
    refine Inv.step l (s := op s (.read p)) ?_
    refine ⟨by simp [op, h.len], ?_, by simp [op, h.olen], ?_⟩
    · intro i q hi
      rcases get_app hi with hi | ⟨hi', rfl⟩
      · obtain ⟨k, g, h1, h2, h3⟩ := h.files i q hi
        exact ⟨k, g, app_get h1, app_get h2, h3⟩
      · refine ⟨s.objs.length, ⟨q, s.inputs.length + 1, 0⟩, ?_, ?_, ?_, rfl⟩
        · rw [hi', ← h.len]; simp [op]
        · simp [op]
        · rw [hi', ← h.len]
    · intro k g y hk hy
      rcases get_app hk with hk | ⟨hk', rfl⟩ <;> rcases get_app hy with hy | ⟨hy', rfl⟩
      · exact ⟨fun q hq => hnum ((h.org k g y hk hy).1 q hq), (h.org k g y hk hy).2⟩
      · obtain ⟨hl, _⟩ := List.getElem?_eq_some_iff.1 hk
        rw [h.olen] at hy'; omega
      · obtain ⟨hl, _⟩ := List.getElem?_eq_some_iff.1 hy
        rw [h.olen] at hl; omega
      · refine ⟨fun q hq => ?_, fun hq => nomatch hq⟩
        cases hq
        exact ⟨by simp, by simp [h.len]⟩
  | .builtin :: l, s, ps, o, h => Inv.step l (s := op s .builtin) (h.add (fun _ hq => nomatch hq) fun _ => rfl)
  | .derive k :: l, s, ps, o, h => by
    rw [List.foldl_cons, op, origins, reads]
    · cases hk : s.objs[k]? with
      | none =>
        have : o[k]? = none := by rw [List.getElem?_eq_none_iff] at hk ⊢; rw [h.olen]; exact hk
        rw [this]
        exact Inv.step l h
      | some f =>
        cases ho : o[k]? with
        | none =>
          rw [List.getElem?_eq_none_iff, h.olen] at ho
          rw [List.getElem?_eq_none_iff.2 ho] at hk; cases hk
        | some x => exact Inv.step l (h.add (f := ⟨f.name, f.no, 0⟩) (h.org k f x hk ho).1 (h.org k f x hk ho).2)
    · intro p hp; cases hp
  | .line k a n :: l, s, ps, o, h => by
    rw [List.foldl_cons, op, origins, reads]
    · cases hk : s.objs[k]? with
      | none => exact Inv.step l h
      | some f =>
        have hget : ∀ (i : Nat) (g : File), (s.objs.set k { f with delta := n - a })[i]? = some g → ∃ g', s.objs[i]? = some g' ∧ g'.no = g.no := by
          intro i g hg
          by_cases hi : k = i
          · subst hi
            rw [List.getElem?_set_self (List.getElem?_eq_some_iff.1 hk).1] at hg
            cases hg
            exact ⟨f, hk, rfl⟩
          · rw [List.getElem?_set_ne hi] at hg; exact ⟨g, hg, rfl⟩
        refine Inv.step l (s := { s with objs := s.objs.set k { f with delta := n - a } }) ⟨h.len, ?_, by simp [h.olen], ?_⟩
        · intro i q hi
          obtain ⟨j, g, h1, h2, h3⟩ := h.files i q hi
          by_cases hj : k = j
          · subst hj
            rw [hk] at h2; cases h2
            exact ⟨k, _, h1, List.getElem?_set_self (List.getElem?_eq_some_iff.1 hk).1, h3⟩
          · exact ⟨j, g, h1, by rw [List.getElem?_set_ne hj]; exact h2, h3⟩
        · intro i g y hi hy
          obtain ⟨g', h1, h2⟩ := hget i g hi
          rw [← h2]; exact h.org i g' y h1 hy
    · intro p hp; cases hp

theorem inv (l : List Op) : Inv (run l) (reads l) (origins [] l) := by
  have := Inv.step l (s := {}) (ps := []) (o := []) ⟨rfl, by simp, rfl, by simp⟩
  rw [List.nil_append] at this
  exact this

/-- **C99** The `.file` lines: the files that were read, in order, numbered from 1. -/
theorem C99_files (l : List Op) : (fileLines (run l)).length = (reads l).length ∧ ∀ (i : Nat) (p : Str), (reads l)[i]? = some p → (fileLines (run l))[i]? = some (i + 1, p) := by
  have h := inv l
  have key : fileLines (run l) = (List.range (reads l).length).filterMap fun i => ((reads l)[i]?).map fun p => (i + 1, p) := by
    have e : (run l).inputs = (List.range (reads l).length).filterMap fun i => (run l).inputs[i]? := by
      rw [← h.len]
      refine List.ext_getElem? fun i => ?_
      have : ∀ (L : List Nat), (List.range L.length).filterMap (fun i => L[i]?) = L := by
        intro L
        have : (List.range L.length).filterMap (fun i => L[i]?) = (List.range L.length).filterMap (some ∘ fun i => L[i]?.getD 0) := by
          refine fm_congr fun x hx => ?_
          simp [List.getElem?_eq_getElem (List.mem_range.1 hx)]
        rw [this, List.filterMap_eq_map]
        refine List.ext_getElem? fun i => ?_
        by_cases hi : i < L.length
        · simp [hi]
        · simp [hi]
      rw [this]
    rw [fileLines, e, List.filterMap_filterMap]
    refine fm_congr fun i hi => ?_
    have hi' := List.mem_range.1 hi
    obtain ⟨k, f, h1, h2, h3, h4⟩ := h.files i _ (List.getElem?_eq_getElem hi')
    rw [h1, List.getElem?_eq_getElem hi']
    simp [h2, h3, h4]
  have key2 : fileLines (run l) = (List.range (reads l).length).map fun i => (i + 1, (reads l)[i]?.getD []) := by
    rw [key, ← List.filterMap_eq_map]
    refine fm_congr fun x hx => ?_
    simp [List.getElem?_eq_getElem (List.mem_range.1 hx)]
  refine ⟨by rw [key2]; simp, fun i p hi => ?_⟩
  have hl := (List.getElem?_eq_some_iff.1 hi).1
  rw [key2]
  simp [hl]
  rw [List.getElem?_eq_getElem hl] at hi
  exact Option.some.inj hi

/-- **C99** The number in the `.loc` of a token that comes from a source file is declared by a `.file` line, once, with the name of that file. -/
theorem C99_loc (l : List Op) (k : Nat) (line : Int) {n : Nat} {ln : Int} (h : loc (run l) k line = some (n, ln)) {p : Str} (ho : (origins [] l)[k]? = some (some p)) :
    (n, p) ∈ fileLines (run l) ∧ ∀ q, (n, q) ∈ fileLines (run l) → q = p := by
  obtain ⟨f, hf, he⟩ := Option.map_eq_some_iff.1 h
  obtain ⟨h1, h2⟩ := ((inv l).org k f _ hf ho).1 p rfl
  cases he
  have hfl := C99_files l
  have hm := hfl.2 _ _ h2
  rw [show f.no - 1 + 1 = f.no by omega] at hm
  refine ⟨List.mem_of_getElem? hm, fun q hq => ?_⟩
  obtain ⟨i, hi⟩ := List.mem_iff_getElem?.1 hq
  have hil : i < (reads l).length := by rw [← hfl.1]; exact (List.getElem?_eq_some_iff.1 hi).1
  have := hfl.2 i _ (List.getElem?_eq_getElem hil)
  rw [hi] at this
  have e := Option.some.inj this
  have e1 : f.no = i + 1 := congrArg Prod.fst e
  have e2 : q = (reads l)[i] := congrArg Prod.snd e
  have : f.no - 1 = i := by omega
  rw [this, List.getElem?_eq_getElem hil] at h2
  rw [e2]; exact Option.some.inj h2

/-- **C99** Every number in a `.loc` is declared, as soon as one file has been read. -/
theorem C99_declared (l : List Op) (hr : reads l ≠ []) (k : Nat) (line : Int) {n : Nat} {ln : Int} (h : loc (run l) k line = some (n, ln)) : ∃ p, (n, p) ∈ fileLines (run l) := by
  obtain ⟨f, hf, he⟩ := Option.map_eq_some_iff.1 h
  have hk := (List.getElem?_eq_some_iff.1 hf).1
  rw [← (inv l).olen] at hk
  cases ho : (origins [] l)[k] with
  | some p => exact ⟨p, (C99_loc l k line h (by rw [List.getElem?_eq_getElem hk, ho])).1⟩
  | none =>
    have := ((inv l).org k f none hf (by rw [List.getElem?_eq_getElem hk, ho])).2 rfl
    cases he
    rw [this]
    cases hx : reads l with
    | nil => exact absurd hx hr
    | cons p ps => exact ⟨p, List.mem_of_getElem? ((C99_files l).2 0 p (by rw [hx]; rfl))⟩

/-- How an assembler reads a string up to the closing quote; a backslash takes the next character with it (what the pair means does not matter here). -/
def quoted : Str → Option (Str × Str)
  | [] => none
  | c :: r =>
    if c = '"' then some ([], r)
    else if c = '\n' then none
    else if c = '\\' then match r with
      | [] => none
      | d :: r' => (quoted r').map fun x => ('\\' :: d :: x.1, x.2)
    else (quoted r).map fun x => (c :: x.1, x.2)

/-- **C99** Names without quotes, backslashes and newlines are read back. Partial: with others they are not (`C99_quote_wrong`). -/
theorem C99_text_partial (no : Nat) (name : Str) (h : ∀ c ∈ name, c ≠ '"' ∧ c ≠ '\\' ∧ c ≠ '\n') : ∃ r, fileText no name = ".file ".toList ++ (toString no).toList ++ [' ', '"'] ++ r ∧ quoted r = some (name, []) := by
  refine ⟨name ++ ['"'], by unfold fileText; generalize ".file ".toList ++ (toString no).toList = A; simp only [List.append_assoc], ?_⟩
  induction name with
  | nil => rfl
  | cons c cs ih =>
    have hc := h c List.mem_cons_self
    have := ih fun x hx => h x (List.mem_cons_of_mem _ hx)
    rw [List.cons_append, quoted.eq_def]
    dsimp only
    rw [if_neg hc.1, if_neg hc.2.2, if_neg hc.2.1, this]
    rfl

/-- The file `a"b.c`: the assembler reads the name `a` and has text left. -/
theorem C99_quote_wrong : fileText 1 "a\"b.c".toList = ".file 1 \"a\"b.c\"".toList ∧ quoted "a\"b.c\"".toList = some ("a".toList, "b.c\"".toList) := by decide +kernel

/-! ### Example: a.c includes b.h twice, text is pasted in b.h; predefined macros come first -/

def exOps : List Op := [.builtin, .read "a.c".toList, .read "b.h".toList, .derive 2, .read "b.h".toList, .line 1 4 100]

example : fileLines (run exOps) = [(1, "a.c".toList), (2, "b.h".toList), (3, "b.h".toList)] := by decide +kernel
example : (2, "b.h".toList) ∈ fileLines (run exOps) ∧ ∀ q, (2, q) ∈ fileLines (run exOps) → q = "b.h".toList := C99_loc exOps 3 1 (ln := 1) (by decide +kernel) (by decide +kernel)
example : ∃ p, (1, p) ∈ fileLines (run exOps) := C99_declared exOps (by decide) 0 7 (ln := 7) (by decide +kernel)
example : ∃ r, fileText 1 "dir/a.c".toList = ".file ".toList ++ (toString 1).toList ++ [' ', '"'] ++ r ∧ quoted r = some ("dir/a.c".toList, []) := C99_text_partial 1 _ (by decide)

/-- Tokens of predefined macros count as text of the first file. -/
theorem C99_builtin_wrong : (origins [] exOps)[0]? = some none ∧ loc (run exOps) 0 1 = some (1, 1) ∧ (1, "a.c".toList) ∈ fileLines (run exOps) := by decide +kernel

/-- #line changes the line in `.loc` but not the file: after `#line n` on line `start`, what is on line `line` of the file counts as line `line + (n - start)` of it, whatever name #line gives. -/
theorem C99_line_wrong (l : List Op) (k : Nat) (start n line : Int) {no : Nat} {ln : Int} (h : loc (run l) k line = some (no, ln)) : loc (run (l ++ [.line k start n])) k line = some (no, line + (n - start)) := by
  obtain ⟨f, hf, he⟩ := Option.map_eq_some_iff.1 h
  cases he
  have : run (l ++ [.line k start n]) = { run l with objs := (run l).objs.set k { f with delta := n - start } } := by
    rw [run, List.foldl_append]
    simp only [List.foldl_cons, List.foldl_nil]
    rw [← run, op, hf]
  rw [this, loc, List.getElem?_set_self (List.getElem?_eq_some_iff.1 hf).1]
  rfl

example : loc (run exOps) 1 6 = some (1, 102) := C99_line_wrong exOps.dropLast 1 4 100 6 (no := 1) (ln := 6) (by decide +kernel)

end Toycc.Loc
