import Verif.Src.MacLine
import Verif.Pp.Args
/-!
C81: macros are replaced by what C prescribes.

Vocabulary (Verif.Src.MacSpec): `Expand D hid ts us z`: C11 6.10.3 for object-like and function-like macros; `defsOf st`: the macros of a state of the preprocessor; `All ts ps`: the tokens `ps` of the
preprocessor spell `ts`, in any layout.
-/
namespace Toycc.Src.Props
open Toycc.Lex (asc)
open Toycc.Pp (PTok Bytes Steps)
open Toycc.Parse (Tok P)

/-- **C81**, lines. If by C the tokens of some lines of a file become `us`, then preprocess2 outputs tokens that spell `us` and goes on after these lines, in the state it was in.

Missing: the operators # and ## (C88 is about them) and __VA_OPT__; the predefined macros with handlers; names of function-like macros at the end of a list of which the arguments follow
later; calls with arguments that leave a name unreplaced because its macro is being replaced; lines of which the last token vanishes (false for them, `C79_empty_wrong`). -/
theorem C81_lines_partial {env : Pp.Env} (hs : env.strict = false) {st : Pp.St} {ts us : List Tok} (h : Expand (defsOf st) [] ts us true) {ps rest : List PTok} (ha : All ts ps)
    (hh : ∀ p ∈ ps, p.hs = []) (hr : rest ≠ []) : ∃ out, All us out ∧ Steps env st (ps ++ rest) out st rest := line_steps hs h ha hh hr

/-- **C81**, lists of their own: the line of an #if or #include and the arguments of macros.

Missing: as for C81_lines_partial, except that the last token may vanish. -/
theorem C81_list_partial {env : Pp.Env} (hs : env.strict = false) {st : Pp.St} {ts us : List Tok} (h : Expands (defsOf st) ts us) {ps : List PTok} {e : PTok} (ha : All ts ps)
    (hh : ∀ p ∈ ps, p.hs = []) (he : e.isEof = true) :
    ∃ out e' pre N, (∀ n, N ≤ n → Pp.pp env n false st (ps ++ [e]) = .ok (st, out ++ [e'], pre)) ∧ All us out ∧ e'.isEof = true := by
  obtain ⟨z, h⟩ := h
  exact expand_pp hs h ha hh he

/-- What comes out is determined by the macros and the tokens. -/
theorem C81_unique {st : Pp.St} {ts us us' : List Tok} (h : Expands (defsOf st) ts us) (h' : Expands (defsOf st) ts us') {ps : List PTok} (ha : All ts ps) : us = us' := by
  have ha' : All ts (ps.map fun p => { p with hs := [] }) := ha.map fun p => ⟨rfl, rfl, rfl⟩
  have hh : ∀ p ∈ ps.map fun p => { p with hs := [] }, p.hs = [] := by
    intro p hp
    obtain ⟨q, _, rfl⟩ := List.mem_map.mp hp
    rfl
  let e : PTok := Pp.lineEnd
  obtain ⟨o1, e1, p1, N1, g1, a1, z1⟩ := C81_list_partial (env := { Pp.exEnv with strict := false }) rfl h ha' hh (e := e) rfl
  obtain ⟨o2, e2, p2, N2, g2, a2, z2⟩ := C81_list_partial (env := { Pp.exEnv with strict := false }) rfl h' ha' hh (e := e) rfl
  have i := (g1 (max N1 N2) (by omega)).symm.trans (g2 (max N1 N2) (by omega))
  injection i with i
  injection i with _ i
  injection i with i _
  have c1 := convert_all a1 z1
  have c2 := convert_all a2 z2
  rw [i, c2] at c1
  injection c1 with c1
  exact c1.symm

/-! ### Example -/

def exMax : List Tok := [.p .lpar, .ident "a", .p .gt, .ident "b", .p .quest, .ident "a", .p .colon, .ident "b", .p .rpar]

theorem plain {D : Defs} {H : List String} : ∀ {ts : List Tok}, (∀ t ∈ ts, Stop D H t) → Expand D H ts ts !ts.isEmpty
  | [], _ => .nil
  | t :: ts, h => by
    have := Expand.keep (t := t) (h t List.mem_cons_self) (plain fun u hu => h u (List.mem_cons_of_mem _ hu))
    cases ts <;> exact this

theorem stop_other {D : Defs} {H : List String} {t : Tok} (h : nameOf t = none) : Stop D H t := by
  intro s hs
  rcases hs with rfl | rfl <;> cases h

/-- With `#define max(a, b) (a > b ? a : b)` and `#define n m + 1`, `max(n, max(1, (2, 3)));` becomes `(m + 1 > (1 > (2, 3) ? 1 : (2, 3)) ? m + 1 : (1 > (2, 3) ? 1 : (2, 3)));`. -/
example (D : Defs) (h1 : D.fn "max" ["a", "b"] none exMax) (h2 : D.obj "n" [.ident "m", .p .plus, .num 1]) (h3 : D.free "m") :
    Expand D [] [.ident "max", .p .lpar, .ident "n", .p .comma, .ident "max", .p .lpar, .num 1, .p .comma, .p .lpar, .num 2, .p .comma, .num 3, .p .rpar, .p .rpar, .p .rpar, .p .semi]
      [.p .lpar, .ident "m", .p .plus, .num 1, .p .gt, .p .lpar, .num 1, .p .gt, .p .lpar, .num 2, .p .comma, .num 3, .p .rpar, .p .quest, .num 1, .p .colon, .p .lpar, .num 2, .p .comma, .num 3, .p .rpar, .p .rpar,
       .p .quest, .ident "m", .p .plus, .num 1, .p .colon, .p .lpar, .num 1, .p .gt, .p .lpar, .num 2, .p .comma, .num 3, .p .rpar, .p .quest, .num 1, .p .colon, .p .lpar, .num 2, .p .comma, .num 3, .p .rpar, .p .rpar,
       .p .rpar, .p .semi] true := by
  have st : ∀ {H : List String} {t : Tok}, (nameOf t = none ∨ t = .ident "m") → Stop D H t := by
    intro H t h
    rcases h with h | rfl
    · exact stop_other h
    · intro s hs
      rcases hs with h | h
      · cases h; exact .inl h3
      · cases h
  have all : ∀ {H : List String} {ts : List Tok}, (∀ t ∈ ts, nameOf t = none ∨ t = .ident "m") → Expand D H ts ts !ts.isEmpty := fun h => plain fun t ht => st (h t ht)
  have a2 : ArgText false [.p .lpar, .num 2, .p .comma, .num 3, .p .rpar] :=
    .group (a := [.num 2, .p .comma, .num 3]) (b := []) (.tok (by simp) (by simp) (by simp) (.tok (by simp) (by simp) (by simp) (.tok (by simp) (by simp) (by simp) .nil))) .nil
  have x1 : Expand D [] [.ident "max", .p .lpar, .num 1, .p .comma, .p .lpar, .num 2, .p .comma, .num 3, .p .rpar, .p .rpar]
      [.p .lpar, .num 1, .p .gt, .p .lpar, .num 2, .p .comma, .num 3, .p .rpar, .p .quest, .num 1, .p .colon, .p .lpar, .num 2, .p .comma, .num 3, .p .rpar, .p .rpar] true := by
    refine Expand.call (args := [[.num 1], [.p .lpar, .num 2, .p .comma, .num 3, .p .rpar]]) (xs := [[.num 1], [.p .lpar, .num 2, .p .comma, .num 3, .p .rpar]]) (zs := fun _ => true)
      (ts := []) (vs := []) (us := [.p .lpar, .num 1, .p .gt, .p .lpar, .num 2, .p .comma, .num 3, .p .rpar, .p .quest, .num 1, .p .colon, .p .lpar, .num 2, .p .comma, .num 3, .p .rpar, .p .rpar])
      (.inl rfl) (by simp) h1 rfl rfl ?_ ?_ ?_ (by simp [exMax]) (z1 := true) (all (H := ["max"]) ?_) .nil
    · intro a ha
      simp only [List.mem_cons, List.not_mem_nil, or_false] at ha
      rcases ha with rfl | rfl
      · exact .tok (by simp) (by simp) (by simp) .nil
      · exact a2
    · intro q hq
      simp only [List.zip_cons_cons, List.zip_nil_left, List.mem_cons, List.not_mem_nil, or_false] at hq
      rcases hq with rfl | rfl
      · exact all (by simp [nameOf])
      · exact all (by simp [nameOf])
    · simp only [List.mem_cons, List.not_mem_nil, or_false]
      rintro x (rfl | rfl) u hu <;> refine st ?_ <;> revert u <;> simp [nameOf]
    · simp [nameOf, substT, exMax, List.lookup]
  have x0 : Expand D [] [.ident "n"] [.ident "m", .p .plus, .num 1] true := by
    have := Expand.replace (hid := []) (t := .ident "n") (ts := []) (.inl rfl) (by simp) h2 (all (by simp [nameOf])) .nil
    exact this
  refine Expand.call (args := [[.ident "n"], [.ident "max", .p .lpar, .num 1, .p .comma, .p .lpar, .num 2, .p .comma, .num 3, .p .rpar, .p .rpar]])
    (xs := [[.ident "m", .p .plus, .num 1],
      [.p .lpar, .num 1, .p .gt, .p .lpar, .num 2, .p .comma, .num 3, .p .rpar, .p .quest, .num 1, .p .colon, .p .lpar, .num 2, .p .comma, .num 3, .p .rpar, .p .rpar]]) (zs := fun _ => true)
    (ts := [.p .semi]) (vs := [.p .semi])
    (us := [.p .lpar, .ident "m", .p .plus, .num 1, .p .gt, .p .lpar, .num 1, .p .gt, .p .lpar, .num 2, .p .comma, .num 3, .p .rpar, .p .quest, .num 1, .p .colon, .p .lpar, .num 2, .p .comma, .num 3, .p .rpar, .p .rpar,
       .p .quest, .ident "m", .p .plus, .num 1, .p .colon, .p .lpar, .num 1, .p .gt, .p .lpar, .num 2, .p .comma, .num 3, .p .rpar, .p .quest, .num 1, .p .colon, .p .lpar, .num 2, .p .comma, .num 3, .p .rpar, .p .rpar,
       .p .rpar])
    (.inl rfl) (by simp) h1 rfl rfl ?_ ?_ ?_ (by simp [exMax]) (z1 := true) (all (H := ["max"]) ?_) (all (by simp [nameOf]))
  · intro a ha
    simp only [List.mem_cons, List.not_mem_nil, or_false] at ha
    rcases ha with rfl | rfl
    · exact .tok (by simp) (by simp) (by simp) .nil
    · refine .tok (by simp) (by simp) (by simp) (.group (a := [.num 1, .p .comma, .p .lpar, .num 2, .p .comma, .num 3, .p .rpar]) (b := []) ?_ .nil)
      refine .tok (by simp) (by simp) (by simp) (.tok (by simp) (by simp) (by simp) (.group (a := [.num 2, .p .comma, .num 3]) (b := []) ?_ .nil))
      exact .tok (by simp) (by simp) (by simp) (.tok (by simp) (by simp) (by simp) (.tok (by simp) (by simp) (by simp) .nil))
  · intro q hq
    simp only [List.zip_cons_cons, List.zip_nil_left, List.mem_cons, List.not_mem_nil, or_false] at hq
    rcases hq with rfl | rfl
    · exact x0
    · exact x1
  · simp only [List.mem_cons, List.not_mem_nil, or_false]
    rintro x (rfl | rfl) u hu <;> refine st ?_ <;> revert u <;> simp [nameOf]
  · simp [nameOf, substT, exMax, List.lookup]

/-- The same computed from the characters. -/
example : Pp.outTexts Pp.exEnv 90 "#define max(a, b) (a > b ? a : b)\n#define n m + 1\nmax(n, max(1, (2,\n3)));\n" =
    some (["(", "m", "+", "1", ">", "(", "1", ">", "(", "2", ",", "3", ")", "?", "1", ":", "(", "2", ",", "3", ")", ")", "?", "m", "+", "1", ":", "(", "1", ">", "(", "2", ",", "3", ")", "?", "1", ":",
      "(", "2", ",", "3", ")", ")", ")", ";", ""].map asc) := by decide +kernel

/-- With `#define log(f, ...) put(f, __VA_ARGS__)`, `log(n, 1, (2))` becomes `put(n, 1, (2))`, and `log(n)` becomes `put(n, )`. -/
def exLog : List Tok := [.ident "put", .p .lpar, .ident "f", .p .comma, .ident "__VA_ARGS__", .p .rpar]

theorem log_call (D : Defs) (h1 : D.fn "log" ["f"] (some "__VA_ARGS__") exLog) (h2 : D.free "put") (h3 : D.free "n") {w tx : List Tok} (hw : ArgText true w) (hn : ∀ t ∈ w, nameOf t = none)
    (hv : VarText [[.ident "n"]] w tx) : Expand D [] (.ident "log" :: .p .lpar :: (tx ++ [.p .rpar])) (.ident "put" :: .p .lpar :: .ident "n" :: .p .comma :: (w ++ [.p .rpar])) true := by
  have st : ∀ {H : List String} {t : Tok}, nameOf t = none ∨ t = .ident "n" ∨ t = .ident "put" → Stop D H t := by
    intro H t h
    rcases h with h | rfl | rfl
    · exact stop_other h
    · intro s hs
      rcases hs with h | h
      · cases h; exact .inl h3
      · cases h
    · intro s hs
      rcases hs with h | h
      · cases h; exact .inl h2
      · cases h
  have all : ∀ {H : List String} {ts : List Tok}, (∀ t ∈ ts, nameOf t = none ∨ t = .ident "n" ∨ t = .ident "put") → Expand D H ts ts !ts.isEmpty := fun h => plain fun t ht => st (h t ht)
  have hb : substT ((["f"] ++ ["__VA_ARGS__"]).zip ([[.ident "n"]] ++ [w])) exLog = .ident "put" :: .p .lpar :: .ident "n" :: .p .comma :: (w ++ [.p .rpar]) := by
    simp [substT, exLog, List.lookup, nameOf]
  have hx : Expand D ["log"] (.ident "put" :: .p .lpar :: .ident "n" :: .p .comma :: (w ++ [.p .rpar])) (.ident "put" :: .p .lpar :: .ident "n" :: .p .comma :: (w ++ [.p .rpar])) true := by
    refine all (fun t ht => ?_)
    simp only [List.mem_cons, List.mem_append, List.not_mem_nil, or_false] at ht
    rcases ht with rfl | rfl | rfl | rfl | ht | rfl
    · exact .inr (.inr rfl)
    · exact .inl rfl
    · exact .inr (.inl rfl)
    · exact .inl rfl
    · exact .inl (hn t ht)
    · exact .inl rfl
  have := Expand.callV (zs := fun _ => true) (ts := []) (vs := []) (t := .ident "log") (hid := []) (.inl rfl) (by simp) h1 (args := [[.ident "n"]]) (xs := [[.ident "n"]]) rfl rfl (by
    intro a ha
    rw [List.mem_singleton.mp ha]
    exact .tok (by simp) (by simp) (by simp) .nil) hw hv (by
    intro q hq
    rw [List.mem_singleton.mp hq]
    exact all (by simp)) (all fun t ht => .inl (hn t ht)) (by
    intro x hx u hu
    rw [List.mem_singleton.mp hx] at hu
    rw [List.mem_singleton.mp hu]
    exact st (.inr (.inl rfl))) (fun u hu => st (.inl (hn u hu))) (by simp [exLog]) (hb ▸ hx) .nil
  rw [hb, List.append_nil] at this
  exact this

example (D : Defs) (h1 : D.fn "log" ["f"] (some "__VA_ARGS__") exLog) (h2 : D.free "put") (h3 : D.free "n") :
    Expand D [] [.ident "log", .p .lpar, .ident "n", .p .comma, .num 1, .p .comma, .p .lpar, .num 2, .p .rpar, .p .rpar]
      [.ident "put", .p .lpar, .ident "n", .p .comma, .num 1, .p .comma, .p .lpar, .num 2, .p .rpar, .p .rpar] true ∧
    Expand D [] [.ident "log", .p .lpar, .ident "n", .p .rpar] [.ident "put", .p .lpar, .ident "n", .p .comma, .p .rpar] true :=
  ⟨log_call D h1 h2 h3 (w := [.num 1, .p .comma, .p .lpar, .num 2, .p .rpar])
    (.tok (by simp) (by simp) (by simp) (.tok (by simp) (by simp) (by simp) (.group (a := [.num 2]) (b := []) (.tok (by simp) (by simp) (by simp) .nil) .nil))) (by simp [nameOf]) .some,
   log_call D h1 h2 h3 (w := []) .nil (by simp) .none⟩

example : Pp.outTexts Pp.exEnv 90 "#define log(f, ...) put(f, __VA_ARGS__)\nlog(n, 1, (2)) log(n)\n" =
    some (["put", "(", "n", ",", "1", ",", "(", "2", ")", ")", "put", "(", "n", ",", ")", ""].map asc) := by decide +kernel

end Toycc.Src.Props
