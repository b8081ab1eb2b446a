import Verif.Src.CharsProps
import Verif.Src.UnitEx
/-! An example for C75: the tokens of the example for C74 in two files, of which the first is given by an option -include. -/
namespace Toycc.Src.Props.Ex75
open Toycc.Rv Toycc.Cg Toycc.Low Toycc.Src
open Toycc.Parse (Tok Tree P)
open Toycc.Lex (asc GapItem ValidGap gapBytes IntConst Kind)
open Toycc.Pp (Bytes)

/-- The spelling of the tokens of the example. -/
def spell : Tok → Option (Bytes × Kind)
  | .p p => some (asc (sign p), .punct)
  | .kw s => if keywords.contains s then some (asc s, .ident) else none
  | .ident s => if s.toList ≠ [] ∧ s.toList.all (fun c => decide ('a' ≤ c ∧ c ≤ 'z')) ∧ ¬ keywords.contains s then some (asc s, .ident) else none
  | .num 0 => some (asc "0", .ppNum)
  | .num 1 => some (asc "1", .ppNum)
  | _ => none

theorem spell_ok {t : Tok} {w : Bytes} {k : Kind} (h : spell t = some (w, k)) : Spelling t w k := by
  unfold spell at h
  split at h
  · cases h; exact .sign _
  · split at h
    · rename_i h1
      cases h
      exact .kw ((isKeyword_spec _).mpr (by simpa using h1))
    · cases h
  · split at h
    · rename_i s h1
      cases h
      obtain ⟨h1, h2, h3⟩ := h1
      refine .name ?_ (fun hk => h3 (by simpa using (isKeyword_spec _).mp hk))
      cases e : s.toList with
      | nil => exact absurd e h1
      | cons c r =>
        rw [e, List.all_eq_true] at h2
        refine ⟨c, r, e, Or.inl (by simpa using h2 c List.mem_cons_self), fun d hd => Or.inl (Or.inl (by simpa using h2 d (List.mem_cons_of_mem _ hd)))⟩
    · cases h
  · cases h
    exact .int ⟨.octal, [], asc "0", [], false, false, by decide, by decide, ⟨by decide, by decide +kernel, by decide, by decide⟩, by decide, by decide +kernel, by decide +kernel⟩
  · cases h
    exact .int ⟨.decimal, [], asc "1", [], false, false, by decide, by decide, ⟨by decide, by decide +kernel, by decide, by decide⟩, by decide, by decide +kernel, by decide +kernel⟩
  · cases h

/-- After each token a blank; after each semicolon and closing brace two comments and a newline. -/
def write (t : Tok) : Option (Bytes × List GapItem) :=
  (spell t).map fun p => (p.1, if t = .p .semi ∨ t = .p .rbrace then [.block (asc " * "), .line (asc " x"), .nl] else [])

theorem laid {ts : List Tok} {ws : List (Bytes × List GapItem)} (h : ts.map write = ws.map some) : Laid (spread ws) ts := by
  have hl : ts.length = ws.length := by simpa using congrArg List.length h
  have hp : ∀ p ∈ ts.zip ws, write p.1 = some p.2 := by
    intro p hp
    obtain ⟨i, hi⟩ := List.getElem?_of_mem hp
    rw [List.getElem?_zip_eq_some] at hi
    have := congrArg (·[i]?) h
    simp only [List.getElem?_map, hi.1, hi.2, Option.map_some] at this
    exact Option.some.inj this
  refine C75_layout hl (fun p hp' => ?_) (g := []) ⟨fun _ h => (by cases h), fun a body b e => (by cases a <;> cases e)⟩
  have := hp p hp'
  unfold write at this
  rw [Option.map_eq_some_iff] at this
  obtain ⟨⟨w, k⟩, h1, h2⟩ := this
  rw [← h2]
  refine ⟨⟨k, spell_ok h1⟩, ?_⟩
  dsimp only
  split
  · refine ⟨?_, ?_⟩
    · intro i hi
      simp only [List.mem_cons, List.not_mem_nil, or_false] at hi
      rcases hi with rfl | rfl | rfl
      · show ∀ i, i < (asc " * ").length → _
        decide
      · show 10 ∉ asc " x"
        decide
      · trivial
    · intro a body b e
      match a, e with
      | [], e => injection e with e _; cases e
      | [_], e => injection e with _ e; injection e with _ e; rw [← e]; rfl
      | [_, _], e => injection e with _ e; injection e with _ e; injection e with e _; cases e
      | _ :: _ :: _ :: a, e => injection e with _ e; injection e with _ e; injection e with _ e; cases a <;> cases e
  · exact ⟨fun _ h => (by cases h), fun a body b e => (by cases a <;> cases e)⟩

/-- The text of a list of tokens. -/
def fileOf (ts : List Tok) : Bytes := spread (ts.filterMap write)

theorem laid_file {ts : List Tok} (h : ts.all (fun t => (write t).isSome) = true) : Laid (fileOf ts) ts := by
  refine laid ?_
  induction ts with
  | nil => rfl
  | cons t ts ih =>
    rw [List.all_cons, Bool.and_eq_true] at h
    obtain ⟨p, hp⟩ := Option.isSome_iff_exists.mp h.1
    rw [List.filterMap_cons_some hp, List.map_cons, List.map_cons, hp, ih h.2]

def header : Bytes := fileOf (Ex74.text.take 3)
def source : Bytes := fileOf (Ex74.text.drop 3)

example : header = asc "int total ; /* * */// x\n" ∧ source.take 48 = asc "typedef long num ; /* * */// x\nlong f ( long ) ;" := by decide +kernel

def penv : Pp.Env :=
  { host := .riscv, fileExists := fun p => p == asc "t.h" || p == asc "f.c",
    read := fun p => if p = asc "t.h" then some header else if p = asc "f.c" then some source else none, constExpr := fun _ => none }

theorem plain {ts : List Tok} {path : Bytes} {b : UInt8} (hr : penv.read path = some (fileOf ts)) (h0 : 0 ∉ fileOf ts) (h1 : 13 ∉ fileOf ts) (h2 : 92 ∉ fileOf ts)
    (h3 : (fileOf ts).getLast? = some 10) (h4 : (fileOf ts).head? = some b) (hb : b ≠ 0xEF) (h5 : ts.all (fun t => (write t).isSome) = true) : Contains penv path ts := by
  refine ⟨fileOf ts, hr, fun c hc e => h0 (e ▸ hc), ?_, ?_⟩
  · intro r e
    rw [e] at h4
    injection h4 with h4
    exact hb h4.symm
  · rw [C75_plain h1 h2 h3]
    exact laid_file h5

theorem contains_header : Contains penv (asc "t.h") (Ex74.text.take 3) :=
  plain (b := 0x69) rfl (by decide +kernel) (by decide +kernel) (by decide +kernel) (by decide +kernel) (by decide +kernel) (by decide) (by decide +kernel)

theorem contains_source : Contains penv (asc "f.c") (Ex74.text.drop 3) :=
  plain (b := 0x74) rfl (by decide +kernel) (by decide +kernel) (by decide +kernel) (by decide +kernel) (by decide +kernel) (by decide) (by decide +kernel)

theorem words_free : ∀ s ∈ words' Ex74.text, Word s ∧ ¬ Reserved s := by
  have h : (words' Ex74.text).all (fun s => s.toList ≠ [] && s.toList.all (fun c => decide ('a' ≤ c ∧ c ≤ 'z')) && s != "unix" && s != "linux") = true := by decide +kernel
  intro s hs
  have := List.all_eq_true.mp h s hs
  simp only [Bool.and_eq_true, decide_eq_true_eq, bne_iff_ne, ne_eq] at this
  obtain ⟨⟨⟨h1, h2⟩, h3⟩, h4⟩ := this
  cases e : s.toList with
  | nil => exact absurd e h1
  | cons c r =>
    rw [e, List.all_eq_true] at h2
    have hc : 'a' ≤ c ∧ c ≤ 'z' := by simpa using h2 c List.mem_cons_self
    refine ⟨⟨c, r, e, Or.inl hc, fun d hd => Or.inl (Or.inl (by simpa using h2 d (List.mem_cons_of_mem _ hd)))⟩, ?_⟩
    rintro (h | h | h)
    · exact h3 h
    · exact h4 h
    · rw [e] at h
      injection h with h
      subst h
      exact absurd hc (by decide)

/-- All hypotheses of `C75_file_partial` are met, with the macros of init_macros: the file of bytes compiles to `P`, and for every `k` below a million the function, called with `k` and enough
stack, returns with the sum of the numbers up to `k`. -/
theorem runs : ∃ st, initMacros penv "\"Nov 15 2026\"" "\"12:00:00\"" = .ok st ∧ (∃ M, ∀ n, M ≤ n → cc1 penv Ex74.val0 n st [asc "t.h"] (asc "f.c") = some Ex73.P) ∧
    ∀ (k : Nat), k < 1000000 → ∀ (s : St), 2000 * (k + 2) ≤ (s.r .sp).toNat → s.r .a0 = BitVec.ofNat 64 k → s.r .ra = BitVec.ofNat 64 (4096 + Ex73.P.length) →
      ∃ pos s', find Ex73.P (.sym "f") = some pos ∧ Runs Ex73.P Ex73.env (pos, s) (Ex73.P.length, s') ∧ s'.r .a0 = BitVec.ofNat 64 (Ex73.sum k) := by
  have rd : ∀ s, readable .riscv s = true → ∃ ts, Lex.tokenize penv.host (asc s) = .ok ts := by
    intro s h
    unfold readable at h
    show ∃ ts, Lex.tokenize .riscv (asc s) = .ok ts
    cases e : Lex.tokenize .riscv (asc s) with
    | error x => rw [e] at h; cases h
    | ok ts => exact ⟨ts, rfl⟩
  obtain ⟨st, h1, h2, h3⟩ := C75_predefined penv (rd "\"Nov 15 2026\"" (by decide +kernel)) (rd "\"12:00:00\"" (by decide +kernel))
  refine ⟨st, h1, ?_, Ex74.runs.2⟩
  have ht : tokensOf [(asc "t.h", Ex74.text.take 3)] ++ Ex74.text.drop 3 = Ex74.text := by
    show (Ex74.text.take 3 ++ []) ++ Ex74.text.drop 3 = _
    rw [List.append_nil, List.take_append_drop]
  obtain ⟨M, hM⟩ := C75_tokens_partial h2 [(asc "t.h", Ex74.text.take 3)] (fun f hf => by rw [List.mem_singleton.mp hf]; exact ⟨by decide +kernel, contains_header⟩)
    contains_source (fun s hs => by rw [ht] at hs; exact h3 s (words_free s hs).1 (words_free s hs).2)
  obtain ⟨M', hM'⟩ := Ex74.compiled
  refine ⟨max M M', fun n hn => ?_⟩
  unfold cc1
  have := hM n (by omega)
  rw [ht] at this
  have e : cc1Tokens penv n st [asc "t.h"] (asc "f.c") = some Ex74.text := this
  rw [e]
  exact hM' n (by omega)

end Toycc.Src.Props.Ex75
