import Verif.Source.Read
import Verif.Source.Props
/-! C97: reading source files. -/
namespace Toycc.Source

theorem fread_ok {k : Nat} (hk : 0 < k) : ∀ (rs : List Rd) (pend : List UInt8), (∀ r ∈ rs, r ≠ .fail) → (∀ r ∈ (fread k pend rs).2.2, r ≠ .fail) ∧
    ((fread k pend rs).1 = [] → pend ++ bytes rs = [])
  | [], pend, _ => by
    refine ⟨by simp [fread], fun h => ?_⟩
    rw [fread] at h
    simp only [List.take_eq_nil_iff] at h
    rcases h with h | h
    · omega
    · simp [h, bytes]
  | .fail :: rs, pend, h => absurd rfl (h .fail (by simp))
  | .data b bs :: rs, pend, h => by
    rw [fread]
    split
    · rename_i hl
      refine ⟨h, fun e => ?_⟩
      simp only [List.take_eq_nil_iff] at e
      rcases e with e | e
      · omega
      · rw [e] at hl; simp at hl; omega
    · obtain ⟨h1, h2⟩ := fread_ok hk rs (pend ++ b :: bs) (fun r hr => h r (List.mem_cons_of_mem _ hr))
      exact ⟨h1, fun e => by have := h2 e; simp at this⟩

theorem readLoop_ok (pend : List UInt8) (rs : List Rd) (h : ∀ r ∈ rs, r ≠ .fail) : readLoop pend rs = pend ++ bytes rs := by
  obtain ⟨h1, h2⟩ := fread_ok (k := 4096) (by decide) rs pend h
  have h3 := fread_bytes 4096 rs pend
  rw [readLoop]
  split
  · rename_i h0
    rw [h0] at h2
    exact (h2 rfl).symm
  · rename_i b bs pend' rs' h0
    rw [h0] at h1 h3
    rw [readLoop_ok pend' rs' h1, ← h3]
termination_by (pend ++ bytes rs).length
decreasing_by
  rename_i h0
  have := fread_bytes 4096 rs pend
  rw [h0] at this
  rw [← this]
  simp only [List.length_append, List.length_cons]
  omega

/-- **C97** However the operating system divides the file into pieces, if no read fails the buffer holds every byte of it in order, a newline at the end (added if the file has none there), and NUL. -/
theorem C97_complete_partial (rs : List Rd) (h : ∀ r ∈ rs, r ≠ .fail) : readFileFrom (some rs) = some (bytes rs ++ (if (bytes rs).getLast? = some 10 then [] else [10]) ++ [0]) := by
  simp only [readFileFrom, Option.map_some, Option.some.injEq]
  rw [readLoop_ok [] rs h, List.nil_append, readFile]
  by_cases hl : (bytes rs).getLast? = some 10
  · rw [if_pos hl, if_neg, List.append_nil]
    rintro (h' | h')
    · rw [h'] at hl; cases hl
    · exact h' hl
  · rw [if_neg hl, if_pos (.inr hl)]
    simp [LF]

/-- **C97** Also if reads fail, what is read is the beginning of the file. -/
theorem C97_prefix (pend : List UInt8) (rs : List Rd) : ∃ r, pend ++ bytes rs = readLoop pend rs ++ r := by
  have h3 := fread_bytes 4096 rs pend
  rw [readLoop]
  split
  · exact ⟨_, rfl⟩
  · rename_i b bs pend' rs' h0
    rw [h0] at h3
    obtain ⟨r, hr⟩ := C97_prefix pend' rs'
    exact ⟨r, by rw [← h3, hr, List.append_assoc]⟩
termination_by (pend ++ bytes rs).length
decreasing_by
  rename_i h0
  have := fread_bytes 4096 rs pend
  rw [h0] at this
  rw [← this]
  simp only [List.length_append, List.length_cons]
  omega

theorem fread_kept {k : Nat} (hk : 0 < k) (rest : List Rd) : ∀ (good : List Rd) (pend : List UInt8), (∀ r ∈ good, r ≠ .fail) →
    (∃ c pend' good', fread k pend (good ++ .fail :: rest) = (c, pend', good' ++ .fail :: rest) ∧ c ≠ [] ∧ (∀ r ∈ good', r ≠ .fail) ∧ c ++ (pend' ++ bytes good') = pend ++ bytes good) ∨
    fread k pend (good ++ .fail :: rest) = (pend ++ bytes good, [], rest)
  | [], pend, h => by
    rw [List.nil_append, fread]
    split
    · rename_i hl
      refine .inl ⟨_, _, [], rfl, fun e => ?_, h, by simp [bytes]⟩
      rcases List.take_eq_nil_iff.1 e with e | e
      · omega
      · rw [e] at hl; simp at hl; omega
    · exact .inr (by simp [bytes])
  | .fail :: good, pend, h => absurd rfl (h .fail (by simp))
  | .data b bs :: good, pend, h => by
    rw [List.cons_append, fread]
    split
    · rename_i hl
      refine .inl ⟨_, _, .data b bs :: good, rfl, fun e => ?_, h, by rw [← List.append_assoc, List.take_append_drop]⟩
      rcases List.take_eq_nil_iff.1 e with e | e
      · omega
      · rw [e] at hl; simp at hl; omega
    · have e : pend ++ bytes (.data b bs :: good) = (pend ++ b :: bs) ++ bytes good := by simp [bytes]
      rw [e]
      exact fread_kept hk rest good (pend ++ b :: bs) fun r hr => h r (List.mem_cons_of_mem _ hr)

theorem readLoop_kept (rest : List Rd) (n : Nat) : ∀ (pend : List UInt8) (good : List Rd), (pend ++ bytes good).length = n → (∀ r ∈ good, r ≠ .fail) → ∃ x, readLoop pend (good ++ .fail :: rest) = pend ++ bytes good ++ x := by
  induction n using Nat.strongRecOn with
  | _ n ih =>
    intro pend good hn h
    rw [readLoop]
    rcases fread_kept (k := 4096) (by decide) rest good pend h with ⟨c, pend', good', h1, h2, h3, h4⟩ | h1
    · split
      · rename_i h0; rw [h1] at h0; cases h0; exact absurd rfl h2
      · rename_i b bs p' r' h0
        rw [h1] at h0
        cases h0
        obtain ⟨x, hx⟩ := ih (pend' ++ bytes good').length (by rw [← hn, ← h4]; simp only [List.length_append, List.length_cons]; omega) pend' good' rfl h3
        exact ⟨x, by rw [hx, ← h4]; simp only [List.append_assoc]⟩
    · split
      · rename_i h0
        rw [h1] at h0
        have := congrArg Prod.fst h0
        exact ⟨[], by simpa using this.symm⟩
      · rename_i b bs p' r' h0
        rw [h1] at h0
        have e : pend ++ bytes good = b :: bs := congrArg Prod.fst h0
        exact ⟨readLoop p' r', by rw [e]⟩

/-- **C97** Everything that was read before the first error is in the text. -/
theorem C97_kept (good rest : List Rd) (h : ∀ r ∈ good, r ≠ .fail) : ∃ x, readLoop [] (good ++ .fail :: rest) = bytes good ++ x := by
  obtain ⟨x, hx⟩ := readLoop_kept rest _ [] good rfl h
  exact ⟨x, by simpa using hx⟩

example : ∃ x, readLoop [] [.data 97 [98], .fail, .data 99 []] = [97, 98] ++ x := C97_kept [.data 97 [98]] [.data 99 []] (by simp)

/-- Two ways to hand out the same file. -/
example : readFileFrom (some [.data 97 [98], .data 99 []]) = readFileFrom (some [.data 97 [98, 99]]) ∧ readFileFrom (some [.data 97 [98], .data 99 []]) = some [97, 98, 99, 10, 0] := by
  rw [C97_complete_partial _ (by simp), C97_complete_partial _ (by simp)]
  decide

/-- A file of any number of pieces of any size. -/
example (n : Nat) : readFileFrom (some (List.replicate n (.data 120 (List.replicate 5000 120)) ++ [.data 10 []])) =
    some (bytes (List.replicate n (.data 120 (List.replicate 5000 120))) ++ [10, 0]) := by
  have hb : ∀ l : List Rd, bytes (l ++ [.data 10 []]) = bytes l ++ [10] := by
    intro l
    induction l with
    | nil => rfl
    | cons r l ih =>
      cases r with
      | fail => exact ih
      | data b bs => simp only [List.cons_append, bytes, ih, List.append_assoc]
  have fin : ∀ x : List UInt8, x ++ [10] ++ (if (x ++ [10]).getLast? = some 10 then [] else [10]) ++ [0] = x ++ [10, 0] := by intro x; simp
  rw [C97_complete_partial, hb]
  · exact congrArg some (fin _)
  · intro r hr
    rcases List.mem_append.1 hr with h | h
    · rw [(List.mem_replicate.1 h).2]; exact fun h => nomatch h
    · simp only [List.mem_cons, List.not_mem_nil, or_false] at h
      subst h; exact fun h => nomatch h

/-- A file that cannot be read after it has been opened, such as a directory, is taken for an empty file: there is no diagnostic. -/
theorem C97_error_silent (rs : List Rd) : readFileFrom (some (.fail :: rs)) = readFileFrom (some []) := by
  simp only [readFileFrom, Option.map_some, Option.some.injEq]
  rw [readLoop, readLoop]
  rfl

/-- **C97** A byte order mark at the beginning is no part of the text. -/
theorem C97_bom (contents : List UInt8) (h : ∀ r, contents ≠ 0xEF :: 0xBB :: 0xBF :: r) : loadFile (0xEF :: 0xBB :: 0xBF :: contents) = loadFile contents := by
  have e1 : ignoreBom (readFile (0xEF :: 0xBB :: 0xBF :: contents)) = readFile contents := by
    unfold readFile
    cases contents with
    | nil => rfl
    | cons c cs =>
      have : (0xEF :: 0xBB :: 0xBF :: c :: cs : List UInt8).getLast? = (c :: cs).getLast? := by simp [List.getLast?_cons_cons]
      rw [this]
      simp only [reduceCtorEq, false_or]
      split <;> rfl
  have e2 : ignoreBom (readFile contents) = readFile contents := by
    rw [ignoreBom]
    intro r e
    unfold readFile at e
    have key : ∀ x : List UInt8, (x = [LF, 0] ∨ x = [0]) → contents ++ x = 0xEF :: 0xBB :: 0xBF :: r → False := by
      intro x hx e
      match contents, h with
      | a :: b :: c :: r', h => simp at e; exact h r' (by rw [e.1, e.2.1, e.2.2.1])
      | [], _ => rcases hx with rfl | rfl <;> simp [LF] at e
      | [a], _ => rcases hx with rfl | rfl <;> simp [LF] at e
      | [a, b], _ => rcases hx with rfl | rfl <;> simp [LF] at e
    split at e
    · exact key _ (.inl rfl) e
    · exact key _ (.inr rfl) e
  unfold loadFile
  rw [e1, e2]

example : loadFile (0xEF :: 0xBB :: 0xBF :: ascii "int x;\n") = loadFile (ascii "int x;\n") := C97_bom _ (by intro r h; simp [ascii] at h)

/-- What follows a NUL byte is ignored without a diagnostic: for every `b` the text is that of the lines before. -/
theorem C97_nul_cut (a b : List UInt8) (h0 : ∀ c ∈ a, c ≠ 0) (hl : a.getLast? = some 10) (hbom : ∀ r, a ≠ 0xEF :: 0xBB :: 0xBF :: r) :
    (loadFile (a ++ 0 :: b)).map cstr = (loadFile a).map cstr := by
  obtain ⟨j, ej⟩ := C11_pipeline a h0 hbom
  have hft : fileText a = a := by rw [fileText, if_pos hl]
  have hc := C11_cstr a h0 hbom _ ej
  rw [hft] at hc ej
  obtain ⟨x, hx⟩ : ∃ x, readFile (a ++ 0 :: b) = a ++ 0 :: x := by
    unfold readFile
    split
    · exact ⟨b ++ [LF, 0], by simp⟩
    · exact ⟨b ++ [0], by simp⟩
  have hb : ignoreBom (a ++ 0 :: x) = a ++ 0 :: x := by
    rw [ignoreBom]
    intro r e
    match a, hbom with
    | c1 :: c2 :: c3 :: r', hb => simp at e; exact hb r' (by rw [e.1, e.2.1, e.2.2.1])
    | [], _ => simp at hl
    | [c1], _ => simp at hl e; 
    | [c1, c2], _ => simp at hl e
  obtain ⟨j1, e1⟩ := C09_inplace a x h0
  have n1 := newlines_ne_zero _ h0
  obtain ⟨j2, e2⟩ := C10_inplace _ j1 n1
  have n2 := splice_ne_zero 0 _ n1
  obtain ⟨j3, e3⟩ := C11_inplace _ j2 n2 (by
    rw [splice_last 0 _ (Or.inl (newlines_last _ hl))]; decide)
  have e4 : loadFile (a ++ 0 :: b) = .ok (Spec.ucn (Spec.splice 0 (Spec.newlines a)) ++ 0 :: j3) := by
    unfold loadFile
    rw [hx, hb, e1]
    simp only [e2, e3]
  rw [e4, ej]
  simp only [Except.map, Except.ok.injEq]
  have hn := C11_no_nul _ n2
  unfold cstr
  rw [List.takeWhile_append_of_pos (by simpa using hn), List.takeWhile_append_of_pos (by simpa using hn)]
  simp

/-- `int x;`, a NUL byte, and an #error that nobody sees. -/
example : (loadFile (ascii "int x;\n" ++ 0 :: ascii "#error\n")).map cstr = .ok (ascii "int x;\n") := by
  rw [C97_nul_cut _ _ (by decide +kernel) (by decide +kernel) (by intro r h; simp [ascii] at h)]
  simp only [loadFile, ascii, canonicalizeNewline, removeBackslashNewline, convertUniversalChars]
  decide +kernel

end Toycc.Source
