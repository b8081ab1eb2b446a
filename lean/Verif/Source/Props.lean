import Verif.Source.Lemmas
/-!
Properties C09 (newlines), C10 (line splicing), C11 (universal character names).
The specification functions are in `Spec.lean`; here they are tied to the in-place code and characterised.
-/
namespace Toycc.Source
open Toycc.Unicode

/-- ASCII text as bytes (for the examples). -/
def ascii (s : String) : List UInt8 := s.toList.map fun c => UInt8.ofNat c.toNat

/-! ### C09 -/

/-- **C09** On every NUL-terminated buffer the in-place pass stays inside the buffer and leaves the text with its
newlines canonicalised (the specification reads the *original* text, so no byte was overwritten before it was read). -/
theorem C09_inplace (text junk : List UInt8) (h0 : ∀ c ∈ text, c ≠ 0) :
    ∃ junk', canonicalizeNewline (text ++ 0 :: junk) = .ok (Spec.newlines text ++ 0 :: junk') := by
  have := canonLoop_spec text h0 [] [] junk
  simpa [canonicalizeNewline] using this

/-- **C09** The result has no CR. -/
theorem C09_no_cr (text : List UInt8) : 13 ∉ Spec.newlines text := by
  fun_induction Spec.newlines text with
  | case1 r ih => simpa using ih
  | case2 r h ih => simpa using ih
  | case3 c r h1 h2 ih =>
    intro hm
    rcases List.mem_cons.mp hm with h | h
    · exact h2 h.symm
    · exact ih h
  | case4 => simp

/-- **C09** The bytes before the first CR are kept, CR LF and a lone CR become LF, and the rest follows. -/
theorem C09_lines (s r : List UInt8) (hs : 13 ∉ s) :
    Spec.newlines s = s ∧
    Spec.newlines (s ++ 13 :: 10 :: r) = s ++ 10 :: Spec.newlines r ∧
    (r.head? ≠ some 10 → Spec.newlines (s ++ 13 :: r) = s ++ 10 :: Spec.newlines r) := by
  induction s with
  | nil =>
    refine ⟨rfl, rfl, ?_⟩
    intro h
    cases r with
    | nil => rfl
    | cons a b =>
      simp only [List.nil_append]
      rw [Spec.newlines]
      intro r' e
      cases e; exact h rfl
  | cons c s ih =>
    simp only [List.mem_cons, not_or] at hs
    have ih := ih hs.2
    have hc : ∀ x, Spec.newlines (c :: x) = c :: Spec.newlines x := by
      intro x
      rw [Spec.newlines]
      · rintro r' rfl; exact absurd rfl hs.1
      · exact fun e => hs.1 e.symm
    simp only [List.cons_append, hc]
    exact ⟨by rw [ih.1], by rw [ih.2.1], fun h => by rw [ih.2.2 h]⟩

example : ∃ junk', canonicalizeNewline (ascii "a\r\nb\rc\n" ++ 0 :: [7]) = .ok (ascii "a\nb\nc\n" ++ 0 :: junk') :=
  ⟨[0, 7], by decide +kernel⟩

/-! ### C10 -/

/-- **C10** On every NUL-terminated buffer the in-place pass stays inside the buffer and leaves the spliced text. -/
theorem C10_inplace (text junk : List UInt8) (h0 : ∀ c ∈ text, c ≠ 0) :
    ∃ junk', removeBackslashNewline (text ++ 0 :: junk) = .ok (Spec.splice 0 text ++ 0 :: junk') := by
  have := spliceLoop_spec 0 text h0 [] [] junk (by simp)
  simpa [removeBackslashNewline] using this

/-- **C10** The number of newlines is kept. -/
theorem C10_count (n : Nat) (text : List UInt8) :
    (Spec.splice n text).count 10 = n + text.count 10 := by
  fun_induction Spec.splice n text with
  | case1 n r ih => rw [ih]; simp; omega
  | case2 n r ih => simp [ih]; omega
  | case3 n c r h1 h2 ih =>
    have : (c == 10) = false := by simpa using h2
    rw [List.count_cons, List.count_cons, ih, this]; simp
  | case4 n => simp

/-- **C10** Apart from newlines, exactly the backslashes of backslash-newline pairs are deleted. -/
theorem C10_content (n : Nat) (text : List UInt8) :
    (Spec.splice n text).filter (· ≠ 10) = (Spec.dropSplices text).filter (· ≠ 10) := by
  fun_induction Spec.splice n text with
  | case1 n r ih => rw [ih, Spec.dropSplices]
  | case2 n r ih =>
    rw [Spec.dropSplices]
    · simpa using ih
    · intro r' e; cases e
  | case3 n c r h1 h2 ih =>
    rw [Spec.dropSplices]
    · rw [List.filter_cons, List.filter_cons, ih]
    · exact h1
  | case4 n => simp [Spec.dropSplices]

/-- **C10** One logical line: `line` ends neither in a backslash nor contains an unspliced newline. It is replaced by
its spliced contents, its newline, and as many more newlines as were deleted from it; the rest of the text follows
unaffected. -/
theorem C10_line (line rest : List UInt8) (h1 : 10 ∉ Spec.dropSplices line) (h2 : line.getLast? ≠ some 92) :
    Spec.splice 0 (line ++ 10 :: rest) =
      Spec.dropSplices line ++ 10 :: (List.replicate (line.count 10) 10 ++ Spec.splice 0 rest) := by
  have gen : ∀ n, Spec.splice n (line ++ 10 :: rest) =
      Spec.dropSplices line ++ 10 :: (List.replicate (n + line.count 10) 10 ++ Spec.splice 0 rest) := by
    fun_induction Spec.dropSplices line with
    | case1 r ih =>
      intro n
      simp only [List.cons_append]
      rw [Spec.splice, ih h1 (getLast_tail (getLast_tail h2))]
      simp only [List.append_cancel_left_eq, List.cons.injEq, true_and, List.append_cancel_right_eq]
      congr 1; simp; omega
    | case2 c r hc ih =>
      intro n
      simp only [List.mem_cons, not_or] at h1
      simp only [List.cons_append]
      rw [Spec.splice]
      · rw [ih h1.2 (getLast_tail h2)]
        have : (c == 10) = false := by simp; exact fun e => h1.1 e.symm
        simp [List.count_cons, this]
      · rintro r' rfl e
        cases r with
        | nil => exact h2 rfl
        | cons a b => simp at e; exact hc b rfl (by rw [e.1])
      · exact fun e => h1.1 e.symm
    | case3 => intro n; simp [Spec.splice]
  simpa using gen 0

/-- **C10** Hence every logical line starts on the line number it had: the text before `rest` has as many newlines
after the pass as before. -/
theorem C10_line_numbers (before rest : List UInt8) (h : before.getLast? ≠ some 92) :
    ∃ out, Spec.splice 0 (before ++ 10 :: rest) = out ++ Spec.splice 0 rest ∧
      out.count 10 = (before ++ [10]).count 10 := by
  have gen : ∀ n, ∃ out, Spec.splice n (before ++ 10 :: rest) = out ++ Spec.splice 0 rest ∧
      Spec.splice n (before ++ [10]) = out := by
    intro n
    fun_induction Spec.splice n before with
    | case1 n r ih =>
      simp only [List.cons_append, Spec.splice]
      exact ih (getLast_tail (getLast_tail h))
    | case2 n r ih =>
      obtain ⟨o, ho, hc⟩ := ih (getLast_tail h)
      simp only [List.cons_append, Spec.splice]
      exact ⟨10 :: (List.replicate n 10 ++ o), by simp [ho], by rw [hc]⟩
    | case3 n c r h1 h2 ih =>
      obtain ⟨o, ho, hc⟩ := ih (getLast_tail h)
      have nb : ∀ x r', r ++ 10 :: x = 10 :: r' → c = 92 → False := by
        rintro x r' e rfl
        cases r with
        | nil => exact h rfl
        | cons a b => simp at e; exact h1 b rfl (by rw [e.1])
      refine ⟨c :: o, ?_, ?_⟩
      · simp only [List.cons_append]
        rw [Spec.splice, ho]
        · exact fun r' hc e => nb rest r' e hc
        · exact h2
      · simp only [List.cons_append]
        rw [Spec.splice, hc]
        · exact fun r' hc e => nb [] r' e hc
        · exact h2
    | case4 n => exact ⟨10 :: List.replicate n 10, by simp [Spec.splice], by simp [Spec.splice]⟩
  obtain ⟨o, h1, h2⟩ := gen 0
  refine ⟨o, h1, ?_⟩
  rw [← h2, C10_count]; simp

example : ∃ junk', removeBackslashNewline (ascii "#define A b\\\n  c\nx" ++ 0 :: [7])
    = .ok (ascii "#define A b  c\n\nx" ++ 0 :: junk') :=
  ⟨[0, 7], by decide +kernel⟩

example : Spec.splice 0 (ascii "a\\\nb" ++ 10 :: ascii "c") = ascii "ab" ++ 10 :: ([10] ++ ascii "c") :=
  C10_line (ascii "a\\\nb") (ascii "c") (by decide +kernel) (by decide +kernel)

/-! ### C11 -/

/-- **C11** On every NUL-terminated buffer whose text does not end in a backslash the in-place pass stays inside the
buffer and leaves the text with its universal character names replaced. -/
theorem C11_inplace (text junk : List UInt8) (h0 : ∀ c ∈ text, c ≠ 0) (hb : text.getLast? ≠ some 92) :
    ∃ junk', convertUniversalChars (text ++ 0 :: junk) = .ok (Spec.ucn text ++ 0 :: junk') := by
  have := ucnLoop_spec text h0 hb [] [] junk
  simpa [convertUniversalChars] using this

/-- The side condition of `C11_inplace` is needed: a backslash just before the NUL makes the pass run off the buffer. -/
theorem C11_lone_backslash_overruns : convertUniversalChars (ascii "a\\" ++ [0]) = .error .overrun := by
  simp only [convertUniversalChars, ascii]
  decide +kernel

/-- **C11** Text before the first backslash is kept, and there: a name with `n` (4 or 8) hexadecimal digits of value
`v ≠ 0` becomes the UTF-8 encoding of `v`; `\u`/`\U` not followed by such digits keeps the backslash and goes on with
the next byte; a backslash and any other byte are both kept (so the second backslash of `\\` starts nothing). -/
theorem C11_pieces (s r : List UInt8) (hs : 92 ∉ s) :
    Spec.ucn s = s ∧
    (∀ v, Spec.ucnValue 4 r = some v → Spec.ucn (s ++ 92 :: 0x75 :: r) = s ++ encode v ++ Spec.ucn (r.drop 4)) ∧
    (∀ v, Spec.ucnValue 8 r = some v → Spec.ucn (s ++ 92 :: 0x55 :: r) = s ++ encode v ++ Spec.ucn (r.drop 8)) ∧
    (Spec.ucnValue 4 r = none → Spec.ucn (s ++ 92 :: 0x75 :: r) = s ++ 92 :: Spec.ucn (0x75 :: r)) ∧
    (Spec.ucnValue 8 r = none → Spec.ucn (s ++ 92 :: 0x55 :: r) = s ++ 92 :: Spec.ucn (0x55 :: r)) ∧
    (∀ c, c ≠ 0x75 → c ≠ 0x55 → Spec.ucn (s ++ 92 :: c :: r) = s ++ 92 :: c :: Spec.ucn r) := by
  induction s with
  | nil =>
    refine ⟨by rw [Spec.ucn], ?_, ?_, ?_, ?_, ?_⟩
    · intro v hv; simp only [List.nil_append]; rw [Spec.ucn]; simp only [hv]
    · intro v hv; simp only [List.nil_append]; rw [Spec.ucn]; simp only [hv]
    · intro hv; simp only [List.nil_append]; rw [Spec.ucn]; simp only [hv]
    · intro hv; simp only [List.nil_append]; rw [Spec.ucn]; simp only [hv]
    · intro c h1 h2
      simp only [List.nil_append]
      rw [Spec.ucn]
      · exact h1
      · exact h2
  | cons c s ih =>
    simp only [List.mem_cons, not_or] at hs
    obtain ⟨i1, i2, i3, i4, i5, i6⟩ := ih hs.2
    have hc : ∀ x, Spec.ucn (c :: x) = c :: Spec.ucn x := by
      intro x
      rw [Spec.ucn]
      · rintro r' rfl; exact absurd rfl hs.1
      · rintro r' rfl; exact absurd rfl hs.1
      · rintro d r' rfl; exact absurd rfl hs.1
    simp only [List.cons_append, hc]
    exact ⟨by rw [i1], fun v h => by rw [i2 v h], fun v h => by rw [i3 v h], fun h => by rw [i4 h],
      fun h => by rw [i5 h], fun d h1 h2 => by rw [i6 d h1 h2]⟩

theorem newlines_ne_zero (t : List UInt8) (h : ∀ c ∈ t, c ≠ 0) : ∀ c ∈ Spec.newlines t, c ≠ 0 := by
  fun_induction Spec.newlines t with
  | case1 r ih => simp only [List.mem_cons, forall_eq_or_imp] at h ⊢; exact ⟨by decide, ih h.2.2⟩
  | case2 r _ ih => simp only [List.mem_cons, forall_eq_or_imp] at h ⊢; exact ⟨by decide, ih h.2⟩
  | case3 c r _ _ ih => simp only [List.mem_cons, forall_eq_or_imp] at h ⊢; exact ⟨h.1, ih h.2⟩
  | case4 => simp

theorem splice_ne_zero (n : Nat) (t : List UInt8) (h : ∀ c ∈ t, c ≠ 0) : ∀ c ∈ Spec.splice n t, c ≠ 0 := by
  fun_induction Spec.splice n t with
  | case1 n r ih => simp only [List.mem_cons, forall_eq_or_imp] at h; exact ih h.2.2
  | case2 n r ih =>
    simp only [List.mem_cons, forall_eq_or_imp] at h
    intro c hc
    simp only [List.mem_cons, List.mem_append, List.mem_replicate] at hc
    rcases hc with rfl | ⟨_, rfl⟩ | hc
    · decide
    · decide
    · exact ih h.2 c hc
  | case3 n c r _ _ ih => simp only [List.mem_cons, forall_eq_or_imp] at h ⊢; exact ⟨h.1, ih h.2⟩
  | case4 n => intro c hc; simp only [List.mem_replicate] at hc; rw [hc.2]; decide

theorem newlines_last (t : List UInt8) (h : t.getLast? = some 10) : (Spec.newlines t).getLast? = some 10 := by
  fun_induction Spec.newlines t with
  | case1 r ih =>
    cases r with
    | nil => rfl
    | cons a b =>
      have := ih (by simpa using h)
      rw [List.getLast?_cons, this]; rfl
  | case2 r _ ih =>
    cases r with
    | nil => rfl
    | cons a b =>
      have := ih (by simpa using h)
      rw [List.getLast?_cons, this]; rfl
  | case3 c r _ _ ih =>
    cases r with
    | nil => simpa [Spec.newlines] using h
    | cons a b =>
      have := ih (by simpa using h)
      rw [List.getLast?_cons, this]; rfl
  | case4 => simp at h

theorem splice_last (n : Nat) (t : List UInt8) (h : t.getLast? = some 10 ∨ (t = [] ∧ 0 < n)) :
    (Spec.splice n t).getLast? = some 10 := by
  fun_induction Spec.splice n t with
  | case1 n r ih =>
    apply ih
    cases r with
    | nil => exact Or.inr ⟨rfl, by omega⟩
    | cons a b => left; simpa using h
  | case2 n r ih =>
    cases r with
    | nil => simp only [Spec.splice]; simp [List.getLast?_cons]; cases n <;> simp [List.getLast?_replicate]
    | cons a b =>
      have := ih (Or.inl (by simpa using h))
      rw [List.getLast?_cons, List.getLast?_append, this]; rfl
  | case3 n c r h1 h2 ih =>
    cases r with
    | nil =>
      rcases h with h | h
      · simp at h; exact absurd h h2
      · simp at h
    | cons a b =>
      have := ih (Or.inl (by simpa using h))
      rw [List.getLast?_cons, this]; rfl
  | case4 n =>
    rcases h with h | h
    · simp at h
    · rw [List.getLast?_replicate, if_neg (by omega)]

/-- The text of a file after reading: a final newline is added when there is none. -/
def fileText (contents : List UInt8) : List UInt8 :=
  if contents.getLast? = some 10 then contents else contents ++ [10]

/-- **C09-C11** For every file without NUL bytes (and without a byte order mark) the whole sequence of passes succeeds
and leaves the text given by the specifications, NUL-terminated. -/
theorem C11_pipeline (contents : List UInt8) (h0 : ∀ c ∈ contents, c ≠ 0)
    (hbom : ∀ r, contents ≠ 0xEF :: 0xBB :: 0xBF :: r) :
    ∃ junk, loadFile contents =
      .ok (Spec.ucn (Spec.splice 0 (Spec.newlines (fileText contents))) ++ 0 :: junk) := by
  have hrf : readFile contents = fileText contents ++ [0] := by
    unfold readFile fileText
    by_cases h : contents.getLast? = some 10
    · rw [if_pos h, if_neg]
      rintro (h' | h')
      · subst h'; simp at h
      · exact h' h
    · rw [if_neg h, if_pos (Or.inr (by exact h))]; simp [LF]
  have ht0 : ∀ c ∈ fileText contents, c ≠ 0 := by
    unfold fileText; split
    · exact h0
    · intro c hc
      rcases List.mem_append.mp hc with h | h
      · exact h0 c h
      · simp at h; rw [h]; decide
  have htl : (fileText contents).getLast? = some 10 := by
    unfold fileText; split
    · assumption
    · simp
  have hb : ignoreBom (fileText contents ++ [0]) = fileText contents ++ [0] := by
    rw [ignoreBom]
    intro r e
    have key : ∀ t : List UInt8, (t = contents ∨ t = contents ++ [10]) → t ++ [0] = 0xEF :: 0xBB :: 0xBF :: r → False := by
      intro t ht e
      have h3 : contents.length ≥ 3 ∨ contents.length < 3 := by omega
      rcases h3 with h3 | h3
      · match contents, h3 with
        | a :: b :: c :: r', _ =>
          rcases ht with rfl | rfl <;>
          · simp at e
            exact hbom r' (by rw [e.1, e.2.1, e.2.2.1])
      · match contents, h3 with
        | [], _ => rcases ht with rfl | rfl <;> simp at e
        | [a], _ => rcases ht with rfl | rfl <;> simp at e
        | [a, b], _ => rcases ht with rfl | rfl <;> simp at e
    refine key _ ?_ e
    unfold fileText; split
    · exact Or.inl rfl
    · exact Or.inr rfl
  obtain ⟨j1, e1⟩ := C09_inplace (fileText contents) [] ht0
  have n1 := newlines_ne_zero _ ht0
  obtain ⟨j2, e2⟩ := C10_inplace _ j1 n1
  have n2 := splice_ne_zero 0 _ n1
  obtain ⟨j3, e3⟩ := C11_inplace _ j2 n2 (by
    rw [splice_last 0 _ (Or.inl (newlines_last _ htl))]; decide)
  refine ⟨j3, ?_⟩
  unfold loadFile
  rw [hrf, hb, e1]
  simp only [e2, e3]

/-- **C11** The replacement text has no NUL, so the resulting C string is the whole specified text. -/
theorem C11_no_nul (t : List UInt8) (h : ∀ c ∈ t, c ≠ 0) : ∀ c ∈ Spec.ucn t, c ≠ 0 := by
  have henc : ∀ v, v ≠ 0 → ∀ c ∈ encode v, c ≠ 0 := by
    have hor : ∀ n k : Nat, n % 256 ≠ 0 → UInt8.ofNat n ≠ 0 := by
      intro n _ hn e
      have := congrArg UInt8.toNat e
      simp at this; omega
    have hbor : ∀ a b : Nat, a < 256 → 0x80 ≤ a → (a ||| b) % 256 ≠ 0 := by
      intro a b h1 h2 e
      have h3 : (a ||| b) % 256 = a ||| (b % 256) := by
        rw [show 256 = 2 ^ 8 from rfl, Nat.or_mod_two_pow, Nat.mod_eq_of_lt (by simpa using h1)]
      rw [h3] at e
      have := Nat.left_le_or (n := a) (m := b % 256)
      omega
    intro v hv c hc
    simp only [encode, byte] at hc
    split at hc
    · simp at hc; subst hc; exact hor v 0 (by omega)
    · split at hc
      · simp only [List.mem_cons, List.not_mem_nil, or_false] at hc; rcases hc with rfl | rfl <;> refine hor _ 0 (hbor _ _ ?_ ?_) <;> decide
      · split at hc
        · simp only [List.mem_cons, List.not_mem_nil, or_false] at hc; rcases hc with rfl | rfl | rfl <;> refine hor _ 0 (hbor _ _ ?_ ?_) <;> decide
        · simp only [List.mem_cons, List.not_mem_nil, or_false] at hc; rcases hc with rfl | rfl | rfl | rfl <;> refine hor _ 0 (hbor _ _ ?_ ?_) <;> decide
  have hval : ∀ n (r : List UInt8) v, Spec.ucnValue n r = some v → v ≠ 0 := by
    intro n r v hv
    exact ((readUniversal_ucn n [] r []).2 v hv).1
  fun_induction Spec.ucn t with
  | case1 => simp
  | case2 r v hv ih =>
    intro c hc
    rcases List.mem_append.mp hc with h' | h'
    · exact henc v (hval _ _ _ hv) c h'
    · exact ih (fun c hc => h c (by simp [List.mem_of_mem_drop hc])) c h'
  | case3 r hv ih => simp only [List.mem_cons, forall_eq_or_imp] at h ⊢; exact ⟨h.1, ih (by simpa using h.2.2)⟩
  | case4 r v hv ih =>
    intro c hc
    rcases List.mem_append.mp hc with h' | h'
    · exact henc v (hval _ _ _ hv) c h'
    · exact ih (fun c hc => h c (by simp [List.mem_of_mem_drop hc])) c h'
  | case5 r hv ih => simp only [List.mem_cons, forall_eq_or_imp] at h ⊢; exact ⟨h.1, ih (by simpa using h.2.2)⟩
  | case6 c r _ _ ih => simp only [List.mem_cons, forall_eq_or_imp] at h ⊢; exact ⟨h.1, h.2.1, ih h.2.2⟩
  | case7 c r _ _ _ ih => simp only [List.mem_cons, forall_eq_or_imp] at h ⊢; exact ⟨h.1, ih h.2⟩

theorem C11_cstr (contents : List UInt8) (h0 : ∀ c ∈ contents, c ≠ 0)
    (hbom : ∀ r, contents ≠ 0xEF :: 0xBB :: 0xBF :: r) (b : Buf) (h : loadFile contents = .ok b) :
    cstr b = Spec.ucn (Spec.splice 0 (Spec.newlines (fileText contents))) := by
  obtain ⟨j, e⟩ := C11_pipeline contents h0 hbom
  rw [e] at h; cases h
  have ht0 : ∀ c ∈ fileText contents, c ≠ 0 := by
    unfold fileText; split
    · exact h0
    · intro c hc
      rcases List.mem_append.mp hc with h | h
      · exact h0 c h
      · simp at h; rw [h]; decide
  have hn := C11_no_nul _ (splice_ne_zero 0 _ (newlines_ne_zero _ ht0))
  unfold cstr
  rw [List.takeWhile_append_of_pos (by simpa using hn)]
  simp

/-- A file with all three features: `é` becomes C3 A9, `\\u0041` (escaped backslash) stays. -/
example : (loadFile (ascii "a\\u00e9\\\r\nb\\\\u0041")).map cstr =
    .ok ([0x61, 0xC3, 0xA9, 0x62] ++ ascii "\\\\u0041\n\n") := by
  simp only [loadFile, ascii, canonicalizeNewline, removeBackslashNewline, convertUniversalChars]
  decide +kernel

end Toycc.Source
