import Verif.Lex.Lemmas
/-! Properties C12 (nothing is lost), C13 (line numbers), C14 (punctuators), C15 (flags), C16 (no over-read). -/
namespace Toycc.Lex
open Toycc.Unicode
open Toycc.Source (isXDigit fromHex)

/-! ### C12, C13, C15 -/

/-- `tokenize` succeeds exactly when the main loop does: the line pass never runs out of tokens. -/
theorem tokenize_eq (h : Host) (text : List UInt8) :
    tokenize h text = (scan h 0 text true false).map fun ts => ts.map (setLine text) := by
  unfold tokenize
  split
  · rename_i e he; rw [he]; rfl
  · rename_i ts he
    rw [he]
    have hl := scan_layout h 0 text true false ts he true 0 [] (OpenGap.nil _) (by simp [gapBytes]) rfl rfl
    simp only [gapBytes, List.flatMap_nil, List.nil_append] at hl
    have := addLines_spec 0 1 text ts [] rfl rfl (layout_ordered _ _ _ _ hl)
    rw [this]; rfl

/-- **C12, C15** The token list of an accepted text is a layout of it: gap, token, gap, ..., token, gap, end of file,
with every token non-empty and spelled by the text at its offset, gaps made of white space and comments only, and the
two flags of every token determined by the gap before it. -/
theorem C12_C15_layout (h : Host) (text : List UInt8) (ts : List Tok) (ht : tokenize h text = .ok ts) :
    Layout true 0 text ts := by
  rw [tokenize_eq] at ht
  cases hs : scan h 0 text true false with
  | error e => rw [hs] at ht; cases ht
  | ok us =>
    rw [hs] at ht; cases ht
    have hl := scan_layout h 0 text true false us hs true 0 [] (OpenGap.nil _) (by simp [gapBytes]) rfl rfl
    simp only [gapBytes, List.flatMap_nil, List.nil_append] at hl
    exact hl.setLines _ _ _ _ (fun t => 1 + (text.take t.loc).count 10)

/-- The spelling of a token. -/
def spelling (text : List UInt8) (t : Tok) : List UInt8 := (text.drop t.loc).take t.len

theorem layout_cover (first : Bool) (pos : Nat) (text : List UInt8) (ts : List Tok) (h : Layout first pos text ts)
    (whole pre : List UInt8) (hw : whole = pre ++ text) (hp : pos = pre.length) :
    ∃ gaps : List (List GapItem), gaps.length = ts.length ∧ (∀ g ∈ gaps, ValidGap g) ∧
      text = (gaps.zip ts).flatMap fun (g, t) => gapBytes g ++ spelling whole t := by
  induction h generalizing pre with
  | eof first pos g t h1 h2 h3 h4 h5 =>
    exact ⟨[g], rfl, by simpa using h1, by simp [spelling, h3]⟩
  | tok first pos g w rest t ts h1 h2 h3 h4 h5 h6 hr ih =>
    obtain ⟨gs, g1, g2, g3⟩ := ih (pre ++ (gapBytes g ++ w)) (by rw [hw]; simp) (by simp; omega)
    refine ⟨g :: gs, by simp [g1], by simp; exact ⟨h1, g2⟩, ?_⟩
    simp only [List.zip_cons_cons, List.flatMap_cons]
    rw [← g3]
    have : spelling whole t = w := by
      unfold spelling
      rw [hw, ← List.append_assoc, show t.loc = (pre ++ gapBytes g).length by simp; omega, List.drop_left, h4,
        List.take_left]
    rw [this]; simp

/-- **C12** The text is the concatenation of gaps and token spellings, in order. -/
theorem C12_concat (h : Host) (text : List UInt8) (ts : List Tok) (ht : tokenize h text = .ok ts) :
    ∃ gaps : List (List GapItem), gaps.length = ts.length ∧ (∀ g ∈ gaps, ValidGap g) ∧
      text = (gaps.zip ts).flatMap fun (g, t) => gapBytes g ++ spelling text t :=
  layout_cover _ _ _ _ (C12_C15_layout h text ts ht) text [] rfl rfl

/-- **C12** Exactly the last token is the end-of-file token. -/
theorem C12_eof_last (h : Host) (text : List UInt8) (ts : List Tok) (ht : tokenize h text = .ok ts) :
    ∃ us e, ts = us ++ [e] ∧ e.kind = .eof ∧ e.loc = text.length ∧ ∀ t ∈ us, t.kind ≠ .eof ∧ 0 < t.len := by
  have gen : ∀ first pos p ts, Layout first pos p ts →
      ∃ us e, ts = us ++ [e] ∧ e.kind = .eof ∧ e.loc = pos + p.length ∧ ∀ t ∈ us, t.kind ≠ .eof ∧ 0 < t.len := by
    intro first pos p ts hl
    induction hl with
    | eof first pos g t h1 h2 h3 h4 h5 => exact ⟨[], t, rfl, h2, h4, by simp⟩
    | tok first pos g w rest t ts h1 h2 h3 h4 h5 h6 hr ih =>
      obtain ⟨us, e, rfl, he, hloc, hus⟩ := ih
      have := List.length_pos_iff.mpr h3
      refine ⟨t :: us, e, rfl, he, by simp; omega, ?_⟩
      intro x hx
      rcases List.mem_cons.mp hx with rfl | hx
      · exact ⟨h2, by omega⟩
      · exact hus x hx
  have := gen _ _ _ _ (C12_C15_layout h text ts ht)
  simpa using this

/-- **C13** Every token's line number is one plus the number of newlines before its first byte. -/
theorem C13_line_numbers (h : Host) (text : List UInt8) (ts : List Tok) (ht : tokenize h text = .ok ts) :
    ∀ t ∈ ts, t.line = 1 + (text.take t.loc).count 10 := by
  rw [tokenize_eq] at ht
  cases hs : scan h 0 text true false with
  | error e => rw [hs] at ht; cases ht
  | ok us =>
    rw [hs] at ht; cases ht
    intro t ht
    obtain ⟨u, _, rfl⟩ := List.mem_map.mp ht
    rfl

/-- **C13** The line pass itself, for any token list in text order that ends at the end of the text. -/
theorem C13_any_list (text : List UInt8) (ts : List Tok) (ho : Ordered 0 text.length ts) :
    addLines 0 1 text ts = .ok (ts.map fun t => { t with line := 1 + (text.take t.loc).count 10 }) := by
  exact addLines_spec 0 1 text ts [] rfl rfl (by simpa using ho)

example : ∃ ts, tokenize .riscv (asc "int /* c\n */ x; // y\n  'a'\n") = .ok ts ∧
    (ts.map fun t => (t.kind, t.loc, t.len)) = [(.ident, 0, 3), (.ident, 13, 1), (.punct, 14, 1), (.num, 23, 3), (.eof, 27, 0)] ∧
    (ts.map fun t => (t.line, t.atBol, t.hasSpace)) =
      [(1, true, false), (2, false, true), (2, false, false), (3, true, true), (4, true, false)] :=
  exists_ok (by decide +kernel)

/-! ### C14 -/

/-- The punctuators of C11 6.4.6, without the digraphs. -/
def cPunctuators : List String :=
  ["[", "]", "(", ")", "{", "}", ".", "->", "++", "--", "&", "*", "+", "-", "~", "!", "/", "%", "<<", ">>", "<", ">",
   "<=", ">=", "==", "!=", "^", "|", "&&", "||", "?", ":", ";", "...", "=", "*=", "/=", "%=", "+=", "-=", "<<=",
   ">>=", "&=", "^=", "|=", ",", "#", "##"]

/-- In a table sorted by decreasing length the first match is a longest match. -/
theorem punctLoop_longest (p : List UInt8) (qs : List (List UInt8)) (hs : qs.Pairwise (fun a b => b.length ≤ a.length))
    (x : List UInt8) (hx : x ∈ qs) (h : startsWith p x = true) : x.length ≤ punctLoop p qs := by
  induction qs with
  | nil => simp at hx
  | cons q qs ih =>
    simp only [punctLoop]
    rw [List.pairwise_cons] at hs
    by_cases hq : startsWith p q = true
    · rw [if_pos hq]
      rcases List.mem_cons.mp hx with rfl | hx
      · exact Nat.le_refl _
      · exact hs.1 x hx
    · rw [if_neg hq]
      rcases List.mem_cons.mp hx with rfl | hx
      · exact absurd h hq
      · exact ih hs.2 hx

/-- What a result of the search means. -/
theorem punctLoop_result (p : List UInt8) (qs : List (List UInt8)) :
    (p.take (punctLoop p qs) ∈ qs) ∨
    (∃ b r, p = b :: r ∧ isPunct b = true ∧ punctLoop p qs = 1) ∨
    (punctLoop p qs = 0 ∧ ∀ b r, p = b :: r → isPunct b = false) := by
  induction qs with
  | nil =>
    right
    cases p with
    | nil => right; simp [punctLoop]
    | cons b r =>
      simp only [punctLoop]
      by_cases hb : isPunct b = true
      · left; exact ⟨b, r, rfl, hb, by simp [hb]⟩
      · right
        refine ⟨by simp [hb], ?_⟩
        intro b' r' e; cases e; simpa using hb
  | cons q qs ih =>
    simp only [punctLoop]
    by_cases hq : startsWith p q = true
    · rw [if_pos hq]
      left
      have := startsWith_drop hq
      rw [this, List.take_left]; simp
    · rw [if_neg hq]
      rcases ih with h | h | h
      · left; exact List.mem_cons_of_mem _ h
      · right; left; exact h
      · right; right; exact h

/-- **C14** `read_punct` finds the longest match: it is at least as long as every punctuator that is a prefix of the
text; a result of two or more is the length of a punctuator that is a prefix; a result of one means a single ASCII
punctuation character; zero means the text starts with no punctuation character. -/
theorem C14_longest (p : List UInt8) :
    (∀ q ∈ cPunctuators, startsWith p (asc q) = true → (asc q).length ≤ readPunct p) ∧
    (2 ≤ readPunct p → ∃ q ∈ cPunctuators, p.take (readPunct p) = asc q) ∧
    (readPunct p = 1 → ∃ b r, p = b :: r ∧ isPunct b = true) ∧
    (readPunct p = 0 → ∀ b r, p = b :: r → isPunct b = false) := by
  have sorted : punctTable.Pairwise (fun a b => b.length ≤ a.length) := by decide +kernel
  have hmem : ∀ q ∈ cPunctuators, ((asc q).length = 1 ∨ asc q ∈ punctTable) ∧
      (asc q).head?.any isPunct = true := by decide +kernel
  have htab : ∀ x ∈ punctTable, 2 ≤ x.length ∧ ∃ q ∈ cPunctuators, x = asc q := by decide +kernel
  have hres := punctLoop_result p punctTable
  refine ⟨?_, ?_, ?_, ?_⟩
  · intro q hq h
    obtain ⟨m1, m2⟩ := hmem q hq
    rcases m1 with m1 | m1
    · rw [m1]
      have hd := startsWith_drop h
      cases hh : asc q with
      | nil => rw [hh] at m1; simp at m1
      | cons a t =>
        rw [hh] at hd m2
        simp only [List.head?_cons, Option.any_some] at m2
        rcases hres with hr | ⟨b, r, hp, hb, hr⟩ | ⟨hr, hb⟩
        · have := (htab _ hr).1
          simp only [List.length_take] at this
          unfold readPunct; omega
        · unfold readPunct; omega
        · have := hb a (t ++ p.drop (a :: t).length) (by rw [← List.cons_append]; exact hd)
          rw [m2] at this; cases this
    · exact punctLoop_longest p punctTable sorted _ m1 h
  · intro h2
    rcases hres with hr | ⟨b, r, hp, hb, hr⟩ | ⟨hr, hb⟩
    · exact (htab _ hr).2
    · unfold readPunct at h2; omega
    · unfold readPunct at h2; omega
  · intro h1
    rcases hres with hr | ⟨b, r, hp, hb, hr⟩ | ⟨hr, hb⟩
    · have := (htab _ hr).1
      simp only [List.length_take] at this
      unfold readPunct at h1; omega
    · exact ⟨b, r, hp, hb⟩
    · unfold readPunct at h1; omega
  · intro h0
    rcases hres with hr | ⟨b, r, hp, hb, hr⟩ | ⟨hr, hb⟩
    · have := (htab _ hr).1
      simp only [List.length_take] at this
      unfold readPunct at h0; omega
    · unfold readPunct at h0; omega
    · exact hb

example : readPunct (asc ">>=b") = 3 ∧ readPunct (asc ">>b") = 2 ∧ readPunct (asc "..x") = 1 ∧
    readPunct (asc "a") = 0 := by decide +kernel

/-- Digraphs are not recognised: `<:` is two tokens. -/
theorem C14_no_digraphs : readPunct (asc "<:") = 1 ∧ readPunct (asc "%:%:") = 1 := by decide +kernel

/-! ### C16 -/

/-- Texts for which the tokenizer stays before the NUL: it ends with a newline (every file does), or it has no
backslash and no `//` (so that neither an escape nor a line comment can run into the NUL). -/
def SafeText (p : List UInt8) : Prop :=
  p = [] ∨ p.getLast? = some 10 ∨ (92 ∉ p ∧ ∀ a b, p ≠ a ++ 0x2F :: 0x2F :: b)

theorem SafeText.drop {p : List UInt8} (h : SafeText p) (n : Nat) : SafeText (p.drop n) := by
  rcases h with rfl | h | ⟨h1, h2⟩
  · simp [SafeText]
  · by_cases hn : p.length ≤ n
    · left; exact List.drop_eq_nil_of_le hn
    · right; left; rw [List.getLast?_drop, if_neg hn]; exact h
  · right; right
    refine ⟨fun hm => h1 (List.mem_of_mem_drop hm), ?_⟩
    intro a b e
    refine h2 (p.take n ++ a) b ?_
    rw [List.append_assoc, ← e, List.take_append_drop]

theorem last_tail {c : UInt8} {r : List UInt8} (h : (c :: r).getLast? = some 10) (hc : c ≠ 10) : r.getLast? = some 10 := by
  cases r with
  | nil => simp at h; exact absurd h hc
  | cons a b => simpa using h

theorem last_drop {p : List UInt8} (h : p.getLast? = some 10) (n : Nat) (hn : n < p.length) :
    (p.drop n).getLast? = some 10 := by
  rw [List.getLast?_drop, if_neg (by omega)]; exact h

/-- The part of `SafeText` needed inside a literal. -/
def SafeLit (p : List UInt8) : Prop := 92 ∉ p ∨ p.getLast? = some 10

theorem SafeLit.drop {p : List UInt8} (h : SafeLit p) (n : Nat) : SafeLit (p.drop n) := by
  rcases h with h | h
  · left; exact fun hm => h (List.mem_of_mem_drop hm)
  · by_cases hn : p.length ≤ n
    · left; rw [List.drop_eq_nil_of_le hn]; simp
    · right; exact last_drop h n (by omega)

theorem SafeText.lit {p : List UInt8} (h : SafeText p) : SafeLit p := by
  rcases h with rfl | h | ⟨h1, _⟩
  · left; simp
  · right; exact h
  · left; exact h1

theorem stringEnd_safe (p : List UInt8) (h : SafeLit p) : stringEnd p ≠ .error .overrun := by
  fun_induction stringEnd p with
  | case1 => simp
  | case2 => simp
  | case3 => simp
  | case4 => rcases h with h | h <;> simp at h
  | case5 a r' e he _ _ ih =>
    have := ih (h.drop 2); rw [he] at this; simpa using this
  | case6 => simp
  | case7 c r _ _ _ e he ih =>
    have := ih (h.drop 1); rw [he] at this; simpa using this
  | case8 => simp

theorem readEscaped_safe (hst : Host) (p : List UInt8) (h : p ≠ []) : readEscaped hst p ≠ .error .overrun := by
  unfold readEscaped
  split
  · exact absurd rfl h
  · repeat' split
    all_goals simp

/-- Inside a literal an escape is never at the NUL. -/
theorem SafeLit.escape {r : List UInt8} (h : SafeLit (92 :: r)) : r ≠ [] := by
  rintro rfl
  rcases h with h | h <;> simp at h

/-- Everything the closing-quote scan accepted lies before the NUL. -/
theorem narrowLoop_safe (hst : Host) (k : Nat) (p : List UInt8) (hk : k ≤ p.length) (h : SafeLit p) :
    narrowLoop hst k p ≠ .error .overrun := by
  fun_induction narrowLoop hst k p with
  | case1 => simp
  | case2 k hk0 => simp at hk; exact absurd hk hk0
  | case3 k hk0 r e he =>
    have := readEscaped_safe hst r h.escape; rw [he] at this; simpa using this
  | case4 k r hk0 v n hn e he ih =>
    have := ih (by simp at hk ⊢; omega) ((h.drop 1).drop n); rw [he] at this; simpa using this
  | case5 => simp
  | case6 k hk0 c r hc e he ih =>
    have := ih (by simp at hk ⊢; omega) (h.drop 1); rw [he] at this; simpa using this
  | case7 => simp

theorem utf16Loop_safe (hst : Host) (k : Nat) (p : List UInt8) (hk : k ≤ p.length) (h : SafeLit p) :
    utf16Loop hst k p ≠ .error .overrun := by
  fun_induction utf16Loop hst k p with
  | case1 => simp
  | case2 k hk0 => simp at hk; exact absurd hk hk0
  | case3 k hk0 r e he =>
    have := readEscaped_safe hst r h.escape; rw [he] at this; simpa using this
  | case4 k r hk0 v n hn e he ih =>
    have := ih (by simp at hk ⊢; omega) ((h.drop 1).drop n); rw [he] at this; simpa using this
  | case5 => simp
  | case6 => simp
  | case7 k hk0 c r hc v n hd e he ih =>
    have := ih (by simp at hk ⊢; omega) (h.drop n); rw [he] at this; simpa using this
  | case8 => simp

theorem utf32Loop_safe (hst : Host) (k : Nat) (p : List UInt8) (hk : k ≤ p.length) (h : SafeLit p) :
    utf32Loop hst k p ≠ .error .overrun := by
  fun_induction utf32Loop hst k p with
  | case1 => simp
  | case2 k hk0 => simp at hk; exact absurd hk hk0
  | case3 k hk0 r e he =>
    have := readEscaped_safe hst r h.escape; rw [he] at this; simpa using this
  | case4 k r hk0 v n hn e he ih =>
    have := ih (by simp at hk ⊢; omega) ((h.drop 1).drop n); rw [he] at this; simpa using this
  | case5 => simp
  | case6 => simp
  | case7 k hk0 c r hc v n hd e he ih =>
    have := ih (by simp at hk ⊢; omega) (h.drop n); rw [he] at this; simpa using this
  | case8 => simp

theorem readString_safe (hst : Host) (skip : Nat) (el : Elem) (p : List UInt8) (h : SafeLit p) :
    readString hst skip el p ≠ .error .overrun := by
  unfold readString
  split
  · rename_i e he; have := stringEnd_safe p h; rw [he] at this; simpa using this
  · rename_i k hk
    have hl := Nat.le_of_lt (stringEnd_lt p k hk)
    split
    · rename_i e he
      cases el <;> simp only at he
      · have := narrowLoop_safe hst k p hl h; rw [he] at this; simpa using this
      · have := utf16Loop_safe hst k p hl h; rw [he] at this; simpa using this
      · have := utf32Loop_safe hst k p hl h; rw [he] at this; simpa using this
      · have := utf32Loop_safe hst k p hl h; rw [he] at this; simpa using this
    · simp

theorem charTok_safe (hst : Host) (skip : Nat) (ty : Elem) (b : Bool) (p : List UInt8) (h : SafeLit p) :
    charTok hst skip ty b p ≠ .error .overrun := by
  unfold charTok
  split
  · rename_i e he
    unfold readChar at he
    intro hh; cases hh
    split at he
    · cases he
    · rename_i c r
      split at he
      · rename_i hc
        subst hc
        split at he
        · rename_i e' he'
          have := readEscaped_safe hst r h.escape; rw [he'] at this; cases he; simp at this
        · split at he <;> cases he
      · split at he
        · cases he
        · split at he <;> cases he
  · simp

theorem lexOne_safe (hst : Host) (p : List UInt8) (h : SafeText p) : lexOne hst p ≠ .error .overrun := by
  cases p with
  | nil => simp [lexOne]
  | cons c r =>
  have hl := h.lit
  simp only [lexOne]
  rw [lexCons.eq_def]
  by_cases hs : startsWith (c :: r) (asc "//") = true
  · rw [if_pos hs]
    have hd := startsWith_drop hs
    rw [show (asc "//").length = 2 by decide, show asc "//" = [0x2F, 0x2F] by decide] at hd
    split
    · rename_i hf
      exfalso
      rcases h with h | h | ⟨_, h⟩
      · cases h
      · have hmem : 10 ∈ (c :: r).drop 2 := by
          have h' : (0x2F :: 0x2F :: (c :: r).drop 2).getLast? = some 10 := by rw [← h]; exact congrArg _ hd.symm
          have h2 := last_tail (last_tail h' (by decide)) (by decide)
          exact List.mem_of_getLast? h2
        rw [List.findIdx?_eq_none_iff] at hf
        have := hf 10 hmem; simp at this
      · exact h [] _ hd
    · simp
  rw [if_neg hs]; clear hs
  by_cases hs : startsWith (c :: r) (asc "/*") = true
  · rw [if_pos hs]; split <;> simp
  rw [if_neg hs]; clear hs
  by_cases hs : c = 10
  · rw [if_pos hs]; simp
  rw [if_neg hs]; clear hs
  by_cases hs : isSpace c = true
  · rw [if_pos hs]; simp
  rw [if_neg hs]; clear hs
  by_cases hs : (isDig c || (c == 0x2E && headDig r)) = true
  · rw [if_pos hs]; simp
  rw [if_neg hs]; clear hs
  by_cases hs : c = 0x22
  · rw [if_pos hs]; exact readString_safe _ _ _ _ (hl.drop 1)
  rw [if_neg hs]; clear hs
  by_cases hs : startsWith (c :: r) (asc "u8\"") = true
  · rw [if_pos hs]; exact readString_safe _ _ _ _ (hl.drop 3)
  rw [if_neg hs]; clear hs
  by_cases hs : startsWith (c :: r) (asc "u\"") = true
  · rw [if_pos hs]; exact readString_safe _ _ _ _ (hl.drop 2)
  rw [if_neg hs]; clear hs
  by_cases hs : startsWith (c :: r) (asc "U\"") = true
  · rw [if_pos hs]; exact readString_safe _ _ _ _ (hl.drop 2)
  rw [if_neg hs]; clear hs
  by_cases hs : startsWith (c :: r) (asc "L\"") = true
  · rw [if_pos hs]; exact readString_safe _ _ _ _ (hl.drop 2)
  rw [if_neg hs]; clear hs
  by_cases hs : c = 0x27
  · rw [if_pos hs]; exact charTok_safe _ _ _ _ _ (hl.drop 1)
  rw [if_neg hs]; clear hs
  by_cases hs : startsWith (c :: r) (asc "L'") = true
  · rw [if_pos hs]; exact charTok_safe _ _ _ _ _ (hl.drop 2)
  rw [if_neg hs]; clear hs
  by_cases hs : startsWith (c :: r) (asc "u'") = true
  · rw [if_pos hs]; exact charTok_safe _ _ _ _ _ (hl.drop 2)
  rw [if_neg hs]; clear hs
  by_cases hs : startsWith (c :: r) (asc "U'") = true
  · rw [if_pos hs]; exact charTok_safe _ _ _ _ _ (hl.drop 2)
  rw [if_neg hs]; clear hs
  split
  · simp
  · simp
  · split <;> simp

/-- **C16** (partial) A text that ends with a newline, or has neither a backslash nor `//`, is tokenised without
reading past the terminating NUL. Missing: other texts, which come from -D options and from `##` (`C16_violated`). -/
theorem C16_no_overrun_partial (h : Host) (text : List UInt8) (hs : SafeText text) :
    tokenize h text ≠ .error .overrun := by
  rw [tokenize_eq]
  have gen : ∀ pos p bol sp, SafeText p → scan h pos p bol sp ≠ .error .overrun := by
    intro pos p bol sp
    fun_induction scan h pos p bol sp with
    | case1 => simp
    | case2 pos p bol sp hne e he => intro hs; have := lexOne_safe h p hs; rw [he] at this; simpa using this
    | case3 pos p bol sp hne n hp ih => intro hs; exact ih (hs.drop n)
    | case4 pos p bol sp hne n hp ih => intro hs; exact ih (hs.drop n)
    | case5 pos p bol sp hne hp ih => intro hs; exact ih (hs.drop 1)
    | case6 pos p bol sp hne hp ih => intro hs; exact ih (hs.drop 1)
    | case7 pos p bol sp hne k n pl hp e he ih =>
      intro hs; have := ih (hs.drop n); rw [he] at this; simpa using this
    | case8 => simp
  intro e
  cases hsc : scan h 0 text true false with
  | error x => rw [hsc] at e; simp [Except.map] at e; subst e; exact gen _ _ _ _ hs hsc
  | ok x => rw [hsc] at e; cases e

/-- **C16 violated**: texts without a final newline (as in `-DX=...` or `##`) make the tokenizer run past the NUL:
an unterminated line comment, and a backslash at the end of a string or character literal. -/
theorem C16_violated :
    tokenize .riscv (asc "a //") = .error .overrun ∧
    tokenize .riscv (asc "\"\\") = .error .overrun ∧
    tokenize .riscv (asc "'\\") = .error .overrun := by
  refine ⟨?_, ?_, ?_⟩ <;> decide +kernel

example : SafeText (asc "x = \"a\\\"\n") ∧ SafeText (asc "a/b") := by
  refine ⟨Or.inr (Or.inl (by decide +kernel)), Or.inr (Or.inr ⟨by decide +kernel, ?_⟩)⟩
  intro a b e
  have h1 : (asc "a/b").count 0x2F = 1 := by decide +kernel
  rw [e] at h1
  simp [List.count_append] at h1
  omega

end Toycc.Lex
