import Verif.Lex.Local2
import Verif.Pp.Args
/-! C60: the output of -E, tokenised again. -/
namespace Toycc.Lex

theorem scan_newline (h : Host) (pos : Nat) (r : List UInt8) (bol sp : Bool) : scan h pos (10 :: r) bol sp = scan h (pos + 1) r true false := by
  rw [scan, if_neg (by simp)]
  have := lexOne_nl h r
  split <;> rename_i hp <;> rw [this] at hp <;> cases hp
  rfl

theorem lexOne_blank (h : Host) (r : List UInt8) : lexOne h (32 :: r) = .ok .space := by
  have n1 : ∀ (q : List UInt8), q.head? ≠ some 32 → q ≠ [] → ¬ startsWith (32 :: r) q = true := by
    intro q hx hq
    cases q with
    | nil => exact absurd rfl hq
    | cons x q =>
      have hx : ¬ x = 32 := by simpa using hx
      simp [startsWith, List.isPrefixOf, hx]
  simp only [lexOne, lexCons]
  rw [if_neg (n1 _ (by decide) (by decide)), if_neg (n1 _ (by decide) (by decide)), if_neg (by decide), if_pos (by decide)]

theorem scan_blank (h : Host) (pos : Nat) (r : List UInt8) (bol sp : Bool) : scan h pos (32 :: r) bol sp = scan h (pos + 1) r bol true := by
  rw [scan, if_neg (by simp)]
  have := lexOne_blank h r
  split <;> rename_i hp <;> rw [this] at hp <;> cases hp
  rfl

theorem scan_tok (h : Host) (pos : Nat) (p : List UInt8) (bol sp : Bool) (k : Kind) (n : Nat) (pl : Payload) (hl : lexOne h p = .ok (.tok k n pl))
    (us : List Tok) (hs : scan h (pos + n) (p.drop n) false false = .ok us) :
    scan h pos p bol sp = .ok ({ kind := k, loc := pos, len := n, atBol := bol, hasSpace := sp, payload := pl } :: us) := by
  have hne : p ≠ [] := by rintro rfl; cases hl
  rw [scan, if_neg hne]
  split <;> rename_i hp <;> rw [hl] at hp <;> cases hp
  rw [hs]

/-- The separator decides the flags of the token read after it. -/
theorem scan_sep (h : Host) (first : Bool) (t : PrTok) (pos : Nat) (r : List UInt8) :
    scan h pos (sepOf first t ++ r) first false = scan h (pos + (sepOf first t).length) r (first || t.atBol) (t.hasSpace && !t.atBol) := by
  unfold sepOf
  cases first <;> cases t.atBol <;> cases t.hasSpace <;>
    simp [scan_blank, scan_newline]

theorem printLoop_ne (first : Bool) (ts : List PrTok) : printLoop first ts ≠ [] := by
  induction ts generalizing first with
  | nil => simp [printLoop]
  | cons t ts ih => simp [printLoop, ih]

/-- Nothing printed after a token of the list glues to it. -/
def Clean : List PrTok → Prop
  | [] => True
  | t :: ts => glues t.kind t.spell (printLoop false ts) = false ∧ Clean ts

theorem scan_print (h : Host) (ts : List PrTok) : ∀ (first : Bool) (pos : Nat) (pre : List UInt8), pos = pre.length → Clean ts →
    (∀ t ∈ ts, IsToken h t.kind t.spell t.payload) →
    ∃ us e, scan h pos (printLoop first ts) first false = .ok (us ++ [e]) ∧ e.kind = .eof ∧
      us.map (fun u => (u.kind, u.payload, spelling (pre ++ printLoop first ts) u)) = ts.map (fun t => (t.kind, t.payload, t.spell)) ∧
      us.map Tok.hasSpace = ts.map (fun t => t.hasSpace && !t.atBol) ∧
      us.map Tok.atBol = (match ts with
        | [] => []
        | t :: ts => (first || t.atBol) :: ts.map PrTok.atBol) := by
  induction ts with
  | nil =>
    intro first pos pre _ _ _
    exact ⟨[], { kind := .eof, loc := pos + 1, len := 0, atBol := true, hasSpace := false, payload := .none },
      by rw [printLoop, scan_newline, scan, if_pos rfl]; rfl, rfl, rfl, rfl, rfl⟩
  | cons t ts ih =>
    intro first pos pre hpos hc ht
    obtain ⟨hg, hc⟩ := hc
    obtain ⟨r, hl⟩ := ht t (by simp)
    have hl := lex_local h t.kind t.spell r (printLoop false ts) t.payload hl hg (printLoop_ne _ _)
    obtain ⟨us, e, h1, h2, h3, h4, h5⟩ := ih false (pos + (sepOf first t).length + t.spell.length) (pre ++ (sepOf first t ++ t.spell))
      (by simp; omega) hc (fun x hx => ht x (by simp [hx]))
    have hs := scan_tok h (pos + (sepOf first t).length) (t.spell ++ printLoop false ts) (first || t.atBol) (t.hasSpace && !t.atBol) _ _ _ hl
      (us ++ [e]) (by rw [List.drop_left]; exact h1)
    refine ⟨{ kind := t.kind, loc := pos + (sepOf first t).length, len := t.spell.length, atBol := first || t.atBol, hasSpace := t.hasSpace && !t.atBol, payload := t.payload } :: us, e, ?_, h2, ?_, ?_, ?_⟩
    · rw [printLoop, List.append_assoc, scan_sep, hs]; rfl
    · simp only [List.map_cons, List.cons.injEq, Prod.mk.injEq, true_and]
      constructor
      · simp only [spelling]
        have e1 : pos + (sepOf first t).length = (pre ++ sepOf first t).length := by simp; omega
        rw [e1, printLoop, List.append_assoc (sepOf first t), ← List.append_assoc pre, List.drop_left, List.take_left]
      · rw [← h3]
        simp [printLoop]
    · simp only [List.map_cons, h4]
    · simp only [List.map_cons, h5]
      cases ts with
      | nil => rfl
      | cons t' ts => simp

/-- Adjacent tokens printed with nothing between them do not run together: the first byte of the second one does not
continue the first. -/
def Apart : List PrTok → Prop
  | [] => True
  | [_] => True
  | a :: b :: ts => (b.atBol = false → b.hasSpace = false → ∀ c r, b.spell = c :: r → mayGlue a.kind a.spell c = false) ∧ Apart (b :: ts)

theorem prefix_byte (s q : List UInt8) (c : UInt8) (r : List UInt8) (hl : s.length < q.length) (h : startsWith (s ++ c :: r) q = true) : startsWith q (s ++ [c]) = true := by
  unfold startsWith at h ⊢
  rw [List.isPrefixOf_iff_prefix] at h ⊢
  apply List.prefix_of_prefix_length_le (l₃ := s ++ c :: r) _ h
  · simp; omega
  · exact ⟨r, by simp⟩

theorem glues_byte (k : Kind) (s : List UInt8) (c : UInt8) (r : List UInt8) (h : mayGlue k s c = false) : glues k s (c :: r) = false := by
  unfold mayGlue at h
  unfold glues
  rw [Bool.or_eq_false_iff] at h ⊢
  have tab : ∀ (L : List (List UInt8)), L.any (fun q => startsWith q (s ++ [c])) = false →
      L.any (fun q => decide (s.length < q.length) && startsWith (s ++ c :: r) q) = false := by
    intro L hL
    rw [List.any_eq_false] at hL ⊢
    intro q hq
    have := hL q hq
    intro hh
    rw [Bool.and_eq_true, decide_eq_true_eq] at hh
    exact this (prefix_byte s q c r hh.1 hh.2)
  refine ⟨tab _ h.1, ?_⟩
  have h2 := h.2
  cases k <;> simp only at h2 ⊢
  · exact h2
  · rw [Bool.or_eq_false_iff] at h2 ⊢
    exact ⟨tab _ h2.1, h2.2⟩
  · exact h2

/-- A newline or a blank never continues a token. -/
theorem separator_apart (k : Kind) (s : List UInt8) (c : UInt8) (hc : c = 10 ∨ c = 32) : mayGlue k s c = false := by
  have tab : ∀ (L : List (List UInt8)), (∀ q ∈ L, (10 : UInt8) ∉ q ∧ (32 : UInt8) ∉ q) → L.any (fun q => startsWith q (s ++ [c])) = false := by
    intro L hL
    rw [List.any_eq_false]
    intro q hq hh
    unfold startsWith at hh
    rw [List.isPrefixOf_iff_prefix] at hh
    have : c ∈ q := hh.subset (by simp)
    rcases hc with rfl | rfl
    · exact (hL q hq).1 this
    · exact (hL q hq).2 this
  have t1 := tab openers (by decide +kernel)
  have t2 := tab punctTable (by decide +kernel)
  unfold mayGlue
  rw [t1]
  rcases hc with rfl | rfl <;> cases k <;> simp [t2, identByte, isAlnum, isDig]

theorem clean_of_apart (h : Host) (ts : List PrTok) (ha : Apart ts) (ht : ∀ t ∈ ts, IsToken h t.kind t.spell t.payload) : Clean ts := by
  induction ts with
  | nil => trivial
  | cons a ts ih =>
    cases ts with
    | nil =>
      refine ⟨?_, trivial⟩
      exact glues_byte _ _ _ _ (separator_apart _ _ _ (.inl rfl))
    | cons b ts =>
      refine ⟨?_, ih ha.2 (fun t h => ht t (by simp [h]))⟩
      rw [printLoop]
      unfold sepOf
      cases hb : b.atBol with
      | true => exact glues_byte _ _ _ _ (separator_apart _ _ _ (.inl rfl))
      | false =>
        cases hs : b.hasSpace with
        | true => exact glues_byte _ _ _ _ (separator_apart _ _ _ (.inr rfl))
        | false =>
          obtain ⟨r, hl⟩ := ht b (by simp)
          cases hsp : b.spell with
          | nil =>
            have := (lexOne_len h _ _ hl).1
            rw [hsp] at this; simp [Piece.len] at this
          | cons c w => exact glues_byte _ _ _ _ (ha.1 hb hs c w hsp)

theorem tokenize_print (h : Host) (ts : List PrTok) (hc : Clean ts) (ht : ∀ t ∈ ts, IsToken h t.kind t.spell t.payload) :
    ∃ us e, tokenize h (print ts) = .ok (us ++ [e]) ∧ e.kind = .eof ∧
      us.map (fun u => (u.kind, u.payload, spelling (print ts) u)) = ts.map (fun t => (t.kind, t.payload, t.spell)) ∧
      us.map Tok.hasSpace = ts.map (fun t => t.hasSpace && !t.atBol) ∧
      (us.map Tok.atBol).drop 1 = (ts.map PrTok.atBol).drop 1 := by
  obtain ⟨us, e, h1, h2, h3, h4, h5⟩ := scan_print h ts true 0 [] rfl hc ht
  refine ⟨us.map (setLine (print ts)), setLine (print ts) e, ?_, h2, ?_, ?_, ?_⟩
  · rw [tokenize_eq]
    have : scan h 0 (print ts) true false = .ok (us ++ [e]) := h1
    rw [this]
    simp [Except.map]
  · rw [← h3, List.map_map]
    rfl
  · rw [← h4, List.map_map]
    rfl
  · have : (us.map (setLine (print ts))).map Tok.atBol = us.map Tok.atBol := by rw [List.map_map]; rfl
    rw [this, h5]
    cases ts <;> rfl

/-- **C60 (partial)** The output of -E, tokenised again, gives the same tokens: same spellings, kinds and values, in the
same order, then end of file. Every token still begins a line or follows a blank as before (the first one always begins
a line).

Missing from the full statement: the condition `Apart`, that tokens printed with nothing between them do not run
together; print_tokens does not check it (`C60_violated`). It holds for the tokens of any source text
(`C60_source`), so only tokens brought together by macro expansion can break it. The text is given to the tokenizer
proper, not through the line splicing of tokenize_file. -/
theorem C60_retokenise_partial (h : Host) (ts : List PrTok) (ht : ∀ t ∈ ts, IsToken h t.kind t.spell t.payload) (ha : Apart ts) :
    ∃ us e, tokenize h (print ts) = .ok (us ++ [e]) ∧ e.kind = .eof ∧
      us.map (fun u => (u.kind, u.payload, spelling (print ts) u)) = ts.map (fun t => (t.kind, t.payload, t.spell)) ∧
      us.map Tok.hasSpace = ts.map (fun t => t.hasSpace && !t.atBol) ∧
      (us.map Tok.atBol).drop 1 = (ts.map PrTok.atBol).drop 1 :=
  tokenize_print h ts (clean_of_apart h ts ha ht) ht

/-- A token of the preprocessor, as print_tokens sees it. -/
def ofPp (t : Pp.PTok) : PrTok := ⟨t.text, t.kind, t.payload, t.bol, t.sp⟩

/-- The output of -E for a translation unit. -/
def minusE (env : Pp.Env) (n : Nat) (src : List UInt8) : Option (List UInt8) :=
  match Pp.tokens env ⟨some 0, asc "a.c"⟩ src with
  | .error _ => none
  | .ok ts => match Pp.preprocess env n {} ts with
    | .error _ => none
    | .ok (_, out) => some (print ((out.filter (fun t => !t.isEof)).map ofPp))

/-- **C60 is violated**: `-M` with `M` defined as `-` prints `--`, one token instead of two. -/
theorem C60_violated :
    Pp.outTexts Pp.exEnv 60 "#define M -\n-M x;\n" = some ([asc "-", asc "-", asc "x", asc ";", []]) ∧
    minusE Pp.exEnv 60 (asc "#define M -\n-M x;\n") = some (asc "-- x;\n") ∧
    (tokenize .x86 (asc "-- x;\n")).map (fun ts => ts.map (spelling (asc "-- x;\n"))) = .ok [asc "--", asc "x", asc ";", []] := by
  refine ⟨by decide +kernel, by decide +kernel, by decide +kernel⟩

end Toycc.Lex
