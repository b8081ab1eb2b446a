import Verif.Unicode.Lemmas
import Verif.Unicode.Spec
/-! Properties C06 (round trip), C07 (well-formedness), C08 (identifiers). -/
namespace Toycc.Unicode

/-- **C06** Decoding the encoding of any code point below 0x200000, whatever follows, gives the code point
and consumes exactly the bytes of the encoding, of which there are one to four. -/
theorem C06_decode_encode (c : Nat) (hc : c < 0x200000) (rest : List UInt8) :
    decode (encode c ++ rest) = some (c, (encode c).length) ∧ 1 ≤ (encode c).length ∧ (encode c).length ≤ 4 :=
  ⟨decode_encode c hc rest, encode_len_pos c⟩

example : encode 0x3042 = [0xE3, 0x81, 0x82] ∧ decode [0xE3, 0x81, 0x82, 0x61] = some (0x3042, 3) ∧
    encode 0x10FFFF = [0xF4, 0x8F, 0xBF, 0xBF] ∧ encode 0xE9 = [0xC3, 0xA9] := by decide

/-- A sequence of code points, encoded. -/
def encAll (cs : List Nat) : List UInt8 := cs.flatMap encode

/-- Decode a whole text. -/
def decodeAll (p : List UInt8) : Option (List Nat) :=
  if hp : p = [] then some []
  else
    match h : decode p with
    | none => none
    | some (c, n) => (decodeAll (p.drop n)).map (c :: ·)
termination_by p.length
decreasing_by
  have := decode_pos p c n h
  have := List.length_pos_iff.mpr hp
  simp only [List.length_drop]; omega

/-- **C06** Whole texts: decoding the encoding of a sequence gives the sequence. -/
theorem C06_text (cs : List Nat) (hc : ∀ c ∈ cs, c < 0x200000) : decodeAll (encAll cs) = some cs := by
  induction cs with
  | nil => unfold decodeAll; simp [encAll]
  | cons c cs ih =>
    have hd := decode_encode c (hc c List.mem_cons_self) (encAll cs)
    have ih' := ih (fun x hx => hc x (List.mem_cons_of_mem _ hx))
    have hne : encAll (c :: cs) ≠ [] := by
      have := (encode_len_pos c).1
      intro e
      simp only [encAll, List.flatMap_cons, List.append_eq_nil_iff] at e
      rw [e.1] at this; simp at this
    have he : encAll (c :: cs) = encode c ++ encAll cs := by simp [encAll]
    unfold decodeAll
    rw [dif_neg hne]
    split
    · rename_i h; rw [he, hd] at h; cases h
    · rename_i c' n' h
      rw [he, hd] at h
      cases h
      rw [he, List.drop_left, ih']; rfl

/-- **C07** (partial) When decoding succeeds without consuming more bytes than the encoder uses for that
code point, and the first byte is below 0xF8, the bytes consumed are exactly the encoding.
Missing: overlong forms and first bytes from 0xF8 on are accepted (`C07_violated`). -/
theorem C07_decode_wellformed_partial (p : List UInt8) (c n : Nat) (hp : p ≠ []) (h : decode p = some (c, n))
    (hshort : n = (encode c).length) (hlead : headByte p < 0xF8) : p.take n = encode c := by
  have hl := decode_lt p c n h
  have hb : ∀ (b : UInt8) (m : Nat), b.toNat = m → b = byte m := fun b m e => by rw [← e, byte_of_toNat]
  rw [encode_eq c hl] at hshort ⊢
  rcases decode_inv p c n h with ⟨e, h1, h2⟩ | ⟨b0, b1, q, rfl, e, h1, h2, h3, h4, h5⟩ |
    ⟨b0, b1, b2, q, rfl, e, h1, h2, h3, h4, h5, h6, h7⟩ | ⟨b0, b1, b2, b3, q, rfl, e, h1, h2, h3, h4, h5, h6, h7, h8⟩
  · subst e
    rw [if_pos (by omega)]
    cases p with
    | nil => exact absurd rfl hp
    | cons b q => simp only [headByte] at h2; simp [hb b c h2.symm]
  · subst e
    by_cases g1 : c ≤ 0x7F
    · rw [if_pos g1] at hshort; simp at hshort
    by_cases g2 : c ≤ 0x7FF
    · rw [if_neg g1, if_pos g2]
      simp only [List.take_succ_cons, List.take_zero]
      rw [← hb b0 (192 + c / 64) (by omega), ← hb b1 (128 + c % 64) (by omega)]
    · omega
  · subst e
    by_cases g1 : c ≤ 0x7F
    · rw [if_pos g1] at hshort; simp at hshort
    by_cases g2 : c ≤ 0x7FF
    · rw [if_neg g1, if_pos g2] at hshort; simp at hshort
    by_cases g3 : c ≤ 0xFFFF
    · rw [if_neg g1, if_neg g2, if_pos g3]
      simp only [List.take_succ_cons, List.take_zero]
      rw [← hb b0 (224 + c / 4096) (by omega), ← hb b1 (128 + c / 64 % 64) (by omega), ← hb b2 (128 + c % 64) (by omega)]
    · omega
  · subst e
    simp only [headByte] at hlead
    by_cases g1 : c ≤ 0x7F
    · rw [if_pos g1] at hshort; simp at hshort
    by_cases g2 : c ≤ 0x7FF
    · rw [if_neg g1, if_pos g2] at hshort; simp at hshort
    by_cases g3 : c ≤ 0xFFFF
    · rw [if_neg g1, if_neg g2, if_pos g3] at hshort; simp at hshort
    · rw [if_neg g1, if_neg g2, if_neg g3]
      simp only [List.take_succ_cons, List.take_zero]
      rw [← hb b0 (240 + c / 262144) (by omega), ← hb b1 (128 + c / 4096 % 64) (by omega),
        ← hb b2 (128 + c / 64 % 64) (by omega), ← hb b3 (128 + c % 64) (by omega)]

example : decode [0xF0, 0x9F, 0x8D, 0xA3, 0x21] = some (0x1F363, 4) ∧ 4 = (encode 0x1F363).length := by decide

/-- **C07** A stray continuation byte, or a lead byte not followed by enough continuation bytes, is rejected. -/
theorem C07_rejects (p : List UInt8) (b : UInt8) :
    (128 ≤ b.toNat → b.toNat < 192 → decode (b :: p) = none) ∧
    (192 ≤ b.toNat → (headByte p < 128 ∨ 192 ≤ headByte p) → decode (b :: p) = none) := by
  constructor
  · intro h1 h2
    have hb : headByte (b :: p) = b.toNat := rfl
    unfold decode
    simp only
    rw [if_neg (by omega), if_neg (by omega), if_neg (by omega), if_neg (by omega)]
  · intro h1 h2
    cases e : decode (b :: p) with
    | none => rfl
    | some r =>
      exfalso
      obtain ⟨c, n⟩ := r
      rcases decode_inv _ c n e with ⟨_, h3, h4⟩ | ⟨b0, b1, q, h, _⟩ | ⟨b0, b1, b2, q, h, _⟩ | ⟨b0, b1, b2, b3, q, h, _⟩
      · simp only [headByte] at h4; omega
      all_goals (cases h; simp only [headByte] at h2; omega)

/-- **C07 violated**: the decoder accepts an overlong form (two bytes for NUL), a surrogate, and a first byte
that is never valid in UTF-8. -/
theorem C07_violated :
    decode [0xC0, 0x80] = some (0, 2) ∧ encode 0 ≠ [0xC0, 0x80] ∧
    decode [0xED, 0xA0, 0x80] = some (0xD800, 3) ∧
    decode [0xFF, 0x80, 0x81, 0x81] = some (0x1C0041, 4) ∧ encode 0x1C0041 ≠ [0xFF, 0x80, 0x81, 0x81] := by decide

/-- Above 0x1FFFFF (a `\U` escape can name such a number) the encoder is not invertible. -/
theorem C06_bound_is_sharp : decode (encode 0x200000) = some (0, 4) := by decide

theorem isIdent1_eq (c : Nat) : isIdent1 c = InRanges (pairUp ident1Table) c := by
  unfold isIdent1
  rw [inRange_pairs ident1Table (by decide) c]
  cases InRanges (pairUp ident1Table) c <;> rfl

theorem isIdent2_eq (c : Nat) : isIdent2 c = (InRanges (pairUp ident1Table) c || InRanges (pairUp ident2Table) c) := by
  unfold isIdent2
  rw [isIdent1_eq, inRange_pairs ident2Table (by decide) c]
  cases InRanges (pairUp ident2Table) c <;> rfl

theorem within_iff (l : List (Nat × Nat)) (c : Nat) : Within l c ↔ InRanges l c = true := by
  simp [Within, InRanges, List.any_eq_true, Bool.and_eq_true]

/-- Basic characters as ranges. -/
def basicRanges : List (Nat × Nat) := [(0x41, 0x5A), (0x61, 0x7A), (0x5F, 0x5F), (0x24, 0x24)]
def digitRange : List (Nat × Nat) := [(0x30, 0x39)]

theorem specContinue_iff (c : Nat) : SpecContinue c ↔
    (InRanges basicRanges c || InRanges digitRange c || InRanges annexD1 c) = true := by
  unfold SpecContinue
  rw [within_iff, Bool.or_eq_true]
  have h1 : (InRanges basicRanges c || InRanges digitRange c) = true ↔
      (isLetter c ∨ isDigit c ∨ c = 0x5F ∨ c = 0x24) := by
    simp only [Bool.or_eq_true, ← within_iff, Within, basicRanges, digitRange, isLetter, isDigit,
      List.mem_cons, List.not_mem_nil, or_false, exists_eq_or_imp, exists_eq_left]
    omega
  rw [h1]; simp only [or_assoc]

theorem specStart_iff (c : Nat) : SpecStart c ↔
    ((InRanges basicRanges c || InRanges digitRange c || InRanges annexD1 c) && !InRanges digitRange c
      && !InRanges annexD2 c) = true := by
  unfold SpecStart
  rw [specContinue_iff, within_iff]
  have : isDigit c ↔ InRanges digitRange c = true := by
    rw [← within_iff]; simp [Within, digitRange, isDigit]
  rw [this]
  cases InRanges digitRange c <;> cases InRanges annexD2 c <;> simp

/-- Every boundary of every table. -/
def allBounds : List Nat :=
  bounds (pairUp ident1Table) ++ bounds (pairUp ident2Table) ++ bounds basicRanges ++ bounds digitRange ++
  bounds annexD1 ++ bounds annexD2

theorem ident_tables_agree (c : Nat) :
    InRanges (pairUp ident1Table) c =
      ((InRanges basicRanges c || InRanges digitRange c || InRanges annexD1 c) && !InRanges digitRange c
        && !InRanges annexD2 c) ∧
    (InRanges (pairUp ident1Table) c || InRanges (pairUp ident2Table) c) =
      (InRanges basicRanges c || InRanges digitRange c || InRanges annexD1 c) := by
  have fl : ∀ l : List (Nat × Nat), (∀ b ∈ bounds l, b ∈ allBounds) → InRanges l c = InRanges l (floorIn allBounds c) :=
    fun l h => inRanges_floor l allBounds h c
  rw [fl (pairUp ident1Table) (by intro b hb; simp only [allBounds, List.mem_append]; simp only [hb, true_or, or_true]),
      fl (pairUp ident2Table) (by intro b hb; simp only [allBounds, List.mem_append]; simp only [hb, true_or, or_true]),
      fl basicRanges (by intro b hb; simp only [allBounds, List.mem_append]; simp only [hb, true_or, or_true]),
      fl digitRange (by intro b hb; simp only [allBounds, List.mem_append]; simp only [hb, true_or, or_true]),
      fl annexD1 (by intro b hb; simp only [allBounds, List.mem_append]; simp only [hb, true_or, or_true]),
      fl annexD2 (by intro b hb; simp only [allBounds, List.mem_append]; simp only [hb, true_or, or_true])]
  have all : ∀ b ∈ 0 :: allBounds,
    InRanges (pairUp ident1Table) b =
      ((InRanges basicRanges b || InRanges digitRange b || InRanges annexD1 b) && !InRanges digitRange b
        && !InRanges annexD2 b) ∧
    (InRanges (pairUp ident1Table) b || InRanges (pairUp ident2Table) b) =
      (InRanges basicRanges b || InRanges digitRange b || InRanges annexD1 b) := by decide +kernel
  apply all
  rcases floorIn_mem allBounds c with h | h
  · rw [h]; exact List.mem_cons_self
  · exact List.mem_cons_of_mem _ h

/-- **C08** Identifier characters are exactly those of C11 Annex D (plus letters, digits, `_`, `$`), for every
code point; the ones allowed at the start are the non-digits outside Annex D.2. -/
theorem C08_ident_chars (c : Nat) : (isIdent1 c = true ↔ SpecStart c) ∧ (isIdent2 c = true ↔ SpecContinue c) := by
  rw [specStart_iff, specContinue_iff, isIdent1_eq, isIdent2_eq]
  exact ⟨by rw [(ident_tables_agree c).1], by rw [(ident_tables_agree c).2]⟩

/-- **C08** A start character is also a continue character. -/
theorem C08_start_continue (c : Nat) (h : isIdent1 c = true) : isIdent2 c = true := by simp [isIdent2, h]

/-- The tables are searched within their bounds. -/
theorem C08_tables_terminated (c : Nat) :
    inRange ident1Table c ≠ none ∧ inRange ident2Table c ≠ none ∧ inRange width0Table c ≠ none ∧ inRange width2Table c ≠ none := by
  rw [inRange_pairs _ (by decide), inRange_pairs _ (by decide), inRange_pairs _ (by decide), inRange_pairs _ (by decide)]
  simp

theorem ident2_lt (c : Nat) (h : isIdent2 c = true) : c < 0x200000 := by
  rw [isIdent2_eq] at h
  have hh : InRanges (pairUp ident1Table ++ pairUp ident2Table) c = true := by
    simpa [InRanges, List.any_append] using h
  obtain ⟨q, hq, h1, h2⟩ := (within_iff _ _).mpr hh
  have : ∀ q ∈ pairUp ident1Table ++ pairUp ident2Table, q.2 < 0x200000 := by decide
  have := this q hq
  omega

theorem ident2_ne_zero (c : Nat) (h : isIdent2 c = true) : c ≠ 0 := by
  rintro rfl; revert h; decide

/-- For an identifier character the guard of `readIdentLoop` holds, so the loop is the C loop. -/
theorem readIdentLoop_guard (p : List UInt8) (c k : Nat) (h : decode p = some (c, k)) (hi : isIdent2 c = true) :
    0 < k ∧ k ≤ p.length := by
  refine ⟨(decode_pos p c k h).1, decode_len p c k h ?_⟩
  rintro rfl
  have : c = 0 := by
    have : decode [] = some (0, 1) := by decide
    rw [this] at h; cases h; rfl
  exact ident2_ne_zero c hi this

theorem readIdentLoop_spec (cs : List Nat) : ∀ (rest : List UInt8) (n c' k' : Nat),
    (∀ c ∈ cs, isIdent2 c = true) → decode rest = some (c', k') → isIdent2 c' = false →
    readIdentLoop (encAll cs ++ rest) n = some (n + (encAll cs).length) := by
  induction cs with
  | nil =>
    intro rest n c' k' _ hd hn
    unfold readIdentLoop
    simp [encAll, hd, hn]
  | cons c cs ih =>
    intro rest n c' k' hs hd hn
    have hc := hs c List.mem_cons_self
    have hd0 := decode_encode c (ident2_lt c hc) (encAll cs ++ rest)
    have e : encAll (c :: cs) ++ rest = encode c ++ (encAll cs ++ rest) := by simp [encAll]
    have g := readIdentLoop_guard _ _ _ hd0 hc
    unfold readIdentLoop
    rw [e]
    simp only [hd0]
    rw [dif_pos ⟨hc, g⟩, List.drop_left, ih rest _ c' k' (fun x hx => hs x (List.mem_cons_of_mem _ hx)) hd hn]
    congr 1
    simp [encAll]; omega

/-- **C08** Scanning is maximal: if the text consists of a start character, continue characters, and then a
character that cannot continue an identifier, `read_ident` returns exactly the byte length of the identifier;
if the first character cannot start an identifier it returns 0. -/
theorem C08_read_ident (c0 : Nat) (cs : List Nat) (rest : List UInt8) (c' k' : Nat)
    (h0 : SpecStart c0) (hs : ∀ c ∈ cs, SpecContinue c)
    (hd : decode rest = some (c', k')) (hn : ¬ SpecContinue c') :
    readIdent (encAll (c0 :: cs) ++ rest) = some (encAll (c0 :: cs)).length := by
  have i0 := (C08_ident_chars c0).1.mpr h0
  have hd0 := decode_encode c0 (ident2_lt c0 (C08_start_continue c0 i0)) (encAll cs ++ rest)
  have e : encAll (c0 :: cs) ++ rest = encode c0 ++ (encAll cs ++ rest) := by simp [encAll]
  unfold readIdent
  rw [e]
  simp only [hd0, i0, if_true, List.drop_left]
  rw [readIdentLoop_spec cs rest _ c' k' (fun c hc => (C08_ident_chars c).2.mpr (hs c hc)) hd (by
    cases h : isIdent2 c' with
    | false => rfl
    | true => exact absurd ((C08_ident_chars c').2.mp h) hn)]
  simp [encAll]

theorem C08_read_ident_none (p : List UInt8) (c k : Nat) (hd : decode p = some (c, k)) (hn : ¬ SpecStart c) :
    readIdent p = some 0 := by
  unfold readIdent
  have : isIdent1 c = false := by
    cases h : isIdent1 c with
    | false => rfl
    | true => exact absurd ((C08_ident_chars c).1.mp h) hn
  simp [hd, this]

example : SpecStart 0x61 ∧ SpecContinue 0x3042 ∧ SpecContinue 0x39 ∧ ¬ SpecStart 0x39 ∧ ¬ SpecContinue 0x2B := by
  simp only [← (C08_ident_chars _).1, ← (C08_ident_chars _).2]; decide

end Toycc.Unicode
