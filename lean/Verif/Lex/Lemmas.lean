import Verif.Lex.Tokenize
import Verif.Lex.Spec
/-! Helper lemmas for the tokenizer. -/
namespace Toycc.Lex
open Toycc.Unicode

/-- Conditions tested by the loop body, in order: used to walk through `lexCons`. -/
theorem lexOne_nl (h : Host) (r : List UInt8) : lexOne h (10 :: r) = .ok .newline := by
  simp only [lexOne]
  rw [lexCons.eq_def, if_neg, if_neg, if_pos rfl]
  · intro hs
    have := startsWith_drop hs
    rw [show asc "/*" = [0x2F, 0x2A] by decide] at this; simp at this
  · intro hs
    have := startsWith_drop hs
    rw [show asc "//" = [0x2F, 0x2F] by decide] at this; simp at this

theorem findIdx_split {p : List UInt8} {f : UInt8 → Bool} {i : Nat} (h : p.findIdx? f = some i) :
    ∃ c r, p = p.take i ++ c :: r ∧ f c = true ∧ ∀ x ∈ p.take i, f x = false := by
  obtain ⟨hi, h1, h2⟩ := List.findIdx?_eq_some_iff_getElem.mp h
  refine ⟨p[i], p.drop (i + 1), ?_, h1, ?_⟩
  · rw [List.getElem_cons_drop, List.take_append_drop]
  · intro x hx
    obtain ⟨j, hj, rfl⟩ := List.mem_iff_getElem.mp hx
    simp only [List.length_take] at hj
    simp only [List.getElem_take]
    have := h2 j (by omega)
    simpa using this

theorem findClose_split (p : List UInt8) (i : Nat) (h : findClose p = some i) :
    p = p.take i ++ (0x2A :: 0x2F :: p.drop (i + 2)) ∧
    ∀ j, j < i → p[j]? = some 0x2A → p[j+1]? ≠ some 0x2F := by
  fun_induction findClose p generalizing i with
  | case1 => cases h
  | case2 => cases h
  | case3 a b r hc => cases h; simp [hc.1, hc.2]
  | case4 a b r hne ih =>
    cases hf : findClose (b :: r) with
    | none => rw [hf] at h; cases h
    | some k =>
      rw [hf] at h; cases h
      obtain ⟨h1, h2⟩ := ih k hf
      refine ⟨?_, ?_⟩
      · simp only [List.take_succ_cons, List.cons_append]
        rw [show k + 1 + 2 = (k + 2) + 1 by omega, List.drop_succ_cons]
        exact congrArg _ h1
      · intro j hj ha hb
        cases j with
        | zero =>
          simp at ha hb
          exact hne ⟨ha, hb⟩
        | succ j =>
          have hj' : j + 1 < k + 1 := hj
          exact h2 j (by omega) (by simpa using ha) (by simpa using hb)

theorem isSpace_iff (b : UInt8) (h10 : b ≠ 10) (h : isSpace b = true) : b = 32 ∨ b = 9 ∨ b = 11 ∨ b = 12 ∨ b = 13 := by
  have : ∀ b : UInt8, b ≠ 10 → isSpace b = true → b = 32 ∨ b = 9 ∨ b = 11 ∨ b = 12 ∨ b = 13 := by decide +kernel
  exact this b h10 h

/-- What a skipping step skips. -/
def skips : Piece → List UInt8 → Prop
  | .line n, p => ∃ body r, 10 ∉ body ∧ p = (GapItem.line body).bytes ++ 10 :: r ∧ n = body.length + 2
  | .block n, p => ∃ body r, (GapItem.block body).Ok ∧ p = (GapItem.block body).bytes ++ r ∧
      n = (GapItem.block body).bytes.length
  | .newline, p => ∃ r, p = 10 :: r
  | .space, p => ∃ b r, p = b :: r ∧ (GapItem.ws b).Ok
  | .tok k _ _, _ => k ≠ .eof

theorem lexOne_skips (h : Host) (p : List UInt8) (pc : Piece) (hp : lexOne h p = .ok pc) : skips pc p := by
  cases p with
  | nil => cases hp
  | cons c r =>
  simp only [lexOne] at hp
  rw [lexCons.eq_def] at hp
  by_cases hs : startsWith (c :: r) (asc "//") = true
  · rw [if_pos hs] at hp
    split at hp
    · cases hp
    · rename_i i hf
      cases hp
      obtain ⟨x, t, h1, h2, h3⟩ := findIdx_split hf
      have hd := startsWith_drop hs
      rw [show (asc "//").length = 2 by decide, show asc "//" = [0x2F, 0x2F] by decide] at hd
      refine ⟨((c :: r).drop 2).take i, t, ?_, ?_, ?_⟩
      · intro hm; have := h3 10 hm; simp at this
      · rw [hd]
        simp only [GapItem.bytes]
        simp at h2; subst h2
        have : [(47:UInt8), 47] ++ List.drop 2 (c :: r) = 47 :: 47 :: List.drop 2 (c :: r) := rfl
        rw [this]
        simp only [List.cons_append]
        conv => lhs; rw [h1]
        rfl
      · have := findIdx_lt hf
        simp only [List.length_take]; omega
  rw [if_neg hs] at hp; clear hs
  by_cases hs : startsWith (c :: r) (asc "/*") = true
  · rw [if_pos hs] at hp
    split at hp
    · cases hp
    · rename_i i hf
      cases hp
      obtain ⟨h1, h2⟩ := findClose_split _ _ hf
      have hd := startsWith_drop hs
      rw [show (asc "/*").length = 2 by decide, show asc "/*" = [0x2F, 0x2A] by decide] at hd
      have hl := findClose_len _ _ hf
      have htk : (((c :: r).drop 2).take i).length = i := by simp only [List.length_take]; omega
      refine ⟨((c :: r).drop 2).take i, ((c :: r).drop 2).drop (i + 2), ?_, ?_, ?_⟩
      · simp only [GapItem.Ok]
        intro j hj ha
        rw [htk] at hj
        have e : ∀ k, k < i + 2 → ((List.drop 2 (c :: r)).take i ++ [0x2A, 0x2F])[k]? = (List.drop 2 (c :: r))[k]? := by
          intro k hk
          conv => rhs; rw [h1]
          by_cases hki : k < i
          · rw [List.getElem?_append_left (by omega), List.getElem?_append_left (by omega)]
          · rw [List.getElem?_append_right (by omega), List.getElem?_append_right (by omega), htk]
            have : k - i = 0 ∨ k - i = 1 := by omega
            rcases this with h | h <;> rw [h] <;> rfl
        rw [e j (by omega)] at ha
        rw [e (j + 1) (by omega)]
        exact h2 j hj ha
      · conv => lhs; rw [hd, h1]
        simp [GapItem.bytes]
      · simp only [GapItem.bytes, List.length_cons, List.length_append, List.length_nil]; rw [htk]; omega
  rw [if_neg hs] at hp; clear hs
  by_cases hs : c = 10
  · rw [if_pos hs] at hp; cases hp; exact ⟨r, by rw [hs]⟩
  rw [if_neg hs] at hp
  by_cases hs2 : isSpace c = true
  · rw [if_pos hs2] at hp; cases hp; exact ⟨c, r, rfl, isSpace_iff c hs hs2⟩
  rw [if_neg hs2] at hp; clear hs hs2
  by_cases hs : (isDig c || (c == 0x2E && headDig r)) = true
  · rw [if_pos hs] at hp; cases hp; simp [skips]
  rw [if_neg hs] at hp; clear hs
  have rs : ∀ sk el q, readString h sk el q = .ok pc → skips pc (c :: r) := by
    intro sk el q hq
    obtain ⟨_, _, _, e, _⟩ := readString_len _ _ _ _ _ hq
    subst e; simp [skips]
  have cs : ∀ sk el b q, charTok h sk el b q = .ok pc → skips pc (c :: r) := by
    intro sk el b q hq
    obtain ⟨_, _, e, _⟩ := charTok_len _ _ _ _ _ _ hq
    subst e; simp [skips]
  by_cases hs : c = 0x22
  · rw [if_pos hs] at hp; exact rs _ _ _ hp
  rw [if_neg hs] at hp; clear hs
  by_cases hs : startsWith (c :: r) (asc "u8\"") = true
  · rw [if_pos hs] at hp; exact rs _ _ _ hp
  rw [if_neg hs] at hp; clear hs
  by_cases hs : startsWith (c :: r) (asc "u\"") = true
  · rw [if_pos hs] at hp; exact rs _ _ _ hp
  rw [if_neg hs] at hp; clear hs
  by_cases hs : startsWith (c :: r) (asc "U\"") = true
  · rw [if_pos hs] at hp; exact rs _ _ _ hp
  rw [if_neg hs] at hp; clear hs
  by_cases hs : startsWith (c :: r) (asc "L\"") = true
  · rw [if_pos hs] at hp; exact rs _ _ _ hp
  rw [if_neg hs] at hp; clear hs
  by_cases hs : c = 0x27
  · rw [if_pos hs] at hp; exact cs _ _ _ _ hp
  rw [if_neg hs] at hp; clear hs
  by_cases hs : startsWith (c :: r) (asc "L'") = true
  · rw [if_pos hs] at hp; exact cs _ _ _ _ hp
  rw [if_neg hs] at hp; clear hs
  by_cases hs : startsWith (c :: r) (asc "u'") = true
  · rw [if_pos hs] at hp; exact cs _ _ _ _ hp
  rw [if_neg hs] at hp; clear hs
  by_cases hs : startsWith (c :: r) (asc "U'") = true
  · rw [if_pos hs] at hp; exact cs _ _ _ _ hp
  rw [if_neg hs] at hp; clear hs
  split at hp
  · cases hp
  · cases hp; simp [skips]
  · split at hp
    · cases hp; simp [skips]
    · cases hp

/-! ### gaps -/

theorem gapBytes_snoc (g : List GapItem) (i : GapItem) : gapBytes (g ++ [i]) = gapBytes g ++ i.bytes := by
  simp [gapBytes]

theorem hasNl_snoc (g : List GapItem) (i : GapItem) :
    hasNl (g ++ [i]) = (hasNl g || (match i with | .nl => true | _ => false)) := by
  cases i <;> simp [hasNl, List.any_append]

theorem hasBlank_snoc_nl (g : List GapItem) : hasBlank (g ++ [.nl]) = false := by
  induction g with
  | nil => rfl
  | cons i g ih =>
    cases i <;> simp [hasBlank, ih, hasNl_snoc]

theorem hasBlank_snoc (g : List GapItem) (i : GapItem) (hi : i ≠ .nl) : hasBlank (g ++ [i]) = true := by
  induction g with
  | nil => cases i <;> simp [hasBlank, hasNl] at hi ⊢
  | cons j g ih =>
    cases j <;> simp [hasBlank, ih]

/-- A gap in progress: like `ValidGap`, but it may end with a line comment when the next byte is a newline. -/
def OpenGap (g : List GapItem) (p : List UInt8) : Prop :=
  (∀ i ∈ g, i.Ok) ∧ (∀ a body b, g = a ++ .line body :: b → b ≠ [] → b.head? = some .nl) ∧
  (∀ a body, g = a ++ [.line body] → ∃ r, p = 10 :: r)

theorem OpenGap.snoc {g : List GapItem} {p p' : List UInt8} {i : GapItem} (h : OpenGap g p) (hi : i.Ok)
    (hnl : (∃ r, p = 10 :: r) → i = .nl) (hl : ∀ body, i = .line body → ∃ r, p' = 10 :: r) :
    OpenGap (g ++ [i]) p' := by
  obtain ⟨h1, h2, h3⟩ := h
  refine ⟨?_, ?_, ?_⟩
  · intro j hj
    rcases List.mem_append.mp hj with hj | hj
    · exact h1 j hj
    · simp at hj; subst hj; exact hi
  · intro a body b e hb
    rcases List.eq_nil_or_concat b with rfl | ⟨b', x, rfl⟩
    · exact absurd rfl hb
    · rw [List.concat_eq_append, ← List.cons_append, ← List.append_assoc] at e
      obtain ⟨e1, e2⟩ := List.append_inj' e rfl
      cases e2
      cases b' with
      | nil =>
        have := hnl (h3 a body e1)
        rw [this]; rfl
      | cons y b' =>
        have := h2 a body (y :: b') e1 (by simp)
        simpa using this
  · intro a body e
    obtain ⟨_, e2⟩ := List.append_inj' e rfl
    cases e2
    exact hl body rfl

theorem OpenGap.close {g : List GapItem} {p : List UInt8} (h : OpenGap g p) (hp : ¬ ∃ r, p = 10 :: r) : ValidGap g := by
  refine ⟨h.1, ?_⟩
  intro a body b e
  by_cases hb : b = []
  · subst hb; exact absurd (h.2.2 a body e) hp
  · exact h.2.1 a body b e hb

theorem OpenGap.nil (p : List UInt8) : OpenGap [] p := by
  refine ⟨by simp, ?_, ?_⟩
  · intro a body b e; simp at e
  · intro a body e; simp at e

/-- The main loop produces a layout of the text. -/
theorem scan_layout (h : Host) (pos : Nat) (p : List UInt8) (bol sp : Bool) (ts : List Tok)
    (hs : scan h pos p bol sp = .ok ts) (first : Bool) (pos0 : Nat) (g : List GapItem) (hg : OpenGap g p)
    (hpos : pos = pos0 + (gapBytes g).length) (hb : bol = (first || hasNl g)) (hsp : sp = hasBlank g) :
    Layout first pos0 (gapBytes g ++ p) ts := by
  fun_induction scan h pos p bol sp generalizing ts first pos0 g with
  | case1 pos bol sp =>
    cases hs
    simp only [List.append_nil]
    exact Layout.eof first pos0 g _ (hg.close (by simp)) rfl rfl hpos ⟨hb, hsp⟩
  | case2 => cases hs
  | case3 pos p bol sp hne n hp ih =>
    obtain ⟨body, r, hk, e, hn⟩ := lexOne_skips _ _ _ hp
    subst hn
    have hnot : ¬ ∃ r, p = 10 :: r := by
      rintro ⟨r', rfl⟩; rw [lexOne_nl] at hp; cases hp
    have hd : p.drop (body.length + 2) = 10 :: r := by
      rw [e]; simp [GapItem.bytes]
    have := ih ts hs first pos0 (g ++ [.line body])
      (hg.snoc (i := .line body) hk (fun hx => absurd hx hnot) (fun _ _ => ⟨r, hd⟩))
      (by rw [gapBytes_snoc, hpos]; simp [GapItem.bytes]; omega)
      (by rw [hasNl_snoc, hb]; simp) (by rw [hasBlank_snoc]; simp)
    rw [gapBytes_snoc, List.append_assoc, hd, ← e] at this
    exact this
  | case4 pos p bol sp hne n hp ih =>
    obtain ⟨body, r, hk, e, hn⟩ := lexOne_skips _ _ _ hp
    subst hn
    have hnot : ¬ ∃ r, p = 10 :: r := by
      rintro ⟨r', rfl⟩; rw [lexOne_nl] at hp; cases hp
    have hd : p.drop (GapItem.block body).bytes.length = r := by
      rw [e, List.drop_left]
    have := ih ts hs first pos0 (g ++ [.block body])
      (hg.snoc hk (fun hx => absurd hx hnot) (fun _ e => by cases e))
      (by rw [gapBytes_snoc, hpos, List.length_append]; omega)
      (by rw [hasNl_snoc, hb]; simp) (by rw [hasBlank_snoc]; simp)
    rw [gapBytes_snoc, List.append_assoc, hd, ← e] at this
    exact this
  | case5 pos p bol sp hne hp ih =>
    obtain ⟨r, rfl⟩ := lexOne_skips _ _ _ hp
    have := ih ts hs first pos0 (g ++ [.nl])
      (hg.snoc (i := .nl) trivial (fun _ => rfl) (fun _ e => by cases e))
      (by rw [gapBytes_snoc, hpos]; simp [GapItem.bytes]; omega)
      (by rw [hasNl_snoc]; simp) (by rw [hasBlank_snoc_nl])
    rw [gapBytes_snoc, List.append_assoc] at this
    exact this
  | case6 pos p bol sp hne hp ih =>
    obtain ⟨b, r, rfl, hk⟩ := lexOne_skips _ _ _ hp
    have hnot : ¬ ∃ r', b :: r = 10 :: r' := by
      rintro ⟨r', e⟩; rw [e, lexOne_nl] at hp; cases hp
    have := ih ts hs first pos0 (g ++ [.ws b])
      (hg.snoc hk (fun hx => absurd hx hnot) (fun _ e => by cases e))
      (by rw [gapBytes_snoc, hpos]; simp [GapItem.bytes]; omega)
      (by rw [hasNl_snoc, hb]; simp) (by rw [hasBlank_snoc]; simp)
    rw [gapBytes_snoc, List.append_assoc] at this
    exact this
  | case7 => cases hs
  | case8 pos p bol sp hne k n pl hp ts' hts ih =>
    cases hs
    have hlen := lexOne_len _ _ _ hp
    simp only [Piece.len] at hlen
    have hk : k ≠ .eof := lexOne_skips _ _ _ hp
    have hnot : ¬ ∃ r', p = 10 :: r' := by
      rintro ⟨r', e⟩; rw [e, lexOne_nl] at hp; cases hp
    have := ih ts' hts false (pos + n) [] (OpenGap.nil _) (by simp [gapBytes]) rfl rfl
    simp only [gapBytes, List.flatMap_nil, List.nil_append] at this
    have hw : (p.take n).length = n := by simp; omega
    have key := Layout.tok first pos0 g (p.take n) (p.drop n)
      { kind := k, loc := pos, len := n, atBol := bol, hasSpace := sp, payload := pl } ts'
      (hg.close hnot) hk (by intro e; rw [e] at hw; simp at hw; omega) hw.symm hpos ⟨hb, hsp⟩ this
    rw [List.take_append_drop] at key
    exact key

/-! ### line numbers -/

/-- Token offsets from `lo` strictly increase and the last is `hi`. -/
def Ordered : Nat → Nat → List Tok → Prop
  | _, _, [] => False
  | lo, hi, [t] => lo ≤ t.loc ∧ t.loc = hi
  | lo, hi, t :: ts => lo ≤ t.loc ∧ Ordered (t.loc + 1) hi ts

theorem Ordered.mono {lo lo' hi : Nat} {ts : List Tok} (h : Ordered lo hi ts) (hl : lo' ≤ lo) : Ordered lo' hi ts := by
  match ts, h with
  | [t], h => exact ⟨by have := h.1; omega, h.2⟩
  | t :: u :: ts, h => exact ⟨by have := h.1; omega, h.2⟩

theorem layout_ordered (first : Bool) (pos : Nat) (p : List UInt8) (ts : List Tok) (h : Layout first pos p ts) :
    Ordered pos (pos + p.length) ts := by
  induction h with
  | eof first pos g t _ _ _ hl _ => exact ⟨by omega, hl⟩
  | tok first pos g w rest t ts _ _ hw hlen hl _ hr ih =>
    have hwp : 0 < w.length := List.length_pos_iff.mpr hw
    have e : pos + (gapBytes g ++ (w ++ rest)).length = t.loc + t.len + rest.length := by
      simp; omega
    rw [e]
    have ih' := ih.mono (lo' := t.loc + 1) (by omega)
    cases ts with
    | nil => exact absurd ih id
    | cons u us => exact ⟨by omega, ih'⟩

/-- The line number the specification asks for. -/
def setLine (text : List UInt8) (t : Tok) : Tok := { t with line := 1 + (text.take t.loc).count 10 }

theorem addLines_spec (pos n : Nat) (p : List UInt8) (ts : List Tok) (pre : List UInt8)
    (hpos : pos = pre.length) (hn : n = 1 + pre.count 10) (ho : Ordered pos (pos + p.length) ts) :
    addLines pos n p ts = .ok (ts.map (setLine (pre ++ p))) := by
  induction p generalizing pos n ts pre with
  | nil =>
    match ts, ho with
    | [t], ho =>
      have : pos = t.loc := by have := ho.2; simp at this; omega
      rw [addLines, if_pos this]
      simp [setLine, hn, ← this, hpos]
    | t :: u :: ts, ho =>
      exfalso
      have h1 := ho.1
      have h2 := ho.2
      have : ∀ (lo hi : Nat) (l : List Tok), Ordered lo hi l → lo ≤ hi := by
        intro lo hi l
        induction l generalizing lo with
        | nil => intro h; exact absurd h id
        | cons a l ih =>
          intro h
          cases l with
          | nil => exact h.2 ▸ h.1
          | cons b l => have := ih _ h.2; have := h.1; omega
      have := this _ _ _ h2
      simp at this; omega
  | cons c r ih =>
    have hn' : (if c = 10 then n + 1 else n) = 1 + (pre ++ [c]).count 10 := by
      rw [List.count_append]
      by_cases hc : c = 10
      · subst hc; simp; omega
      · rw [if_neg hc, List.count_singleton]; simp [hc]; omega
    have hp' : pos + 1 = (pre ++ [c]).length := by simp; omega
    have he : pre ++ [c] ++ r = pre ++ c :: r := by simp
    have hlen : pos + (c :: r).length = pos + 1 + r.length := by simp; omega
    rw [hlen] at ho
    match ts, ho with
    | [], ho => exact absurd ho id
    | t :: ts', ho =>
      rw [addLines.eq_def]
      simp only
      by_cases hl : pos = t.loc
      · rw [if_pos hl]
        cases ts' with
        | nil => have := ho.2; omega
        | cons u us =>
          have ho2 : Ordered (pos + 1) (pos + 1 + r.length) (u :: us) := by rw [hl]; rw [hl] at ho; exact ho.2
          rw [ih (pos + 1) _ (u :: us) (pre ++ [c]) hp' hn' ho2, he]
          have : { t with line := n } = setLine (pre ++ c :: r) t := by
            simp only [setLine, ← hl, hpos, List.take_left]; rw [hn]
          simp [this]
      · rw [if_neg hl]
        have ho2 : Ordered (pos + 1) (pos + 1 + r.length) (t :: ts') := by
          cases ts' with
          | nil => exact ⟨by have := ho.1; omega, ho.2⟩
          | cons u us => exact ⟨by have := ho.1; omega, ho.2⟩
        rw [ih (pos + 1) _ (t :: ts') (pre ++ [c]) hp' hn' ho2, he]

theorem Layout.setLines (first : Bool) (pos : Nat) (p : List UInt8) (ts : List Tok) (f : Tok → Nat)
    (h : Layout first pos p ts) : Layout first pos p (ts.map fun t => { t with line := f t }) := by
  induction h with
  | eof first pos g t h1 h2 h3 h4 h5 => exact Layout.eof first pos g _ h1 h2 h3 h4 h5
  | tok first pos g w rest t ts h1 h2 h3 h4 h5 h6 hr ih =>
    exact Layout.tok first pos g w rest _ _ h1 h2 h3 h4 h5 h6 ih

end Toycc.Lex
