import Verif.Lex.Model
/-! Every step of the tokenizer consumes at least one byte and stays before the NUL. -/
namespace Toycc.Lex
open Toycc.Unicode
open Toycc.Source (isXDigit fromHex)

theorem stringEnd_lt (p : List UInt8) (k : Nat) (h : stringEnd p = .ok k) : k < p.length := by
  fun_induction stringEnd p generalizing k with
  | case1 => cases h
  | case2 => cases h; simp
  | case3 => cases h
  | case4 => cases h
  | case5 => cases h
  | case6 _ _ n hn _ _ ih => cases h; have := ih n hn; simp; omega
  | case7 => cases h
  | case8 _ _ _ _ _ n hn ih => cases h; have := ih n hn; simp; omega

theorem octLoop_len (k c : Nat) (p : List UInt8) : (octLoop k c p).2 ≤ p.length := by
  induction k generalizing c p with
  | zero => simp [octLoop]
  | succ k ih =>
    cases p with
    | nil => simp [octLoop]
    | cons b r =>
      simp only [octLoop]
      split
      · have := ih (c * 8 + (b.toNat - 0x30)) r; simp; omega
      · simp

theorem hexLoop_len (c : Nat) (p : List UInt8) (c' n : Nat) (h : hexLoop c p = some (c', n)) : n ≤ p.length := by
  fun_induction hexLoop c p generalizing c' n with
  | case1 => cases h; simp
  | case2 => cases h
  | case3 _ _ _ _ _ _ _ hh ih => cases h; have := ih _ _ hh; simp; omega
  | case4 => cases h
  | case5 => cases h; simp

theorem readEscaped_len (hst : Host) (p : List UInt8) (v : Int) (n : Nat) (h : readEscaped hst p = .ok (v, n)) :
    n ≤ p.length := by
  unfold readEscaped at h
  split at h
  · cases h
  · rename_i b r
    have l1 : (b :: r).length = r.length + 1 := rfl
    split at h
    · have := octLoop_len 3 0 (b :: r); cases h; exact this
    · split at h
      · split at h
        · cases h
        · split at h
          · split at h
            · cases h
            · rename_i hh; have := hexLoop_len _ _ _ _ hh; cases h; simp at this ⊢; omega
          · cases h
      · repeat' split at h
        all_goals (cases h; simp)

theorem findIdx_lt {p : List UInt8} {f : UInt8 → Bool} {i : Nat} (h : p.findIdx? f = some i) : i < p.length := by
  obtain ⟨hi, _⟩ := List.findIdx?_eq_some_iff_getElem.mp h
  exact hi

theorem readChar_len (hst : Host) (skip : Nat) (p : List UInt8) (v : Int) (n : Nat)
    (h : readChar hst skip p = .ok (v, n)) : skip + 1 < n ∧ n ≤ skip + 1 + p.length := by
  unfold readChar at h
  split at h
  · cases h
  · rename_i c r
    split at h
    · split at h
      · cases h
      · rename_i hh
        have := readEscaped_len _ _ _ _ hh
        split at h
        · cases h
        · rename_i hf; have := findIdx_lt hf; cases h; simp at *; omega
    · split at h
      · cases h
      · rename_i hh
        have := decode_len _ _ _ hh (by simp)
        have := (decode_pos _ _ _ hh).1
        split at h
        · cases h
        · rename_i hf; have := findIdx_lt hf; cases h; simp at *; omega

theorem ppLoop_len (p : List UInt8) : ppLoop p ≤ p.length := by
  fun_induction ppLoop p with
  | case1 => simp
  | case2 => simp
  | case3 => simp
  | case4 _ _ _ _ ih => simp; omega
  | case5 _ _ _ _ _ ih => simp at *; omega
  | case6 => simp

theorem findClose_len (p : List UInt8) (i : Nat) (h : findClose p = some i) : i + 2 ≤ p.length := by
  fun_induction findClose p generalizing i with
  | case1 => cases h
  | case2 => cases h
  | case3 => cases h; simp
  | case4 a b r hne ih =>
    cases hf : findClose (b :: r) with
    | none => rw [hf] at h; cases h
    | some j => rw [hf] at h; cases h; have := ih j hf; simp at *; omega

theorem readIdentLoop_len (p : List UInt8) (n m : Nat) (h : readIdentLoop p n = some m) : n ≤ m ∧ m ≤ n + p.length := by
  fun_induction readIdentLoop p n with
  | case1 => cases h
  | case2 p n c k hd hi ih => have := ih h; simp at this; omega
  | case3 => cases h; simp

theorem readIdent_len (p : List UInt8) (n : Nat) (h : readIdent p = some n) : n ≤ p.length := by
  unfold readIdent at h
  split at h
  · cases h
  · rename_i c k hd
    split at h
    · rename_i hi
      have g := readIdentLoop_guard p c k hd (C08_start_continue c hi)
      have := readIdentLoop_len _ _ _ h
      simp at this; omega
    · cases h; simp

theorem startsWith_len {p q : List UInt8} (h : startsWith p q = true) : q.length ≤ p.length :=
  (List.isPrefixOf_iff_prefix.mp h).length_le

theorem readPunct_len (p : List UInt8) : readPunct p ≤ p.length := by
  have : ∀ qs : List (List UInt8), punctLoop p qs ≤ p.length := by
    intro qs
    induction qs with
    | nil =>
      cases p with
      | nil => simp [punctLoop]
      | cons b r => simp only [punctLoop]; split <;> simp
    | cons q qs ih =>
      simp only [punctLoop]; split
      · rename_i h; exact startsWith_len h
      · exact ih
  exact this _

theorem readString_len (hst : Host) (skip : Nat) (el : Elem) (p : List UInt8) (pc : Piece)
    (h : readString hst skip el p = .ok pc) :
    ∃ k us, stringEnd p = .ok k ∧ pc = .tok .str (skip + 1 + k + 1) (.str el (us ++ [0])) ∧
      pc.len ≤ skip + 1 + p.length := by
  unfold readString at h
  split at h
  · cases h
  · rename_i k hk
    split at h
    · cases h
    · rename_i us _
      cases h
      have := stringEnd_lt p k hk
      exact ⟨k, us, hk, rfl, by simp [Piece.len]; omega⟩

theorem charTok_len (hst : Host) (skip : Nat) (ty : Elem) (b : Bool) (p : List UInt8) (pc : Piece)
    (h : charTok hst skip ty b p = .ok pc) :
    ∃ n pl, pc = .tok .num n pl ∧ 0 < n ∧ n ≤ skip + 1 + p.length := by
  unfold charTok at h
  split at h
  · cases h
  · rename_i v n hh
    cases h
    have := readChar_len _ _ _ _ _ hh
    exact ⟨n, _, rfl, by omega, by omega⟩

theorem startsWith_drop {p q : List UInt8} (h : startsWith p q = true) : p = q ++ p.drop q.length := by
  obtain ⟨t, rfl⟩ := List.isPrefixOf_iff_prefix.mp h
  simp

/-- What one step consumes. -/
theorem lexOne_len (hst : Host) (p : List UInt8) (pc : Piece) (h : lexOne hst p = .ok pc) :
    0 < pc.len ∧ pc.len ≤ p.length := by
  cases p with
  | nil => cases h
  | cons c r =>
  simp only [lexOne] at h
  rw [lexCons.eq_def] at h
  have l1 : (c :: r).length = r.length + 1 := rfl
  by_cases hs : startsWith (c :: r) (asc "//") = true
  · rw [if_pos hs] at h
    have := startsWith_len hs
    have : (asc "//").length = 2 := by decide
    split at h
    · cases h
    · rename_i i hf
      have := findIdx_lt hf
      cases h; simp only [Piece.len]; simp only [List.length_drop] at this; omega
  rw [if_neg hs] at h; clear hs
  by_cases hs : startsWith (c :: r) (asc "/*") = true
  · rw [if_pos hs] at h
    have := startsWith_len hs
    have : (asc "/*").length = 2 := by decide
    split at h
    · cases h
    · rename_i i hf
      have := findClose_len _ _ hf
      cases h; simp only [Piece.len]; simp only [List.length_drop] at this; omega
  rw [if_neg hs] at h; clear hs
  by_cases hs : c = 10
  · rw [if_pos hs] at h
    cases h; simp [Piece.len]
  rw [if_neg hs] at h; clear hs
  by_cases hs : isSpace c = true
  · rw [if_pos hs] at h
    cases h; simp [Piece.len]
  rw [if_neg hs] at h; clear hs
  by_cases hs : (isDig c || (c == 0x2E && headDig r)) = true
  · rw [if_pos hs] at h
    cases h; have := ppLoop_len r; simp only [Piece.len]; omega
  rw [if_neg hs] at h; clear hs
  by_cases hs : c = 0x22
  · rw [if_pos hs] at h
    obtain ⟨k, us, _, e, hl⟩ := readString_len _ _ _ _ _ h
    subst e; simp only [Piece.len] at hl ⊢; omega
  rw [if_neg hs] at h; clear hs
  have l4 : ∀ (q : String) (sk : Nat) (el : Elem), startsWith (c :: r) (asc q) = true → (asc q).length = sk + 1 →
      readString hst sk el ((c :: r).drop (sk + 1)) = .ok pc → 0 < pc.len ∧ pc.len ≤ (c :: r).length := by
    intro q sk el hs hq hh
    have := startsWith_len hs
    obtain ⟨k, us, _, e, hl⟩ := readString_len _ _ _ _ _ hh
    subst e; simp only [Piece.len, List.length_drop] at hl ⊢; omega
  have l5 : ∀ (q : String) (sk : Nat) (el : Elem), startsWith (c :: r) (asc q) = true → (asc q).length = sk + 1 →
      charTok hst sk el false ((c :: r).drop (sk + 1)) = .ok pc → 0 < pc.len ∧ pc.len ≤ (c :: r).length := by
    intro q sk el hs hq hh
    have := startsWith_len hs
    obtain ⟨k, us, e, hl, hl2⟩ := charTok_len _ _ _ _ _ _ hh
    subst e; simp only [Piece.len, List.length_drop] at hl2 ⊢; omega
  by_cases hs : startsWith (c :: r) (asc "u8\"") = true
  · rw [if_pos hs] at h
    exact l4 _ _ _ hs (by decide) h
  rw [if_neg hs] at h; clear hs
  by_cases hs : startsWith (c :: r) (asc "u\"") = true
  · rw [if_pos hs] at h
    exact l4 _ _ _ hs (by decide) h
  rw [if_neg hs] at h; clear hs
  by_cases hs : startsWith (c :: r) (asc "U\"") = true
  · rw [if_pos hs] at h
    exact l4 _ _ _ hs (by decide) h
  rw [if_neg hs] at h; clear hs
  by_cases hs : startsWith (c :: r) (asc "L\"") = true
  · rw [if_pos hs] at h
    exact l4 _ _ _ hs (by decide) h
  rw [if_neg hs] at h; clear hs
  by_cases hs : c = 0x27
  · rw [if_pos hs] at h
    obtain ⟨k, us, e, hl, hl2⟩ := charTok_len _ _ _ _ _ _ h
    subst e; simp only [Piece.len] at hl2 ⊢; omega
  rw [if_neg hs] at h; clear hs
  by_cases hs : startsWith (c :: r) (asc "L'") = true
  · rw [if_pos hs] at h
    exact l5 _ _ _ hs (by decide) h
  rw [if_neg hs] at h; clear hs
  by_cases hs : startsWith (c :: r) (asc "u'") = true
  · rw [if_pos hs] at h
    exact l5 _ _ _ hs (by decide) h
  rw [if_neg hs] at h; clear hs
  by_cases hs : startsWith (c :: r) (asc "U'") = true
  · rw [if_pos hs] at h
    exact l5 _ _ _ hs (by decide) h
  rw [if_neg hs] at h; clear hs
  split at h
  · cases h
  · rename_i hi; have := readIdent_len _ _ hi; cases h; simp only [Piece.len]; omega
  · split at h
    · rename_i hp; have := readPunct_len (c :: r); cases h; simp only [Piece.len]; omega
    · cases h

end Toycc.Lex
