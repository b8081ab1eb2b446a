import Verif.Lex.Local
import Verif.Lex.PrintSpec
/-! Every kind of token is read from its own bytes. -/
namespace Toycc.Lex
open Toycc.Unicode

theorem decode_low (b : UInt8) (t : List UInt8) (h : b < 128) : decode (b :: t) = some (b.toNat, 1) := by
  have h' : headByte (b :: t) < 128 := h
  unfold decode
  simp only
  rw [if_pos h']
  rfl

theorem ident2_low (c : UInt8) (h : identByte c = false) : c < 128 ∧ isIdent2 c.toNat = false := by
  have key : ∀ c : UInt8, identByte c = false → c < 128 ∧ isIdent2 c.toNat = false := by decide +kernel
  exact key c h

/-- A test for a prefix `q` gives the same on two texts that begin with `s`, if it is decided inside `s`. -/
theorem starts_local (s r r' q : List UInt8) (h1 : startsWith (s ++ r) q = true → q.length ≤ s.length)
    (h2 : s.length < q.length → startsWith (s ++ r') q = false) : startsWith (s ++ r') q = startsWith (s ++ r) q := by
  have inside : q.length ≤ s.length → ∀ t, startsWith (s ++ t) q = startsWith s q := by
    intro hl t
    apply Bool.eq_iff_iff.mpr
    unfold startsWith
    rw [List.isPrefixOf_iff_prefix, List.isPrefixOf_iff_prefix]
    exact ⟨fun h => List.prefix_of_prefix_length_le h (List.prefix_append s t) hl, fun h => h.trans (List.prefix_append s t)⟩
  by_cases hl : q.length ≤ s.length
  · rw [inside hl, inside hl]
  · rw [h2 (by omega)]
    cases h : startsWith (s ++ r) q with
    | false => rfl
    | true => exact absurd (h1 h) hl

theorem identLoop_local (m : Nat) : ∀ (q r rest : List UInt8) (n : Nat), q.length ≤ m → readIdentLoop (q ++ r) n = some (n + q.length) →
    rest.head?.any identByte = false → rest ≠ [] → readIdentLoop (q ++ rest) n = some (n + q.length) := by
  have stop : ∀ (rest : List UInt8) (n : Nat), rest.head?.any identByte = false → rest ≠ [] → readIdentLoop rest n = some n := by
    intro rest n hr hne
    cases rest with
    | nil => exact absurd rfl hne
    | cons c t =>
      simp only [List.head?_cons, Option.any_some] at hr
      obtain ⟨a, b⟩ := ident2_low c hr
      rw [readIdentLoop, decode_low c t a]
      simp only [b]
      rw [dif_neg (by simp)]
  induction m with
  | zero =>
    intro q r rest n hq _ hr hne
    have : q = [] := List.length_eq_zero_iff.mp (by omega)
    subst this
    exact stop rest n hr hne
  | succ m ih =>
    intro q r rest n hq hl hr hne
    by_cases hq0 : q = []
    · subst hq0; exact stop rest n hr hne
    have hpos := List.length_pos_iff.mpr hq0
    rw [readIdentLoop] at hl
    cases hd : decode (q ++ r) with
    | none => rw [hd] at hl; cases hl
    | some ck =>
      obtain ⟨c, k⟩ := ck
      rw [hd] at hl
      simp only at hl
      split at hl
      · rename_i hg
        have hle := readIdentLoop_len _ _ _ hl
        have hk : k ≤ q.length := by omega
        rw [List.drop_append_of_le_length hk] at hl
        have hd2 := decode_local q r rest c k hd hq0 hk
        rw [readIdentLoop, hd2]
        simp only
        rw [dif_pos ⟨hg.1, hg.2.1, by simp; omega⟩, List.drop_append_of_le_length hk]
        have e : n + q.length = n + k + (q.drop k).length := by simp; omega
        rw [e] at hl ⊢
        exact ih (q.drop k) r rest (n + k) (by simp; omega) hl hr hne
      · have := Option.some.inj hl; omega

theorem ident_local (s r rest : List UInt8) (hs : s ≠ []) (h : readIdent (s ++ r) = some s.length)
    (hr : rest.head?.any identByte = false) (hne : rest ≠ []) : readIdent (s ++ rest) = some s.length := by
  have hpos := List.length_pos_iff.mpr hs
  unfold readIdent at h ⊢
  cases hd : decode (s ++ r) with
  | none => rw [hd] at h; cases h
  | some ck =>
    obtain ⟨c, k⟩ := ck
    rw [hd] at h
    simp only at h
    split at h
    · rename_i hi
      have hle := readIdentLoop_len _ _ _ h
      have hk : k ≤ s.length := by omega
      rw [decode_local s r rest c k hd hs hk]
      simp only
      rw [if_pos hi, List.drop_append_of_le_length hk]
      rw [List.drop_append_of_le_length hk] at h
      have e : s.length = k + (s.drop k).length := by simp; omega
      rw [e] at h ⊢
      exact identLoop_local _ (s.drop k) r rest k (Nat.le_refl _) h hr hne
    · simp at h; omega

/-- A text that does not begin with an identifier: decided by its first byte, if that is ASCII. -/
theorem ident_none (a : UInt8) (t t' : List UInt8) (ha : a < 128) (h : readIdent (a :: t) = some 0) : readIdent (a :: t') = some 0 := by
  unfold readIdent at h ⊢
  rw [decode_low a t ha] at h
  rw [decode_low a t' ha]
  simp only at h ⊢
  split at h
  · have := readIdentLoop_len _ _ _ h; omega
  · rename_i hi; rw [if_neg hi]

theorem punct_low (a : UInt8) (t : List UInt8) (n : Nat) (h : readPunct (a :: t) = n + 1) : a < 128 := by
  have key : ∀ b : UInt8, isPunct b = true → b < 128 := by decide +kernel
  have htab : ∀ x ∈ punctTable, x.head?.any isPunct = true := by decide +kernel
  rcases punctLoop_result (a :: t) punctTable with hr | ⟨b, r, hp, hb, _⟩ | ⟨h0, _⟩
  · have hh := htab _ hr
    have : punctLoop (a :: t) punctTable = n + 1 := h
    rw [this] at hh
    simp only [List.take_succ_cons, List.head?_cons, Option.any_some] at hh
    exact key a hh
  · cases hp; exact key a hb
  · have : punctLoop (a :: t) punctTable = n + 1 := h
    omega

theorem punct_local (a : UInt8) (s r rest : List UInt8) (h : readPunct (a :: s ++ r) = (a :: s).length)
    (hg : ∀ q ∈ punctTable, (a :: s).length < q.length → startsWith (a :: s ++ rest) q = false) : readPunct (a :: s ++ rest) = (a :: s).length := by
  have sorted : punctTable.Pairwise (fun a b => b.length ≤ a.length) := by decide +kernel
  have hlong : ∀ q ∈ punctTable, startsWith (a :: s ++ r) q = true → q.length ≤ (a :: s).length := by
    intro q hq hs
    have := punctLoop_longest _ punctTable sorted q hq hs
    have h : punctLoop (a :: s ++ r) punctTable = (a :: s).length := h
    omega
  have same : ∀ qs : List (List UInt8), (∀ q ∈ qs, q ∈ punctTable) → punctLoop (a :: s ++ rest) qs = punctLoop (a :: s ++ r) qs := by
    intro qs
    induction qs with
    | nil => intro _; rfl
    | cons q qs ih =>
      intro hqs
      have hq := hqs q (by simp)
      simp only [punctLoop]
      rw [starts_local (a :: s) r rest q (hlong q hq) (hg q hq), ih (fun x hx => hqs x (by simp [hx]))]
  have := same punctTable (fun _ h => h)
  unfold readPunct at h ⊢
  rw [this]; exact h

theorem pp_stop (c : UInt8) (t : List UInt8) (h1 : isAlnum c = false) (h2 : c ≠ 0x2E) : ppLoop (c :: t) = 0 := by
  have hnot : (c == 0x65 || c == 0x45 || c == 0x70 || c == 0x50) = false := by
    have key : ∀ c : UInt8, isAlnum c = false → (c == 0x65 || c == 0x45 || c == 0x70 || c == 0x50) = false := by decide +kernel
    exact key c h1
  have h2' : (c == 0x2E) = false := by simpa using h2
  cases t with
  | nil => simp only [ppLoop, h1, h2', Bool.or_self, Bool.false_eq_true, if_false]
  | cons b t => simp only [ppLoop, hnot, h1, h2', Bool.or_self, Bool.false_and, Bool.false_eq_true, if_false]

theorem pp_local (m : Nat) : ∀ (q r : List UInt8) (c : UInt8) (t : List UInt8), q.length ≤ m → ppLoop (q ++ r) = q.length →
    isAlnum c = false → c ≠ 0x2E → ((c == 0x2B || c == 0x2D) && q.getLast?.any expChar) = false → ppLoop (q ++ c :: t) = q.length := by
  induction m with
  | zero =>
    intro q r c t hq _ h1 h2 _
    have : q = [] := List.length_eq_zero_iff.mp (by omega)
    subst this
    exact pp_stop c t h1 h2
  | succ m ih =>
    intro q r c t hq h h1 h2 h3
    cases q with
    | nil => exact pp_stop c t h1 h2
    | cons x q =>
      cases q with
      | nil =>
        have hx : (isAlnum x || x == 0x2E) = true := by
          have key : ∀ x : UInt8, (x == 0x65 || x == 0x45 || x == 0x70 || x == 0x50) = true → isAlnum x = true := by decide +kernel
          cases r with
          | nil =>
            simp only [List.append_nil, ppLoop, List.length_cons, List.length_nil] at h
            by_cases hx : (isAlnum x || x == 0x2E) = true
            · exact hx
            · rw [if_neg hx] at h; omega
          | cons y r =>
            simp only [List.cons_append, List.nil_append, ppLoop, List.length_cons, List.length_nil] at h
            split at h
            · omega
            · split at h
              · assumption
              · omega
        simp only [List.cons_append, List.nil_append, ppLoop]
        have hn : ((x == 0x65 || x == 0x45 || x == 0x70 || x == 0x50) && (c == 0x2B || c == 0x2D)) = false := by
          simp only [List.getLast?_singleton, Option.any_some, expChar] at h3
          rw [Bool.and_comm]; exact h3
        rw [hn]
        simp only [Bool.false_eq_true, if_false]
        rw [if_pos hx, pp_stop c t h1 h2]; rfl
      | cons y q =>
        simp only [List.cons_append, ppLoop, List.length_cons] at h ⊢
        split at h
        · rename_i he
          rw [if_pos he]
          have h3' : ((c == 0x2B || c == 0x2D) && q.getLast?.any expChar) = false := by
            cases q with
            | nil => simp
            | cons z q => simpa [List.getLast?_cons_cons] using h3
          rw [ih q r c t (by simp at hq; omega) (by omega) h1 h2 h3']; omega
        · rename_i he
          rw [if_neg he]
          split at h
          · rename_i hx
            rw [if_pos hx]
            have h3' : ((c == 0x2B || c == 0x2D) && (y :: q).getLast?.any expChar) = false := by
              simpa [List.getLast?_cons_cons] using h3
            have := ih (y :: q) r c t (by simp at hq ⊢; omega) (by simp; omega) h1 h2 h3'
            simp only [List.cons_append, List.length_cons] at this
            rw [this]; omega
          · omega

theorem headDig_local (x : UInt8) (t r : List UInt8) : headDig (x :: t ++ r) = isDig x := rfl

theorem openers_len : ∀ q ∈ openers, 2 ≤ q.length := by decide +kernel

/-- **A token is read whatever follows it**, unless what follows glues to it. -/
theorem lex_local (h : Host) (k : Kind) (s r rest : List UInt8) (pl : Payload) (hl : lexOne h (s ++ r) = .ok (.tok k s.length pl))
    (hg : glues k s rest = false) (hne : rest ≠ []) : lexOne h (s ++ rest) = .ok (.tok k s.length pl) := by
  have hpos := (lexOne_len h _ _ hl).1
  simp only [Piece.len] at hpos
  cases s with
  | nil => simp at hpos
  | cons a s =>
  unfold glues at hg
  rw [Bool.or_eq_false_iff] at hg
  obtain ⟨hg1, hg2⟩ := hg
  have hop : ∀ q ∈ openers, (a :: s).length < q.length → startsWith (a :: s ++ rest) q = false := by
    intro q hq hlt
    have := List.any_eq_false.mp hg1 q hq
    rw [decide_eq_true hlt, Bool.true_and] at this
    exact Bool.not_eq_true _ ▸ this
  -- a prefix test agrees when the token found is at least as long as the prefix
  have agree : ∀ q ∈ openers, (startsWith (a :: s ++ r) q = true → q.length ≤ (a :: s).length) →
      startsWith (a :: (s ++ rest)) q = startsWith (a :: (s ++ r)) q := fun q hq h1 => starts_local (a :: s) r rest q h1 (hop q hq)
  have dropq : ∀ n, n ≤ (a :: s).length → ∀ t, (a :: (s ++ t)).drop n = (a :: s).drop n ++ t := by
    intro n hn t
    rw [show a :: (s ++ t) = a :: s ++ t from rfl, List.drop_append_of_le_length hn]
  simp only [lexOne, List.cons_append] at hl ⊢
  rw [lexCons.eq_def] at hl ⊢
  by_cases hs : startsWith (a :: (s ++ r)) (asc "//") = true
  · rw [if_pos hs] at hl; split at hl <;> cases hl
  rw [if_neg hs] at hl
  rw [agree _ (by decide) (fun h => absurd h hs), if_neg hs]; clear hs
  by_cases hs : startsWith (a :: (s ++ r)) (asc "/*") = true
  · rw [if_pos hs] at hl; split at hl <;> cases hl
  rw [if_neg hs] at hl
  rw [agree _ (by decide) (fun h => absurd h hs), if_neg hs]; clear hs
  by_cases hs : a = 10
  · rw [if_pos hs] at hl; cases hl
  rw [if_neg hs] at hl ⊢; clear hs
  by_cases hs : isSpace a = true
  · rw [if_pos hs] at hl; cases hl
  rw [if_neg hs] at hl ⊢; clear hs
  obtain ⟨c, t, rfl⟩ : ∃ c t, rest = c :: t := by
    cases rest with
    | nil => exact absurd rfl hne
    | cons c t => exact ⟨c, t, rfl⟩
  by_cases hs : (isDig a || (a == 0x2E && headDig (s ++ r))) = true
  · rw [if_pos hs] at hl
    have hl := Except.ok.inj hl
    simp only [Piece.tok.injEq] at hl
    obtain ⟨rfl, hn, rfl⟩ := hl
    simp only [List.length_cons] at hn
    have hs' : (isDig a || (a == 0x2E && headDig (s ++ c :: t))) = true := by
      by_cases hd : isDig a = true
      · simp [hd]
      · simp only [hd, Bool.false_or, Bool.and_eq_true] at hs ⊢
        refine ⟨hs.1, ?_⟩
        cases s with
        | cons x s => exact hs.2
        | nil =>
          exfalso
          cases r with
          | nil => simp [headDig] at hs
          | cons y r =>
            have hy : isDig y = true := hs.2
            have : 1 ≤ ppLoop (y :: r) := by
              have hal : isAlnum y = true := by unfold isAlnum; rw [hy]; rfl
              cases r with
              | nil => simp [ppLoop, hal]
              | cons z r => simp only [ppLoop]; split; omega; rw [if_pos (by simp [hal])]; omega
            simp only [List.nil_append, List.length_nil] at hn
            omega
    rw [if_pos hs']
    simp only [List.head?_cons, Option.any_some, Bool.or_eq_false_iff] at hg2
    have h3 : ((c == 0x2B || c == 0x2D) && s.getLast?.any expChar) = false := by
      cases s with
      | nil => simp
      | cons x s => rw [List.getLast?_cons_cons] at hg2; exact hg2.2
    rw [pp_local _ s r c t (Nat.le_refl _) (by omega) hg2.1.1 (by simpa using hg2.1.2) h3]
    simp only [List.length_cons]
    rw [Nat.add_comm 1]
  rw [if_neg hs] at hl
  have hs' : ¬ (isDig a || (a == 0x2E && headDig (s ++ c :: t))) = true := by
    intro hx
    apply hs
    by_cases hd : isDig a = true
    · simp [hd]
    · simp only [hd, Bool.false_or, Bool.and_eq_true, beq_iff_eq] at hx ⊢
      refine ⟨hx.1, ?_⟩
      cases s with
      | cons x s => exact hx.2
      | nil =>
        exfalso
        obtain ⟨rfl, hc⟩ := hx
        have hc : isDig c = true := hc
        -- the token is the punctuator "."
        have n1 : ∀ (q : List UInt8), q.head? ≠ some 0x2E → q ≠ [] → ¬ startsWith (0x2E :: ([] ++ r)) q = true := by
          intro q hx hq
          cases q with
          | nil => exact absurd rfl hq
          | cons x q =>
            have hx : ¬ x = 0x2E := by simpa using hx
            simp [startsWith, List.isPrefixOf, hx]
        rw [if_neg (by decide), if_neg (n1 (asc "u8\"") (by decide) (by decide)), if_neg (n1 (asc "u\"") (by decide) (by decide)),
          if_neg (n1 (asc "U\"") (by decide) (by decide)), if_neg (n1 (asc "L\"") (by decide) (by decide)), if_neg (by decide),
          if_neg (n1 (asc "L'") (by decide) (by decide)), if_neg (n1 (asc "u'") (by decide) (by decide)),
          if_neg (n1 (asc "U'") (by decide) (by decide))] at hl
        have hid : readIdent (0x2E :: ([] ++ r)) = some 0 := by
          unfold readIdent
          rw [decode_low _ _ (by decide)]
          simp only
          rw [if_neg (by decide)]
        rw [hid] at hl
        simp only at hl
        split at hl
        · have hl := Except.ok.inj hl
          simp only [Piece.tok.injEq] at hl
          obtain ⟨rfl, -, -⟩ := hl
          simp [hc] at hg2
        · cases hl
  rw [if_neg hs']; clear hs hs'
  by_cases hs : a = 0x22
  · rw [if_pos hs] at hl ⊢
    obtain ⟨k', us, _, e, _⟩ := readString_len _ _ _ _ _ hl
    exact string_local h 0 .char s r _ k _ pl hl (by simp; omega)
  rw [if_neg hs] at hl ⊢; clear hs
  have strs : ∀ (q : List UInt8) (sk : Nat) (el : Elem), q ∈ openers → q.length = sk + 1 → startsWith (a :: (s ++ r)) q = true →
      readString h sk el ((a :: (s ++ r)).drop (sk + 1)) = .ok (.tok k (a :: s).length pl) →
      startsWith (a :: (s ++ c :: t)) q = true ∧ readString h sk el ((a :: (s ++ c :: t)).drop (sk + 1)) = .ok (.tok k (a :: s).length pl) := by
    intro q sk el hq hql hs hr
    obtain ⟨k', us, _, e, _⟩ := readString_len _ _ _ _ _ hr
    have hlen : (a :: s).length = sk + 1 + k' + 1 := by
      simp only [Piece.tok.injEq] at e; omega
    refine ⟨by rw [agree q hq (fun _ => by omega)]; exact hs, ?_⟩
    rw [dropq (sk + 1) (by omega)] at hr ⊢
    exact string_local h sk el _ r _ k _ pl hr (by simp only [List.length_drop]; omega)
  have chs : ∀ (q : List UInt8) (sk : Nat) (el : Elem), q ∈ openers → q.length = sk + 1 → startsWith (a :: (s ++ r)) q = true →
      charTok h sk el false ((a :: (s ++ r)).drop (sk + 1)) = .ok (.tok k (a :: s).length pl) →
      startsWith (a :: (s ++ c :: t)) q = true ∧ charTok h sk el false ((a :: (s ++ c :: t)).drop (sk + 1)) = .ok (.tok k (a :: s).length pl) := by
    intro q sk el hq hql hs hr
    have hlen : sk + 1 ≤ (a :: s).length := by
      have hr := hr
      unfold charTok at hr
      split at hr
      · cases hr
      · rename_i v n hh
        have := readChar_len _ _ _ _ _ hh
        have hr := Except.ok.inj hr
        simp only [Piece.tok.injEq] at hr
        omega
    refine ⟨by rw [agree q hq (fun _ => by omega)]; exact hs, ?_⟩
    rw [dropq (sk + 1) (by omega)] at hr ⊢
    exact char_local h sk el false _ r _ k _ pl hr (by simp only [List.length_drop]; omega)
  by_cases hs : startsWith (a :: (s ++ r)) (asc "u8\"") = true
  · rw [if_pos hs] at hl
    obtain ⟨h1, h2⟩ := strs _ 2 .char (by decide) (by decide) hs hl
    rw [if_pos h1]; exact h2
  rw [if_neg hs] at hl
  rw [agree _ (by decide) (fun h => absurd h hs), if_neg hs]; clear hs
  by_cases hs : startsWith (a :: (s ++ r)) (asc "u\"") = true
  · rw [if_pos hs] at hl
    obtain ⟨h1, h2⟩ := strs _ 1 .ushort (by decide) (by decide) hs hl
    rw [if_pos h1]; exact h2
  rw [if_neg hs] at hl
  rw [agree _ (by decide) (fun h => absurd h hs), if_neg hs]; clear hs
  by_cases hs : startsWith (a :: (s ++ r)) (asc "U\"") = true
  · rw [if_pos hs] at hl
    obtain ⟨h1, h2⟩ := strs _ 1 .uint (by decide) (by decide) hs hl
    rw [if_pos h1]; exact h2
  rw [if_neg hs] at hl
  rw [agree _ (by decide) (fun h => absurd h hs), if_neg hs]; clear hs
  by_cases hs : startsWith (a :: (s ++ r)) (asc "L\"") = true
  · rw [if_pos hs] at hl
    obtain ⟨h1, h2⟩ := strs _ 1 .int (by decide) (by decide) hs hl
    rw [if_pos h1]; exact h2
  rw [if_neg hs] at hl
  rw [agree _ (by decide) (fun h => absurd h hs), if_neg hs]; clear hs
  by_cases hs : a = 0x27
  · rw [if_pos hs] at hl ⊢
    exact char_local h 0 .int true s r _ k _ pl hl (by simp; omega)
  rw [if_neg hs] at hl ⊢; clear hs
  by_cases hs : startsWith (a :: (s ++ r)) (asc "L'") = true
  · rw [if_pos hs] at hl
    obtain ⟨h1, h2⟩ := chs _ 1 .int (by decide) (by decide) hs hl
    rw [if_pos h1]; exact h2
  rw [if_neg hs] at hl
  rw [agree _ (by decide) (fun h => absurd h hs), if_neg hs]; clear hs
  by_cases hs : startsWith (a :: (s ++ r)) (asc "u'") = true
  · rw [if_pos hs] at hl
    obtain ⟨h1, h2⟩ := chs _ 1 .ushort (by decide) (by decide) hs hl
    rw [if_pos h1]; exact h2
  rw [if_neg hs] at hl
  rw [agree _ (by decide) (fun h => absurd h hs), if_neg hs]; clear hs
  by_cases hs : startsWith (a :: (s ++ r)) (asc "U'") = true
  · rw [if_pos hs] at hl
    obtain ⟨h1, h2⟩ := chs _ 1 .uint (by decide) (by decide) hs hl
    rw [if_pos h1]; exact h2
  rw [if_neg hs] at hl
  rw [agree _ (by decide) (fun h => absurd h hs), if_neg hs]; clear hs
  cases hid : readIdent (a :: (s ++ r)) with
  | none => rw [hid] at hl; cases hl
  | some n =>
    rw [hid] at hl
    cases n with
    | succ n =>
      simp only at hl
      have hl := Except.ok.inj hl
      simp only [Piece.tok.injEq] at hl
      obtain ⟨rfl, hn, rfl⟩ := hl
      rw [hn] at hid
      have := ident_local (a :: s) r (c :: t) (by simp) hid hg2 (by simp)
      rw [show a :: (s ++ c :: t) = a :: s ++ c :: t from rfl, this]
      rfl
    | zero =>
      simp only at hl
      cases hp : readPunct (a :: (s ++ r)) with
      | zero => rw [hp] at hl; cases hl
      | succ n =>
        rw [hp] at hl
        have hl := Except.ok.inj hl
        simp only [Piece.tok.injEq] at hl
        obtain ⟨rfl, hn, rfl⟩ := hl
        rw [hn] at hp
        have ha := punct_low a _ s.length hp
        rw [ident_none a _ (s ++ c :: t) ha hid]
        simp only
        rw [Bool.or_eq_false_iff] at hg2
        have := punct_local a s r (c :: t) hp (by
          intro q hq hlt
          have := List.any_eq_false.mp hg2.1 q hq
          rw [decide_eq_true hlt, Bool.true_and] at this
          exact Bool.not_eq_true _ ▸ this)
        rw [show a :: (s ++ c :: t) = a :: s ++ c :: t from rfl, this]
        rfl

end Toycc.Lex
