import Verif.Pp.TermOrder
/-! The tokens made by the handlers of predefined macros are neither identifiers nor parentheses. -/
namespace Toycc.Pp
open Toycc.Lex (Kind Host TErr Tok Piece asc lexCons lexOne scan tokenize tokenize_eq startsWith readString isSpace isDig readPunct)
open Toycc.Unicode (readIdent decode isIdent1)

/-- The token can neither be expanded nor end a list of arguments. -/
def Dead (t : PTok) : Prop := t.kind ≠ .ident ∧ t.text ≠ asc ")"

theorem readString_kind (h : Host) (s : Nat) (el : Lex.Elem) (p : List UInt8) (x : Piece) (hx : readString h s el p = .ok x) :
    ∃ n pl, x = .tok .str n pl := by
  unfold readString at hx
  split at hx
  · cases hx
  · split at hx
    · cases hx
    · cases hx; exact ⟨_, _, rfl⟩

theorem starts_ne (c d : UInt8) (r q : List UInt8) (h : c ≠ d) : startsWith (c :: r) (d :: q) = false := by
  simp [startsWith, List.isPrefixOf, Ne.symm h]

/-- A text that starts with a digit, a quotation mark or a minus sign starts with a token that is not an identifier. -/
theorem lexCons_dead (h : Host) (c : UInt8) (r : List UInt8) (hc : isDig c = true ∨ c = 0x22 ∨ c = 0x2D) (x : Piece)
    (hx : lexCons h c r = .ok x) : ∃ k n pl, x = .tok k n pl ∧ k ≠ .ident := by
  have h47 : c ≠ 47 := by rcases hc with hc | rfl | rfl <;> first | decide | (intro e; subst e; revert hc; decide)
  have h10 : c ≠ 10 := by rcases hc with hc | rfl | rfl <;> first | decide | (intro e; subst e; revert hc; decide)
  have hsp : isSpace c = false := by
    have : ∀ c : UInt8, (isDig c = true ∨ c = 0x22 ∨ c = 0x2D) → isSpace c = false := by decide +kernel
    exact this c hc
  unfold lexCons at hx
  have e1 : asc "//" = [47, 47] := by decide +kernel
  have e2 : asc "/*" = [47, 42] := by decide +kernel
  rw [e1, e2, starts_ne c 47 _ _ h47, starts_ne c 47 _ _ h47] at hx
  simp only [Bool.false_eq_true, if_false, h10, hsp] at hx
  by_cases hd : (isDig c || (c == 0x2E && Lex.headDig r)) = true
  · rw [if_pos hd] at hx; cases hx; exact ⟨_, _, _, rfl, by decide⟩
  · rw [if_neg hd] at hx
    by_cases hq : c = 0x22
    · rw [if_pos hq] at hx
      obtain ⟨n, pl, rfl⟩ := readString_kind _ _ _ _ _ hx
      exact ⟨_, _, _, rfl, by decide⟩
    · rw [if_neg hq] at hx
      have hm : c = 0x2D := by
        rcases hc with hc | hc | hc
        · exact absurd (by rw [hc]; rfl) hd
        · exact absurd hc hq
        · exact hc
      subst hm
      have f1 : asc "u8\"" = [117, 56, 34] := by decide +kernel
      have f2 : asc "u\"" = [117, 34] := by decide +kernel
      have f3 : asc "U\"" = [85, 34] := by decide +kernel
      have f4 : asc "L\"" = [76, 34] := by decide +kernel
      have f5 : asc "L'" = [76, 39] := by decide +kernel
      have f6 : asc "u'" = [117, 39] := by decide +kernel
      have f7 : asc "U'" = [85, 39] := by decide +kernel
      rw [f1, f2, f3, f4, f5, f6, f7] at hx
      have hri : readIdent (0x2D :: r) = some 0 := by
        unfold readIdent
        have : decode (0x2D :: r) = some (45, 1) := rfl
        rw [this]
        have h1 : isIdent1 45 = false := by decide +kernel
        simp only [h1, Bool.false_eq_true, if_false]
      rw [starts_ne _ 117 _ _ (by decide), starts_ne _ 117 _ _ (by decide), starts_ne _ 85 _ _ (by decide),
        starts_ne _ 76 _ _ (by decide), starts_ne _ 76 _ _ (by decide), starts_ne _ 117 _ _ (by decide),
        starts_ne _ 85 _ _ (by decide), hri] at hx
      simp only [Bool.false_eq_true, if_false] at hx
      rw [if_neg (by decide)] at hx
      split at hx
      · cases hx; exact ⟨_, _, _, rfl, by decide⟩
      · cases hx

theorem scan_dead (h : Host) (c : UInt8) (r : List UInt8) (hc : isDig c = true ∨ c = 0x22 ∨ c = 0x2D) (bol sp : Bool)
    (ts : List Tok) (hs : scan h 0 (c :: r) bol sp = .ok ts) :
    ∃ t ts', ts = t :: ts' ∧ t.kind ≠ .ident ∧ t.loc = 0 := by
  rw [scan.eq_def, if_neg (by simp)] at hs
  split at hs
  · cases hs
  all_goals
    rename_i heq
    obtain ⟨k, n, pl, e, hk⟩ := lexCons_dead h c r hc _ heq
    cases e
  split at hs
  · cases hs
  · cases hs; exact ⟨_, _, rfl, hk, rfl⟩

theorem firstTok_dead (env : Env) (f : FileRef) (c : UInt8) (r : List UInt8) (hc : isDig c = true ∨ c = 0x22 ∨ c = 0x2D)
    (x : PTok) (hx : firstTok env f (c :: r) = .ok x) : Dead x ∧ x.own = false := by
  have h41 : c ≠ 41 := by rcases hc with hc | rfl | rfl <;> first | decide | (intro e; subst e; revert hc; decide)
  unfold firstTok tokens at hx
  rw [tokenize_eq] at hx
  cases hs : scan env.host 0 (c :: r) true false with
  | error e => rw [hs] at hx; simp [Except.map] at hx
  | ok ts =>
    rw [hs] at hx
    obtain ⟨t, ts', rfl, hk, hl⟩ := scan_dead _ _ _ hc _ _ _ hs
    simp only [Except.map, List.map_cons] at hx
    cases hx
    refine ⟨⟨hk, ?_⟩, rfl⟩
    show ((c :: r).drop t.loc).take t.len ≠ asc ")"
    have e : asc ")" = [41] := by decide +kernel
    rw [e, hl, List.drop_zero]
    cases t.len with
    | zero => simp
    | succ n => simp [h41]

theorem decimal_head (i : Int) : ∃ c r, decimal i = c :: r ∧ (isDig c = true ∨ c = 0x22 ∨ c = 0x2D) := by
  have hd : ∀ ch : Char, ch.isDigit = true → isDig (UInt8.ofNat ch.toNat) = true := by
    intro ch h
    have : 48 ≤ ch.toNat ∧ ch.toNat ≤ 57 := by
      simp only [Char.isDigit, Bool.and_eq_true, decide_eq_true_eq] at h
      exact ⟨h.1, h.2⟩
    have hall : ∀ n, 48 ≤ n → n ≤ 57 → isDig (UInt8.ofNat n) = true := by
      intro n h1 h2
      have : n = 48 ∨ n = 49 ∨ n = 50 ∨ n = 51 ∨ n = 52 ∨ n = 53 ∨ n = 54 ∨ n = 55 ∨ n = 56 ∨ n = 57 := by omega
      rcases this with rfl | rfl | rfl | rfl | rfl | rfl | rfl | rfl | rfl | rfl <;> decide
    exact hall _ this.1 this.2
  have hn : ∀ n : Nat, ∃ ch cs, (toString n).toList = ch :: cs ∧ ch.isDigit = true := by
    intro n
    have e : (toString n).toList = Nat.toDigits 10 n := by
      show (Nat.repr n).toList = _
      simp [Nat.repr]
    rw [e]
    cases h : Nat.toDigits 10 n with
    | nil => exact absurd h Nat.toDigits_ne_nil
    | cons ch cs => exact ⟨ch, cs, rfl, Nat.isDigit_of_mem_toDigits (b := 10) (n := n) (by decide) (by decide) (by rw [h]; simp)⟩
  unfold decimal asc
  cases i with
  | ofNat n =>
    obtain ⟨ch, cs, h1, h2⟩ := hn n
    have e : toString (Int.ofNat n) = toString n := rfl
    rw [e, h1]
    exact ⟨_, _, rfl, Or.inl (hd _ h2)⟩
  | negSucc n =>
    have e : (toString (Int.negSucc n)).toList = '-' :: (toString (n + 1)).toList := by
      show ("-" ++ Nat.repr (n + 1) : String).toList = _
      simp
    rw [e]
    exact ⟨_, _, rfl, Or.inr (Or.inr (by decide))⟩

theorem runHandler_dead (env : Env) (st : St) (h : Handler) (t : PTok) (st' : St) (x : PTok)
    (hx : runHandler env st h t = .ok (st', x)) : Dead x ∧ x.own = false ∧ st'.macros = st.macros := by
  have hstr : ∀ s tm y, newStr env s tm = .ok y → Dead y ∧ y.own = false := by
    intro s tm y hy
    exact firstTok_dead env _ 34 _ (Or.inr (Or.inl rfl)) y hy
  have hnum : ∀ v tm y, newNum env v tm = .ok y → Dead y ∧ y.own = false := by
    intro v tm y hy
    unfold newNum at hy
    obtain ⟨c, r, e, hc⟩ := decimal_head v
    rw [e] at hy
    exact firstTok_dead env _ c r hc y hy
  unfold runHandler at hx
  cases h with
  | file =>
    obtain ⟨y, hy, e⟩ := map_ok _ _ _ hx
    cases e
    exact ⟨(hstr _ _ _ hy).1, (hstr _ _ _ hy).2, rfl⟩
  | line =>
    obtain ⟨y, hy, e⟩ := map_ok _ _ _ hx
    cases e
    exact ⟨(hnum _ _ _ hy).1, (hnum _ _ _ hy).2, rfl⟩
  | counter =>
    obtain ⟨y, hy, e⟩ := map_ok _ _ _ hx
    cases e
    exact ⟨(hnum _ _ _ hy).1, (hnum _ _ _ hy).2, rfl⟩
  | timestamp =>
    obtain ⟨y, hy, e⟩ := map_ok _ _ _ hx
    cases e
    exact ⟨(hstr _ _ _ hy).1, (hstr _ _ _ hy).2, rfl⟩
  | baseFile =>
    obtain ⟨y, hy, e⟩ := map_ok _ _ _ hx
    cases e
    exact ⟨(hstr _ _ _ hy).1, (hstr _ _ _ hy).2, rfl⟩

end Toycc.Pp
