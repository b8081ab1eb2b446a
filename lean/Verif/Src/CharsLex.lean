import Verif.Src.CharsSpec
import Verif.HashMap.Props
import Verif.Lex.PrintProps
import Verif.Lex.NumProps
/-! The spellings of CharsSpec as preprocessing tokens, and texts made of them. -/
namespace Toycc.Src
open Toycc.Lex hiding Tok
open Toycc.Unicode
open Toycc.Pp (Bytes PTok)
open Toycc.Parse (Tok P)

/-! ### Keywords -/

theorem spec_puts (ks : List String) (q : Bytes) : ∀ f : HashMap.Key → Option Nat,
    HashMap.specFrom f (ks.map fun s => HashMap.Op.put (asc s) 1) q = if q ∈ ks.map asc then some 1 else f q := by
  induction ks with
  | nil => intro f; simp [HashMap.specFrom]
  | cons k ks ih =>
    intro f
    have := ih (HashMap.specStep f (.put (asc k) 1))
    simp only [HashMap.specFrom, List.map_cons, List.foldl_cons] at this ⊢
    rw [this]
    by_cases h : q ∈ ks.map asc
    · rw [if_pos h, if_pos (List.mem_cons_of_mem _ h)]
    · rw [if_neg h]
      by_cases hk : q = asc k
      · subst hk; simp [HashMap.specStep]
      · rw [if_neg (by simpa [hk] using h)]
        simp [HashMap.specStep, hk]

theorem isKeyword_iff (text : Bytes) : isKeyword text = true ↔ ∃ s ∈ keywords, asc s = text := by
  obtain ⟨m, h1, h2⟩ := HashMap.C02_refines_map (keywords.map fun s => HashMap.Op.put (asc s) 1) (by
    intro k hk
    obtain ⟨s, _, e⟩ := List.mem_map.mp hk
    cases e)
  unfold isKeyword
  rw [h1]
  dsimp only
  rw [h2 text, HashMap.spec, spec_puts]
  by_cases h : text ∈ keywords.map asc
  · rw [if_pos h]
    simpa using h
  · rw [if_neg h]
    simpa using h

def ascii (s : String) : Prop := ∀ c ∈ s.toList, c.toNat < 128

theorem str_asc {s : String} (h : ascii s) : str (asc s) = s := by
  unfold str asc
  rw [List.map_map]
  have : s.toList.map ((fun c : UInt8 => Char.ofNat c.toNat) ∘ fun c : Char => UInt8.ofNat c.toNat) = s.toList := by
    conv => rhs; rw [← List.map_id s.toList]
    apply List.map_congr_left
    intro c hc
    have h1 := h c hc
    have h2 : (UInt8.ofNat c.toNat).toNat = c.toNat := by simp; omega
    show Char.ofNat (UInt8.ofNat c.toNat).toNat = c
    rw [h2, Char.ofNat_toNat]
  rw [this, String.ofList_toList]

theorem isKeyword_spec (s : String) : IsKeyword s ↔ s ∈ keywords := by
  have h1 : ∀ s ∈ keywords, IsKeyword s := by unfold IsKeyword; decide +kernel
  constructor
  · intro h
    have h2 : ∀ s, IsKeyword s → s ∈ keywords := by
      intro s h
      have a1 : ∀ s ∈ ["auto", "break", "case", "char", "const", "continue", "default", "do", "double", "else", "enum", "extern", "float", "for", "goto", "if", "int", "long", "register", "restrict",
        "return", "short", "signed", "sizeof", "static", "struct", "switch", "typedef", "union", "unsigned", "void", "volatile", "while", "_Alignas", "_Alignof", "_Atomic", "_Bool",
        "_Noreturn", "_Thread_local"], s ∈ keywords := by decide +kernel
      have a2 : ∀ s ∈ ["asm", "typeof", "__attribute__", "__restrict", "__restrict__", "__thread"], s ∈ keywords := by decide +kernel
      exact h.elim (a1 s) (a2 s)
    exact h2 s h
  · exact h1 s

theorem keywords_ascii : ∀ s ∈ keywords, ascii s := by
  have : ∀ s ∈ keywords, ∀ c ∈ s.toList, c.toNat < 128 := by decide +kernel
  exact this

theorem letter_low {c : Char} (h : Letter c) : c.toNat < 128 := by
  rcases h with ⟨_, h⟩ | ⟨_, h⟩ | rfl
  · have : c.toNat ≤ 'z'.toNat := h
    exact Nat.lt_of_le_of_lt this (by decide)
  · have : c.toNat ≤ 'Z'.toNat := h
    exact Nat.lt_of_le_of_lt this (by decide)
  · decide

theorem digit_low {c : Char} (h : '0' ≤ c ∧ c ≤ '9') : c.toNat < 128 := by
  have : c.toNat ≤ '9'.toNat := h.2
  exact Nat.lt_of_le_of_lt this (by decide)

theorem word_ascii {s : String} (h : Word s) : ascii s := by
  obtain ⟨c, r, e, h1, h2⟩ := h
  intro d hd
  rw [e] at hd
  rcases List.mem_cons.mp hd with rfl | hd
  · exact letter_low h1
  · exact (h2 d hd).elim letter_low digit_low

/-- A word is converted to a keyword exactly if it is one. -/
theorem keyword_word {s : String} (h : ascii s) : isKeyword (asc s) = true ↔ IsKeyword s := by
  rw [isKeyword_iff, isKeyword_spec]
  constructor
  · rintro ⟨k, hk, e⟩
    have := str_asc h
    rw [← e, str_asc (keywords_ascii k hk)] at this
    rw [← this]; exact hk
  · intro hs
    exact ⟨s, hs, rfl⟩

theorem keyword_isWord : ∀ s ∈ keywords, Word s := by
  intro s hs
  have key : ∀ s ∈ keywords, ∃ c ∈ s.toList.head?, (('a' ≤ c ∧ c ≤ 'z') ∨ ('A' ≤ c ∧ c ≤ 'Z') ∨ c = '_') ∧
      ∀ d ∈ s.toList.tail, (('a' ≤ d ∧ d ≤ 'z') ∨ ('A' ≤ d ∧ d ≤ 'Z') ∨ d = '_') := by
    have : ∀ s ∈ keywords, s.toList.head?.any (fun c => decide (('a' ≤ c ∧ c ≤ 'z') ∨ ('A' ≤ c ∧ c ≤ 'Z') ∨ c = '_')) = true ∧
      ∀ d ∈ s.toList.tail, (('a' ≤ d ∧ d ≤ 'z') ∨ ('A' ≤ d ∧ d ≤ 'Z') ∨ d = '_') := by decide +kernel
    intro s hs
    obtain ⟨h1, h2⟩ := this s hs
    cases e : s.toList.head? with
    | none => rw [e] at h1; cases h1
    | some c => rw [e] at h1; exact ⟨c, rfl, by simpa using h1, h2⟩
  obtain ⟨c, hc, h1, h2⟩ := key s hs
  refine ⟨c, s.toList.tail, ?_, h1, fun d hd => Or.inl (h2 d hd)⟩
  cases e : s.toList with
  | nil => rw [e] at hc; cases hc
  | cons x r => rw [e] at hc; cases hc; rfl

/-! ### Words -/

def letterB (b : UInt8) : Bool := (0x61 ≤ b && b ≤ 0x7A) || (0x41 ≤ b && b ≤ 0x5A) || b == 0x5F
def wordB (b : UInt8) : Bool := letterB b || (0x30 ≤ b && b ≤ 0x39)

theorem letter_byte {c : Char} (h : Letter c) : letterB (UInt8.ofNat c.toNat) = true := by
  have key : ∀ n : Fin 128, ((97 ≤ n.val ∧ n.val ≤ 122) ∨ (65 ≤ n.val ∧ n.val ≤ 90) ∨ n.val = 95) → letterB (UInt8.ofNat n.val) = true := by decide
  refine key ⟨c.toNat, letter_low h⟩ ?_
  rcases h with ⟨h1, h2⟩ | ⟨h1, h2⟩ | rfl
  · exact Or.inl ⟨h1, h2⟩
  · exact Or.inr (Or.inl ⟨h1, h2⟩)
  · exact Or.inr (Or.inr rfl)

theorem digit_byte {c : Char} (h : '0' ≤ c ∧ c ≤ '9') : wordB (UInt8.ofNat c.toNat) = true := by
  have key : ∀ n : Fin 128, (48 ≤ n.val ∧ n.val ≤ 57) → wordB (UInt8.ofNat n.val) = true := by decide
  exact key ⟨c.toNat, digit_low h⟩ h

theorem word_bytes {s : String} (h : Word s) : ∃ b r, asc s = b :: r ∧ letterB b = true ∧ ∀ x ∈ r, wordB x = true := by
  obtain ⟨c, r, e, h1, h2⟩ := h
  refine ⟨UInt8.ofNat c.toNat, r.map fun c => UInt8.ofNat c.toNat, by simp [asc, e], letter_byte h1, ?_⟩
  intro x hx
  obtain ⟨d, hd, rfl⟩ := List.mem_map.mp hx
  refine (h2 d hd).elim (fun h => ?_) digit_byte
  simp [wordB, letter_byte h]

theorem wordB_low : ∀ b : UInt8, wordB b = true → b < 128 ∧ isIdent2 b.toNat = true := by decide +kernel
theorem letterB_low : ∀ b : UInt8, letterB b = true → b < 128 ∧ isIdent1 b.toNat = true := by decide +kernel

theorem identLoop_word (r : List UInt8) : ∀ (n : Nat), (∀ x ∈ r, wordB x = true) → readIdentLoop (r ++ [10]) n = some (n + r.length) := by
  induction r with
  | nil =>
    intro n _
    show readIdentLoop [10] n = some n
    rw [readIdentLoop.eq_def, decode_low 10 [] (by decide)]
    dsimp only
    rw [dif_neg (by decide)]
  | cons b r ih =>
    intro n h
    obtain ⟨h1, h2⟩ := wordB_low b (h b List.mem_cons_self)
    show readIdentLoop (b :: (r ++ [10])) n = _
    rw [readIdentLoop.eq_def, decode_low b (r ++ [10]) h1]
    dsimp only
    rw [dif_pos ⟨h2, by decide, by simp⟩, List.drop_one, List.tail_cons, ih (n + 1) (fun x hx => h x (List.mem_cons_of_mem _ hx))]
    simp only [List.length_cons]
    congr 1; omega

theorem readIdent_word {b : UInt8} {r : List UInt8} (h1 : letterB b = true) (h2 : ∀ x ∈ r, wordB x = true) : readIdent (b :: r ++ [10]) = some (b :: r).length := by
  obtain ⟨g1, g2⟩ := letterB_low b h1
  unfold readIdent
  rw [show b :: r ++ [10] = b :: (r ++ [10]) from rfl, decode_low b (r ++ [10]) g1]
  dsimp only
  rw [if_pos g2, List.drop_one, List.tail_cons, identLoop_word r 1 h2]
  simp only [List.length_cons]
  congr 1; omega

theorem word_token (h : Host) {b : UInt8} {r : List UInt8} (h1 : letterB b = true) (h2 : ∀ x ∈ r, wordB x = true) : lexOne h (b :: r ++ [10]) = .ok (.tok .ident (b :: r).length .none) := by
  have hq : ∀ x ∈ b :: r ++ [10], x ≠ 0x22 ∧ x ≠ 0x27 := by
    have key : ∀ x : UInt8, wordB x = true → x ≠ 0x22 ∧ x ≠ 0x27 := by decide +kernel
    intro x hx
    rcases List.mem_append.mp hx with hx | hx
    · rcases List.mem_cons.mp hx with rfl | hx
      · exact key x (by simp [wordB, h1])
      · exact key x (h2 x hx)
    · rw [List.mem_singleton.mp hx]; decide
  have hno : ∀ q : List UInt8, (0x22 ∈ q ∨ 0x27 ∈ q) → ¬ startsWith (b :: (r ++ [10])) q = true := by
    intro q hm hs
    have hp := List.isPrefixOf_iff_prefix.mp hs
    rcases hm with hm | hm
    · exact (hq _ (hp.subset hm)).1 rfl
    · exact (hq _ (hp.subset hm)).2 rfl
  have key : ∀ b : UInt8, letterB b = true → b ≠ 0x2F ∧ b ≠ 10 ∧ isSpace b = false ∧ isDig b = false ∧ b ≠ 0x2E ∧ b ≠ 0x22 ∧ b ≠ 0x27 := by decide +kernel
  obtain ⟨k1, k2, k3, k4, k5, k6, k7⟩ := key b h1
  have hsl : ∀ q : List UInt8, q.head? = some 0x2F → ¬ startsWith (b :: (r ++ [10])) q = true := by
    intro q hm hs
    cases q with
    | nil => cases hm
    | cons x q =>
      cases hm
      obtain ⟨t, ht⟩ := List.isPrefixOf_iff_prefix.mp hs
      injection ht with e _
      exact k1 e.symm
  show lexCons h b (r ++ [10]) = _
  unfold lexCons
  rw [if_neg (hsl _ (by decide)), if_neg (hsl _ (by decide)), if_neg k2, if_neg (by simp [k3]), if_neg (by simp [k4, k5]), if_neg k6,
    if_neg (hno _ (by decide)), if_neg (hno _ (by decide)), if_neg (hno _ (by decide)), if_neg (hno _ (by decide)), if_neg k7,
    if_neg (hno _ (by decide)), if_neg (hno _ (by decide)), if_neg (hno _ (by decide))]
  rw [show b :: (r ++ [10]) = b :: r ++ [10] from rfl, readIdent_word h1 h2]
  rfl

/-! ### Numbers -/

theorem pp_alnum (r : List UInt8) (h : ∀ x ∈ r, isAlnum x = true) : ppLoop (r ++ [10]) = r.length := by
  induction r with
  | nil => decide
  | cons a r ih =>
    have ha := h a List.mem_cons_self
    have ih := ih fun x hx => h x (List.mem_cons_of_mem _ hx)
    have step : ∀ b t, (b = 10 ∨ isAlnum b = true) → ppLoop (a :: b :: t) = 1 + ppLoop (b :: t) := by
      intro b t hb
      have key : ∀ b : UInt8, (b = 10 ∨ isAlnum b = true) → (b == 0x2B || b == 0x2D) = false := by decide +kernel
      rw [ppLoop, key b hb, Bool.and_false, if_neg (by simp), ha, Bool.true_or, if_pos rfl]
    cases r with
    | nil =>
      show ppLoop [a, 10] = 1
      rw [step 10 [] (Or.inl rfl)]; decide
    | cons b r =>
      show ppLoop (a :: b :: (r ++ [10])) = _
      rw [step b (r ++ [10]) (Or.inr (h b (by simp)))]
      have : ppLoop (b :: (r ++ [10])) = (b :: r).length := ih
      rw [this]
      simp only [List.length_cons]; omega

theorem const_bytes {w : List UInt8} {v : Nat} {t : IntTy} (h : IntConst w v t) : ∃ a r, w = a :: r ∧ isDig a = true ∧ ∀ x ∈ r, isAlnum x = true := by
  obtain ⟨nt, pre, ds, s, u, l, rfl, hp, ⟨hne, hd, _, _⟩, hs, _, _⟩ := h
  have k1 : ∀ (rad : Fin 17) (d : UInt8), isDigitOf rad.val d = true → isAlnum d = true ∧ (rad.val ≤ 10 → isDig d = true) := by decide +kernel
  have hrad : nt.radix < 17 := by cases nt <;> decide
  have ha : ∀ x ∈ pre ++ ds ++ s, isAlnum x = true := by
    intro x hx
    rcases List.mem_append.mp hx with hx | hx
    · rcases List.mem_append.mp hx with hx | hx
      · have : ∀ nt : Notation, ∀ p ∈ nt.prefixes, ∀ x ∈ p, isAlnum x = true := by intro nt; cases nt <;> decide +kernel
        exact this nt pre hp x hx
      · exact (k1 ⟨nt.radix, hrad⟩ x (hd x hx)).1
    · have : ∀ p ∈ suffixes, ∀ x ∈ p.1, isAlnum x = true := by decide +kernel
      exact this _ hs x hx
  have hdig : ∀ nt : Notation, ∀ p ∈ nt.prefixes, p ≠ [] → ∃ q, p = 0x30 :: q := by
    intro nt
    cases nt <;> simp only [Notation.prefixes, List.mem_cons, List.not_mem_nil, or_false]
    · rintro p rfl h; exact absurd rfl h
    · rintro p rfl h; exact absurd rfl h
    · rintro p (rfl | rfl) _ <;> exact ⟨_, rfl⟩
    · rintro p (rfl | rfl) _ <;> exact ⟨_, rfl⟩
  by_cases hpe : pre = []
  · subst hpe
    have hr : nt.radix ≤ 10 := by
      cases nt <;> first | decide | (exfalso; revert hp; decide)
    cases ds with
    | nil => exact absurd rfl hne
    | cons d ds =>
      exact ⟨d, ds ++ s, rfl, (k1 ⟨nt.radix, hrad⟩ d (hd d List.mem_cons_self)).2 hr, fun x hx => ha x (by simp only [List.nil_append, List.cons_append]; exact List.mem_cons_of_mem _ hx)⟩
  · obtain ⟨q, rfl⟩ := hdig nt pre hp hpe
    exact ⟨0x30, q ++ ds ++ s, rfl, by decide, fun x hx => ha x (by simp only [List.cons_append]; exact List.mem_cons_of_mem _ hx)⟩

theorem digit_token (h : Host) {a : UInt8} {r : List UInt8} (h1 : isDig a = true) (h2 : ∀ x ∈ r, isAlnum x = true) : lexOne h (a :: r ++ [10]) = .ok (.tok .ppNum (a :: r).length .none) := by
  have key : ∀ b : UInt8, isDig b = true → b ≠ 0x2F ∧ b ≠ 10 ∧ isSpace b = false := by decide +kernel
  obtain ⟨k1, k2, k3⟩ := key a h1
  have hsl : ∀ q : List UInt8, q.head? = some 0x2F → ¬ startsWith (a :: (r ++ [10])) q = true := by
    intro q hm hs
    cases q with
    | nil => cases hm
    | cons x q =>
      cases hm
      obtain ⟨t, ht⟩ := List.isPrefixOf_iff_prefix.mp hs
      injection ht with e _
      exact k1 e.symm
  show lexCons h a (r ++ [10]) = _
  unfold lexCons
  rw [if_neg (hsl _ (by decide)), if_neg (hsl _ (by decide)), if_neg k2, if_neg (by simp [k3]), if_pos (by simp [h1]), pp_alnum r h2]
  simp only [List.length_cons, Nat.add_comm]

/-! ### All spellings -/

theorem spelling_token (h : Host) {t : Tok} {w : Bytes} {k : Kind} (hs : Spelling t w k) :
    ∃ pl, IsToken h k w pl ∧ k ≠ .eof ∧ k ≠ .str ∧ w ≠ [] ∧ (k = .num → ∀ v, t = .num v → pl = .chr v .int) := by
  cases hs with
  | sign p =>
    refine ⟨.none, ⟨[10], ?_⟩, by decide, by decide, by cases p <;> decide, fun h => by cases h⟩
    cases h <;> cases p <;> decide +kernel
  | kw hk =>
    obtain ⟨b, r, e, h1, h2⟩ := word_bytes (keyword_isWord _ ((isKeyword_spec _).mp hk))
    rw [e]
    exact ⟨.none, ⟨[10], word_token h h1 h2⟩, by decide, by decide, by simp, fun h => by cases h⟩
  | name hw =>
    obtain ⟨b, r, e, h1, h2⟩ := word_bytes hw
    rw [e]
    exact ⟨.none, ⟨[10], word_token h h1 h2⟩, by decide, by decide, by simp, fun h => by cases h⟩
  | int hc =>
    obtain ⟨a, r, rfl, h1, h2⟩ := const_bytes hc
    exact ⟨.none, ⟨[10], digit_token h h1 h2⟩, by decide, by decide, by simp, fun h => by cases h⟩
  | uint hc | long hc | ulong hc =>
    obtain ⟨a, r, rfl, h1, h2⟩ := const_bytes hc
    exact ⟨.none, ⟨[10], digit_token h h1 h2⟩, by decide, by decide, by simp, fun h => by cases h⟩
  | chr h1 h2 h3 h4 =>
    rename_i c
    refine ⟨.chr c.toNat .int, ⟨[], ?_⟩, by decide, by decide, by simp, fun _ v e => by cases e; rfl⟩
    have key : ∀ h : Fin 2, ∀ c : UInt8, 0x20 ≤ c → c ≤ 0x7E → c ≠ 0x27 → c ≠ 0x5C →
        lexOne (if h = 0 then .x86 else .riscv) [0x27, c, 0x27] = .ok (.tok .num 3 (.chr c.toNat .int)) := by decide +kernel
    cases h with
    | x86 => exact key 0 c h1 h2 h3 h4
    | riscv => exact key 1 c h1 h2 h3 h4

end Toycc.Src
