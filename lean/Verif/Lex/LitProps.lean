import Verif.Lex.LitSpec
import Verif.Lex.Props
/-! Properties C18 (escapes), C19 (string literals), C20 (UTF-16). -/
namespace Toycc.Lex
open Toycc.Unicode
open Toycc.Source (isXDigit fromHex)

/-! ### digits -/

theorem isOct_eq (b : UInt8) : isOct b = isDigitOf 8 b := by
  have : ∀ b : UInt8, isOct b = isDigitOf 8 b := by decide +kernel
  exact this b

theorem isXDigit_eq (b : UInt8) : isXDigit b = isDigitOf 16 b := by
  have : ∀ b : UInt8, isXDigit b = isDigitOf 16 b := by decide +kernel
  exact this b

theorem octVal_eq (b : UInt8) (h : isDigitOf 8 b = true) : b.toNat - 0x30 = (digitOf b).getD 0 := by
  have : ∀ b : UInt8, isDigitOf 8 b = true → b.toNat - 0x30 = (digitOf b).getD 0 := by decide +kernel
  exact this b h

theorem hexVal_eq (b : UInt8) (h : isDigitOf 16 b = true) : fromHex b = (digitOf b).getD 0 := by
  have : ∀ b : UInt8, isDigitOf 16 b = true → fromHex b = (digitOf b).getD 0 := by decide +kernel
  exact this b h

/-- Digits appended to an accumulated value. -/
def numFrom (base acc : Nat) (ds : List UInt8) : Nat := ds.foldl (fun acc b => acc * base + (digitOf b).getD 0) acc

theorem numFrom_ge (base acc : Nat) (ds : List UInt8) (hb : 1 ≤ base) : acc ≤ numFrom base acc ds := by
  induction ds generalizing acc with
  | nil => exact Nat.le_refl _
  | cons d ds ih =>
    simp only [numFrom, List.foldl_cons]
    have := ih (acc * base + (digitOf d).getD 0)
    simp only [numFrom] at this
    have h2 : acc ≤ acc * base := Nat.le_mul_of_pos_right _ hb
    omega

/-- The longest run of octal digits, at most `k`. -/
theorem octLoop_run (k c : Nat) (p : List UInt8) :
    ∃ ds r, p = ds ++ r ∧ (octLoop k c p) = (numFrom 8 c ds, ds.length) ∧ ds.length ≤ k ∧
      (∀ d ∈ ds, isDigitOf 8 d = true) ∧ (ds.length = k ∨ ∀ d r', r = d :: r' → isDigitOf 8 d = false) := by
  induction k generalizing c p with
  | zero => exact ⟨[], p, rfl, rfl, Nat.le_refl _, by simp, Or.inl rfl⟩
  | succ k ih =>
    cases p with
    | nil => exact ⟨[], [], rfl, rfl, by simp, by simp, Or.inr (by simp)⟩
    | cons b r =>
      by_cases hb : isOct b = true
      · obtain ⟨ds, r', e, h1, h2, h3, h4⟩ := ih (c * 8 + (b.toNat - 0x30)) r
        have hb' : isDigitOf 8 b = true := by rw [← isOct_eq]; exact hb
        refine ⟨b :: ds, r', by rw [e]; rfl, ?_, by simp; omega, ?_, ?_⟩
        · simp only [octLoop, hb, if_true, h1, numFrom, List.foldl_cons, List.length_cons]
          rw [octVal_eq b hb']
        · intro d hd
          rcases List.mem_cons.mp hd with rfl | hd
          · exact hb'
          · exact h3 d hd
        · rcases h4 with h4 | h4
          · left; simp; omega
          · right; exact h4
      · refine ⟨[], b :: r, rfl, ?_, by simp, by simp, ?_⟩
        · simp only [octLoop]; rw [if_neg hb]; rfl
        · right; intro d r' e; cases e; rw [← isOct_eq]; simpa using hb

/-- The longest run of hexadecimal digits. -/
theorem hexLoop_run (c : Nat) (hc : c < 2 ^ 31) (p : List UInt8) :
    ∃ ds r, p = ds ++ r ∧ (∀ d ∈ ds, isDigitOf 16 d = true) ∧ (∀ d r', r = d :: r' → isDigitOf 16 d = false) ∧
      hexLoop c p = if numFrom 16 c ds < 2 ^ 31 then some (numFrom 16 c ds, ds.length) else none := by
  induction p generalizing c with
  | nil => exact ⟨[], [], rfl, by simp, by simp, by simp [hexLoop, numFrom, hc]⟩
  | cons b r ih =>
    by_cases hb : isXDigit b = true
    · have hb' : isDigitOf 16 b = true := by rw [← isXDigit_eq]; exact hb
      by_cases hv : c * 16 + fromHex b < 2 ^ 31
      · obtain ⟨ds, r', e, h1, h2, h3⟩ := ih _ hv
        have hn : numFrom 16 c (b :: ds) = numFrom 16 (c * 16 + fromHex b) ds := by
          simp only [numFrom, List.foldl_cons]; rw [hexVal_eq b hb']
        refine ⟨b :: ds, r', by rw [e]; rfl, ?_, h2, ?_⟩
        · intro d hd
          rcases List.mem_cons.mp hd with rfl | hd
          · exact hb'
          · exact h1 d hd
        · rw [hexLoop, if_pos hb, if_pos hv, h3, hn]
          by_cases hh : numFrom 16 (c * 16 + fromHex b) ds < 2 ^ 31
          · rw [if_pos hh]; simp [hh]
          · rw [if_neg hh]; simp [hh]
      · -- overflow already: take the whole run
        have run : ∀ q : List UInt8, ∃ ds r, q = ds ++ r ∧ (∀ d ∈ ds, isDigitOf 16 d = true) ∧
            (∀ d r', r = d :: r' → isDigitOf 16 d = false) := by
          intro q
          induction q with
          | nil => exact ⟨[], [], rfl, by simp, by simp⟩
          | cons x q ih =>
            by_cases hx : isDigitOf 16 x = true
            · obtain ⟨ds, r, e, h1, h2⟩ := ih
              refine ⟨x :: ds, r, by rw [e]; rfl, ?_, h2⟩
              intro d hd
              rcases List.mem_cons.mp hd with rfl | hd
              · exact hx
              · exact h1 d hd
            · exact ⟨[], x :: q, rfl, by simp, by rintro d r' e; cases e; simpa using hx⟩
        obtain ⟨ds, r', e, h1, h2⟩ := run r
        refine ⟨b :: ds, r', by rw [e]; rfl, ?_, h2, ?_⟩
        · intro d hd
          rcases List.mem_cons.mp hd with rfl | hd
          · exact hb'
          · exact h1 d hd
        · rw [hexLoop, if_pos hb, if_neg hv, if_neg]
          have hn : numFrom 16 c (b :: ds) = numFrom 16 (c * 16 + fromHex b) ds := by
            simp only [numFrom, List.foldl_cons]; rw [hexVal_eq b hb']
          have := numFrom_ge 16 (c * 16 + fromHex b) ds (by omega)
          rw [hn]; omega
    · refine ⟨[], b :: r, rfl, by simp, ?_, ?_⟩
      · intro d r' e; cases e; rw [← isXDigit_eq]; simpa using hb
      · rw [hexLoop, if_neg hb]; simp [numFrom, hc]

/-- Facts about single bytes. -/
theorem simple_facts : ∀ b : UInt8, isOct b = true → b ≠ 0x78 ∧ ∀ x ∈ simpleEscapes, x.1 ≠ b := by decide +kernel

theorem simple_lookup (hst : Host) (b : UInt8) (r : List UInt8) (v : Nat) (h : (b, v) ∈ simpleEscapes) :
    readEscaped hst (b :: r) = .ok ((v : Int), 1) := by
  have h1 : isOct b = false := by
    have : ∀ x ∈ simpleEscapes, isOct x.1 = false := by decide
    exact this _ h
  simp only [simpleEscapes, List.mem_cons, Prod.mk.injEq, List.not_mem_nil, or_false] at h
  unfold readEscaped
  simp only [h1, Bool.false_eq_true, if_false]
  rcases h with ⟨rfl, rfl⟩ | ⟨rfl, rfl⟩ | ⟨rfl, rfl⟩ | ⟨rfl, rfl⟩ | ⟨rfl, rfl⟩ | ⟨rfl, rfl⟩ | ⟨rfl, rfl⟩ | ⟨rfl, rfl⟩ <;> rfl

theorem readEscaped_sound (h : Host) (p : List UInt8) (v : Int) (n : Nat) (hr : readEscaped h p = .ok (v, n)) :
    ∃ e r, p = e ++ r ∧ n = e.length ∧ Escape h e r v := by
  cases p with
  | nil => cases hr
  | cons b r =>
    by_cases ho : isOct b = true
    · obtain ⟨ds, r', e, h1, h2, h3, h4⟩ := octLoop_run 3 0 (b :: r)
      rw [readEscaped.eq_def] at hr; dsimp only at hr; rw [if_pos ho, h1] at hr
      cases hr
      refine ⟨ds, r', e, rfl, ?_⟩
      refine Escape.oct ds r' ?_ h2 h3 h4
      rintro rfl
      rcases h4 with h4 | h4
      · simp at h4
      · have := h4 b r (by simpa using e.symm); rw [← isOct_eq, ho] at this; cases this
    · by_cases hx : b = 0x78
      · subst hx
        rw [readEscaped.eq_def] at hr; dsimp only at hr; rw [if_neg ho, if_pos rfl] at hr
        split at hr
        · cases hr
        · rename_i x q
          by_cases hxd : isXDigit x = true
          · rw [if_pos hxd] at hr
            obtain ⟨ds, r', e, h1, h2, h3⟩ := hexLoop_run 0 (by omega) (x :: q)
            rw [h3] at hr
            by_cases hh : numFrom 16 0 ds < 2 ^ 31
            · rw [if_pos hh] at hr
              cases hr
              refine ⟨0x78 :: ds, r', by rw [e]; rfl, by simp, ?_⟩
              refine Escape.hex ds r' ?_ h1 h2 hh
              rintro rfl
              have := h2 x q (by simpa using e.symm); rw [← isXDigit_eq, hxd] at this; cases this
            · rw [if_neg hh] at hr; cases hr
          · rw [if_neg hxd] at hr; cases hr
      · by_cases hs : ∃ w, (b, w) ∈ simpleEscapes
        · obtain ⟨w, hw⟩ := hs
          rw [simple_lookup h b r w hw] at hr
          cases hr
          exact ⟨[b], r, rfl, rfl, Escape.simple b w r hw⟩
        · have hother : readEscaped h (b :: r) = .ok (charVal h b, 1) := by
            have hne : ∀ c w, (c, w) ∈ simpleEscapes → b ≠ c := fun c w hm e => hs ⟨w, by rw [e]; exact hm⟩
            rw [readEscaped.eq_def]; dsimp only; rw [if_neg ho, if_neg hx, if_neg (hne 0x61 7 (by decide)), if_neg (hne 0x62 8 (by decide)),
              if_neg (hne 0x74 9 (by decide)), if_neg (hne 0x6E 10 (by decide)), if_neg (hne 0x76 11 (by decide)),
              if_neg (hne 0x66 12 (by decide)), if_neg (hne 0x72 13 (by decide)), if_neg (hne 0x65 27 (by decide))]
          rw [hother] at hr
          cases hr
          refine ⟨[b], r, rfl, rfl, Escape.other b r ?_ hx (fun w hw => hs ⟨w, hw⟩)⟩
          rw [← isOct_eq]; simpa using ho

/-- Two runs of digits of the same text are equal. -/
theorem run_unique {P : UInt8 → Bool} {ds ds' r r' : List UInt8} (e : ds ++ r = ds' ++ r')
    (h1 : ∀ d ∈ ds, P d = true) (h2 : ∀ d q, r = d :: q → P d = false)
    (h1' : ∀ d ∈ ds', P d = true) (h2' : ∀ d q, r' = d :: q → P d = false) : ds = ds' ∧ r = r' := by
  induction ds generalizing ds' with
  | nil =>
    cases ds' with
    | nil => exact ⟨rfl, e⟩
    | cons x xs =>
      have := h2 x (xs ++ r') (by simpa using e)
      rw [h1' x (by simp)] at this; cases this
  | cons y ys ih =>
    cases ds' with
    | nil =>
      have := h2' y (ys ++ r) (by simpa using e.symm)
      rw [h1 y (by simp)] at this; cases this
    | cons x xs =>
      simp only [List.cons_append, List.cons.injEq] at e
      obtain ⟨i1, i2⟩ := ih e.2 (fun d hd => h1 d (by simp [hd])) (fun d hd => h1' d (by simp [hd]))
      exact ⟨by rw [e.1, i1], i2⟩

theorem oct_run_unique {ds ds' r r' : List UInt8} (k : Nat) (e : ds ++ r = ds' ++ r')
    (h1 : ∀ d ∈ ds, isDigitOf 8 d = true) (h2 : ds.length = k ∨ ∀ d q, r = d :: q → isDigitOf 8 d = false)
    (h1' : ∀ d ∈ ds', isDigitOf 8 d = true) (h2' : ds'.length = k ∨ ∀ d q, r' = d :: q → isDigitOf 8 d = false)
    (hl : ds.length ≤ k) (hl' : ds'.length ≤ k) : ds = ds' ∧ r = r' := by
  induction ds generalizing ds' k with
  | nil =>
    cases ds' with
    | nil => exact ⟨rfl, e⟩
    | cons x xs =>
      rcases h2 with h2 | h2
      · simp at h2; subst h2; simp at hl'
      · have := h2 x (xs ++ r') (by simpa using e)
        rw [h1' x (by simp)] at this; cases this
  | cons y ys ih =>
    cases ds' with
    | nil =>
      rcases h2' with h2' | h2'
      · simp at h2'; subst h2'; simp at hl
      · have := h2' y (ys ++ r) (by simpa using e.symm)
        rw [h1 y (by simp)] at this; cases this
    | cons x xs =>
      simp only [List.cons_append, List.cons.injEq] at e
      cases k with
      | zero => simp at hl
      | succ k =>
        obtain ⟨i1, i2⟩ := ih k e.2 (fun d hd => h1 d (by simp [hd])) (by rcases h2 with h | h; left; simpa using h; right; exact h)
          (fun d hd => h1' d (by simp [hd])) (by rcases h2' with h | h; left; simpa using h; right; exact h) (by simpa using hl) (by simpa using hl')
        exact ⟨by rw [e.1, i1], i2⟩

/-- **C18** The escape reader accepts exactly the specified escape sequences, with their values and lengths. -/
theorem C18_escapes (h : Host) (p : List UInt8) (v : Int) (n : Nat) :
    readEscaped h p = .ok (v, n) ↔ ∃ e r, p = e ++ r ∧ n = e.length ∧ Escape h e r v := by
  constructor
  · exact readEscaped_sound h p v n
  · rintro ⟨e, r, rfl, rfl, he⟩
    cases he with
    | simple c v r hm => exact simple_lookup h c r v hm
    | oct ds r h1 h2 h3 h4 =>
      cases e with
      | nil => exact absurd rfl h1
      | cons b ds =>
        have ho : isOct b = true := by rw [isOct_eq]; exact h3 b (by simp)
        obtain ⟨ds', r', e, g1, g2, g3, g4⟩ := octLoop_run 3 0 (b :: (ds ++ r))
        have := oct_run_unique (ds := b :: ds) (r := r) 3 e h3 h4 g3 g4 h2 g2
        rw [List.cons_append, readEscaped.eq_def]; dsimp only; rw [if_pos ho, g1, ← this.1]; rfl
    | hex ds r h1 h2 h3 h4 =>
      cases ds with
      | nil => exact absurd rfl h1
      | cons x ds =>
        have hx : isXDigit x = true := by rw [isXDigit_eq]; exact h2 x (by simp)
        obtain ⟨ds', r', e, g1, g2, g3⟩ := hexLoop_run 0 (by omega) (x :: (ds ++ r))
        have := run_unique (ds := x :: ds) (r := r) e h2 h3 g1 g2
        simp only [List.cons_append]
        rw [readEscaped.eq_def]; dsimp only; rw [if_neg (by decide), if_pos rfl]
        rw [if_pos hx, g3, ← this.1]
        have h4' : numFrom 16 0 (x :: ds) < 2 ^ 31 := h4
        rw [if_pos h4']
        simp [numFrom, numberOf]
    | other c r h1 h2 h3 =>
      have ho : isOct c = false := by rw [isOct_eq]; exact h1
      have hne : ∀ d w, (d, w) ∈ simpleEscapes → c ≠ d := fun d w hm e => h3 w (by rw [e]; exact hm)
      simp only [List.cons_append, List.nil_append]
      rw [readEscaped.eq_def]; dsimp only; rw [if_neg (by simp [ho]), if_neg h2, if_neg (hne 0x61 7 (by decide)), if_neg (hne 0x62 8 (by decide)),
        if_neg (hne 0x74 9 (by decide)), if_neg (hne 0x6E 10 (by decide)), if_neg (hne 0x76 11 (by decide)),
        if_neg (hne 0x66 12 (by decide)), if_neg (hne 0x72 13 (by decide)), if_neg (hne 0x65 27 (by decide))]
      rfl

/-- **C18** A hexadecimal escape above INT_MAX overflows the `int` accumulator (undefined behaviour, not a value). -/
theorem C18_hex_overflow (h : Host) (ds r : List UInt8) (h1 : ds ≠ []) (h2 : ∀ d ∈ ds, isDigitOf 16 d = true)
    (h3 : ∀ d r', r = d :: r' → isDigitOf 16 d = false) (h4 : 2 ^ 31 ≤ numberOf 16 ds) :
    readEscaped h (0x78 :: (ds ++ r)) = .error .intOverflow := by
  cases ds with
  | nil => exact absurd rfl h1
  | cons x ds =>
    have hx : isXDigit x = true := by rw [isXDigit_eq]; exact h2 x (by simp)
    obtain ⟨ds', r', e, g1, g2, g3⟩ := hexLoop_run 0 (by omega) (x :: (ds ++ r))
    have := run_unique (ds := x :: ds) (r := r) e h2 h3 g1 g2
    simp only [List.cons_append]
    rw [readEscaped.eq_def]; dsimp only; rw [if_neg (by decide), if_pos rfl]
    rw [if_pos hx, g3, ← this.1]
    have h4' : ¬ numFrom 16 0 (x :: ds) < 2 ^ 31 := by
      have : numFrom 16 0 (x :: ds) = numberOf 16 (x :: ds) := rfl
      omega
    rw [if_neg h4']

example : Escape .riscv (asc "x1F") (asc "g\"") 31 ∧ Escape .riscv (asc "101") (asc "7") 65 ∧
    readEscaped .riscv (asc "1017\"") = .ok (65, 3) ∧ readEscaped .riscv (asc "e[0m") = .ok (27, 1) := by
  refine ⟨?_, ?_, by decide +kernel, by decide +kernel⟩
  · exact Escape.hex (asc "1F") (asc "g\"") (by decide) (by decide +kernel)
      (by intro d r e; have : d = 0x67 := by { have := congrArg List.head? e; simpa [asc] using this.symm }; rw [this]; decide +kernel) (by decide +kernel)
  · exact Escape.oct (asc "101") (asc "7") (by decide) (by decide) (by decide +kernel) (Or.inl (by decide))

/-! ### C19 -/

/-- **C19** The scan for the closing quote stops exactly at the first unescaped quote. -/
theorem C19_string_end (p : List UInt8) (k : Nat) :
    stringEnd p = .ok k ↔ ∃ body r, p = body ++ 0x22 :: r ∧ k = body.length ∧ Body body := by
  constructor
  · intro h
    fun_induction stringEnd p generalizing k with
    | case1 => cases h
    | case2 r => cases h; exact ⟨[], r, rfl, rfl, Body.nil⟩
    | case3 => cases h
    | case4 => cases h
    | case5 => cases h
    | case6 a r' n hn _ _ ih =>
      cases h
      obtain ⟨body, r, e, hk, hb⟩ := ih n hn
      exact ⟨92 :: a :: body, r, by rw [e]; rfl, by simp [hk], Body.esc a body hb⟩
    | case7 => cases h
    | case8 c r h1 h2 h3 n hn ih =>
      cases h
      obtain ⟨body, r', e, hk, hb⟩ := ih n hn
      exact ⟨c :: body, r', by rw [e]; rfl, by simp [hk], Body.plain c body h1 h2 h3 hb⟩
  · rintro ⟨body, r, rfl, rfl, hb⟩
    induction hb with
    | nil => rw [stringEnd.eq_def]; simp
    | plain c b h1 h2 h3 _ ih => simp only [List.cons_append]; rw [stringEnd.eq_def]; dsimp only; rw [if_neg h1, if_neg h2, if_neg h3, ih]; rfl
    | esc c b _ ih =>
      simp only [List.cons_append]
      rw [stringEnd.eq_def]; dsimp only; rw [if_neg (by decide), if_neg (by decide), if_pos rfl, ih]; rfl

/-- Digits inside a body are ordinary characters: skipping them leaves a body. -/
theorem Body.drop_digits {body : List UInt8} (hb : Body body) {base : Nat} (ds r : List UInt8) (e : body = ds ++ r)
    (hd : ∀ d ∈ ds, isDigitOf base d = true) : Body r := by
  induction ds generalizing body with
  | nil => simp at e; rw [← e]; exact hb
  | cons d ds ih =>
    have hnb : d ≠ 92 := by
      rintro rfl
      have := hd 92 (by simp)
      unfold isDigitOf at this
      have : digitOf 92 = none := by decide
      simp_all
    cases hb with
    | nil => cases e
    | plain c b h1 h2 h3 hb' =>
      simp only [List.cons_append, List.cons.injEq] at e
      exact ih hb' e.2 (fun x hx => hd x (by simp [hx]))
    | esc c b hb' => simp only [List.cons_append, List.cons.injEq] at e; exact absurd e.1.symm hnb

/-- A digit run of `body ++ quote :: r` ends inside the body. -/
theorem digits_inside {base : Nat} (body r ds r' : List UInt8) (e : body ++ 0x22 :: r = ds ++ r')
    (hd : ∀ d ∈ ds, isDigitOf base d = true) : ∃ b', body = ds ++ b' ∧ r' = b' ++ 0x22 :: r := by
  induction ds generalizing body with
  | nil => exact ⟨body, rfl, by simpa using e.symm⟩
  | cons d ds ih =>
    cases body with
    | nil =>
      simp only [List.nil_append, List.cons_append, List.cons.injEq] at e
      exfalso
      have := hd d (by simp)
      rw [← e.1] at this
      unfold isDigitOf at this
      have : digitOf 0x22 = none := by decide
      simp_all
    | cons c body =>
      simp only [List.cons_append, List.cons.injEq] at e
      obtain ⟨b', e1, e2⟩ := ih body e.2 (fun x hx => hd x (by simp [hx]))
      exact ⟨b', by rw [e1, e.1]; rfl, e2⟩

/-- An escape inside a literal ends inside the literal, and what follows it is again a body. -/
theorem escape_inside (h : Host) (c : UInt8) (body r e r' : List UInt8) (v : Int) (hb : Body body)
    (he : c :: body ++ 0x22 :: r = e ++ r') (hx : Escape h e r' v) :
    ∃ b', c :: body = e ++ b' ∧ r' = b' ++ 0x22 :: r ∧ Body b' ∧ Escape h e b' v := by
  have headof : ∀ b' : List UInt8, ∀ base, (∀ d q, b' ++ 0x22 :: r = d :: q → isDigitOf base d = false) →
      ∀ d q, b' = d :: q → isDigitOf base d = false := by
    intro b' base hh d q e
    exact hh d (q ++ 0x22 :: r) (by rw [e]; rfl)
  cases hx with
  | simple x w r'' hm =>
    simp only [List.cons_append, List.nil_append, List.cons.injEq] at he
    exact ⟨body, by rw [he.1]; rfl, he.2.symm, hb, Escape.simple x w body hm⟩
  | oct ds r'' h1 h2 h3 h4 =>
    cases e with
    | nil => exact absurd rfl h1
    | cons d ds =>
      simp only [List.cons_append, List.cons.injEq] at he
      obtain ⟨b', e1, e2⟩ := digits_inside body r ds r' he.2 (fun x hx => h3 x (by simp [hx]))
      refine ⟨b', by rw [e1, he.1]; rfl, e2, hb.drop_digits ds b' e1 (fun x hx => h3 x (by simp [hx])), ?_⟩
      refine Escape.oct (d :: ds) b' h1 h2 h3 ?_
      rcases h4 with h4 | h4
      · exact Or.inl h4
      · right; rw [e2] at h4; exact headof b' 8 h4
  | hex ds r'' h1 h2 h3 h4 =>
    simp only [List.cons_append, List.cons.injEq] at he
    obtain ⟨b', e1, e2⟩ := digits_inside body r ds r' he.2 h2
    refine ⟨b', by rw [e1, he.1]; rfl, e2, hb.drop_digits ds b' e1 h2, ?_⟩
    refine Escape.hex ds b' h1 h2 ?_ h4
    rw [e2] at h3; exact headof b' 16 h3
  | other x r'' h1 h2 h3 =>
    simp only [List.cons_append, List.nil_append, List.cons.injEq] at he
    exact ⟨body, by rw [he.1]; rfl, he.2.symm, hb, Escape.other x body h1 h2 h3⟩

theorem wrapU_eq (w : Nat) (v : Int) : wrapU w v = (v % 2 ^ w).toNat := rfl

theorem narrowLoop_body (h : Host) (k : Nat) (p : List UInt8) (us : List Nat) (hn : narrowLoop h k p = .ok us)
    (body r : List UInt8) (hb : Body body) (hp : p = body ++ 0x22 :: r) (hk : k = body.length) :
    Narrow h body us ∧ us.length ≤ k := by
  fun_induction narrowLoop h k p generalizing us body r with
  | case1 =>
    cases hn
    have : body = [] := by simpa using hk.symm
    subst this
    exact ⟨Narrow.nil, by simp⟩
  | case2 => cases hn
  | case3 => cases hn
  | case4 => cases hn
  | case5 k hk0 r0 v n hre us' hrec ih =>
    cases hn
    obtain ⟨e, r', e1, e2, he⟩ := readEscaped_sound h r0 v n hre
    cases hb with
    | nil => simp at hp
    | plain c b h1 h2 h3 _ => simp only [List.cons_append, List.cons.injEq] at hp; exact absurd hp.1.symm h3
    | esc c b hb' =>
      simp only [List.cons_append, List.cons.injEq, true_and] at hp
      obtain ⟨b', g1, g2, g3, g4⟩ := escape_inside h c b r e r' v hb' (by rw [← e1, hp]; rfl) he
      have hd : r0.drop n = b' ++ 0x22 :: r := by rw [e1, e2, List.drop_left, g2]
      have hl : b.length + 1 = e.length + b'.length := by
        have := congrArg List.length g1; simpa using this
      obtain ⟨i1, i2⟩ := ih us' hrec b' r g3 hd (by simp at hk; omega)
      refine ⟨?_, by simp; omega⟩
      rw [g1]
      exact Narrow.esc e b' v us' g4 i1
  | case6 => cases hn
  | case7 k hk0 c r0 hc us' hrec ih =>
    cases hn
    cases hb with
    | nil => simp at hk; exact absurd hk hk0
    | plain c' b h1 h2 h3 hb' =>
      simp only [List.cons_append, List.cons.injEq] at hp
      obtain ⟨i1, i2⟩ := ih us' hrec b r hb' hp.2 (by simp at hk; omega)
      refine ⟨?_, by simp; omega⟩
      rw [hp.1]
      exact Narrow.plain c' b us' h3 i1
    | esc c' b hb' => simp only [List.cons_append, List.cons.injEq] at hp; exact absurd hp.1 hc

theorem cont_prefix (n c : Nat) (a s : List UInt8) (hn : n ≤ a.length) : decodeCont n c (a ++ s) = decodeCont n c a := by
  induction n generalizing c a with
  | zero => rfl
  | succ n ih =>
    cases a with
    | nil => simp at hn
    | cons x a =>
      simp only [List.cons_append, decodeCont, headByte, List.tail_cons]
      rw [ih _ a (by simpa using hn)]
      rfl

theorem decode_prefix (b : UInt8) (t s : List UInt8) (c n : Nat) (h : decode (b :: t ++ s) = some (c, n))
    (hn : n ≤ (b :: t).length) : decode (b :: t) = some (c, n) := by
  rw [← h]
  have hh : headByte (b :: t ++ s) = headByte (b :: t) := rfl
  have ht : (b :: t ++ s).tail = t ++ s := rfl
  have ht' : (b :: t).tail = t := rfl
  simp only [List.length_cons] at hn
  unfold decode at h ⊢
  rw [hh, ht] at h ⊢
  rw [ht']
  dsimp only at h ⊢
  by_cases h1 : headByte (b :: t) < 128
  · rw [if_pos h1, if_pos h1]
  rw [if_neg h1] at h ⊢
  rw [if_neg h1]
  by_cases h2 : headByte (b :: t) ≥ 0b11110000
  · rw [if_pos h2] at h ⊢
    have : n = 4 := by simp only [Option.map_eq_some_iff, Prod.mk.injEq] at h; obtain ⟨_, _, _, h⟩ := h; exact h.symm
    rw [if_pos h2, cont_prefix _ _ _ _ (by omega)]
  rw [if_neg h2] at h ⊢
  rw [if_neg h2]
  by_cases h3 : headByte (b :: t) ≥ 0b11100000
  · rw [if_pos h3] at h ⊢
    have : n = 3 := by simp only [Option.map_eq_some_iff, Prod.mk.injEq] at h; obtain ⟨_, _, _, h⟩ := h; exact h.symm
    rw [if_pos h3, cont_prefix _ _ _ _ (by omega)]
  rw [if_neg h3] at h ⊢
  rw [if_neg h3]
  by_cases h4 : headByte (b :: t) ≥ 0b11000000
  · rw [if_pos h4] at h ⊢
    have : n = 2 := by simp only [Option.map_eq_some_iff, Prod.mk.injEq] at h; obtain ⟨_, _, _, h⟩ := h; exact h.symm
    rw [if_pos h4, cont_prefix _ _ _ _ (by omega)]
  rw [if_neg h4, if_neg h4]

/-- One decoded character of a body that does not start with a backslash lies inside the body. -/
theorem decode_inside (body r : List UInt8) (c n : Nat) (hb : Body body) (hne : body ≠ []) (h92 : body.head? ≠ some 92)
    (hd : decode (body ++ 0x22 :: r) = some (c, n)) :
    n ≤ body.length ∧ decode body = some (c, n) ∧ Body (body.drop n) := by
  have hcont : ∀ (b : UInt8), 128 ≤ b.toNat → b ≠ 0x22 ∧ b ≠ 10 ∧ b ≠ 92 := by
    intro b hb
    refine ⟨?_, ?_, ?_⟩ <;> (rintro rfl; revert hb; decide)
  -- peel ordinary bytes
  have peel : ∀ {b : UInt8} {q : List UInt8}, Body (b :: q) → b ≠ 92 → Body q := by
    intro b q hb hn
    cases hb with
    | plain _ _ _ _ _ h => exact h
    | esc _ _ _ => exact absurd rfl hn
  have shape : ∃ pre, (∃ q, body = pre ++ q) ∧ pre.length = n ∧ (∀ b ∈ pre, b ≠ 92) := by
    rcases decode_inv _ c n hd with ⟨e, h1, h2⟩ | ⟨b0, b1, q, e, hn, h1, h2, h3, h4, h5⟩ |
      ⟨b0, b1, b2, q, e, hn, h1, h2, h3, h4, h5, h6, h7⟩ | ⟨b0, b1, b2, b3, q, e, hn, h1, h2, h3, h4, h5, h6, h7, h8⟩
    · cases body with
      | nil => exact absurd rfl hne
      | cons b q => exact ⟨[b], ⟨q, rfl⟩, by simp [e], by simp; intro e; exact h92 (by simp [e])⟩
    · match body, e with
      | [a], e =>
        simp at e
        have := (hcont b1 (by omega)).1
        exact absurd e.2.1.symm this
      | a :: a1 :: q', e =>
        simp at e
        refine ⟨[a, a1], ⟨q', rfl⟩, by simp [hn], ?_⟩
        simp only [List.mem_cons, List.not_mem_nil, or_false]
        rintro x (rfl | rfl)
        · rw [e.1]; exact (hcont b0 (by omega)).2.2
        · rw [e.2.1]; exact (hcont b1 (by omega)).2.2
    · match body, e with
      | [a], e => simp at e; exact absurd e.2.1.symm (hcont b1 (by omega)).1
      | [a, a1], e => simp at e; exact absurd e.2.2.1.symm (hcont b2 (by omega)).1
      | a :: a1 :: a2 :: q', e =>
        simp at e
        refine ⟨[a, a1, a2], ⟨q', rfl⟩, by simp [hn], ?_⟩
        simp only [List.mem_cons, List.not_mem_nil, or_false]
        rintro x (rfl | rfl | rfl)
        · rw [e.1]; exact (hcont b0 (by omega)).2.2
        · rw [e.2.1]; exact (hcont b1 (by omega)).2.2
        · rw [e.2.2.1]; exact (hcont b2 (by omega)).2.2
    · match body, e with
      | [a], e => simp at e; exact absurd e.2.1.symm (hcont b1 (by omega)).1
      | [a, a1], e => simp at e; exact absurd e.2.2.1.symm (hcont b2 (by omega)).1
      | [a, a1, a2], e => simp at e; exact absurd e.2.2.2.1.symm (hcont b3 (by omega)).1
      | a :: a1 :: a2 :: a3 :: q', e =>
        simp at e
        refine ⟨[a, a1, a2, a3], ⟨q', rfl⟩, by simp [hn], ?_⟩
        simp only [List.mem_cons, List.not_mem_nil, or_false]
        rintro x (rfl | rfl | rfl | rfl)
        · rw [e.1]; exact (hcont b0 (by omega)).2.2
        · rw [e.2.1]; exact (hcont b1 (by omega)).2.2
        · rw [e.2.2.1]; exact (hcont b2 (by omega)).2.2
        · rw [e.2.2.2.1]; exact (hcont b3 (by omega)).2.2
  obtain ⟨pre, ⟨q, rfl⟩, hl, hp⟩ := shape
  have hbq : ∀ (pre q : List UInt8), Body (pre ++ q) → (∀ b ∈ pre, b ≠ 92) → Body q := by
    intro pre q
    induction pre with
    | nil => intro h _; exact h
    | cons b pre ih => intro h hh; exact ih (peel h (hh b (by simp))) (fun x hx => hh x (by simp [hx]))
  refine ⟨by simp; omega, ?_, by rw [← hl, List.drop_left]; exact hbq pre q hb hp⟩
  -- decoding looks only at the bytes it consumes
  cases hpq : pre ++ q with
  | nil => exact absurd hpq hne
  | cons b t =>
    rw [hpq] at hd
    refine decode_prefix b t _ c n hd ?_
    rw [← hpq]; simp; omega

theorem utf16Loop_body (h : Host) (k : Nat) (p : List UInt8) (us : List Nat) (hn : utf16Loop h k p = .ok us)
    (body r : List UInt8) (hb : Body body) (hp : p = body ++ 0x22 :: r) (hk : k = body.length) :
    Wide h 16 utf16Units body us ∧ us.length ≤ k := by
  fun_induction utf16Loop h k p generalizing us body r with
  | case1 =>
    cases hn
    have : body = [] := by simpa using hk.symm
    subst this
    exact ⟨Wide.nil, by simp⟩
  | case2 => cases hn
  | case3 => cases hn
  | case4 => cases hn
  | case5 k hk0 r0 v n hre us' hrec ih =>
    cases hn
    obtain ⟨e, r', e1, e2, he⟩ := readEscaped_sound h r0 v n hre
    cases hb with
    | nil => simp at hp
    | plain c b h1 h2 h3 _ => simp only [List.cons_append, List.cons.injEq] at hp; exact absurd hp.1.symm h3
    | esc c b hb' =>
      simp only [List.cons_append, List.cons.injEq, true_and] at hp
      obtain ⟨b', g1, g2, g3, g4⟩ := escape_inside h c b r e r' v hb' (by rw [← e1, hp]; rfl) he
      have hd : r0.drop n = b' ++ 0x22 :: r := by rw [e1, e2, List.drop_left, g2]
      have hl : b.length + 1 = e.length + b'.length := by
        have := congrArg List.length g1; simpa using this
      obtain ⟨i1, i2⟩ := ih us' hrec b' r g3 hd (by simp at hk; omega)
      refine ⟨?_, by simp; omega⟩
      rw [g1]
      exact Wide.esc e b' v us' g4 i1
  | case6 => cases hn
  | case7 => cases hn
  | case8 k hk0 c r0 hc v n hd us' hrec ih =>
    cases hn
    have hne : body ≠ [] := by rintro rfl; exact hk0 hk
    have hh : body.head? ≠ some 92 := by
      cases body with
      | nil => simp
      | cons x b => simp only [List.cons_append, List.cons.injEq] at hp; simp only [List.head?_cons, ne_eq, Option.some.injEq]; rw [← hp.1]; exact hc
    rw [hp] at hd
    obtain ⟨d1, d2, d3⟩ := decode_inside body r v n hb hne hh hd
    have hdrop : (c :: r0).drop n = body.drop n ++ 0x22 :: r := by
      rw [hp, List.drop_append_of_le_length d1]
    have hpos := decode_pos _ _ _ hd
    obtain ⟨i1, i2⟩ := ih us' hrec (body.drop n) r d3 hdrop (by simp; omega)
    have hu : (utf16Units v).length ≤ n := by
      unfold utf16Units
      split
      · simp; omega
      · rcases decode_inv _ _ _ hd with ⟨_, h, _⟩ | ⟨_, _, _, _, h, _⟩ | ⟨_, _, _, _, h, _⟩ | ⟨_, _, _, _, _, _, h, _⟩
        · omega
        · simp only [List.length_cons, List.length_nil]; omega
        · simp only [List.length_cons, List.length_nil]; omega
        · simp only [List.length_cons, List.length_nil]; omega
    exact ⟨Wide.plain v n body us' hne hh d2 i1, by simp; omega⟩

theorem utf32Loop_body (h : Host) (k : Nat) (p : List UInt8) (us : List Nat) (hn : utf32Loop h k p = .ok us)
    (body r : List UInt8) (hb : Body body) (hp : p = body ++ 0x22 :: r) (hk : k = body.length) :
    Wide h 32 (fun c => [c]) body us ∧ us.length ≤ k := by
  fun_induction utf32Loop h k p generalizing us body r with
  | case1 =>
    cases hn
    have : body = [] := by simpa using hk.symm
    subst this
    exact ⟨Wide.nil, by simp⟩
  | case2 => cases hn
  | case3 => cases hn
  | case4 => cases hn
  | case5 k hk0 r0 v n hre us' hrec ih =>
    cases hn
    obtain ⟨e, r', e1, e2, he⟩ := readEscaped_sound h r0 v n hre
    cases hb with
    | nil => simp at hp
    | plain c b h1 h2 h3 _ => simp only [List.cons_append, List.cons.injEq] at hp; exact absurd hp.1.symm h3
    | esc c b hb' =>
      simp only [List.cons_append, List.cons.injEq, true_and] at hp
      obtain ⟨b', g1, g2, g3, g4⟩ := escape_inside h c b r e r' v hb' (by rw [← e1, hp]; rfl) he
      have hd : r0.drop n = b' ++ 0x22 :: r := by rw [e1, e2, List.drop_left, g2]
      have hl : b.length + 1 = e.length + b'.length := by
        have := congrArg List.length g1; simpa using this
      obtain ⟨i1, i2⟩ := ih us' hrec b' r g3 hd (by simp at hk; omega)
      refine ⟨?_, by simp; omega⟩
      rw [g1]
      exact Wide.esc e b' v us' g4 i1
  | case6 => cases hn
  | case7 => cases hn
  | case8 k hk0 c r0 hc v n hd us' hrec ih =>
    cases hn
    have hne : body ≠ [] := by rintro rfl; exact hk0 hk
    have hh : body.head? ≠ some 92 := by
      cases body with
      | nil => simp
      | cons x b => simp only [List.cons_append, List.cons.injEq] at hp; simp only [List.head?_cons, ne_eq, Option.some.injEq]; rw [← hp.1]; exact hc
    rw [hp] at hd
    obtain ⟨d1, d2, d3⟩ := decode_inside body r v n hb hne hh hd
    have hdrop : (c :: r0).drop n = body.drop n ++ 0x22 :: r := by
      rw [hp, List.drop_append_of_le_length d1]
    have hpos := decode_pos _ _ _ hd
    obtain ⟨i1, i2⟩ := ih us' hrec (body.drop n) r d3 hdrop (by simp; omega)
    exact ⟨Wide.plain v n body us' hne hh d2 i1, by simp; omega⟩

/-- The meaning of a literal body for each kind of string literal. -/
def Denotes (h : Host) (el : Elem) (body : List UInt8) (us : List Nat) : Prop :=
  match el with
  | .char => Narrow h body us
  | .ushort => Wide h 16 utf16Units body us
  | .uint | .int => Wide h 32 (fun c => [c]) body us

/-- Elements (of the literal's type) in the buffer the reader allocates for a body of `k` bytes: `malloc(end - quote)`
bytes for narrow (tokenize.c:273), `malloc(4 * (end - quote))` bytes for wide literals (tokenize.c:303, 344). -/
def allocElems (el : Elem) (k : Nat) : Nat :=
  match el with
  | .char => k + 1
  | .ushort => 4 * (k + 1) / 2
  | .uint | .int => 4 * (k + 1) / 4

/-- **C19** A string literal token: it ends at the first unescaped quote, its elements are those its body denotes
followed by one zero, and they fit in the buffer allocated for them. -/
theorem C19_string_literal (h : Host) (skip : Nat) (el : Elem) (p : List UInt8) (pc : Piece)
    (hr : readString h skip el p = .ok pc) :
    ∃ body r us, p = body ++ 0x22 :: r ∧ Body body ∧ Denotes h el body us ∧
      pc = .tok .str (skip + 1 + body.length + 1) (.str el (us ++ [0])) ∧
      (us ++ [0]).length ≤ allocElems el body.length := by
  unfold readString at hr
  split at hr
  · cases hr
  rename_i k hk
  obtain ⟨body, r, hp, hkb, hb⟩ := (C19_string_end p k).mp hk
  cases el <;> simp only at hr <;> split at hr <;> (try cases hr) <;> rename_i us hus
  · obtain ⟨h1, h2⟩ := narrowLoop_body h k p us hus body r hb hp hkb
    exact ⟨body, r, us, hp, hb, h1, by rw [hkb], by simp [allocElems]; omega⟩
  · obtain ⟨h1, h2⟩ := utf16Loop_body h k p us hus body r hb hp hkb
    exact ⟨body, r, us, hp, hb, h1, by rw [hkb], by simp [allocElems]; omega⟩
  · obtain ⟨h1, h2⟩ := utf32Loop_body h k p us hus body r hb hp hkb
    exact ⟨body, r, us, hp, hb, h1, by rw [hkb], by simp [allocElems]; omega⟩
  · obtain ⟨h1, h2⟩ := utf32Loop_body h k p us hus body r hb hp hkb
    exact ⟨body, r, us, hp, hb, h1, by rw [hkb], by simp [allocElems]; omega⟩

/-- Literals of the host-independent kind exist and are read: `"a\x41\"\0b"`. -/
example : readString .riscv 0 .char (asc "a\\x41\\\"\\0b\" tail") =
    .ok (.tok .str 12 (.str .char [0x61, 0x41, 0x22, 0, 0x62, 0])) := by decide +kernel

/-! ### C20 -/

/-- **C20** Decoding the UTF-16 units of a text gives back the text. -/
theorem C20_utf16 (cs : List Nat) (hc : ∀ c ∈ cs, c < 0x110000 ∧ ¬ (0xD800 ≤ c ∧ c < 0xE000)) :
    utf16Decode (cs.flatMap utf16Units) = some cs := by
  induction cs with
  | nil => rfl
  | cons c cs ih =>
    obtain ⟨h1, h2⟩ := hc c (by simp)
    have ih' := ih (fun x hx => hc x (by simp [hx]))
    simp only [List.flatMap_cons]
    rw [utf16Units.eq_def c]
    by_cases hb : c < 0x10000
    · rw [if_pos hb]
      simp only [List.cons_append, List.nil_append]
      rw [utf16Decode.eq_def]; dsimp only
      rw [if_pos (by omega), ih']; rfl
    · rw [if_neg hb]
      simp only [List.cons_append, List.nil_append]
      have e1 : ((c - 0x10000) >>> 10) &&& 0x3ff = (c - 0x10000) / 1024 := by
        rw [show (0x3ff : Nat) = 2 ^ 10 - 1 from rfl, Nat.and_two_pow_sub_one_eq_mod, Nat.shiftRight_eq_div_pow]
        omega
      have e2 : (c - 0x10000) &&& 0x3ff = (c - 0x10000) % 1024 := by
        rw [show (0x3ff : Nat) = 2 ^ 10 - 1 from rfl, Nat.and_two_pow_sub_one_eq_mod]
      rw [e1, e2, utf16Decode.eq_def]; dsimp only
      rw [if_neg (by omega), if_pos (by omega), if_pos (by omega), ih']
      simp only [Option.map_some, Option.some.injEq, List.cons.injEq, and_true]
      omega

/-- **C20** Every unit is below 2^16 (it fits `uint16_t`). -/
theorem C20_units_fit (c : Nat) : ∀ u ∈ utf16Units c, u < 65536 := by
  unfold utf16Units
  split
  · simp; omega
  · simp only [List.mem_cons, List.not_mem_nil, or_false]
    rintro u (rfl | rfl) <;> omega

/-- A code point is *ordinary* in a literal when it is none of quote, newline, backslash, NUL. -/
def Ordinary (c : Nat) : Prop := c < 0x110000 ∧ c ≠ 0x22 ∧ c ≠ 10 ∧ c ≠ 92 ∧ c ≠ 0

theorem encode_bytes (c : Nat) (hc : Ordinary c) : ∀ b ∈ encode c, b ≠ 0x22 ∧ b ≠ 10 ∧ b ≠ 92 := by
  obtain ⟨h0, h1, h2, h3, h4⟩ := hc
  have key : ∀ n, n < 256 → n ≠ 0x22 → n ≠ 10 → n ≠ 92 → byte n ≠ 0x22 ∧ byte n ≠ 10 ∧ byte n ≠ 92 := by
    intro n hn a b d
    have := byte_toNat n hn
    refine ⟨?_, ?_, ?_⟩ <;> (intro e; rw [e] at this; simp at this; omega)
  rw [encode_eq c (by omega)]
  split
  · simp only [List.mem_cons, List.not_mem_nil, or_false]; rintro b rfl; exact key c (by omega) h1 h2 h3
  split
  · simp only [List.mem_cons, List.not_mem_nil, or_false]
    rintro b (rfl | rfl) <;> exact key _ (by omega) (by omega) (by omega) (by omega)
  split
  · simp only [List.mem_cons, List.not_mem_nil, or_false]
    rintro b (rfl | rfl | rfl) <;> exact key _ (by omega) (by omega) (by omega) (by omega)
  · simp only [List.mem_cons, List.not_mem_nil, or_false]
    rintro b (rfl | rfl | rfl | rfl) <;> exact key _ (by omega) (by omega) (by omega) (by omega)

theorem body_of_bytes (l : List UInt8) (h : ∀ b ∈ l, b ≠ 0x22 ∧ b ≠ 10 ∧ b ≠ 92) : Body l := by
  induction l with
  | nil => exact Body.nil
  | cons b l ih =>
    obtain ⟨h1, h2, h3⟩ := h b (by simp)
    exact Body.plain b l h1 h2 h3 (ih (fun x hx => h x (by simp [hx])))

theorem encAll_body (cs : List Nat) (hc : ∀ c ∈ cs, Ordinary c) : Body (encAll cs) := by
  apply body_of_bytes
  intro b hb
  simp only [encAll, List.mem_flatMap] at hb
  obtain ⟨c, h1, h2⟩ := hb
  exact encode_bytes c (hc c h1) b h2

theorem encode_head (c : Nat) (hc : Ordinary c) : ∃ b t, encode c = b :: t ∧ b ≠ 92 := by
  have := encode_len_pos c
  have hb := encode_bytes c hc
  cases h : encode c with
  | nil => rw [h] at this; simp at this
  | cons b t => exact ⟨b, t, rfl, (hb b (by rw [h]; simp)).2.2⟩

theorem utf16Loop_text (h : Host) (cs : List Nat) (hc : ∀ c ∈ cs, Ordinary c) (r : List UInt8) :
    utf16Loop h (encAll cs).length (encAll cs ++ r) = .ok (cs.flatMap utf16Units) := by
  induction cs with
  | nil => rw [utf16Loop.eq_def]; simp [encAll]
  | cons c cs ih =>
    have hcc := hc c (by simp)
    have ih' := ih (fun x hx => hc x (by simp [hx]))
    obtain ⟨b, t, he, hb⟩ := encode_head c hcc
    have hd := decode_encode c (by have := hcc.1; omega) (encAll cs ++ r)
    have hl := encode_len_pos c
    have e1 : encAll (c :: cs) ++ r = encode c ++ (encAll cs ++ r) := by simp [encAll]
    have e2 : (encAll (c :: cs)).length = (encode c).length + (encAll cs).length := by simp [encAll]
    rw [e1, e2, utf16Loop.eq_def]
    rw [if_neg (by omega)]
    have e3 : encode c ++ (encAll cs ++ r) = b :: (t ++ (encAll cs ++ r)) := by rw [he]; rfl
    rw [e3] at hd ⊢
    dsimp only
    rw [if_neg hb]
    split
    · rename_i hx; rw [hd] at hx; cases hx
    · rename_i c' n' hx
      rw [hd] at hx
      simp only [Option.some.injEq, Prod.mk.injEq] at hx
      obtain ⟨rfl, rfl⟩ := hx
      have e4 : (b :: (t ++ (encAll cs ++ r))).drop (encode c).length = encAll cs ++ r := by
        rw [← e3, List.drop_left]
      rw [e4, show (encode c).length + (encAll cs).length - (encode c).length = (encAll cs).length from by omega, ih']
      rfl

theorem utf32Loop_text (h : Host) (cs : List Nat) (hc : ∀ c ∈ cs, Ordinary c) (r : List UInt8) :
    utf32Loop h (encAll cs).length (encAll cs ++ r) = .ok cs := by
  induction cs with
  | nil => rw [utf32Loop.eq_def]; simp [encAll]
  | cons c cs ih =>
    have hcc := hc c (by simp)
    have ih' := ih (fun x hx => hc x (by simp [hx]))
    obtain ⟨b, t, he, hb⟩ := encode_head c hcc
    have hd := decode_encode c (by have := hcc.1; omega) (encAll cs ++ r)
    have hl := encode_len_pos c
    have e1 : encAll (c :: cs) ++ r = encode c ++ (encAll cs ++ r) := by simp [encAll]
    have e2 : (encAll (c :: cs)).length = (encode c).length + (encAll cs).length := by simp [encAll]
    rw [e1, e2, utf32Loop.eq_def]
    rw [if_neg (by omega)]
    have e3 : encode c ++ (encAll cs ++ r) = b :: (t ++ (encAll cs ++ r)) := by rw [he]; rfl
    rw [e3] at hd ⊢
    dsimp only
    rw [if_neg hb]
    split
    · rename_i hx; rw [hd] at hx; cases hx
    · rename_i c' n' hx
      rw [hd] at hx
      simp only [Option.some.injEq, Prod.mk.injEq] at hx
      obtain ⟨rfl, rfl⟩ := hx
      have e4 : (b :: (t ++ (encAll cs ++ r))).drop (encode c).length = encAll cs ++ r := by
        rw [← e3, List.drop_left]
      rw [e4, show (encode c).length + (encAll cs).length - (encode c).length = (encAll cs).length from by omega, ih']

/-- **C20** A `u"..."` literal holding any text of ordinary characters reads as UTF-16 that decodes to that text. -/
theorem C20_literal (h : Host) (cs : List Nat) (hc : ∀ c ∈ cs, Ordinary c) (hs : ∀ c ∈ cs, ¬ (0xD800 ≤ c ∧ c < 0xE000))
    (r : List UInt8) : ∃ us, readString h 1 .ushort (encAll cs ++ 0x22 :: r) =
      .ok (.tok .str (1 + 1 + (encAll cs).length + 1) (.str .ushort (us ++ [0]))) ∧ utf16Decode us = some cs := by
  refine ⟨cs.flatMap utf16Units, ?_, C20_utf16 cs (fun c h => ⟨(hc c h).1, hs c h⟩)⟩
  unfold readString
  rw [(C19_string_end _ _).mpr ⟨encAll cs, r, rfl, rfl, encAll_body cs hc⟩]
  dsimp only
  rw [utf16Loop_text h cs hc]

/-- **C20** `U"..."` and `L"..."` literals hold the code points themselves. -/
theorem C20_literal32 (h : Host) (el : Elem) (hel : el = .uint ∨ el = .int) (cs : List Nat) (hc : ∀ c ∈ cs, Ordinary c)
    (r : List UInt8) : readString h 1 el (encAll cs ++ 0x22 :: r) =
      .ok (.tok .str (1 + 1 + (encAll cs).length + 1) (.str el (cs ++ [0]))) := by
  unfold readString
  rw [(C19_string_end _ _).mpr ⟨encAll cs, r, rfl, rfl, encAll_body cs hc⟩]
  rcases hel with rfl | rfl <;> (dsimp only; rw [utf32Loop_text h cs hc])

example : (∀ c ∈ [0x61, 0xE9, 0x1F600], Ordinary c ∧ ¬ (0xD800 ≤ c ∧ c < 0xE000)) ∧
    readString .riscv 1 .ushort (encAll [0x61, 0xE9, 0x1F600] ++ [0x22]) =
      .ok (.tok .str 10 (.str .ushort [0x61, 0xE9, 0xD83D, 0xDE00, 0])) := by
  refine ⟨?_, by decide +kernel⟩
  simp [Ordinary]

end Toycc.Lex
