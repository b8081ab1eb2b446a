import Verif.Lex.PrintProps
/-! C60 for the tokens of a source text: they never run together when printed. -/
namespace Toycc.Lex
open Toycc.Unicode

/-- Which rule read a token. -/
theorem lex_cases (h : Host) (p : List UInt8) (k : Kind) (n : Nat) (pl : Payload) (hl : lexOne h p = .ok (.tok k n pl)) :
    (∀ q ∈ openers, startsWith p q = true → q.length ≤ n) ∧
    (k = .ident → readIdent p = some n) ∧
    (k = .ppNum → ∃ a r, p = a :: r ∧ n = 1 + ppLoop r ∧ expChar a = false) ∧
    (k = .punct → readPunct p = n ∧ ∀ c r, p = 0x2E :: c :: r → isDig c = false) := by
  cases p with
  | nil => cases hl
  | cons a r =>
  simp only [lexOne] at hl
  rw [lexCons.eq_def] at hl
  by_cases h1 : startsWith (a :: r) (asc "//") = true
  · rw [if_pos h1] at hl; split at hl <;> cases hl
  rw [if_neg h1] at hl
  by_cases h2 : startsWith (a :: r) (asc "/*") = true
  · rw [if_pos h2] at hl; split at hl <;> cases hl
  rw [if_neg h2] at hl
  by_cases hs : a = 10
  · rw [if_pos hs] at hl; cases hl
  rw [if_neg hs] at hl; clear hs
  by_cases hs : isSpace a = true
  · rw [if_pos hs] at hl; cases hl
  rw [if_neg hs] at hl; clear hs
  have notOpen : (∀ q ∈ openers, q.head? ≠ some a) → ∀ q ∈ openers, startsWith (a :: r) q = true → q.length ≤ n := by
    intro hh q hq hst
    have := hh q hq
    have hl2 := openers_len q hq
    cases q with
    | nil => simp at hl2
    | cons x q => simp [startsWith, List.isPrefixOf] at hst this; exact absurd hst.1 this
  by_cases hs : (isDig a || (a == 0x2E && headDig r)) = true
  · rw [if_pos hs] at hl
    have hl := Except.ok.inj hl
    simp only [Piece.tok.injEq] at hl
    obtain ⟨rfl, hn, rfl⟩ := hl
    have key : ∀ a : UInt8, (isDig a || a == 0x2E) = true → (∀ q ∈ openers, q.head? ≠ some a) ∧ expChar a = false := by decide +kernel
    have ha := key a (by
      rw [Bool.or_eq_true] at hs ⊢
      rcases hs with h | h
      · exact .inl h
      · exact .inr (by rw [Bool.and_eq_true] at h; exact h.1))
    exact ⟨notOpen ha.1, nofun, fun _ => ⟨a, r, rfl, hn.symm, ha.2⟩, nofun⟩
  rw [if_neg hs] at hl
  have hdot : ∀ c r', a :: r = 0x2E :: c :: r' → isDig c = false := by
    intro c r' e
    cases e
    simp only [headDig, Bool.or_eq_true, not_or] at hs
    have := hs.2
    simpa using this
  clear hs
  by_cases hs : a = 0x22
  · rw [if_pos hs] at hl
    obtain ⟨k', us, _, e, _⟩ := readString_len _ _ _ _ _ hl
    cases e
    refine ⟨notOpen ?_, nofun, nofun, nofun⟩
    rw [hs]; decide +kernel
  rw [if_neg hs] at hl; clear hs
  have l3 : ∀ q ∈ openers, q.length ≤ 3 := by decide +kernel
  have strs : ∀ (sk : Nat) (el : Elem) (p' : List UInt8), 1 ≤ sk → readString h sk el p' = .ok (.tok k n pl) →
      (∀ q ∈ openers, startsWith (a :: r) q = true → q.length ≤ n) ∧ (k = .ident → readIdent (a :: r) = some n) ∧
      (k = .ppNum → ∃ a' r', a :: r = a' :: r' ∧ n = 1 + ppLoop r' ∧ expChar a' = false) ∧ (k = .punct → readPunct (a :: r) = n ∧ ∀ c r', a :: r = 0x2E :: c :: r' → isDig c = false) := by
    intro sk el p' hsk hr
    obtain ⟨k', us, _, e, _⟩ := readString_len _ _ _ _ _ hr
    cases e
    exact ⟨fun q hq _ => by have := l3 q hq; omega, nofun, nofun, nofun⟩
  have chs : ∀ (sk : Nat) (el : Elem) (b : Bool) (p' : List UInt8), (1 ≤ sk ∨ ∀ q ∈ openers, q.head? ≠ some a) → charTok h sk el b p' = .ok (.tok k n pl) →
      (∀ q ∈ openers, startsWith (a :: r) q = true → q.length ≤ n) ∧ (k = .ident → readIdent (a :: r) = some n) ∧
      (k = .ppNum → ∃ a' r', a :: r = a' :: r' ∧ n = 1 + ppLoop r' ∧ expChar a' = false) ∧ (k = .punct → readPunct (a :: r) = n ∧ ∀ c r', a :: r = 0x2E :: c :: r' → isDig c = false) := by
    intro sk el b p' hsk hr
    unfold charTok at hr
    split at hr
    · cases hr
    · rename_i v n' hh
      have := readChar_len _ _ _ _ _ hh
      have hr := Except.ok.inj hr
      simp only [Piece.tok.injEq] at hr
      obtain ⟨rfl, rfl, -⟩ := hr
      refine ⟨?_, nofun, nofun, nofun⟩
      rcases hsk with hsk | hsk
      · exact fun q hq _ => by have := l3 q hq; omega
      · exact notOpen hsk
  by_cases g1 : startsWith (a :: r) (asc "u8\"") = true
  · rw [if_pos g1] at hl; exact strs _ _ _ (by omega) hl
  rw [if_neg g1] at hl
  by_cases g2 : startsWith (a :: r) (asc "u\"") = true
  · rw [if_pos g2] at hl; exact strs _ _ _ (by omega) hl
  rw [if_neg g2] at hl
  by_cases g3 : startsWith (a :: r) (asc "U\"") = true
  · rw [if_pos g3] at hl; exact strs _ _ _ (by omega) hl
  rw [if_neg g3] at hl
  by_cases g4 : startsWith (a :: r) (asc "L\"") = true
  · rw [if_pos g4] at hl; exact strs _ _ _ (by omega) hl
  rw [if_neg g4] at hl
  by_cases hs : a = 0x27
  · rw [if_pos hs] at hl
    exact chs _ _ _ _ (.inr (by rw [hs]; decide +kernel)) hl
  rw [if_neg hs] at hl; clear hs
  by_cases g5 : startsWith (a :: r) (asc "L'") = true
  · rw [if_pos g5] at hl; exact chs _ _ _ _ (.inl (by omega)) hl
  rw [if_neg g5] at hl
  by_cases g6 : startsWith (a :: r) (asc "u'") = true
  · rw [if_pos g6] at hl; exact chs _ _ _ _ (.inl (by omega)) hl
  rw [if_neg g6] at hl
  by_cases g7 : startsWith (a :: r) (asc "U'") = true
  · rw [if_pos g7] at hl; exact chs _ _ _ _ (.inl (by omega)) hl
  rw [if_neg g7] at hl
  have none : ∀ q ∈ openers, startsWith (a :: r) q = true → q.length ≤ n := by
    intro q hq hst
    exfalso
    have hq : q = asc "//" ∨ q = asc "/*" ∨ q = asc "u8\"" ∨ q = asc "u\"" ∨ q = asc "U\"" ∨ q = asc "L\"" ∨ q = asc "u'" ∨ q = asc "U'" ∨ q = asc "L'" := by
      simpa [openers] using hq
    rcases hq with rfl | rfl | rfl | rfl | rfl | rfl | rfl | rfl | rfl
    · exact h1 hst
    · exact h2 hst
    · exact g1 hst
    · exact g2 hst
    · exact g3 hst
    · exact g4 hst
    · exact g6 hst
    · exact g7 hst
    · exact g5 hst
  cases hid : readIdent (a :: r) with
  | none => rw [hid] at hl; cases hl
  | some m =>
    rw [hid] at hl
    cases m with
    | succ m =>
      have hl := Except.ok.inj hl
      simp only [Piece.tok.injEq] at hl
      obtain ⟨rfl, hn, -⟩ := hl
      exact ⟨none, fun _ => by rw [hn], nofun, nofun⟩
    | zero =>
      simp only at hl
      cases hp : readPunct (a :: r) with
      | zero => rw [hp] at hl; cases hl
      | succ m =>
        rw [hp] at hl
        have hl := Except.ok.inj hl
        simp only [Piece.tok.injEq] at hl
        obtain ⟨rfl, hn, -⟩ := hl
        exact ⟨none, nofun, nofun, fun _ => ⟨hn, hdot⟩⟩

/-- An identifier is read as far as it goes. -/
theorem identLoop_max (p : List UInt8) (n m : Nat) (h : readIdentLoop p n = some m) :
    ∃ c k, decode (p.drop (m - n)) = some (c, k) ∧ isIdent2 c = false := by
  fun_induction readIdentLoop p n with
  | case1 => cases h
  | case2 p n c k hd hi ih =>
    have hle := readIdentLoop_len _ _ _ h
    obtain ⟨c', k', h1, h2⟩ := ih h
    refine ⟨c', k', ?_, h2⟩
    rw [List.drop_drop] at h1
    rw [show m - n = k + (m - (n + k)) from by omega]
    exact h1
  | case3 p n c k hd hi =>
    cases h
    refine ⟨c, k, by simpa using hd, ?_⟩
    cases hc : isIdent2 c with
    | false => rfl
    | true =>
      have := readIdentLoop_guard p c k hd hc
      exact absurd ⟨hc, this.1, this.2⟩ hi

theorem ident_max (s R : List UInt8) (hs : s ≠ []) (h : readIdent (s ++ R) = some s.length) :
    ∃ c k, decode R = some (c, k) ∧ isIdent2 c = false := by
  have hpos := List.length_pos_iff.mpr hs
  unfold readIdent at h
  split at h
  · cases h
  · rename_i c k hd
    split at h
    · have hle := readIdentLoop_len _ _ _ h
      obtain ⟨c', k', h1, h2⟩ := identLoop_max _ _ _ h
      refine ⟨c', k', ?_, h2⟩
      rw [List.drop_drop] at h1
      rw [show k + (s.length - k) = s.length from by omega, List.drop_left] at h1
      exact h1
    · simp at h; omega

/-- A number is read as far as it goes. -/
theorem pp_max (m : Nat) : ∀ (q : List UInt8) (c : UInt8) (t : List UInt8), q.length ≤ m → ppLoop (q ++ c :: t) = q.length →
    isAlnum c = false ∧ c ≠ 0x2E ∧ ((c == 0x2B || c == 0x2D) && q.getLast?.any expChar) = false := by
  have key : ∀ x : UInt8, expChar x = true → isAlnum x = true := by decide +kernel
  have stop : ∀ (c : UInt8) (t : List UInt8), ppLoop (c :: t) = 0 → isAlnum c = false ∧ c ≠ 0x2E := by
    intro c t h
    have h' : (isAlnum c || c == 0x2E) = false := by
      cases t with
      | nil =>
        simp only [ppLoop] at h
        split at h
        · omega
        · rename_i hx; simpa using hx
      | cons y t =>
        simp only [ppLoop] at h
        split at h
        · omega
        · split at h
          · omega
          · rename_i hx; simpa using hx
    rw [Bool.or_eq_false_iff] at h'
    exact ⟨h'.1, by simpa using h'.2⟩
  induction m with
  | zero =>
    intro q c t hq h
    have : q = [] := List.length_eq_zero_iff.mp (by omega)
    subst this
    exact ⟨(stop c t h).1, (stop c t h).2, by simp⟩
  | succ m ih =>
    intro q c t hq h
    cases q with
    | nil => exact ⟨(stop c t h).1, (stop c t h).2, by simp⟩
    | cons x q =>
      cases q with
      | nil =>
        simp only [List.cons_append, List.nil_append, ppLoop, List.length_cons, List.length_nil] at h
        split at h
        · omega
        · rename_i hx
          split at h
          · have := stop c t (by omega)
            refine ⟨this.1, this.2, ?_⟩
            simp only [List.getLast?_singleton, Option.any_some, expChar]
            rw [Bool.and_comm]
            simpa using hx
          · omega
      | cons y q =>
        simp only [List.cons_append, ppLoop, List.length_cons] at h
        split at h
        · rename_i hx
          obtain ⟨a1, a2, a3⟩ := ih q c t (by simp at hq; omega) (by omega)
          refine ⟨a1, a2, ?_⟩
          cases q with
          | nil =>
            have hy : expChar y = false := by
              have hx := hx
              rw [Bool.and_eq_true] at hx
              have key2 : ∀ y : UInt8, (y == 0x2B || y == 0x2D) = true → expChar y = false := by decide +kernel
              exact key2 y hx.2
            simp [hy]
          | cons z q => simpa [List.getLast?_cons_cons] using a3
        · split at h
          · obtain ⟨a1, a2, a3⟩ := ih (y :: q) c t (by simp at hq ⊢; omega) (by simp; omega)
            refine ⟨a1, a2, ?_⟩
            simpa [List.getLast?_cons_cons] using a3
          · omega

/-- A text accepted by the tokenizer that begins with a non-ASCII byte begins with an identifier. -/
theorem lex_high (h : Host) (c : UInt8) (t : List UInt8) (pc : Piece) (hc : 128 ≤ c) (hl : lexOne h (c :: t) = .ok pc) :
    ∃ ch k, decode (c :: t) = some (ch, k) ∧ isIdent1 ch = true := by
  have key : ∀ c : UInt8, 128 ≤ c → (∀ q ∈ asc "//" :: openers, q.head? ≠ some c) ∧ c ≠ 10 ∧ isSpace c = false ∧ isDig c = false ∧ c ≠ 0x2E ∧ c ≠ 0x22 ∧ c ≠ 0x27 ∧ ¬ c < 128 := by decide +kernel
  obtain ⟨k1, k2, k3, k4, k5, k6, k7, k8⟩ := key c hc
  have n1 : ∀ q ∈ openers, ¬ startsWith (c :: t) q = true := by
    intro q hq hst
    have := k1 q (by simp [hq])
    have hl2 := openers_len q hq
    cases q with
    | nil => simp at hl2
    | cons x q => simp [startsWith, List.isPrefixOf] at hst this; exact absurd hst.1 this
  simp only [lexOne, lexCons] at hl
  rw [if_neg (n1 _ (by decide)), if_neg (n1 _ (by decide)), if_neg k2, if_neg (by simp [k3]), if_neg (by simp [k4, k5]), if_neg k6,
    if_neg (n1 _ (by decide)), if_neg (n1 _ (by decide)), if_neg (n1 _ (by decide)), if_neg (n1 _ (by decide)), if_neg k7,
    if_neg (n1 _ (by decide)), if_neg (n1 _ (by decide)), if_neg (n1 _ (by decide))] at hl
  cases hd : decode (c :: t) with
  | none => unfold readIdent at hl; rw [hd] at hl; cases hl
  | some ck =>
    obtain ⟨ch, k⟩ := ck
    refine ⟨ch, k, rfl, ?_⟩
    cases hi : isIdent1 ch with
    | true => rfl
    | false =>
      have hid : readIdent (c :: t) = some 0 := by unfold readIdent; rw [hd]; simp [hi]
      rw [hid] at hl
      simp only at hl
      cases hp : readPunct (c :: t) with
      | zero => rw [hp] at hl; cases hl
      | succ n => exact absurd (punct_low c t n hp) k8

/-- Two tokens adjacent in a source text do not glue: if every unbroken beginning of the text `P` is also one of the
source text `R` that follows the token `s`. -/
theorem no_glue (h : Host) (k : Kind) (s R P : List UInt8) (pl : Payload) (hl : lexOne h (s ++ R) = .ok (.tok k s.length pl))
    (hP : ∀ w : List UInt8, (10 : UInt8) ∉ w → (32 : UInt8) ∉ w → w <+: P → w <+: R) (hR : R ≠ [] → ∃ pc, lexOne h R = .ok pc) :
    glues k s P = false := by
  have hpos := (lexOne_len h _ _ hl).1
  simp only [Piece.len] at hpos
  have hs : s ≠ [] := by rintro rfl; simp at hpos
  obtain ⟨c1, c2, c3, c4⟩ := lex_cases h _ _ _ _ hl
  have tab : ∀ (L : List (List UInt8)), (∀ q ∈ L, (10 : UInt8) ∉ q ∧ (32 : UInt8) ∉ q) → (∀ q ∈ L, startsWith (s ++ R) q = true → q.length ≤ s.length) →
      L.any (fun q => decide (s.length < q.length) && startsWith (s ++ P) q) = false := by
    intro L hL hlen
    rw [List.any_eq_false]
    intro q hq hh
    rw [Bool.and_eq_true, decide_eq_true_eq] at hh
    obtain ⟨h1, h2⟩ := hh
    unfold startsWith at h2
    rw [List.isPrefixOf_iff_prefix] at h2
    have hsq : s <+: q := List.prefix_of_prefix_length_le (List.prefix_append s P) h2 (by omega)
    obtain ⟨w, rfl⟩ := hsq
    have hw : w <+: P := (List.prefix_append_right_inj s).mp h2
    have hb := hL _ hq
    simp only [List.mem_append, not_or] at hb
    have hwR := hP w hb.1.2 hb.2.2 hw
    have : startsWith (s ++ R) (s ++ w) = true := by
      unfold startsWith
      rw [List.isPrefixOf_iff_prefix]
      exact (List.prefix_append_right_inj s).mpr hwR
    have := hlen _ hq this
    omega
  have head : ∀ c P', P = c :: P' → c ≠ 10 → c ≠ 32 → ∃ R', R = c :: R' := by
    intro c P' e n1 n2
    obtain ⟨R', hR'⟩ := hP [c] (by simpa using n1.symm) (by simpa using n2.symm) ⟨P', by rw [e]; rfl⟩
    exact ⟨R', hR'.symm⟩
  have t1 := tab openers (by decide +kernel) c1
  unfold glues
  rw [t1]
  simp only [Bool.false_or]
  cases k with
  | ident =>
    simp only
    cases P with
    | nil => rfl
    | cons c P' =>
      simp only [List.head?_cons, Option.any_some]
      cases hb : identByte c with
      | false => rfl
      | true =>
        exfalso
        have key : ∀ c : UInt8, identByte c = true → c ≠ 10 ∧ c ≠ 32 ∧ (c < 128 → isIdent2 c.toNat = true) := by decide +kernel
        obtain ⟨k1, k2, k3⟩ := key c hb
        obtain ⟨R', rfl⟩ := head c P' rfl k1 k2
        obtain ⟨ch, kk, hd, hi⟩ := ident_max s _ hs (c2 rfl)
        by_cases hlow : c < 128
        · rw [decode_low c R' hlow] at hd
          cases hd
          rw [k3 hlow] at hi; cases hi
        · obtain ⟨pc, hpc⟩ := hR (by simp)
          obtain ⟨ch', k', hd', hi'⟩ := lex_high h c R' pc (by have := UInt8.not_lt.mp hlow; exact this) hpc
          rw [hd] at hd'
          cases hd'
          rw [C08_start_continue ch hi'] at hi; cases hi
  | ppNum =>
    simp only
    cases P with
    | nil => rfl
    | cons c P' =>
      simp only [List.head?_cons, Option.any_some]
      by_cases hsep : c = 10 ∨ c = 32
      · rcases hsep with rfl | rfl <;> simp [isAlnum, isDig]
      simp only [not_or] at hsep
      obtain ⟨R', rfl⟩ := head c P' rfl hsep.1 hsep.2
      obtain ⟨a, r, e, hn, hexp⟩ := c3 rfl
      cases s with
      | nil => exact absurd rfl hs
      | cons a' s =>
        simp only [List.cons_append, List.cons.injEq] at e
        obtain ⟨rfl, rfl⟩ := e
        simp only [List.length_cons] at hn
        obtain ⟨p1, p2, p3⟩ := pp_max _ s c R' (Nat.le_refl _) (by omega)
        rw [p1]
        have p2' : (c == 0x2E) = false := by simpa using p2
        rw [p2']
        simp only [Bool.false_or]
        cases s with
        | nil => simp [hexp]
        | cons z s => rw [List.getLast?_cons_cons]; exact p3
  | punct =>
    simp only
    obtain ⟨hp, hdot⟩ := c4 rfl
    have sorted : punctTable.Pairwise (fun a b => b.length ≤ a.length) := by decide +kernel
    rw [tab punctTable (by decide +kernel) (by
      intro q hq hst
      have := punctLoop_longest _ punctTable sorted q hq hst
      have hp : punctLoop (s ++ R) punctTable = s.length := hp
      omega)]
    simp only [Bool.false_or]
    cases P with
    | nil => simp
    | cons c P' =>
      simp only [List.head?_cons, Option.any_some]
      by_cases hsd : s = [0x2E]
      · subst hsd
        by_cases hsep : c = 10 ∨ c = 32
        · rcases hsep with rfl | rfl <;> simp [isDig]
        simp only [not_or] at hsep
        obtain ⟨R', rfl⟩ := head c P' rfl hsep.1 hsep.2
        rw [hdot c R' rfl]; simp
      · have : (s == [0x2E]) = false := by simpa using hsd
        rw [this]; rfl
  | str => rfl
  | num => rfl
  | eof => rfl

/-- A token of the tokenizer, as print_tokens sees it. -/
def ofTok (text : List UInt8) (t : Tok) : PrTok := ⟨spelling text t, t.kind, t.payload, t.atBol, t.hasSpace⟩

theorem scan_clean (h : Host) (pos : Nat) (p : List UInt8) (bol sp : Bool) : ∀ (pre : List UInt8) (us : List Tok) (e : Tok), pos = pre.length →
    scan h pos p bol sp = .ok (us ++ [e]) →
    (∀ t ∈ us.map (ofTok (pre ++ p)), IsToken h t.kind t.spell t.payload) ∧ Clean (us.map (ofTok (pre ++ p))) ∧
    (p ≠ [] → ∃ pc, lexOne h p = .ok pc) ∧
    ∀ w : List UInt8, (10 : UInt8) ∉ w → (32 : UInt8) ∉ w → w <+: printLoop false (us.map (ofTok (pre ++ p))) →
      ((bol = true ∨ sp = true) → w = []) ∧ w <+: p := by
  have blank : ∀ (w : List UInt8) (c : UInt8) (t : List UInt8), (10 : UInt8) ∉ w → (32 : UInt8) ∉ w → (c = 10 ∨ c = 32) → w <+: c :: t → w = [] := by
    intro w c t h1 h2 hc hw
    cases w with
    | nil => rfl
    | cons x w =>
      exfalso
      have := (List.cons_prefix_cons.mp hw).1
      subst this
      rcases hc with rfl | rfl
      · exact h1 (by simp)
      · exact h2 (by simp)
  -- what is skipped leaves the claim to the rest
  have skip : ∀ (n : Nat) (p : List UInt8) (pc : Piece) (bol sp : Bool), lexOne h p = .ok pc → n = pc.len → (bol = true ∨ sp = true) → ∀ (pre : List UInt8) (us : List Tok),
      ((∀ t ∈ us.map (ofTok ((pre ++ p.take n) ++ p.drop n)), IsToken h t.kind t.spell t.payload) ∧ Clean (us.map (ofTok ((pre ++ p.take n) ++ p.drop n))) ∧
        (p.drop n ≠ [] → ∃ pc, lexOne h (p.drop n) = .ok pc) ∧
        ∀ w : List UInt8, (10 : UInt8) ∉ w → (32 : UInt8) ∉ w → w <+: printLoop false (us.map (ofTok ((pre ++ p.take n) ++ p.drop n))) →
          ((bol = true ∨ sp = true) → w = []) ∧ w <+: p.drop n) →
      (∀ t ∈ us.map (ofTok (pre ++ p)), IsToken h t.kind t.spell t.payload) ∧ Clean (us.map (ofTok (pre ++ p))) ∧
        (p ≠ [] → ∃ pc, lexOne h p = .ok pc) ∧
        ∀ w : List UInt8, (10 : UInt8) ∉ w → (32 : UInt8) ∉ w → w <+: printLoop false (us.map (ofTok (pre ++ p))) → w = [] := by
    intro n p pc bol sp hp hn hb pre us hh
    rw [List.append_assoc, List.take_append_drop] at hh
    exact ⟨hh.1, hh.2.1, fun _ => ⟨pc, hp⟩, fun w a b c => (hh.2.2.2 w a b c).1 hb⟩
  have fin : ∀ {A B C : Prop} {X : List UInt8} {bol sp : Bool} {p : List UInt8}, (A ∧ B ∧ C ∧ ∀ w : List UInt8, (10 : UInt8) ∉ w → (32 : UInt8) ∉ w → w <+: X → w = []) →
      A ∧ B ∧ C ∧ ∀ w : List UInt8, (10 : UInt8) ∉ w → (32 : UInt8) ∉ w → w <+: X → ((bol = true ∨ sp = true) → w = []) ∧ w <+: p := by
    intro A B C X bol sp p hh
    refine ⟨hh.1, hh.2.1, hh.2.2.1, fun w a b c => ?_⟩
    have := hh.2.2.2 w a b c
    subst this
    exact ⟨fun _ => rfl, List.nil_prefix⟩
  fun_induction scan h pos p bol sp with
  | case1 pos bol sp =>
    intro pre us e hpos hs
    have : us = [] := by
      have := congrArg (fun x => match x with | Except.ok l => l.length | _ => 0) hs
      simp at this
      exact this
    subst this
    refine ⟨by simp, trivial, fun h => absurd rfl h, ?_⟩
    intro w h1 h2 hw
    have := blank w 10 [] h1 h2 (.inl rfl) hw
    subst this
    exact ⟨fun _ => rfl, List.nil_prefix⟩
  | case2 pos p bol sp hne e he => intro pre us e' hpos hs; cases hs
  | case3 pos p bol sp hne n he ih =>
    intro pre us e hpos hs
    have hlen := lexOne_len h _ _ he
    simp only [Piece.len] at hlen
    exact fin (skip n p _ _ _ he rfl (.inr rfl) pre us (ih (pre ++ p.take n) us e (by simp; omega) hs))
  | case4 pos p bol sp hne n he ih =>
    intro pre us e hpos hs
    have hlen := lexOne_len h _ _ he
    simp only [Piece.len] at hlen
    exact fin (skip n p _ _ _ he rfl (.inr rfl) pre us (ih (pre ++ p.take n) us e (by simp; omega) hs))
  | case5 pos p bol sp hne he ih =>
    intro pre us e hpos hs
    have hlen := lexOne_len h _ _ he
    simp only [Piece.len] at hlen
    exact fin (skip 1 p _ _ _ he rfl (.inl rfl) pre us (ih (pre ++ p.take 1) us e (by simp; omega) hs))
  | case6 pos p bol sp hne he ih =>
    intro pre us e hpos hs
    have hlen := lexOne_len h _ _ he
    simp only [Piece.len] at hlen
    exact fin (skip 1 p _ _ _ he rfl (.inr rfl) pre us (ih (pre ++ p.take 1) us e (by simp; omega) hs))
  | case7 pos p bol sp hne k n pl he e hrec ih => intro pre us e' hpos hs; cases hs
  | case8 pos p bol sp hne k n pl he ts hrec ih =>
    intro pre us e hpos hs
    have hlen := lexOne_len h _ _ he
    simp only [Piece.len] at hlen
    cases us with
    | nil =>
      -- the last token is the end of file: `ts` is not empty
      exfalso
      have hs := Except.ok.inj hs
      simp only [List.nil_append, List.cons.injEq] at hs
      have hl := scan_layout h _ _ _ _ ts hrec false (pos + n) [] (OpenGap.nil _) (by simp [gapBytes]) rfl rfl
      have hne : ∀ f p q l, Layout f p q l → l ≠ [] := by intro f p q l hl; cases hl <;> simp
      exact hne _ _ _ _ hl hs.2
    | cons u us =>
      have hs := Except.ok.inj hs
      simp only [List.cons_append, List.cons.injEq] at hs
      obtain ⟨rfl, rfl⟩ := hs
      obtain ⟨i1, i2, i3, i4⟩ := ih (pre ++ p.take n) us e (by simp; omega) hrec
      rw [List.append_assoc, List.take_append_drop] at i1 i2 i4
      have hsp : spelling (pre ++ p) { kind := k, loc := pos, len := n, atBol := bol, hasSpace := sp, payload := pl } = p.take n := by
        simp only [spelling]
        rw [hpos, List.drop_left]
      have hlt : (p.take n).length = n := by simp; omega
      have hl : lexOne h (p.take n ++ p.drop n) = .ok (.tok k (p.take n).length pl) := by rw [List.take_append_drop, hlt]; exact he
      refine ⟨?_, ⟨?_, i2⟩, fun _ => ⟨_, he⟩, ?_⟩
      · intro t ht
        simp only [List.map_cons, List.mem_cons] at ht
        rcases ht with rfl | ht
        · simp only [ofTok, hsp]
          exact ⟨p.drop n, hl⟩
        · exact i1 t ht
      · simp only [ofTok, hsp]
        exact no_glue h k (p.take n) (p.drop n) _ pl hl (fun w a b c => (i4 w a b c).2) i3
      · intro w h1 h2 hw
        simp only [List.map_cons, printLoop] at hw
        unfold sepOf at hw
        simp only [ofTok, hsp] at hw
        cases bol with
        | true =>
          have := blank w 10 _ h1 h2 (.inl rfl) hw
          subst this
          exact ⟨fun _ => rfl, List.nil_prefix⟩
        | false =>
          cases sp with
          | true =>
            have := blank w 32 _ h1 h2 (.inr rfl) hw
            subst this
            exact ⟨fun _ => rfl, List.nil_prefix⟩
          | false =>
            refine ⟨by simp, ?_⟩
            simp only [Bool.not_false, Bool.and_false, Bool.false_and, Bool.false_eq_true, if_false, List.nil_append] at hw
            by_cases hwl : w.length ≤ n
            · have : w <+: p.take n := List.prefix_of_prefix_length_le hw (List.prefix_append _ _) (by omega)
              exact this.trans (List.take_prefix n p)
            · have : p.take n <+: w := List.prefix_of_prefix_length_le (List.prefix_append _ _) hw (by omega)
              obtain ⟨w', rfl⟩ := this
              have hw' := (List.prefix_append_right_inj _).mp hw
              have := (i4 w' (fun h => h1 (by simp [h])) (fun h => h2 (by simp [h])) hw').2
              have := (List.prefix_append_right_inj (p.take n)).mpr this
              rwa [List.take_append_drop] at this

/-- **C60** for a source without macros: the tokens of any text the tokenizer accepts, printed as -E prints them and
tokenised again, give the same spellings, kinds and values, whatever the text. No condition on the tokens is left. -/
theorem C60_source (h : Host) (text : List UInt8) (us : List Tok) (e : Tok) (ht : tokenize h text = .ok (us ++ [e])) :
    ∃ vs f, tokenize h (print (us.map (ofTok text))) = .ok (vs ++ [f]) ∧ f.kind = .eof ∧
      vs.map (fun v => (v.kind, v.payload, spelling (print (us.map (ofTok text))) v)) = us.map (fun u => (u.kind, u.payload, spelling text u)) ∧
      vs.map Tok.hasSpace = us.map (fun u => u.hasSpace && !u.atBol) ∧
      (vs.map Tok.atBol).drop 1 = (us.map Tok.atBol).drop 1 := by
  rw [tokenize_eq] at ht
  cases hs : scan h 0 text true false with
  | error e => rw [hs] at ht; cases ht
  | ok l =>
    rw [hs] at ht
    have ht := Except.ok.inj ht
    obtain ⟨l1, l2, rfl, h1, h2⟩ := List.map_eq_append_iff.mp ht
    obtain ⟨e', rfl, rfl⟩ := List.map_eq_singleton_iff.mp h2
    subst h1
    obtain ⟨c1, c2, -, -⟩ := scan_clean h 0 text true false [] l1 e' rfl hs
    simp only [List.nil_append] at c1 c2
    have hm : (l1.map (setLine text)).map (ofTok text) = l1.map (ofTok text) := by rw [List.map_map]; rfl
    rw [hm]
    obtain ⟨vs, f, t1, t2, t3, t4, t5⟩ := tokenize_print h _ c2 c1
    refine ⟨vs, f, t1, t2, ?_, ?_, ?_⟩
    · rw [t3]; simp only [List.map_map]; rfl
    · rw [t4]; simp only [List.map_map]; rfl
    · rw [t5]; simp only [List.map_map]; rfl

/-- The hypotheses of `C60_retokenise_partial` and `C60_source` are met: `.5..x/ /"a b"u8` and a non-ASCII identifier. -/
example : (tokenize .x86 (asc "a.5..+x/ /\"a b\"u8\n")).map (fun ts => ts.map (spelling (asc "a.5..+x/ /\"a b\"u8\n"))) =
    .ok [asc "a", asc ".5..", asc "+", asc "x", asc "/", asc "/", asc "\"a b\"", asc "u8", []] := by decide +kernel

example : Apart [⟨asc "x", .ident, .none, true, false⟩, ⟨asc "--", .punct, .none, false, false⟩, ⟨asc "-", .punct, .none, false, true⟩, ⟨asc "1", .ppNum, .none, false, false⟩] ∧
    IsToken .x86 .punct (asc "--") .none ∧ mayGlue .punct (asc "-") 0x2D = true ∧ mayGlue .punct (asc "--") 0x2D = false := by
  have head : ∀ (s : List UInt8) (d c : UInt8) (r : List UInt8), s.head? = some d → s = c :: r → c = d := by
    intro s d c r h1 h2; subst h2; simpa using h1
  refine ⟨?_, ⟨asc "-", by decide +kernel⟩, by decide +kernel, by decide +kernel⟩
  constructor
  · intro _ _ c r e
    rw [head _ 0x2D c r (by decide) e]; decide +kernel
  · constructor
    · intro _ h; cases h
    · constructor
      · intro _ _ c r e
        rw [head _ 0x31 c r (by decide) e]; decide +kernel
      · trivial

end Toycc.Lex
