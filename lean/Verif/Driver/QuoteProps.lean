import Verif.Driver.Quote
import Verif.Driver.QuoteSpec
/-! C56: quote_makefile. -/
namespace Toycc.Driver
open Toycc.Lex (asc)

theorem puts_ok {cap : Nat} (cs : List UInt8) : ∀ buf : List UInt8, buf.length + cs.length ≤ cap → puts cap buf cs = some (buf ++ cs) := by
  induction cs with
  | nil => intro buf _; simp [puts]
  | cons c r ih =>
    intro buf h
    simp only [List.length_cons] at h
    rw [puts, if_pos (by omega), ih _ (by simp only [List.length_append, List.length_cons, List.length_nil]; omega)]
    simp

theorem run_snoc (done : List UInt8) (c : UInt8) : run (done ++ [c]) = if c = 92 then run done + 1 else 0 := by
  unfold run
  rw [List.reverse_append]
  simp only [List.reverse_cons, List.reverse_nil, List.nil_append, List.singleton_append, List.takeWhile_cons]
  by_cases h : c = 92
  · simp [h]
  · have : (c == 92) = false := by simp [h]
    simp [h, this]

/-- The text written from a position after `k` backslashes on. -/
def quoted : Nat → List UInt8 → List UInt8
  | _, [] => []
  | k, c :: r =>
    (if c = 36 then [36, 36] else if c = 35 then [92, 35] else if c = 32 ∨ c = 9 then List.replicate k 92 ++ [92, c] else [c]) ++
      quoted (if c = 92 then k + 1 else 0) r

theorem quoted_length : ∀ (s : List UInt8) (k : Nat), (quoted k s).length ≤ 2 * s.length + k := by
  intro s
  induction s with
  | nil => intro k; simp [quoted]
  | cons c r ih =>
    intro k
    rw [quoted]
    simp only [List.length_append, List.length_cons]
    by_cases h1 : c = 92
    · subst h1
      have := ih (k + 1)
      simp
      omega
    · have := ih 0
      rw [if_neg h1]
      split
      · simp; omega
      · split
        · simp; omega
        · split
          · simp; omega
          · simp; omega

theorem quoteGo_ok (cap : Nat) : ∀ (r done buf : List UInt8), buf.length + (quoted (run done) r).length ≤ cap → quoteGo cap done r buf = some (buf ++ quoted (run done) r) := by
  intro r
  induction r with
  | nil => intro done buf _; simp [quoteGo, quoted]
  | cons c r ih =>
    intro done buf h
    rw [quoted] at h ⊢
    simp only [List.length_append] at h
    rw [quoteGo]
    have e : quoteOne done c = if c = 36 then [36, 36] else if c = 35 then [92, 35] else if c = 32 ∨ c = 9 then List.replicate (run done) 92 ++ [92, c] else [c] := rfl
    rw [e, puts_ok _ _ (by omega)]
    simp only
    rw [ih _ _ (by rw [run_snoc, List.length_append]; omega), run_snoc]
    simp

theorem quoteMakefile_eq (s : List UInt8) : quoteMakefile s = some (quoted 0 s) := by
  have h := quoted_length s 0
  have h1 := quoteGo_ok (2 * s.length + 1) s [] [] (by simp only [show run [] = 0 from rfl, List.length_nil]; omega)
  unfold quoteMakefile
  rw [h1]
  simp only [List.nil_append, show run [] = 0 from rfl]
  rw [if_pos (by omega)]

/-- C56. All writes are inside the buffer of `2 * strlen(s) + 1` bytes, and its last byte stays zero. -/
theorem C56_inside (s : List UInt8) : ∃ q, quoteMakefile s = some q ∧ q.length ≤ 2 * s.length :=
  ⟨_, quoteMakefile_eq s, quoted_length s 0⟩

/-- The names that come back: no colon, no newline, no backslash just before `#`, no backslash at the end. -/
structure Plain (s : List UInt8) : Prop where
  colon : 58 ∉ s
  newline : 10 ∉ s
  hash : ¬ [92, 35] <:+: s
  last : s.getLast? ≠ some 92

theorem roundTrip (t : List UInt8) : ∀ (s : List UInt8) (k : Nat), 58 ∉ s → 10 ∉ s → ¬ [92, 35] <:+: List.replicate k 92 ++ s → (List.replicate k 92 ++ s).getLast? ≠ some 92 →
    makeName k false (quoted k s ++ 58 :: t) = some (List.replicate k 92 ++ s, 58 :: t) := by
  intro s
  induction s with
  | nil =>
    intro k _ _ _ h
    have hk : k = 0 := by
      cases k with
      | zero => rfl
      | succ k => simp [List.replicate_succ'] at h
    subst hk
    rfl
  | cons c r ih =>
    intro k hc hn hh hl
    simp only [List.mem_cons, not_or] at hc hn
    have tail : ∀ p : List UInt8, List.replicate k 92 ++ c :: r = p ++ r → ¬ [92, 35] <:+: r := by
      intro p e h
      rw [e] at hh
      exact hh (h.trans (List.suffix_append _ _).isInfix)
    have e1 : List.replicate k 92 ++ c :: r = (List.replicate k 92 ++ [c]) ++ r := by simp
    have htail := tail _ e1
    have hlast : c ≠ 92 → (List.replicate 0 (92 : UInt8) ++ r).getLast? ≠ some 92 := by
      intro hc
      cases r with
      | nil => simp
      | cons d r =>
        rw [e1] at hl
        simpa using hl
    by_cases h92 : c = 92
    · subst h92
      rw [quoted]
      simp only [show ¬ (92 : UInt8) = 36 by decide, show ¬ (92 : UInt8) = 35 by decide, show ¬ ((92 : UInt8) = 32 ∨ (92 : UInt8) = 9) by decide, if_false, if_true,
        List.singleton_append, List.cons_append]
      rw [makeName, if_neg (by decide), if_pos rfl]
      have e2 : List.replicate k 92 ++ (92 : UInt8) :: r = List.replicate (k + 1) 92 ++ r := by rw [List.replicate_succ']; simp
      rw [e2] at hh hl ⊢
      exact ih (k + 1) hc.2 hn.2 hh hl
    · rw [quoted, if_neg h92]
      have step := ih 0 hc.2 hn.2 (by simpa using htail) (hlast h92)
      simp only [List.replicate_zero, List.nil_append] at step
      by_cases h36 : c = 36
      · subst h36
        rw [if_pos rfl]
        simp only [List.cons_append, List.nil_append]
        rw [makeName, if_neg (by decide), if_neg (by decide), if_neg (by decide), if_neg (by decide), if_pos rfl, makeName, if_pos rfl, if_pos rfl, step]
        simp [before]
      · rw [if_neg h36]
        by_cases h35 : c = 35
        · subst h35
          have hk : k = 0 := by
            cases k with
            | zero => rfl
            | succ k =>
              exfalso
              apply hh
              rw [List.replicate_succ']
              exact ⟨List.replicate k 92, r, by simp⟩
          subst hk
          rw [if_pos rfl]
          simp only [List.cons_append, List.nil_append]
          rw [makeName, if_neg (by decide), if_pos rfl, makeName, if_neg (by decide), if_neg (by decide), if_neg (by decide), if_pos (by decide), if_neg (by decide), step]
          simp [before]
        · rw [if_neg h35]
          by_cases hsp : c = 32 ∨ c = 9
          · rw [if_pos hsp]
            have many : ∀ (n j : Nat) (x : List UInt8), makeName j false (List.replicate n 92 ++ x) = makeName (j + n) false x := by
              intro n
              induction n with
              | zero => intro j x; simp
              | succ n ih =>
                intro j x
                rw [List.replicate_succ, List.cons_append, makeName, if_neg (by decide), if_pos rfl, ih]
                congr 1; omega
            simp only [List.append_assoc, List.cons_append, List.nil_append]
            rw [many, makeName, if_neg (by decide), if_pos rfl, makeName, if_neg (by decide), if_neg h92, if_neg (fun e => hn.1 e.symm)]
            have hs : special c = true := by rcases hsp with rfl | rfl <;> decide
            rw [if_pos hs, if_neg (by omega), step, show (k + k + 1) / 2 = k by omega]
            simp [before]
          · rw [if_neg hsp]
            simp only [List.cons_append, List.nil_append]
            rw [makeName, if_neg (by decide), if_neg h92, if_neg (fun e => hn.1 e.symm)]
            have hs : special c = false := by
              unfold special
              simp only [not_or] at hsp
              simp [h35, hsp.1, hsp.2]
              exact fun e => hc.1 e.symm
            rw [if_neg (by simp [hs]), if_neg h36, step]
            simp [before]

/-- C56. `quote_makefile(s)` followed by a colon is read by make as the name `s`. Missing: names with a colon, a newline, a backslash before `#`, or a backslash at the end (see
below: these do not come back). -/
theorem C56_make_reads_back_partial (s t : List UInt8) (h : Plain s) : ∃ q, quoteMakefile s = some q ∧ makeName 0 false (q ++ 58 :: t) = some (s, 58 :: t) := by
  refine ⟨_, quoteMakefile_eq s, ?_⟩
  have := roundTrip t s 0 h.colon h.newline (by simpa using h.hash) (by simpa using h.last)
  simpa using this

/-- `$(obj)/my file\ #1.o` is such a name, with everything that is quoted. -/
example : Plain (asc "$(obj)/my file\\ #1.o") where
  colon := by decide
  newline := by decide
  hash := by decide +kernel
  last := by decide

/-- C56 fails for a backslash before `#` (the rest is a comment), a backslash at the end (it quotes the colon) and a colon. -/
theorem C56_violated :
    (quoteMakefile (asc "a\\#b")).map (fun q => makeName 0 false (q ++ [58])) = some (some (asc "a\\", asc "#b:")) ∧
    (quoteMakefile (asc "a\\")).map (fun q => makeName 0 false (q ++ [58])) = some (some (asc "a:", [])) ∧
    (quoteMakefile (asc "a:b")).map (fun q => makeName 0 false (q ++ [58])) = some (some (asc "a", asc ":b:")) := by
  decide +kernel

end Toycc.Driver
