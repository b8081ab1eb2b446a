import Verif.Ip.Props
/-!
C68: items of a list for which the array or structure has no element or member left. C11 6.7.9p2 forbids them; the code reads them and ignores them.
-/
namespace Toycc.Ip
open Toycc.Parse (Tok P)
open Toycc.Init (Ini Inis)
variable {α : Type}

/-- The texts of such items: an expression, also in braces. -/
inductive Excess (O : Oracle α) : List Tok → Prop where
  | expr {ts e st} : (∀ r, StopE r → O.assign (ts ++ r) = .ok (e, st, r)) → (∃ t r, ts = t :: r ∧ ExprStart t) → Excess O ts
  | braces {ts} : Excess O ts → Excess O (.p .lbrace :: (ts ++ [.p .rbrace]))

def moreText : List (List Tok) → List Tok
  | [] => []
  | t :: r => .p .comma :: (t ++ moreText r)

theorem stopE_more (l : List (List Tok)) (c : Bool) (r : List Tok) : StopE (moreText l ++ (closing c ++ r)) := by
  cases l with
  | nil => cases c <;> simp [moreText, closing, StopE]
  | cons t l => simp [moreText, StopE]

theorem Excess.start {O : Oracle α} {ts : List Tok} (h : Excess O ts) : ∃ t r, ts = t :: r ∧ t ≠ .p .rbrace ∧ t ≠ .p .lbrk ∧ t ≠ .p .dot := by
  cases h with
  | expr _ h =>
    obtain ⟨t, r, rfl, h1, h2, h3, h4, -⟩ := h
    exact ⟨t, r, rfl, h2, h3, h4⟩
  | braces h => exact ⟨_, _, rfl, by decide, by decide, by decide⟩

theorem Excess.skip {O : Oracle α} {ts : List Tok} (h : Excess O ts) : ∃ N, ∀ n, N ≤ n → ∀ r, StopE r → skipExcess O n (ts ++ r) = .ok r := by
  induction h with
  | expr h1 h2 =>
    obtain ⟨t, u, rfl, h3, -⟩ := h2
    refine ⟨1, fun n hn r hr => ?_⟩
    obtain ⟨n, rfl⟩ : ∃ m, n = m + 1 := ⟨n - 1, by omega⟩
    have := h1 r hr
    unfold skipExcess
    split
    · rename_i heq; cases heq; exact absurd rfl h3
    · simp only [this, bind, Except.bind]
  | braces h ih =>
    obtain ⟨N, hN⟩ := ih
    refine ⟨N + 1, fun n hn r hr => ?_⟩
    obtain ⟨n, rfl⟩ : ∃ m, n = m + 1 := ⟨n - 1, by omega⟩
    rw [List.cons_append, List.append_assoc]
    simp only [skipExcess, List.cons_append, List.nil_append, hN n (by omega) (.p .rbrace :: r) (by simp [StopE]), bind, Except.bind, Ip.skip, if_true]

namespace Props

/-- Excess items of an array change nothing, and the list is read to its end. -/
theorem C68_excess_array (O : Oracle α) (b : ITy) (k : Nat) (c : Bool) (r : List Tok) (x : Ini α) (l : List (List Tok)) (hl : ∀ ts ∈ l, Excess O ts) (i : Nat) (hi : k ≤ i) :
    ∃ N, ∀ n, N ≤ n → arr1 O n b k false i (moreText l ++ (closing c ++ r)) x = .ok (x, r) := by
  induction l generalizing i with
  | nil =>
    refine ⟨1, fun n hn => ?_⟩
    obtain ⟨n, rfl⟩ : ∃ m, n = m + 1 := ⟨n - 1, by omega⟩
    rw [moreText, List.nil_append, arr1, consumeEnd_closing]
  | cons ts l ih =>
    obtain ⟨N, hN⟩ := ih (fun t h => hl t (List.mem_cons_of_mem _ h)) (i + 1) (by omega)
    obtain ⟨M, hM⟩ := (hl ts List.mem_cons_self).skip
    obtain ⟨t, u, rfl, h1, h2, -⟩ := (hl ts List.mem_cons_self).start
    refine ⟨max N M + 1, fun n hn => ?_⟩
    obtain ⟨n, rfl⟩ : ∃ m, n = m + 1 := ⟨n - 1, by omega⟩
    have hs := hM n (by omega) _ (stopE_more l c r)
    simp only [moreText, List.cons_append, List.append_assoc] at hs ⊢
    rw [arr1, consumeEnd_comma h1]
    simp only [sep, skip, bind, Except.bind, if_true, Bool.false_eq_true, if_false]
    split
    · rename_i heq; cases heq; exact absurd rfl h2
    · rw [if_neg (by omega), hs]
      exact hN n (by omega)

/-- Likewise for a structure. -/
theorem C68_excess_struct (O : Oracle α) (ms : IMems) (c : Bool) (r : List Tok) (x : Ini α) (l : List (List Tok)) (hl : ∀ ts ∈ l, Excess O ts) (j : Nat) (hj : ms.get? j = none) :
    ∃ N, ∀ n, N ≤ n → struct1 O n ms false j (moreText l ++ (closing c ++ r)) x = .ok (x, r) := by
  induction l with
  | nil =>
    refine ⟨1, fun n hn => ?_⟩
    obtain ⟨n, rfl⟩ : ∃ m, n = m + 1 := ⟨n - 1, by omega⟩
    rw [moreText, List.nil_append, struct1, consumeEnd_closing]
  | cons ts l ih =>
    obtain ⟨N, hN⟩ := ih (fun t h => hl t (List.mem_cons_of_mem _ h))
    obtain ⟨M, hM⟩ := (hl ts List.mem_cons_self).skip
    obtain ⟨t, u, rfl, h1, -, h2⟩ := (hl ts List.mem_cons_self).start
    refine ⟨max N M + 1, fun n hn => ?_⟩
    obtain ⟨n, rfl⟩ : ∃ m, n = m + 1 := ⟨n - 1, by omega⟩
    have hs := hM n (by omega) _ (stopE_more l c r)
    simp only [moreText, List.cons_append, List.append_assoc] at hs ⊢
    rw [struct1, consumeEnd_comma h1]
    simp only [sep, skip, bind, Except.bind, if_true, Bool.false_eq_true, if_false]
    split
    · rename_i heq; cases heq; exact absurd rfl h2
    · rw [hj]
      simp only [hs]
      exact hN n (by omega)

theorem n_excess (v : Int) : Excess exO [.num v] := .expr (fun _ _ => rfl) ⟨_, _, rfl, by simp [ExprStart]⟩

/-- `, 3, {4}, }` after an array of two elements. -/
example (x : Ini Int) : ∃ N, ∀ n, N ≤ n → arr1 exO n int 2 false 2 [.p .comma, .num 3, .p .comma, .p .lbrace, .num 4, .p .rbrace, .p .comma, .p .rbrace, .p .semi] x = .ok (x, [.p .semi]) :=
  C68_excess_array exO int 2 true [.p .semi] x [[.num 3], [.p .lbrace, .num 4, .p .rbrace]]
    (by intro ts h; simp only [List.mem_cons, List.not_mem_nil, or_false] at h; rcases h with rfl | rfl; exact n_excess 3; exact .braces (n_excess 4)) 2 (by omega)

/-- The same after a structure with two members. -/
example (x : Ini Int) (a b : ITy) : ∃ N, ∀ n, N ≤ n → struct1 exO n (.cons (some "a") 0 none a (.cons (some "b") 4 none b .nil)) false 2 [.p .comma, .num 3, .p .rbrace, .p .semi] x = .ok (x, [.p .semi]) :=
  C68_excess_struct exO _ false [.p .semi] x [[.num 3]] (by intro ts h; simp only [List.mem_cons, List.not_mem_nil, or_false] at h; subst h; exact n_excess 3) 2 rfl

end Props
end Toycc.Ip
