import Verif.Globals.LiveSpec
/-! mark_live. -/
namespace Toycc.Globals

/-! ### Marking -/

/-- `f` refers to `g` in the table. -/
def Edge (fns : List (String × Fn)) (f g : String) : Prop := ∃ fn, find fns f = some fn ∧ g ∈ fn.refs

inductive Reach (fns : List (String × Fn)) : String → String → Prop
  | refl (f) : Reach fns f f
  | step {f g h} : Edge fns f g → Reach fns g h → Reach fns f h

/-- What marking from `L` does. -/
structure Marked (fns : List (String × Fn)) (L live live' : List String) : Prop where
  mono : ∀ f ∈ live, f ∈ live'
  roots : ∀ f ∈ L, (find fns f).isSome → f ∈ live'
  closed : ∀ f ∈ live', f ∉ live → ∀ g, Edge fns f g → (find fns g).isSome → g ∈ live'
  only : ∀ f ∈ live', f ∈ live ∨ ∃ r ∈ L, Reach fns r f

theorem mark_spec (fns : List (String × Fn)) : ∀ k,
    (∀ f live live', markLive fns k f live = .ok live' → Marked fns [f] live live') ∧
    (∀ L live live', markAll fns k L live = .ok live' → Marked fns L live live')
  | 0 => ⟨fun _ _ _ h => (by cases h), fun _ _ _ h => (by cases h)⟩
  | k + 1 => by
    obtain ⟨ih1, ih2⟩ := mark_spec fns k
    constructor
    · intro f live live' h
      simp only [markLive] at h
      split at h
      · next hf =>
        cases h
        exact ⟨fun _ h => h, (fun g hg _ => by simp at hg; rw [hg]; exact hf), fun g h1 h2 => absurd h1 h2, fun g h => .inl h⟩
      · next hf =>
        cases hfn : find fns f with
        | none =>
          rw [hfn] at h
          cases h
          exact ⟨fun _ h => h, (fun g hg hs => by simp at hg; rw [hg, hfn] at hs; cases hs), fun g h1 h2 => absurd h1 h2, fun g h => .inl h⟩
        | some fn =>
          rw [hfn] at h
          have M := ih2 _ _ _ h
          refine ⟨fun g hg => M.mono g (List.mem_cons_of_mem _ hg), ?_, ?_, ?_⟩
          · intro g hg _; simp at hg; rw [hg]; exact M.mono f List.mem_cons_self
          · intro g hg hn x hx hxs
            by_cases e : g = f
            · subst e
              obtain ⟨fn', e1, e2⟩ := hx
              rw [hfn] at e1; cases e1
              exact M.roots x e2 hxs
            · exact M.closed g hg (by simp [e, hn]) x hx hxs
          · intro g hg
            rcases M.only g hg with h | ⟨r, hr, hR⟩
            · rcases List.mem_cons.mp h with h | h
              · exact .inr ⟨f, List.mem_cons_self, by rw [h]; exact .refl _⟩
              · exact .inl h
            · exact .inr ⟨f, List.mem_cons_self, .step ⟨fn, hfn, hr⟩ hR⟩
    · intro L live live' h
      cases L with
      | nil =>
        cases h
        exact ⟨fun _ h => h, (fun g hg _ => by cases hg), fun g h1 h2 => absurd h1 h2, fun g h => .inl h⟩
      | cons f r =>
        simp only [markAll, bind, Except.bind] at h
        cases h1 : markLive fns k f live with
        | error e => rw [h1] at h; cases h
        | ok l1 =>
          rw [h1] at h
          have M1 := ih1 _ _ _ h1
          have M2 := ih2 _ _ _ h
          refine ⟨fun g hg => M2.mono g (M1.mono g hg), ?_, ?_, ?_⟩
          · intro g hg hs
            rcases List.mem_cons.mp hg with e | hg
            · exact M2.mono g (M1.roots g (by simp [e]) hs)
            · exact M2.roots g hg hs
          · intro g hg hn x hx hxs
            by_cases hl : g ∈ l1
            · exact M2.mono x (M1.closed g hl hn x hx hxs)
            · exact M2.closed g hg hl x hx hxs
          · intro g hg
            rcases M2.only g hg with h | ⟨r', hr, hR⟩
            · rcases M1.only g h with h | ⟨r', hr, hR⟩
              · exact .inl h
              · simp at hr
                exact .inr ⟨f, List.mem_cons_self, by rw [← hr]; exact hR⟩
            · exact .inr ⟨r', List.mem_cons_of_mem _ hr, hR⟩

/-- How many functions are not marked. -/
def unmarked (fns : List (String × Fn)) (live : List String) : Nat := (fns.filter fun p => !live.contains p.1).length

theorem unmarked_mono (fns : List (String × Fn)) {a b : List String} (h : ∀ f ∈ a, f ∈ b) : unmarked fns b ≤ unmarked fns a := by
  induction fns with
  | nil => exact Nat.le_refl _
  | cons p r ih =>
    unfold unmarked at *
    simp only [List.filter_cons]
    by_cases hb : b.contains p.1
    · simp only [hb, Bool.not_true, Bool.false_eq_true, if_false]
      split
      · simp only [List.length_cons]; omega
      · exact ih
    · have ha : a.contains p.1 = false := by
        cases h' : a.contains p.1 with
        | false => rfl
        | true => exact absurd (by simpa using h p.1 (by simpa using h')) hb
      simp only [ha, show b.contains p.1 = false by simpa using hb, Bool.not_false, if_true, List.length_cons]
      omega

theorem unmarked_cons (fns : List (String × Fn)) {live : List String} {f : String} {fn : Fn} (h : find fns f = some fn) (hf : f ∉ live) :
    unmarked fns (f :: live) + 1 ≤ unmarked fns live := by
  induction fns with
  | nil => cases h
  | cons p r ih =>
    obtain ⟨q, v⟩ := p
    have hm : unmarked r (f :: live) ≤ unmarked r live := unmarked_mono r (fun g hg => List.mem_cons_of_mem _ hg)
    by_cases e : q = f
    · subst e
      unfold unmarked at *
      simp only [List.filter_cons]
      have h1 : (q :: live).contains q = true := by simp
      have h2 : live.contains q = false := by simpa using hf
      simp only [h1, h2, Bool.not_true, Bool.not_false, Bool.false_eq_true, if_false, if_true, List.length_cons]
      omega
    · have h' : find r f = some fn := by
        have : (f == q) = false := by simpa using fun e' => e e'.symm
        simpa [find, List.lookup, this] using h
      have := ih h'
      unfold unmarked at *
      simp only [List.filter_cons]
      have h1 : (f :: live).contains q = live.contains q := by simp [e]
      rw [h1]
      split
      · simp only [List.length_cons]; omega
      · exact this

/-- Marking ends. -/
theorem mark_total (fns : List (String × Fn)) (M : Nat) (hM : ∀ f fn, find fns f = some fn → fn.refs.length ≤ M) : ∀ k,
    (∀ f live, unmarked fns live * (2 * M + 3) + 1 < k → ∃ live', markLive fns k f live = .ok live') ∧
    (∀ L live, 2 * L.length + unmarked fns live * (2 * M + 3) < k → ∃ live', markAll fns k L live = .ok live')
  | 0 => ⟨fun _ _ h => absurd h (Nat.not_lt_zero _), fun _ _ h => absurd h (Nat.not_lt_zero _)⟩
  | k + 1 => by
    obtain ⟨ih1, ih2⟩ := mark_total fns M hM k
    constructor
    · intro f live h
      simp only [markLive]
      split
      · exact ⟨_, rfl⟩
      · next hf =>
        cases hfn : find fns f with
        | none => exact ⟨_, rfl⟩
        | some fn =>
          apply ih2
          have h1 := unmarked_cons fns hfn hf
          have h2 := hM f fn hfn
          have h3 : (unmarked fns (f :: live) + 1) * (2 * M + 3) ≤ unmarked fns live * (2 * M + 3) := Nat.mul_le_mul_right _ h1
          rw [Nat.add_mul] at h3
          omega
    · intro L live h
      cases L with
      | nil => exact ⟨_, rfl⟩
      | cons f r =>
        simp only [markAll, bind, Except.bind]
        simp only [List.length_cons] at h
        obtain ⟨l1, e1⟩ := ih1 f live (by omega)
        rw [e1]
        apply ih2
        have hm := unmarked_mono fns ((mark_spec fns k).1 _ _ _ e1).mono
        have := Nat.mul_le_mul_right (2 * M + 3) hm
        omega

/-- More fuel does not change the result. -/
theorem mark_more (fns : List (String × Fn)) : ∀ k,
    (∀ f live l, markLive fns k f live = .ok l → markLive fns (k + 1) f live = .ok l) ∧
    (∀ L live l, markAll fns k L live = .ok l → markAll fns (k + 1) L live = .ok l)
  | 0 => ⟨fun _ _ _ h => (by cases h), fun _ _ _ h => (by cases h)⟩
  | k + 1 => by
    obtain ⟨ih1, ih2⟩ := mark_more fns k
    constructor
    · intro f live l h
      rw [markLive] at h ⊢
      split at h
      · next hf => rw [if_pos hf]; exact h
      · next hf =>
        rw [if_neg hf]
        cases hfn : find fns f with
        | none => rw [hfn] at h; exact h
        | some fn => rw [hfn] at h; exact ih2 _ _ _ h
    · intro L live l h
      cases L with
      | nil => exact h
      | cons f r =>
        simp only [markAll, bind, Except.bind] at h ⊢
        cases h1 : markLive fns k f live with
        | error e => rw [h1] at h; cases h
        | ok l1 =>
          rw [h1] at h
          rw [ih1 _ _ _ h1]
          exact ih2 _ _ _ h

end Toycc.Globals
