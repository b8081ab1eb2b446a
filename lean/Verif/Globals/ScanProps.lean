import Verif.Globals.Scan
/-! C45: tentative definitions. -/
namespace Toycc.Globals

theorem hit_iff {objs : List Obj} {i p : Nat} {name : String} :
    hit objs i name p = true ↔ ∃ o, objs[p]? = some o ∧ p ≠ i ∧ o.isDef = true ∧ o.name = name := by
  unfold hit
  cases objs[p]? with
  | none => simp
  | some o =>
    simp only [Bool.and_eq_true, bne_iff_ne, ne_eq, beq_iff_eq, Option.some.injEq]
    constructor
    · rintro ⟨⟨h1, h2⟩, h3⟩; exact ⟨o, rfl, h1, h2, h3.symm⟩
    · rintro ⟨o', rfl, h1, h2, h3⟩; exact ⟨⟨h1, h2⟩, h3.symm⟩

theorem scanF_spec (objs : List Obj) : ∀ (rest seen kept trail : List Nat), (∀ p ∈ kept, p ∈ seen) → (∀ p ∈ rest, p < objs.length) →
    ∃ R, scanF objs seen kept trail rest = kept ++ R ∧ R.Sublist rest ∧
      (∀ i o, i ∈ rest → objs[i]? = some o → o.tentative = false → i ∈ R) ∧
      (∀ i o, i ∈ R → objs[i]? = some o → o.tentative = true → ∀ p ∈ kept ++ R, hit objs i o.name p = false) ∧
      (∀ i o, i ∈ rest → objs[i]? = some o → (∀ p ∈ seen ++ trail ++ rest, hit objs i o.name p = false) → i ∈ R)
  | [], seen, kept, trail, _, _ => ⟨[], by simp [scanF], List.Sublist.refl _, by simp, by simp, by simp⟩
  | i :: rest, seen, kept, trail, hk, hlt => by
    have hi := hlt i List.mem_cons_self
    have hlt' : ∀ p ∈ rest, p < objs.length := fun p hp => hlt p (List.mem_cons_of_mem _ hp)
    obtain ⟨o, ho⟩ : ∃ o, objs[i]? = some o := ⟨_, List.getElem?_eq_getElem hi⟩
    by_cases hc : (o.tentative && (seen ++ trail ++ i :: rest).any (hit objs i o.name)) = true
    · have e : scanF objs seen kept trail (i :: rest) = scanF objs seen kept (trail ++ [i]) rest := by
        simp only [scanF, ho]; rw [if_pos hc]
      obtain ⟨R, h1, h2, h3, h4, h5⟩ := scanF_spec objs rest seen kept (trail ++ [i]) hk hlt'
      simp only [Bool.and_eq_true, List.any_eq_true] at hc
      refine ⟨R, by rw [e, h1], h2.cons i, ?_, h4, ?_⟩
      · intro j o' hj ho' ht
        rcases List.mem_cons.mp hj with ej | hj
        · subst ej; rw [ho] at ho'; cases ho'; rw [hc.1] at ht; cases ht
        · exact h3 j o' hj ho' ht
      · intro j o' hj ho' hn
        rcases List.mem_cons.mp hj with ej | hj
        · subst ej; rw [ho] at ho'; cases ho'
          obtain ⟨p, hp, hh⟩ := hc.2
          rw [hn p hp] at hh; cases hh
        · exact h5 j o' hj ho' (by simpa using hn)
    · have e : scanF objs seen kept trail (i :: rest) = scanF objs (if kept.isEmpty then trail ++ [i] else seen ++ [i]) (kept ++ [i]) [] rest := by
        simp only [scanF, ho]; rw [if_neg hc]
      have hk' : ∀ p ∈ kept ++ [i], p ∈ (if kept.isEmpty then trail ++ [i] else seen ++ [i]) := by
        intro p hp
        cases kept with
        | nil => simp at hp; simp [hp]
        | cons k ks =>
          simp only [List.isEmpty_cons, Bool.false_eq_true, if_false]
          rcases List.mem_append.mp hp with h | h
          · exact List.mem_append_left _ (hk p h)
          · exact List.mem_append_right _ h
      obtain ⟨R, h1, h2, h3, h4, h5⟩ := scanF_spec objs rest _ (kept ++ [i]) [] hk' hlt'
      have hall : o.tentative = true → ∀ p ∈ seen ++ trail ++ i :: rest, hit objs i o.name p = false := by
        intro ht p hp
        simp only [Bool.and_eq_true, List.any_eq_true, not_and, not_exists] at hc
        have := hc ht p hp
        simpa using this
      refine ⟨i :: R, by rw [e, h1]; simp, h2.cons_cons i, ?_, ?_, ?_⟩
      · intro j o' hj ho' ht
        rcases List.mem_cons.mp hj with ej | hj
        · subst ej; exact List.mem_cons_self
        · exact List.mem_cons_of_mem _ (h3 j o' hj ho' ht)
      · intro j o' hj ho' ht p hp
        rcases List.mem_cons.mp hj with ej | hj
        · subst ej; rw [ho] at ho'; cases ho'
          apply hall ht
          rcases List.mem_append.mp hp with h | h
          · simp [hk p h]
          · rcases List.mem_cons.mp h with h | h
            · simp [h]
            · simp [h2.subset h]
        · exact h4 j o' hj ho' ht p (by simpa using hp)
      · intro j o' hj ho' hn
        rcases List.mem_cons.mp hj with ej | hj
        · subst ej; exact List.mem_cons_self
        · refine List.mem_cons_of_mem _ (h5 j o' hj ho' ?_)
          intro p hp
          apply hn
          cases kept with
          | nil =>
            simp at hp ⊢
            rcases hp with h | h | h
            · exact .inr (.inl h)
            · exact .inr (.inr (.inl h))
            · exact .inr (.inr (.inr h))
          | cons k ks =>
            simp at hp ⊢
            rcases hp with h | h | h
            · exact .inl h
            · exact .inr (.inr (.inl h))
            · exact .inr (.inr (.inr h))

/-- A definition of `x`, as seen by emit_data (codegen.c:1893-1895). -/
def Defines (objs : List Obj) (x : String) (tent : Bool) (i : Nat) : Prop := objs[i]? = some ⟨x, tent, true⟩

/-- C45, the full statement minus one case: when an object is defined tentatively more than once and never really, at most one definition is left (there may
be none: see below). Otherwise there is exactly one. Objects that are not tentative are all kept, the order is kept, and nothing is added. -/
theorem C45_scan_partial (objs : List Obj) :
    ∃ res, scanGlobals objs = some res ∧ res.Sublist (List.range objs.length) ∧
      (∀ i o, objs[i]? = some o → o.tentative = false → i ∈ res) ∧
      (∀ x d, Defines objs x false d → ∀ i, Defines objs x true i → i ∉ res) ∧
      (∀ x i, Defines objs x true i → (∀ j t, Defines objs x t j → j = i) → i ∈ res) ∧
      (∀ x i j, Defines objs x true i → Defines objs x true j → i ∈ res → j ∈ res → i = j) := by
  obtain ⟨R, h1, h2, h3, h4, h5⟩ := scanF_spec objs (List.range' 0 objs.length) [] [] [] (by simp) (by simp [List.mem_range'_1])
  have mem : ∀ i o, objs[i]? = some o → i ∈ List.range' 0 objs.length := by
    intro i o h
    have := (List.getElem?_eq_some_iff.mp h).1
    simp [List.mem_range'_1, this]
  simp only [List.nil_append] at h1 h4 h5
  refine ⟨R, by rw [scan_eq, h1], by rw [List.range_eq_range']; exact h2, ?_, ?_, ?_, ?_⟩
  · intro i o ho ht; exact h3 i o (mem i o ho) ho ht
  · intro x d hd i hi hm
    have := h4 i _ hm hi rfl d (h3 d _ (mem d _ hd) hd rfl)
    have hne : d ≠ i := by intro e; subst e; rw [Defines, hd] at hi; cases hi
    have ht : hit objs i x d = true := hit_iff.mpr ⟨_, hd, hne, rfl, rfl⟩
    rw [show hit objs i x d = false from this] at ht
    cases ht
  · intro x i hi hu
    refine h5 i _ (mem i _ hi) hi ?_
    intro p _
    cases hh : hit objs i x p with
    | false => rfl
    | true =>
      obtain ⟨o, ho, hne, hd, hx⟩ := hit_iff.mp hh
      exact absurd (hu p o.tentative (by rw [Defines, ho, ← hd, ← hx])) hne
  · intro x i j hi hj hri hrj
    have := h4 i _ hri hi rfl j hrj
    by_cases e : j = i
    · exact e.symm
    · have ht : hit objs i x j = true := hit_iff.mpr ⟨_, hj, e, rfl, rfl⟩
      rw [show hit objs i x j = false from this] at ht
      cases ht

/-- `int x; int y; int z; int x = 1; extern int w; int y;` (the latest first): `z`, the definition of `x` and the declaration of `w` are kept and the
tentative definition of `x` is dropped; one definition of `y` is kept. -/
example : scanGlobals [⟨"y", true, true⟩, ⟨"w", false, false⟩, ⟨"x", false, true⟩, ⟨"z", true, true⟩, ⟨"y", true, true⟩, ⟨"x", true, true⟩] =
    some [1, 2, 3] := by decide +kernel

/-! ### Finding: repeated tentative definitions -/

theorem scanF_first (objs : List Obj) (x : String) (h0 : Defines objs x true 0) :
    ∀ (rest seen kept trail : List Nat), (∀ p ∈ rest, p < objs.length) → 0 ∈ seen ++ trail → 0 ∉ rest → (kept = [] → 0 ∈ trail) → (kept ≠ [] → 0 ∈ seen) →
      ∀ i ∈ scanF objs seen kept trail rest, Defines objs x true i → i ∈ kept
  | [], seen, kept, trail, _, _, _, _, _ => fun i hi _ => by simpa [scanF] using hi
  | j :: rest, seen, kept, trail, hlt, hs, hr, hk1, hk2 => by
    intro i hi hx
    have hj := hlt j List.mem_cons_self
    obtain ⟨o, ho⟩ : ∃ o, objs[j]? = some o := ⟨_, List.getElem?_eq_getElem hj⟩
    have hj0 : 0 ≠ j := fun e => hr (by rw [e]; exact List.mem_cons_self)
    have hlt' : ∀ p ∈ rest, p < objs.length := fun p hp => hlt p (List.mem_cons_of_mem _ hp)
    have hr' : 0 ∉ rest := fun h => hr (List.mem_cons_of_mem _ h)
    simp only [scanF, ho] at hi
    split at hi
    · exact scanF_first objs x h0 rest seen kept (trail ++ [j]) hlt' (by simp at hs ⊢; rcases hs with h | h; exact .inl h; exact .inr (.inl h)) hr'
        (fun h => List.mem_append_left _ (hk1 h)) hk2 i hi hx
    · next hc =>
      have h0' : 0 ∈ (if kept.isEmpty then trail ++ [j] else seen ++ [j]) := by
        cases kept with
        | nil => simp [hk1 rfl]
        | cons k ks => simp [hk2 (by simp)]
      have := scanF_first objs x h0 rest _ (kept ++ [j]) [] hlt' (List.mem_append_left _ h0') hr' (by simp) (fun _ => h0') i hi hx
      rcases List.mem_append.mp this with h | h
      · exact h
      · simp at h
        subst h
        rw [Defines, ho] at hx
        cases hx
        exfalso
        apply hc
        simp only [Bool.true_and, List.any_eq_true]
        exact ⟨0, by simp at hs ⊢; rcases hs with h | h; exact .inl h; exact .inr (.inl h), hit_iff.mpr ⟨_, h0, hj0, rfl, rfl⟩⟩

/-- Finding: if the last global declared in the file is a repeated tentative definition, then all tentative definitions of that object are removed. If
there is no other, the object is not defined at all. -/
theorem C45_lost_last (o : Obj) (objs : List Obj) (x : String) (ho : o = ⟨x, true, true⟩) (hx : ⟨x, true, true⟩ ∈ objs) :
    ∃ res, scanGlobals (o :: objs) = some res ∧ ∀ i ∈ res, ¬ Defines (o :: objs) x true i := by
  subst ho
  refine ⟨_, scan_eq _, ?_⟩
  intro i hi hd
  obtain ⟨k, hk⟩ := List.mem_iff_getElem?.mp hx
  have hk1 : Defines (⟨x, true, true⟩ :: objs) x true (k + 1) := by simpa [Defines] using hk
  have h0 : Defines (⟨x, true, true⟩ :: objs) x true 0 := rfl
  have hh : hit (⟨x, true, true⟩ :: objs) 0 x (k + 1) = true := hit_iff.mpr ⟨_, hk1, by omega, rfl, rfl⟩
  have hlen := (List.getElem?_eq_some_iff.mp hk1).1
  rw [List.length_cons, List.range'_succ] at hi
  simp only [scanF, List.getElem?_cons_zero] at hi
  rw [if_pos] at hi
  · have := scanF_first _ x h0 _ [] [] ([] ++ [0]) (by simp [List.mem_range'_1]; omega) (by simp) (by simp [List.mem_range'_1]) (by simp) (by simp) i hi hd
    simp at this
  · simp only [Bool.true_and, List.any_eq_true]
    refine ⟨k + 1, ?_, hh⟩
    simp at hlen
    simp [List.mem_range'_1]
    omega

/-- `int x; int x;` and nothing else: `x` is not defined. With another object kept after each it would be. -/
theorem C45_violated : scanGlobals [⟨"x", true, true⟩, ⟨"x", true, true⟩] = some [] ∧
    scanGlobals [⟨"a", false, true⟩, ⟨"x", true, true⟩, ⟨"b", false, true⟩, ⟨"x", true, true⟩] = some [0, 2, 3] := by decide +kernel

theorem scanF_adjacent (objs : List Obj) (x : String) (k : Nat) (h0 : Defines objs x true k) (h1 : Defines objs x true (k + 1)) :
    ∀ (rest seen kept trail : List Nat), (∀ p ∈ rest, p < objs.length) → (∃ a b, rest = a ++ k :: (k + 1) :: b ∧ (∀ p ∈ b, ¬ Defines objs x true p)) →
      ∀ i ∈ scanF objs seen kept trail rest, Defines objs x true i → i ∈ kept
  | [], seen, kept, trail, _, ⟨a, b, e, _⟩ => by simp at e
  | j :: rest, seen, kept, trail, hlt, ⟨a, b, e, hb⟩ => by
    intro i hi hx
    have hj := hlt j List.mem_cons_self
    obtain ⟨o, ho⟩ : ∃ o, objs[j]? = some o := ⟨_, List.getElem?_eq_getElem hj⟩
    have hlt' : ∀ p ∈ rest, p < objs.length := fun p hp => hlt p (List.mem_cons_of_mem _ hp)
    cases a with
    | nil =>
      simp only [List.nil_append, List.cons.injEq] at e
      obtain ⟨rfl, rfl⟩ := e
      simp only [scanF] at hi
      rw [show objs[j]? = some ⟨x, true, true⟩ from h0, show objs[j + 1]? = some ⟨x, true, true⟩ from h1] at hi
      simp only [Bool.true_and] at hi
      rw [if_pos, if_pos] at hi
      · obtain ⟨R, e1, e2, -, -, -⟩ := scanF_spec objs b [] [] [] (by simp) (fun p hp => hlt' p (List.mem_cons_of_mem _ hp))
        exact scanF_none objs x b seen kept _ (fun p hp => hlt' p (List.mem_cons_of_mem _ hp)) hb i hi hx
      · simp only [List.any_eq_true]
        exact ⟨j, by simp, hit_iff.mpr ⟨_, h0, by omega, rfl, rfl⟩⟩
      · simp only [List.any_eq_true]
        exact ⟨j + 1, by simp, hit_iff.mpr ⟨_, h1, by omega, rfl, rfl⟩⟩
    | cons a0 a =>
      simp only [List.cons_append, List.cons.injEq] at e
      obtain ⟨rfl, rfl⟩ := e
      simp only [scanF, ho] at hi
      split at hi
      · exact scanF_adjacent objs x k h0 h1 _ _ _ _ hlt' ⟨a, b, rfl, hb⟩ i hi hx
      · next hc =>
        have := scanF_adjacent objs x k h0 h1 _ _ _ _ hlt' ⟨a, b, rfl, hb⟩ i hi hx
        rcases List.mem_append.mp this with h | h
        · exact h
        · simp at h
          subst h
          exfalso
          rw [Defines, ho] at hx
          cases hx
          apply hc
          simp only [Bool.true_and, List.any_eq_true]
          by_cases e : i = k
          · exact ⟨k + 1, by simp, hit_iff.mpr ⟨_, h1, by omega, rfl, rfl⟩⟩
          · exact ⟨k, by simp, hit_iff.mpr ⟨_, h0, fun e' => e e'.symm, rfl, rfl⟩⟩
where
  scanF_none (objs : List Obj) (x : String) : ∀ (rest seen kept trail : List Nat), (∀ p ∈ rest, p < objs.length) → (∀ p ∈ rest, ¬ Defines objs x true p) →
      ∀ i ∈ scanF objs seen kept trail rest, Defines objs x true i → i ∈ kept
  | rest, seen, kept, trail, hlt, hb, i, hi, hx => by
    have : ∀ (rest seen kept trail : List Nat), ∀ i ∈ scanF objs seen kept trail rest, i ∈ kept ∨ i ∈ rest := by
      intro rest
      induction rest with
      | nil => intro seen kept trail i hi; exact .inl (by simpa [scanF] using hi)
      | cons j rest ih =>
        intro seen kept trail i hi
        simp only [scanF] at hi
        split at hi
        · exact .inl hi
        · split at hi
          · rcases ih _ _ _ i hi with h | h
            · exact .inl h
            · exact .inr (List.mem_cons_of_mem _ h)
          · rcases ih _ _ _ i hi with h | h
            · rcases List.mem_append.mp h with h | h
              · exact .inl h
              · exact .inr (by simp at h; rw [h]; exact List.mem_cons_self)
            · exact .inr (List.mem_cons_of_mem _ h)
    rcases this _ _ _ _ i hi with h | h
    · exact h
    · exact absurd hx (hb i h)

/-- Finding: if the first two tentative definitions of an object follow each other (`int x; int x;`, with `b` what is declared before and `a` what is
declared after), all its tentative definitions are removed, and if there is no other, the object is not defined at all. -/
theorem C45_lost_adjacent (a b : List Obj) (x : String) (hb : ⟨x, true, true⟩ ∉ b) :
    ∃ res, scanGlobals (a ++ ⟨x, true, true⟩ :: ⟨x, true, true⟩ :: b) = some res ∧
      ∀ i ∈ res, ¬ Defines (a ++ ⟨x, true, true⟩ :: ⟨x, true, true⟩ :: b) x true i := by
  refine ⟨_, scan_eq _, ?_⟩
  intro i hi hd
  have h0 : Defines (a ++ ⟨x, true, true⟩ :: ⟨x, true, true⟩ :: b) x true a.length := by simp [Defines]
  have h1 : Defines (a ++ ⟨x, true, true⟩ :: ⟨x, true, true⟩ :: b) x true (a.length + 1) := by
    rw [Defines, List.getElem?_append_right (by omega)]
    simp
  have := scanF_adjacent _ x a.length h0 h1 _ [] [] [] (by simp [List.mem_range'_1]) ⟨List.range' 0 a.length, List.range' (a.length + 2) b.length, ?_, ?_⟩ i hi hd
  · simp at this
  · have : (a ++ ⟨x, true, true⟩ :: ⟨x, true, true⟩ :: b).length = a.length + (b.length + 1 + 1) := by simp
    rw [this, ← List.range'_append_1]
    simp [List.range'_succ]
  · intro p hp hdp
    simp only [List.mem_range'_1] at hp
    rw [Defines, List.getElem?_append_right (by omega)] at hdp
    obtain ⟨q, hq⟩ : ∃ q, p - a.length = q + 2 := ⟨p - a.length - 2, by omega⟩
    rw [hq] at hdp
    simp only [List.getElem?_cons_succ] at hdp
    exact hb (List.mem_of_getElem? hdp)

end Toycc.Globals
