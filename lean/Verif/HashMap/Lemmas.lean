import Verif.HashMap.Model
/-! Helper lemmas for the hash map: the probing invariant and its preservation. -/
namespace Toycc.HashMap
variable {V : Type}

theorem probe_lt {cap : Nat} (h i : Nat) (hc : 0 < cap) : probe cap h i < cap := Nat.mod_lt _ hc

theorem probe_surj {cap : Nat} (h j : Nat) (hj : j < cap) : ∃ t, t < cap ∧ probe cap h t = j := by
  have hc : 0 < cap := by omega
  refine ⟨(j + (cap - h % cap)) % cap, Nat.mod_lt _ hc, ?_⟩
  unfold probe
  have h1 : h % cap < cap := Nat.mod_lt _ hc
  rw [Nat.add_mod, Nat.mod_mod, ← Nat.add_mod]
  have h2 : h + (j + (cap - h % cap)) = j + cap * (h / cap + 1) := by
    have := Nat.div_add_mod h cap
    rw [Nat.mul_add, Nat.mul_one]; omega
  rw [h2, Nat.add_mul_mod_self_left, Nat.mod_eq_of_lt hj]

theorem probe_inj {cap : Nat} (h s t : Nat) (hs : s < cap) (ht : t < cap)
    (e : probe cap h s = probe cap h t) : s = t := by
  unfold probe at e
  have hc : 0 < cap := by omega
  have h1 : h % cap < cap := Nat.mod_lt _ hc
  rw [Nat.add_mod, Nat.add_mod h t, Nat.mod_eq_of_lt hs, Nat.mod_eq_of_lt ht] at e
  generalize h % cap = a at *
  have key : ∀ x, x < cap → (a + x) % cap = if a + x < cap then a + x else a + x - cap := by
    intro x hx
    by_cases c : a + x < cap
    · simp [c, Nat.mod_eq_of_lt c]
    · rw [if_neg c, Nat.mod_eq_sub_mod (by omega), Nat.mod_eq_of_lt (by omega)]
  rw [key s hs, key t ht] at e
  split at e <;> split at e <;> omega

/-- The slot met by probe `t` of a key. -/
def slotAt (b : List (Slot V)) (key : Key) (t : Nat) : Option (Slot V) :=
  b[probe b.length (fnvHash key) t]?

/-- The slot ends a search for `key`. -/
def FStop (key : Key) (s : Option (Slot V)) : Prop := s = some .empty ∨ ∃ v, s = some (.full key v)

/-- The slot ends an insertion of `key`. -/
def IStop (key : Key) (s : Option (Slot V)) : Prop := s = some .tomb ∨ FStop key s

theorem slotAt_some {b : List (Slot V)} (key : Key) (t : Nat) (hb : 0 < b.length) :
    ∃ s, slotAt b key t = some s := by
  unfold slotAt
  exact ⟨_, List.getElem?_eq_getElem (probe_lt _ _ hb)⟩

theorem findLoop_spec (b : List (Slot V)) (key : Key) : ∀ n i, n + i = b.length →
    (∃ t, i ≤ t ∧ t < b.length ∧ FStop key (slotAt b key t)) →
    ∃ t, i ≤ t ∧ t < b.length ∧ (∀ s, i ≤ s → s < t → ¬ FStop key (slotAt b key s)) ∧
      ((slotAt b key t = some .empty ∧ findLoop b (fnvHash key) key n i = .ok none) ∨
       (∃ v, slotAt b key t = some (.full key v) ∧
          findLoop b (fnvHash key) key n i = .ok (some (probe b.length (fnvHash key) t)))) := by
  intro n
  induction n with
  | zero => intro i hn ⟨t, h1, h2, _⟩; omega
  | succ n ih =>
    intro i hn ⟨t, h1, h2, h3⟩
    have hb : 0 < b.length := by omega
    obtain ⟨s, hs⟩ := slotAt_some (b := b) key i hb
    have cont : ¬ FStop key (slotAt b key i) →
        findLoop b (fnvHash key) key (n+1) i = findLoop b (fnvHash key) key n (i+1) →
        ∃ t, i ≤ t ∧ t < b.length ∧ (∀ s, i ≤ s → s < t → ¬ FStop key (slotAt b key s)) ∧
      ((slotAt b key t = some .empty ∧ findLoop b (fnvHash key) key (n+1) i = .ok none) ∨
       (∃ v, slotAt b key t = some (.full key v) ∧
          findLoop b (fnvHash key) key (n+1) i = .ok (some (probe b.length (fnvHash key) t)))) := by
      intro hns he
      have hit : i ≠ t := fun e => hns (e ▸ h3)
      obtain ⟨t', a1, a2, a3, a4⟩ := ih (i+1) (by omega) ⟨t, by omega, h2, h3⟩
      refine ⟨t', by omega, a2, ?_, ?_⟩
      · intro s b1 b2
        by_cases e : s = i
        · subst e; exact hns
        · exact a3 s (by omega) b2
      · rw [he]; exact a4
    have hs' : b[probe b.length (fnvHash key) i]? = some s := hs
    cases s with
    | empty =>
      exact ⟨i, Nat.le_refl _, by omega, by intros; omega, Or.inl ⟨hs, by simp [findLoop, hs']⟩⟩
    | tomb =>
      apply cont
      · simp [FStop, hs]
      · simp [findLoop, hs']
    | full k v =>
      by_cases e : k = key
      · subst e
        exact ⟨i, Nat.le_refl _, by omega, by intros; omega, Or.inr ⟨v, hs, by simp [findLoop, hs']⟩⟩
      · apply cont
        · simp [FStop, hs, e]
        · simp [findLoop, hs', e]

/-- Is the slot empty? -/
def isE : Option (Slot V) → Bool
  | some .empty => true
  | _ => false

theorem insLoop_spec (b : List (Slot V)) (key : Key) : ∀ n i, n + i = b.length →
    (∃ t, i ≤ t ∧ t < b.length ∧ FStop key (slotAt b key t)) →
    ∃ t, i ≤ t ∧ t < b.length ∧ (∀ s, i ≤ s → s < t → ¬ IStop key (slotAt b key s)) ∧
      IStop key (slotAt b key t) ∧
      insLoop b (fnvHash key) key n i =
        .ok (probe b.length (fnvHash key) t, isE (slotAt b key t)) := by
  intro n
  induction n with
  | zero => intro i hn ⟨t, h1, h2, _⟩; omega
  | succ n ih =>
    intro i hn ⟨t, h1, h2, h3⟩
    have hb : 0 < b.length := by omega
    obtain ⟨s, hs⟩ := slotAt_some (b := b) key i hb
    have hs' : b[probe b.length (fnvHash key) i]? = some s := hs
    cases s with
    | empty =>
      exact ⟨i, Nat.le_refl _, by omega, by intros; omega, by simp [IStop, FStop, hs], by simp [insLoop, hs', hs, isE]⟩
    | tomb =>
      exact ⟨i, Nat.le_refl _, by omega, by intros; omega, by simp [IStop, hs], by simp [insLoop, hs', hs, isE]⟩
    | full k v =>
      by_cases e : k = key
      · subst e
        exact ⟨i, Nat.le_refl _, by omega, by intros; omega, by simp [IStop, FStop, hs], by simp [insLoop, hs', hs, isE]⟩
      · have hns : ¬ IStop key (slotAt b key i) := by simp [IStop, FStop, hs, e]
        have hit : i ≠ t := fun h => hns (h ▸ Or.inr h3)
        obtain ⟨t', a1, a2, a3, a4, a5⟩ := ih (i+1) (by omega) ⟨t, by omega, h2, h3⟩
        refine ⟨t', by omega, a2, ?_, a4, ?_⟩
        · intro s b1 b2
          by_cases e' : s = i
          · subst e'; exact hns
          · exact a3 s (by omega) b2
        · rw [← a5]; simp [insLoop, hs', e]

/-- Number of non-empty slots. -/
def occ : List (Slot V) → Nat
  | [] => 0
  | .empty :: r => occ r
  | _ :: r => occ r + 1

theorem exists_empty : ∀ (b : List (Slot V)), occ b < b.length → ∃ j : Nat, b[j]? = some .empty
  | [], h => by simp [occ] at h
  | .empty :: r, _ => ⟨0, rfl⟩
  | .tomb :: r, h => by
    obtain ⟨j, hj⟩ := exists_empty r (by simp [occ] at h; omega)
    exact ⟨j+1, by simpa using hj⟩
  | .full _ _ :: r, h => by
    obtain ⟨j, hj⟩ := exists_empty r (by simp [occ] at h; omega)
    exact ⟨j+1, by simpa using hj⟩

/-- The probing invariant: nothing empty before a live entry on its key's probe path. -/
def Reach (b : List (Slot V)) : Prop :=
  ∀ k v t, t < b.length → slotAt b k t = some (.full k v) → ∀ s, s < t → slotAt b k s ≠ some .empty

/-- Table invariant. -/
structure WF (m : Map V) : Prop where
  reach : Reach m.buckets
  usedEq : m.used = occ m.buckets
  room : m.used < m.buckets.length
  pow : ∃ k, m.buckets.length = 16 * 2 ^ k

theorem WF.pos {m : Map V} (w : WF m) : 0 < m.buckets.length := by have := w.room; omega
theorem WF.ge16 {m : Map V} (w : WF m) : 16 ≤ m.buckets.length := by
  obtain ⟨k, hk⟩ := w.pow
  have : 0 < 2 ^ k := Nat.two_pow_pos k
  omega

theorem exists_stop {b : List (Slot V)} (h : occ b < b.length) (key : Key) :
    ∃ t, 0 ≤ t ∧ t < b.length ∧ FStop key (slotAt b key t) := by
  obtain ⟨j, hj⟩ := exists_empty b h
  have hjl : j < b.length := by
    rcases Nat.lt_or_ge j b.length with h | h
    · exact h
    · rw [List.getElem?_eq_none h] at hj; cases hj
  obtain ⟨t, ht, e⟩ := probe_surj (fnvHash key) j hjl
  exact ⟨t, Nat.zero_le _, ht, Or.inl (by unfold slotAt; rw [e]; exact hj)⟩

/-- `t` is the first probe that ends a search for `key`. -/
def First (b : List (Slot V)) (key : Key) (t : Nat) : Prop :=
  t < b.length ∧ FStop key (slotAt b key t) ∧ ∀ s, s < t → ¬ FStop key (slotAt b key s)

/-- What a lookup sees. -/
def Sees (b : List (Slot V)) (key : Key) (r : Option V) : Prop :=
  ∃ t, First b key t ∧ ((slotAt b key t = some .empty ∧ r = none) ∨ ∃ v, slotAt b key t = some (.full key v) ∧ r = some v)

theorem First.unique {b : List (Slot V)} {key : Key} {s t : Nat} (hs : First b key s) (ht : First b key t) : s = t := by
  rcases Nat.lt_trichotomy s t with h | h | h
  · exact absurd hs.2.1 (ht.2.2 s h)
  · exact h
  · exact absurd ht.2.1 (hs.2.2 t h)

theorem Sees.unique {b : List (Slot V)} {key : Key} {r r' : Option V} (h : Sees b key r) (h' : Sees b key r') : r = r' := by
  obtain ⟨t, f, c⟩ := h
  obtain ⟨t', f', c'⟩ := h'
  cases f.unique f'
  rcases c with ⟨c1, c2⟩ | ⟨v, c1, c2⟩ <;> rcases c' with ⟨d1, d2⟩ | ⟨v', d1, d2⟩ <;> simp_all

theorem getEntry_spec {m : Map V} (hocc : occ m.buckets < m.buckets.length) (key : Key) :
    ∃ t, First m.buckets key t ∧
     ((slotAt m.buckets key t = some .empty ∧ getEntry m key = .ok none) ∨
      (∃ v, slotAt m.buckets key t = some (.full key v) ∧
          getEntry m key = .ok (some (probe m.buckets.length (fnvHash key) t)))) := by
  have hne : m.buckets ≠ [] := by intro e; rw [e] at hocc; simp at hocc
  obtain ⟨t, h1, h2, h3, h4⟩ := findLoop_spec m.buckets key m.buckets.length 0 (by omega) (exists_stop hocc key)
  refine ⟨t, ⟨h2, ?_, fun s hs => h3 s (Nat.zero_le _) hs⟩, ?_⟩
  · rcases h4 with ⟨a, _⟩ | ⟨v, a, _⟩
    · exact Or.inl a
    · exact Or.inr ⟨v, a⟩
  · simpa [getEntry, hne] using h4

theorem get_sees {m : Map V} (hocc : occ m.buckets < m.buckets.length) (key : Key) :
    ∃ r, get m key = .ok r ∧ Sees m.buckets key r := by
  obtain ⟨t, f, h⟩ := getEntry_spec hocc key
  rcases h with ⟨a, e⟩ | ⟨v, a, e⟩
  · exact ⟨none, by simp [get, e], t, f, Or.inl ⟨a, rfl⟩⟩
  · refine ⟨some v, ?_, t, f, Or.inr ⟨v, a, rfl⟩⟩
    unfold slotAt at a
    simp [get, e, a]

theorem get_eq_iff {m : Map V} (hocc : occ m.buckets < m.buckets.length) (key : Key) (r : Option V) :
    get m key = .ok r ↔ Sees m.buckets key r := by
  obtain ⟨r', h1, h2⟩ := get_sees hocc key
  constructor
  · intro h; rw [h1] at h; cases h; exact h2
  · intro h; rw [h1, h.unique h2]

theorem occ_set (b : List (Slot V)) : ∀ j s old, b[j]? = some old →
    occ (b.set j s) + (if isE (some old) then 0 else 1) = occ b + (if isE (some s) then 0 else 1) := by
  induction b with
  | nil => intro j s old h; simp at h
  | cons x r ih =>
    intro j s old h
    cases j with
    | zero =>
      simp at h; subst h
      cases x <;> cases s <;> simp [occ, isE]
    | succ j =>
      have := ih j s old (by simpa using h)
      cases x <;> simp [occ] <;> omega

theorem slotAt_set (b : List (Slot V)) (j : Nat) (s : Slot V) (key : Key) (t : Nat) (hb : 0 < b.length) :
    slotAt (b.set j s) key t = if probe b.length (fnvHash key) t = j then some s else slotAt b key t := by
  unfold slotAt
  have : probe b.length (fnvHash key) t < b.length := probe_lt _ _ hb
  rw [List.length_set, List.getElem?_set]
  by_cases e : j = probe b.length (fnvHash key) t
  · subst e; simp [this]
  · simp [e, Ne.symm e]

/-- Overwriting a slot that holds the key, a tombstone or nothing: other keys see the same. -/
theorem sees_set_full {b : List (Slot V)} (hr : Reach b) {j : Nat} {key : Key} {v : V}
    (hj : j < b.length)
    (hold : b[j]? = some .empty ∨ b[j]? = some .tomb ∨ ∃ v0, b[j]? = some (.full key v0))
    (hroom : occ (b.set j (.full key v)) < b.length)
    {k2 : Key} (hk : k2 ≠ key) {r : Option V} (h : Sees b k2 r) : Sees (b.set j (.full key v)) k2 r := by
  have hb : 0 < b.length := by omega
  obtain ⟨t, ⟨f1, f2, f3⟩, c⟩ := h
  have hslot : ∀ s, slotAt (b.set j (.full key v)) k2 s =
      if probe b.length (fnvHash k2) s = j then some (.full key v) else slotAt b k2 s :=
    fun s => slotAt_set b j _ k2 s hb
  by_cases e : probe b.length (fnvHash k2) t = j
  · have hjt : slotAt b k2 t = b[j]? := by unfold slotAt; rw [e]
    have hemp : slotAt b k2 t = some .empty := by
      rcases f2 with h | ⟨v2, h⟩
      · exact h
      · rw [hjt] at h
        rcases hold with a | a | ⟨v0, a⟩ <;> rw [a] at h <;> simp at h
        exact absurd h.1.symm hk
    have hrn : r = none := by
      rcases c with ⟨_, c⟩ | ⟨v2, c, _⟩
      · exact c
      · rw [hemp] at c; cases c
    subst hrn
    have hocc' : occ (b.set j (.full key v)) < (b.set j (.full key v)).length := by simpa using hroom
    obtain ⟨t', _, g1, g2, g3⟩ := findLoop_spec (b.set j (.full key v)) k2 _ 0 (Nat.add_zero _) (exists_stop hocc' k2)
    rw [List.length_set] at g1
    rcases g3 with ⟨g3, _⟩ | ⟨v2, g3, _⟩
    · exact ⟨t', ⟨by simpa using g1, Or.inl g3, fun s hs => g2 s (Nat.zero_le _) hs⟩, Or.inl ⟨g3, rfl⟩⟩
    · exfalso
      rw [hslot] at g3
      by_cases e' : probe b.length (fnvHash k2) t' = j
      · simp [e'] at g3; exact hk g3.1.symm
      · simp [e'] at g3
        rcases Nat.lt_trichotomy t t' with h | h | h
        · exact hr k2 v2 t' g1 g3 t h hemp
        · subst h; exact e' e
        · exact f3 t' h (Or.inr ⟨v2, g3⟩)
  · refine ⟨t, ⟨by simpa using f1, ?_, ?_⟩, ?_⟩
    · rw [hslot, if_neg e]; exact f2
    · intro s hs
      rw [hslot]
      by_cases e' : probe b.length (fnvHash k2) s = j
      · simp [e', FStop, Ne.symm hk]
      · simp [e', f3 s hs]
    · rw [hslot, if_neg e]; exact c

/-- Replacing a live entry of `key` by a tombstone: other keys see the same. -/
theorem sees_set_tomb {b : List (Slot V)} {j : Nat} {key : Key} {v0 : V}
    (hj : j < b.length) (hold : b[j]? = some (.full key v0))
    {k2 : Key} (hk : k2 ≠ key) {r : Option V} (h : Sees b k2 r) : Sees (b.set j .tomb) k2 r := by
  have hb : 0 < b.length := by omega
  obtain ⟨t, ⟨f1, f2, f3⟩, c⟩ := h
  have hslot : ∀ s, slotAt (b.set j .tomb) k2 s =
      if probe b.length (fnvHash k2) s = j then some .tomb else slotAt b k2 s :=
    fun s => slotAt_set b j _ k2 s hb
  have e : probe b.length (fnvHash k2) t ≠ j := by
    intro e
    have hjt : slotAt b k2 t = b[j]? := by unfold slotAt; rw [e]
    rw [hjt, hold] at f2
    rcases f2 with f2 | ⟨v, f2⟩ <;> simp at f2
    exact hk f2.1.symm
  refine ⟨t, ⟨by simpa using f1, ?_, ?_⟩, ?_⟩
  · rw [hslot, if_neg e]; exact f2
  · intro s hs
    rw [hslot]
    by_cases e' : probe b.length (fnvHash k2) s = j
    · simp [e', FStop]
    · simp [e', f3 s hs]
  · rw [hslot, if_neg e]; exact c

theorem reach_set_tomb {b : List (Slot V)} (hr : Reach b) (j : Nat) : Reach (b.set j .tomb) := by
  intro k v t ht h s hs
  rw [List.length_set] at ht
  have hb : 0 < b.length := by omega
  rw [slotAt_set _ _ _ _ _ hb] at h ⊢
  by_cases e : probe b.length (fnvHash k) t = j
  · simp [e] at h
  · simp [e] at h
    by_cases e' : probe b.length (fnvHash k) s = j
    · simp [e']
    · simp [e']; exact hr k v t ht h s hs

theorem reach_set_full {b : List (Slot V)} (hr : Reach b) {key : Key} (v : V) {t0 : Nat} (ht0 : t0 < b.length)
    (hfirst : ∀ s, s < t0 → slotAt b key s ≠ some .empty) :
    Reach (b.set (probe b.length (fnvHash key) t0) (.full key v)) := by
  intro k v' t ht h s hs
  rw [List.length_set] at ht
  have hb : 0 < b.length := by omega
  rw [slotAt_set _ _ _ _ _ hb] at h ⊢
  by_cases e' : probe b.length (fnvHash k) s = probe b.length (fnvHash key) t0
  · simp [e']
  · simp [e']
    by_cases e : probe b.length (fnvHash k) t = probe b.length (fnvHash key) t0
    · simp [e] at h
      obtain ⟨h, _⟩ := h
      subst h
      have := probe_inj _ _ _ ht ht0 e
      subst this
      exact hfirst s hs
    · simp [e] at h
      exact hr k v' t ht h s hs

/-- The slot picked by an insertion. -/
theorem putRaw_spec {m : Map V} (hocc : occ m.buckets < m.buckets.length) (key : Key) (v : V) :
    ∃ t, t < m.buckets.length ∧ (∀ s, s < t → ¬ IStop key (slotAt m.buckets key s)) ∧
      IStop key (slotAt m.buckets key t) ∧
      putRaw m key v = .ok
        ⟨m.buckets.set (probe m.buckets.length (fnvHash key) t) (.full key v),
         if isE (slotAt m.buckets key t) then m.used + 1 else m.used⟩ := by
  obtain ⟨t, _, h2, h3, h4, h5⟩ := insLoop_spec m.buckets key m.buckets.length 0 (by omega) (exists_stop hocc key)
  refine ⟨t, h2, fun s hs => h3 s (Nat.zero_le _) hs, h4, ?_⟩
  simp only [putRaw, h5]

/-- Weak table invariant, without the power-of-two capacity. -/
structure WF0 (m : Map V) : Prop where
  reach : Reach m.buckets
  usedEq : m.used = occ m.buckets

theorem WF.toWF0 {m : Map V} (w : WF m) : WF0 m := ⟨w.reach, w.usedEq⟩

/-- Everything about one raw insertion with room to spare. -/
theorem putRaw_main {m : Map V} (w : WF0 m) (hroom : m.used + 1 < m.buckets.length) (key : Key) (v : V) :
    ∃ m', putRaw m key v = .ok m' ∧ WF0 m' ∧ m'.buckets.length = m.buckets.length ∧
      (m'.used = m.used ∨ m'.used = m.used + 1) ∧
      Sees m'.buckets key (some v) ∧
      (∀ k2 r, k2 ≠ key → Sees m.buckets k2 r → Sees m'.buckets k2 r) ∧
      (∃ j old, j < m.buckets.length ∧ m.buckets[j]? = some old ∧ m'.buckets = m.buckets.set j (.full key v) ∧
        ((∃ v0, old = .full key v0) ∨ old = .tomb ∨
          (old = .empty ∧ m'.used = m.used + 1 ∧ ∀ v0, Slot.full key v0 ∉ m.buckets))) := by
  have hu := w.usedEq
  have hocc : occ m.buckets < m.buckets.length := by omega
  obtain ⟨t, h1, h2, h3, h4⟩ := putRaw_spec hocc key v
  have hb : 0 < m.buckets.length := by omega
  have hjl := probe_lt (cap := m.buckets.length) (fnvHash key) t hb
  have hocc' : occ (m.buckets.set (probe m.buckets.length (fnvHash key) t) (.full key v)) =
      (if isE (slotAt m.buckets key t) then m.used + 1 else m.used) := by
    have := fun old h => occ_set m.buckets (probe m.buckets.length (fnvHash key) t) (.full key v) old h
    rcases h3 with h | h | ⟨v', h⟩
    · have := this _ h; simp [h, isE] at this ⊢; omega
    · have := this _ h; simp [h, isE] at this ⊢; omega
    · have := this _ h; simp [h, isE] at this ⊢; omega
  refine ⟨_, h4, ⟨?_, ?_⟩, by simp, ?_, ?_, ?_, ?_⟩
  · exact reach_set_full w.reach v h1 (fun s hs he => h2 s hs (Or.inr (Or.inl he)))
  · exact hocc'.symm
  · by_cases e : isE (slotAt m.buckets key t) <;> simp [e]
  · have hs := fun s => slotAt_set m.buckets (probe m.buckets.length (fnvHash key) t) (.full key v) key s hb
    refine ⟨t, ⟨by simpa using h1, ?_, ?_⟩, Or.inr ⟨v, ?_, rfl⟩⟩
    · rw [hs]; simp [FStop]
    · intro s hlt
      rw [hs]
      by_cases e : probe m.buckets.length (fnvHash key) s = probe m.buckets.length (fnvHash key) t
      · have := probe_inj _ _ _ (by omega) h1 e; omega
      · rw [if_neg e]; exact fun h => h2 s hlt (Or.inr h)
    · rw [hs]; simp
  · intro k2 r hk hsee
    refine sees_set_full w.reach hjl ?_ ?_ hk hsee
    · rcases h3 with h | h | h
      · exact Or.inr (Or.inl h)
      · exact Or.inl h
      · exact Or.inr (Or.inr h)
    · rw [hocc']; by_cases e : isE (slotAt m.buckets key t) <;> simp [e] <;> omega
  · rcases h3 with h | h | ⟨v', h⟩
    · exact ⟨_, _, hjl, h, rfl, Or.inr (Or.inl rfl)⟩
    · refine ⟨_, _, hjl, h, rfl, Or.inr (Or.inr ⟨rfl, by simp [h, isE], ?_⟩)⟩
      intro v0 hmem
      obtain ⟨j, hj⟩ := List.mem_iff_getElem?.mp hmem
      have hjl' : j < m.buckets.length := by
        rcases Nat.lt_or_ge j m.buckets.length with h | h
        · exact h
        · rw [List.getElem?_eq_none h] at hj; cases hj
      obtain ⟨t', ht', e⟩ := probe_surj (fnvHash key) j hjl'
      have hst : slotAt m.buckets key t' = some (.full key v0) := by unfold slotAt; rw [e]; exact hj
      rcases Nat.lt_trichotomy t t' with hh | hh | hh
      · exact w.reach key v0 t' ht' hst t hh h
      · subst hh; rw [h] at hst; cases hst
      · exact h2 t' hh (Or.inr (Or.inr ⟨v0, hst⟩))
    · exact ⟨_, _, hjl, h, rfl, Or.inl ⟨v', rfl⟩⟩

/-- The keys of the live entries, in bucket order. -/
def keys : List (Slot V) → List Key
  | [] => []
  | .full k _ :: r => k :: keys r
  | _ :: r => keys r

theorem liveCount_eq (b : List (Slot V)) : liveCount b = (keys b).length := by
  induction b with
  | nil => rfl
  | cons x r ih => cases x <;> simp [liveCount, keys, ih]

theorem mem_keys {b : List (Slot V)} {k : Key} : k ∈ keys b ↔ ∃ v, Slot.full k v ∈ b := by
  induction b with
  | nil => simp [keys]
  | cons x r ih => cases x <;> simp [keys, ih, exists_or]

theorem liveCount_le_occ (b : List (Slot V)) : liveCount b ≤ occ b := by
  induction b with
  | nil => simp [liveCount, occ]
  | cons x r ih => cases x <;> simp [liveCount, occ] <;> omega

theorem keys_set_same {b : List (Slot V)} : ∀ {j : Nat} {k : Key} {v0 v : V}, b[j]? = some (.full k v0) →
    keys (b.set j (.full k v)) = keys b := by
  induction b with
  | nil => intro j k v0 v h; simp at h
  | cons x r ih =>
    intro j k v0 v h
    cases j with
    | zero => simp at h; subst h; rfl
    | succ j =>
      have := ih (v := v) (by simpa using h : r[j]? = _)
      cases x <;> simp [keys, this]

theorem keys_set_new {b : List (Slot V)} : ∀ {j : Nat} {k : Key} {v : V}, (b[j]? = some .empty ∨ b[j]? = some .tomb) →
    (keys (b.set j (.full k v))).Perm (k :: keys b) := by
  induction b with
  | nil => intro j k v h; simp at h
  | cons x r ih =>
    intro j k v h
    cases j with
    | zero => rcases h with h | h <;> simp at h <;> subst h <;> exact List.Perm.refl _
    | succ j =>
      have := ih (v := v) (k := k) (by simpa using h : r[j]? = _ ∨ _)
      cases x with
      | empty => simpa [keys] using this
      | tomb => simpa [keys] using this
      | full k' v' =>
        simp only [List.set_cons_succ, keys]
        exact (this.cons k').trans (List.Perm.swap _ _ _)

theorem keys_set_tomb {b : List (Slot V)} : ∀ {j : Nat} {k : Key} {v : V}, b[j]? = some (.full k v) →
    (keys b).Perm (k :: keys (b.set j .tomb)) := by
  induction b with
  | nil => intro j k v h; simp at h
  | cons x r ih =>
    intro j k v h
    cases j with
    | zero => simp at h; subst h; exact List.Perm.refl _
    | succ j =>
      have := ih (by simpa using h : r[j]? = _)
      cases x with
      | empty => simpa [keys] using this
      | tomb => simpa [keys] using this
      | full k' v' =>
        simp only [List.set_cons_succ, keys]
        exact (this.cons k').trans (List.Perm.swap _ _ _)

/-- With no duplicate keys, a lookup sees exactly the live entry. -/
theorem sees_some_iff {b : List (Slot V)} (hr : Reach b) (hocc : occ b < b.length) (hnd : (keys b).Nodup)
    (k : Key) (v : V) : Sees b k (some v) ↔ Slot.full k v ∈ b := by
  constructor
  · rintro ⟨t, f, c⟩
    rcases c with ⟨_, c⟩ | ⟨v', c, e⟩
    · cases c
    · cases e; exact List.mem_of_getElem? c
  · intro hmem
    have key : ∀ v', Sees b k (some v') → v' = v := by
      rintro v' ⟨t, f, c⟩
      rcases c with ⟨_, c⟩ | ⟨v'', c, e⟩
      · cases c
      · cases e
        have hm' : Slot.full k v' ∈ b := List.mem_of_getElem? c
        clear f c hr hocc
        induction b with
        | nil => simp at hmem
        | cons x r ih =>
          rcases List.mem_cons.mp hmem with h1 | h1 <;> rcases List.mem_cons.mp hm' with h2 | h2
          · rw [← h1] at h2; cases h2; rfl
          · subst h1
            have := (List.nodup_cons.mp (by simpa [keys] using hnd)).1
            exact absurd (mem_keys.mpr ⟨_, h2⟩) this
          · subst h2
            have := (List.nodup_cons.mp (by simpa [keys] using hnd)).1
            exact absurd (mem_keys.mpr ⟨_, h1⟩) this
          · apply ih _ h1 h2
            cases x with
            | empty => simpa [keys] using hnd
            | tomb => simpa [keys] using hnd
            | full k' v' => exact (List.nodup_cons.mp (by simpa [keys] using hnd)).2
    obtain ⟨r, _, hs⟩ := get_sees (m := ⟨b, 0⟩) hocc k
    cases r with
    | some v' => rw [key v' hs] at hs; exact hs
    | none =>
      exfalso
      obtain ⟨t, f, c⟩ := hs
      rcases c with ⟨c, _⟩ | ⟨v', _, e⟩
      · obtain ⟨j, hj⟩ := List.mem_iff_getElem?.mp hmem
        have hjl' : j < b.length := by
          rcases Nat.lt_or_ge j b.length with h | h
          · exact h
          · rw [List.getElem?_eq_none h] at hj; cases hj
        obtain ⟨t', ht', e⟩ := probe_surj (fnvHash k) j hjl'
        have hst : slotAt b k t' = some (.full k v) := by unfold slotAt; rw [e]; exact hj
        rcases Nat.lt_trichotomy t t' with hh | hh | hh
        · exact hr k v t' ht' hst t hh c
        · subst hh; simp only at c; rw [hst] at c; cases c
        · exact f.2.2 t' hh (Or.inr ⟨v, hst⟩)
      · cases e

theorem sees_none_iff {b : List (Slot V)} (hr : Reach b) (hocc : occ b < b.length) (hnd : (keys b).Nodup)
    (k : Key) : Sees b k none ↔ k ∉ keys b := by
  constructor
  · intro h hm
    obtain ⟨v, hv⟩ := mem_keys.mp hm
    have := ((sees_some_iff hr hocc hnd k v).mpr hv).unique h
    cases this
  · intro h
    obtain ⟨r, _, hs⟩ := get_sees (m := ⟨b, 0⟩) hocc k
    cases r with
    | none => exact hs
    | some v => exact absurd (mem_keys.mpr ⟨v, (sees_some_iff hr hocc hnd k v).mp hs⟩) h

theorem newCap_spec (nkeys : Nat) : ∀ cap, 0 < cap → (∃ k, cap = 16 * 2 ^ k) →
    0 < newCap nkeys cap ∧ (∃ k, newCap nkeys cap = 16 * 2 ^ k) ∧ nkeys * 100 / newCap nkeys cap < 50 := by
  intro cap
  fun_induction newCap nkeys cap with
  | case1 cap h ih =>
    intro hc ⟨k, hk⟩
    exact ih (by omega) ⟨k+1, by rw [hk, Nat.pow_succ]; omega⟩
  | case2 cap h =>
    intro hc hk
    refine ⟨hc, hk, ?_⟩
    rcases Nat.lt_or_ge (nkeys * 100 / cap) 50 with h' | h'
    · exact h'
    · exact absurd ⟨by omega, h'⟩ h

/-- A table without tombstones. -/
def NoTomb (b : List (Slot V)) : Prop := Slot.tomb ∉ b

theorem mem_set_cases {α : Type} {l : List α} {j : Nat} {a x : α} (h : x ∈ l.set j a) : x = a ∨ x ∈ l := by
  rcases List.mem_or_eq_of_mem_set h with h | h
  · exact Or.inr h
  · exact Or.inl h

theorem mem_set_other {α : Type} {l : List α} {j : Nat} {a old x : α} (hj : l[j]? = some old) (hx : x ∈ l) (hne : x ≠ old) :
    x ∈ l.set j a := by
  obtain ⟨i, hi⟩ := List.mem_iff_getElem?.mp hx
  apply List.mem_iff_getElem?.mpr
  refine ⟨i, ?_⟩
  rw [List.getElem?_set]
  by_cases e : j = i
  · subst e; rw [hj] at hi; cases hi; exact absurd rfl hne
  · simp [e, hi]

theorem copyLive_spec : ∀ (l : List (Slot V)) (m2 : Map V), WF0 m2 → NoTomb m2.buckets → (keys m2.buckets).Nodup →
    0 < m2.buckets.length → 16 ≤ m2.buckets.length →
    (m2.used + liveCount l) * 100 / m2.buckets.length < 50 →
    ∃ m', copyLive l m2 = .ok m' ∧ WF0 m' ∧ NoTomb m'.buckets ∧ (keys m'.buckets).Nodup ∧
      m'.buckets.length = m2.buckets.length ∧ m'.used ≤ m2.used + liveCount l ∧
      (m'.used = m2.used + liveCount l →
        (keys l).Nodup ∧ (∀ k ∈ keys l, k ∉ keys m2.buckets) ∧
        ∀ k v, Slot.full k v ∈ m'.buckets ↔ (Slot.full k v ∈ m2.buckets ∨ Slot.full k v ∈ l)) ∧
      ((keys l).Nodup → (∀ k ∈ keys l, k ∉ keys m2.buckets) → m'.used = m2.used + liveCount l) := by
  intro l
  induction l with
  | nil =>
    intro m2 w nt nd hp h16 hu
    exact ⟨m2, rfl, w, nt, nd, rfl, by simp [liveCount], by simp [keys], by simp [liveCount]⟩
  | cons x l ih =>
    intro m2 w nt nd hp h16 hu
    cases x with
    | empty =>
      obtain ⟨m', a1, a2, a3, a4, a5, a6, a7, a8⟩ := ih m2 w nt nd hp h16 (by simpa [liveCount] using hu)
      exact ⟨m', by simpa [copyLive] using a1, a2, a3, a4, a5, by simpa [liveCount] using a6,
        by simpa [keys, liveCount] using a7, by simpa [keys, liveCount] using a8⟩
    | tomb =>
      obtain ⟨m', a1, a2, a3, a4, a5, a6, a7, a8⟩ := ih m2 w nt nd hp h16 (by simpa [liveCount] using hu)
      exact ⟨m', by simpa [copyLive] using a1, a2, a3, a4, a5, by simpa [liveCount] using a6,
        by simpa [keys, liveCount] using a7, by simpa [keys, liveCount] using a8⟩
    | full k v =>
      have hu' : (m2.used + (liveCount l + 1)) * 100 < 50 * m2.buckets.length :=
        (Nat.div_lt_iff_lt_mul hp).mp (by simpa [liveCount] using hu)
      have hhigh : overHigh m2 = false := by
        simp only [overHigh, decide_eq_false_iff_not, Nat.not_le, ge_iff_le]
        rw [Nat.div_lt_iff_lt_mul hp]; omega
      obtain ⟨m1, b1, b2, b3, b4, b5, b6, j, old, b7, b8, b9, b10⟩ :=
        putRaw_main w (by omega) k v
      have hstep : putInRehash m2 k v = .ok m1 := by simp [putInRehash, hhigh, b1]
      have hold : (∃ v0, old = .full k v0 ∧ m1.used = m2.used) ∨
          (old = .empty ∧ m1.used = m2.used + 1 ∧ ∀ v0, Slot.full k v0 ∉ m2.buckets) := by
        rcases b10 with ⟨v0, e⟩ | e | e
        · refine Or.inl ⟨v0, e, ?_⟩
          have := occ_set m2.buckets j (.full k v) old b8
          rw [← b9, ← b2.usedEq, ← w.usedEq, e] at this
          simpa [isE] using this
        · subst e; exact absurd (List.mem_of_getElem? b8) nt
        · exact Or.inr e
      have nt1 : NoTomb m1.buckets := by
        rw [b9]; intro h
        rcases mem_set_cases h with h | h
        · cases h
        · exact nt h
      have nd1 : (keys m1.buckets).Nodup := by
        rw [b9]
        rcases hold with ⟨v0, e, _⟩ | ⟨e, _, hn⟩
        · subst e; rw [keys_set_same b8]; exact nd
        · subst e
          refine (keys_set_new (Or.inl b8)).nodup_iff.mpr (List.nodup_cons.mpr ⟨?_, nd⟩)
          intro hm; obtain ⟨v0, hv0⟩ := mem_keys.mp hm; exact hn v0 hv0
      have hub : m1.used ≤ m2.used + 1 := by omega
      obtain ⟨m', a1, a2, a3, a4, a5, a6, a7, a8⟩ := ih m1 b2 nt1 nd1 (by omega) (by omega) (by
        rw [Nat.div_lt_iff_lt_mul (by omega)]; rw [b3]; omega)
      refine ⟨m', by simp [copyLive, hstep, a1], a2, a3, a4, by omega, by simp [liveCount]; omega, ?_, ?_⟩
      · intro heq
        simp only [liveCount] at heq
        rcases hold with ⟨v0, e, hu1⟩ | ⟨e, hu1, hn⟩
        · omega
        · obtain ⟨c1, c2, c3⟩ := a7 (by omega)
          have hk1 : ∀ q, q ∈ keys m1.buckets ↔ q = k ∨ q ∈ keys m2.buckets := by
            intro q; rw [b9, (keys_set_new (Or.inl (e ▸ b8))).mem_iff]; simp
          refine ⟨?_, ?_, ?_⟩
          · simp only [keys]
            refine List.nodup_cons.mpr ⟨fun hm => c2 k hm ((hk1 k).mpr (Or.inl rfl)), c1⟩
          · intro q hq hm
            simp only [keys, List.mem_cons] at hq
            rcases hq with hq | hq
            · subst hq; obtain ⟨v0, hv0⟩ := mem_keys.mp hm; exact hn v0 hv0
            · exact c2 q hq ((hk1 q).mpr (Or.inr hm))
          · intro q w'
            rw [c3 q w']
            constructor
            · rintro (h | h)
              · rw [b9] at h
                rcases mem_set_cases h with h | h
                · rw [h]; exact Or.inr (List.mem_cons_self)
                · exact Or.inl h
              · exact Or.inr (List.mem_cons_of_mem _ h)
            · rintro (h | h)
              · left; rw [b9]; exact mem_set_other b8 h (by rw [e]; simp)
              · rcases List.mem_cons.mp h with h | h
                · left; rw [h, b9]; exact List.mem_set b7 _
                · exact Or.inr h
      · intro hnd hdis
        simp only [keys] at hnd hdis
        have ⟨hnd1, hnd2⟩ := List.nodup_cons.mp hnd
        have hk0 := hdis k List.mem_cons_self
        rcases hold with ⟨v0, e, hu1⟩ | ⟨e, hu1, hn⟩
        · exact absurd (mem_keys.mpr ⟨v0, e ▸ List.mem_of_getElem? b8⟩) hk0
        · have := a8 hnd2 (by
            intro q hq hm
            rw [b9, (keys_set_new (Or.inl (e ▸ b8))).mem_iff] at hm
            rcases List.mem_cons.mp hm with hm | hm
            · subst hm; exact hnd1 hq
            · exact hdis q (List.mem_cons_of_mem _ hq) hm)
          simp only [liveCount]; omega

theorem occ_replicate (n : Nat) : occ (List.replicate n (Slot.empty : Slot V)) = 0 := by
  induction n with
  | zero => rfl
  | succ n ih => simpa [List.replicate_succ, occ] using ih

theorem keys_replicate (n : Nat) : keys (List.replicate n (Slot.empty : Slot V)) = [] := by
  induction n with
  | zero => rfl
  | succ n ih => simpa [List.replicate_succ, keys] using ih

theorem mem_replicate_empty {n : Nat} {s : Slot V} (h : s ∈ List.replicate n (Slot.empty : Slot V)) : s = .empty :=
  (List.mem_replicate.mp h).2

theorem reach_replicate (n : Nat) : Reach (List.replicate n (Slot.empty : Slot V)) := by
  intro k v t ht h
  have := mem_replicate_empty (List.mem_of_getElem? h)
  cases this

/-- rehash: aborts on duplicate keys only; otherwise keeps what every lookup sees. -/
theorem rehash_main {m : Map V} (w : WF m) :
    (rehash m = .error .assertUsed ∧ ¬ (keys m.buckets).Nodup) ∨
    (∃ m', rehash m = .ok m' ∧ WF m' ∧ NoTomb m'.buckets ∧ (keys m.buckets).Nodup ∧ (keys m'.buckets).Nodup ∧
      m'.used * 100 / m'.buckets.length < 50 ∧
      (∀ k r, Sees m.buckets k r ↔ Sees m'.buckets k r)) := by
  obtain ⟨c1, c2, c3⟩ := newCap_spec (liveCount m.buckets) m.buckets.length w.pos w.pow
  have h16 : 16 ≤ newCap (liveCount m.buckets) m.buckets.length := by
    obtain ⟨k, hk⟩ := c2
    have : 0 < 2 ^ k := Nat.two_pow_pos k
    omega
  obtain ⟨m', a1, a2, a3, a4, a5, a6, a7, a8⟩ := copyLive_spec m.buckets
    ⟨List.replicate (newCap (liveCount m.buckets) m.buckets.length) .empty, 0⟩
    ⟨reach_replicate _, (occ_replicate _).symm⟩
    (fun h => by cases mem_replicate_empty h) (by simp [keys_replicate]) (by simpa using c1) (by simpa using h16)
    (by simpa using c3)
  simp only [List.length_replicate, Nat.zero_add] at a5 a6 a7 a8
  by_cases e : m'.used = liveCount m.buckets
  · right
    obtain ⟨d1, d2, d3⟩ := a7 e
    have hsmall : m'.used * 100 / m'.buckets.length < 50 := by rw [e, a5]; exact c3
    have hlt : m'.used < m'.buckets.length := by
      have := (Nat.div_lt_iff_lt_mul (by omega : 0 < m'.buckets.length)).mp hsmall
      omega
    have w' : WF m' := ⟨a2.reach, a2.usedEq, hlt, a5 ▸ c2⟩
    refine ⟨m', by simp [rehash, a1, e], w', a3, d1, a4, hsmall, ?_⟩
    have o1 : occ m.buckets < m.buckets.length := by rw [← w.usedEq]; exact w.room
    have o2 : occ m'.buckets < m'.buckets.length := by rw [← w'.usedEq]; exact w'.room
    have d3' : ∀ k v, Slot.full k v ∈ m'.buckets ↔ Slot.full k v ∈ m.buckets := by
      intro k v
      rw [d3]
      constructor
      · rintro (h | h)
        · cases mem_replicate_empty h
        · exact h
      · exact Or.inr
    intro k r
    cases r with
    | some v => rw [sees_some_iff w.reach o1 d1, sees_some_iff w'.reach o2 a4, d3']
    | none =>
      rw [sees_none_iff w.reach o1 d1, sees_none_iff w'.reach o2 a4, mem_keys, mem_keys]
      simp only [d3']
  · left
    refine ⟨by simp [rehash, a1, e], fun hnd => e (a8 hnd ?_)⟩
    intro k _ hk; simp [keys_replicate] at hk

end Toycc.HashMap
