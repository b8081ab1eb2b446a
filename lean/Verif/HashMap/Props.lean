import Verif.HashMap.Lemmas
import Verif.HashMap.Spec
/-! Property theorems C01-C04 about hashmap.c. -/
namespace Toycc.HashMap
variable {V : Type}

/-- Invariant of every reachable map. -/
def Good (m : Map V) : Prop := (m.buckets = [] ∧ m.used = 0) ∨ WF m

theorem get_new {m : Map V} (h : m.buckets = []) (k : Key) : get m k = .ok none := by
  simp [get, getEntry, h]

theorem WF.occ_lt {m : Map V} (w : WF m) : occ m.buckets < m.buckets.length := by
  have := w.room; have := w.usedEq; omega

theorem put_good {m : Map V} (g : Good m) (k : Key) (v : V) :
    (put m k v = .error .assertUsed ∧ ¬ (keys m.buckets).Nodup) ∨
    ∃ m', put m k v = .ok m' ∧ WF m' ∧ get m' k = .ok (some v) ∧ (∀ k2, k2 ≠ k → get m' k2 = get m k2) ∧
      ((keys m.buckets).Nodup → (NoTomb m.buckets ∨ k ∉ keys m.buckets) → (keys m'.buckets).Nodup) ∧
      (NoTomb m.buckets → NoTomb m'.buckets) := by
  have core : ∀ m1 : Map V, WF0 m1 → (∃ k, m1.buckets.length = 16 * 2 ^ k) →
      m1.used + 1 < m1.buckets.length →
      ∃ m', putRaw m1 k v = .ok m' ∧ WF m' ∧ get m' k = .ok (some v) ∧ (∀ k2, k2 ≠ k → get m' k2 = get m1 k2) ∧
      ((keys m1.buckets).Nodup → (NoTomb m1.buckets ∨ k ∉ keys m1.buckets) → (keys m'.buckets).Nodup) ∧
      (NoTomb m1.buckets → NoTomb m'.buckets) := by
    intro m1 w hp hroom
    obtain ⟨m', b1, b2, b3, b4, b5, b6, j, old, b7, b8, b9, b10⟩ := putRaw_main w hroom k v
    have w' : WF m' := ⟨b2.reach, b2.usedEq, by omega, b3 ▸ hp⟩
    refine ⟨m', b1, w', (get_eq_iff w'.occ_lt _ _).mpr b5, ?_, ?_, ?_⟩
    · intro k2 hk
      have ho : occ m1.buckets < m1.buckets.length := by have := w.usedEq; omega
      obtain ⟨r, h1, h2⟩ := get_sees ho k2
      rw [h1]; exact (get_eq_iff w'.occ_lt _ _).mpr (b6 k2 r hk h2)
    · intro nd hc
      rw [b9]
      rcases b10 with ⟨v0, e⟩ | e | ⟨e, _, hn⟩
      · subst e; rw [keys_set_same b8]; exact nd
      · subst e
        refine (keys_set_new (Or.inr b8)).nodup_iff.mpr (List.nodup_cons.mpr ⟨?_, nd⟩)
        rcases hc with hc | hc
        · exact absurd (List.mem_of_getElem? b8) hc
        · exact hc
      · subst e
        refine (keys_set_new (Or.inl b8)).nodup_iff.mpr (List.nodup_cons.mpr ⟨?_, nd⟩)
        intro hm; obtain ⟨v0, hv0⟩ := mem_keys.mp hm; exact hn v0 hv0
    · intro nt h
      rw [b9] at h
      rcases mem_set_cases h with h | h
      · cases h
      · exact nt h
  rcases g with ⟨g1, g2⟩ | w
  · right
    obtain ⟨m', a1, a2, a3, a4, a5, a6⟩ := core ⟨List.replicate 16 .empty, m.used⟩
      ⟨reach_replicate _, by rw [g2]; exact (occ_replicate 16).symm⟩ ⟨0, by simp⟩ (by simp [g2])
    refine ⟨m', by rw [put, if_pos g1]; exact a1, a2, a3, ?_, ?_, ?_⟩
    · intro k2 hk
      rw [a4 k2 hk, get_new g1]
      have hk0 := keys_replicate (V := V) 16
      have ho : occ (List.replicate 16 (Slot.empty : Slot V)) < (List.replicate 16 (Slot.empty : Slot V)).length := by
        rw [occ_replicate, List.length_replicate]; omega
      exact (get_eq_iff (m := ⟨_, m.used⟩) ho _ _).mpr
        ((sees_none_iff (reach_replicate _) ho (by rw [hk0]; exact List.nodup_nil) k2).mpr (by rw [hk0]; exact List.not_mem_nil))
    · intro _ _
      have hk0 := keys_replicate (V := V) 16
      exact a5 (by rw [hk0]; exact List.nodup_nil) (Or.inr (by rw [hk0]; exact List.not_mem_nil))
    · intro _; exact a6 (fun h => by cases mem_replicate_empty h)
  · have hne : m.buckets ≠ [] := by intro e; have := w.pos; simp [e] at this
    by_cases ho : overHigh m
    · rcases rehash_main w with ⟨h1, h2⟩ | ⟨m1, h1, w1, nt1, nd0, nd1, hs, hv⟩
      · left; exact ⟨by simp [put, hne, ho, h1], h2⟩
      · right
        obtain ⟨m', a1, a2, a3, a4, a5, a6⟩ := core m1 w1.toWF0 w1.pow (by
          have := (Nat.div_lt_iff_lt_mul w1.pos).mp hs
          have := w1.ge16; omega)
        refine ⟨m', by simp [put, hne, ho, h1, a1], a2, a3, ?_, ?_, ?_⟩
        · intro k2 hk
          rw [a4 k2 hk]
          obtain ⟨r, h1, h2⟩ := get_sees w.occ_lt k2
          rw [h1]; exact (get_eq_iff w1.occ_lt _ _).mpr ((hv k2 r).mp h2)
        · intro _ _; exact a5 nd1 (Or.inl nt1)
        · intro _; exact a6 nt1
    · right
      have hroom : m.used + 1 < m.buckets.length := by
        simp only [overHigh, decide_eq_true_eq, ge_iff_le, Nat.not_le] at ho
        have := (Nat.div_lt_iff_lt_mul w.pos).mp ho
        have := w.ge16; omega
      obtain ⟨m', a1, a2⟩ := core m w.toWF0 w.pow hroom
      exact ⟨m', by simp [put, hne, ho, a1], a2⟩

theorem delete_good {m : Map V} (g : Good m) (k : Key) :
    ∃ m', delete m k = .ok m' ∧ Good m' ∧ (∀ k2, k2 ≠ k → get m' k2 = get m k2) ∧
      ((keys m.buckets).Nodup → (keys m'.buckets).Nodup ∧ get m' k = .ok none) := by
  rcases g with ⟨g1, g2⟩ | w
  · exact ⟨m, by simp [delete, getEntry, g1], Or.inl ⟨g1, g2⟩, fun _ _ => rfl, fun h => ⟨h, get_new g1 k⟩⟩
  · obtain ⟨t, f, h⟩ := getEntry_spec w.occ_lt k
    rcases h with ⟨a, e⟩ | ⟨v, a, e⟩
    · refine ⟨m, by simp [delete, e], Or.inr w, fun _ _ => rfl, fun h => ⟨h, ?_⟩⟩
      exact (get_eq_iff w.occ_lt _ _).mpr ⟨t, f, Or.inl ⟨a, rfl⟩⟩
    · have hjl := probe_lt (cap := m.buckets.length) (fnvHash k) t w.pos
      have hocc := occ_set m.buckets _ .tomb _ a
      simp [isE] at hocc
      have w' : WF { m with buckets := m.buckets.set (probe m.buckets.length (fnvHash k) t) .tomb } :=
        ⟨reach_set_tomb w.reach _, by rw [w.usedEq]; exact hocc.symm, by simpa using w.room, by simpa using w.pow⟩
      have ho := w'.occ_lt
      refine ⟨_, by simp [delete, e], Or.inr w', ?_, ?_⟩
      · intro k2 hk
        obtain ⟨r, h1, h2⟩ := get_sees w.occ_lt k2
        rw [h1]; exact (get_eq_iff ho _ _).mpr (sees_set_tomb hjl a hk h2)
      · intro nd
        have hp := keys_set_tomb a
        have nd' := List.nodup_cons.mp (hp.nodup_iff.mp nd)
        exact ⟨nd'.2, (get_eq_iff ho _ _).mpr ((sees_none_iff w'.reach ho nd'.2 k).mpr nd'.1)⟩

theorem good_new : Good (Map.new : Map V) := Or.inl ⟨rfl, rfl⟩

theorem run_good : ∀ (ops : List (Op V)) (m m' : Map V), Good m → run m ops = .ok m' → Good m' := by
  intro ops
  induction ops with
  | nil => intro m m' g h; cases h; exact g
  | cons o ops ih =>
    intro m m' g h
    simp only [run] at h
    cases o with
    | put k v =>
      rcases put_good g k v with ⟨e, _⟩ | ⟨m1, e, w, _⟩
      · simp [step, e] at h
      · simp only [step, e] at h; exact ih m1 m' (Or.inr w) h
    | del k =>
      obtain ⟨m1, e, w, _⟩ := delete_good g k
      simp only [step, e] at h; exact ih m1 m' w h

/-- **C01** A lookup after an insertion returns the inserted value, and no other key is affected,
after any history. -/
theorem C01_put_get (ops : List (Op V)) (m m' : Map V) (k : Key) (v : V)
    (h : run Map.new ops = .ok m) (hp : put m k v = .ok m') :
    get m' k = .ok (some v) ∧ ∀ k2, k2 ≠ k → get m' k2 = get m k2 := by
  rcases put_good (run_good ops _ _ good_new h) k v with ⟨e, _⟩ | ⟨m1, e, _, h1, h2, _⟩
  · rw [e] at hp; cases hp
  · rw [e] at hp; cases hp; exact ⟨h1, h2⟩

/-- **C01** A deletion affects no other key, after any history. -/
theorem C01_delete_frame (ops : List (Op V)) (m m' : Map V) (k : Key)
    (h : run Map.new ops = .ok m) (hd : delete m k = .ok m') :
    ∀ k2, k2 ≠ k → get m' k2 = get m k2 := by
  obtain ⟨m1, e, _, h1, _⟩ := delete_good (run_good ops _ _ good_new h) k
  rw [e] at hd; cases hd; exact h1

/-- The hypotheses of C01 are met by a history with a collision, a tombstone and a resize. -/
example : ∃ m : Map Nat,
    run Map.new ([.put [0x61] 1, .put [0x71] 2, .del [0x61]] ++
      (List.range 11).map (fun i => .put [0x30 + i.toUInt8] i)) = .ok m ∧
    m.buckets.length = 16 ∧ get m [0x71] = .ok (some 2) ∧
    ((put m [0x71] 5).bind fun m' => get m' [0x71]) = .ok (some 5) ∧
    ((put m [0x71] 5).map fun m' => m'.buckets.length) = .ok 32 := by
  apply exists_ok
  decide +kernel

/-- Simulation of disciplined histories. -/
theorem run_spec : ∀ (ops : List (Op V)) (m : Map V) (deleted : Bool) (f : Key → Option V),
    Good m → (keys m.buckets).Nodup → (deleted = false → NoTomb m.buckets) → (∀ k, get m k = .ok (f k)) →
    Disciplined deleted f ops →
    ∃ m', run m ops = .ok m' ∧ ∀ k, get m' k = .ok (specFrom f ops k) := by
  intro ops
  induction ops with
  | nil => intro m d f g nd nt hf _; exact ⟨m, rfl, hf⟩
  | cons o ops ih =>
    intro m d f g nd nt hf hd
    cases o with
    | put k v =>
      simp only [Disciplined] at hd
      have hcase : NoTomb m.buckets ∨ k ∉ keys m.buckets := by
        cases d with
        | false => exact Or.inl (nt rfl)
        | true =>
          right
          rcases g with ⟨g1, _⟩ | w
          · simp [g1, keys]
          · have := hf k; rw [hd.1 rfl] at this
            exact (sees_none_iff w.reach w.occ_lt nd k).mp ((get_eq_iff w.occ_lt _ _).mp this)
      rcases put_good g k v with ⟨_, e⟩ | ⟨m1, e, w, h1, h2, h3, h4⟩
      · exact absurd nd e
      · obtain ⟨m', r1, r2⟩ := ih m1 d (specStep f (.put k v)) (Or.inr w) (h3 nd hcase) (fun hdf => h4 (nt hdf))
          (by
            intro q
            by_cases hq : q = k
            · subst hq; simp [h1, specStep]
            · rw [h2 q hq, hf q]; simp [specStep, hq]) hd.2
        exact ⟨m', by simp [run, step, e, r1], r2⟩
    | del k =>
      simp only [Disciplined] at hd
      obtain ⟨m1, e, g1, h1, h2⟩ := delete_good g k
      obtain ⟨m', r1, r2⟩ := ih m1 true (specStep f (.del k)) g1 (h2 nd).1 (by simp)
          (by
            intro q
            by_cases hq : q = k
            · subst hq; simp [(h2 nd).2, specStep]
            · rw [h1 q hq, hf q]; simp [specStep, hq]) hd
      exact ⟨m', by simp [run, step, e, r1], r2⟩

theorem disciplined_of_deleteFree : ∀ (ops : List (Op V)) (f : Key → Option V), DeleteFree ops → Disciplined false f ops := by
  intro ops
  induction ops with
  | nil => intro f _; trivial
  | cons o ops ih =>
    intro f h
    cases o with
    | put k v => exact ⟨by simp, ih _ (fun q hq => h q (List.mem_cons_of_mem _ hq))⟩
    | del k => exact absurd List.mem_cons_self (h k)

/-- **C02** Without deletions the table never aborts and is exactly the mathematical finite map. -/
theorem C02_refines_map (ops : List (Op V)) (h : DeleteFree ops) :
    ∃ m, run Map.new ops = .ok m ∧ ∀ k, get m k = .ok (spec ops k) :=
  run_spec ops Map.new false _ good_new (by simp [Map.new, keys]) (fun _ => by simp [NoTomb, Map.new])
    (fun k => get_new rfl k) (disciplined_of_deleteFree ops _ h)

example : DeleteFree [Op.put [0x61] 1, .put [0x71] 2, .put [0x61] 3] ∧
    spec [Op.put [0x61] 1, .put [0x71] 2, .put [0x61] 3] [0x61] = some 3 ∧
    spec [Op.put [0x61] 1, .put [0x71] 2, .put [0x61] 3] [0x62] = none := by
  refine ⟨?_, by decide, by decide⟩
  intro k h; simp at h

/-- **C03** (partial) In a history that, after its first deletion, only puts absent keys, the table never
aborts and is exactly the mathematical finite map; in particular a deleted key is absent.
Missing: histories that overwrite a live key after some deletion, for which the claim is false
(`C03_deleted_key_resurrects`, `C03_put_aborts`). -/
theorem C03_refines_map_partial (ops : List (Op V)) (h : Disciplined false (fun _ => none) ops) :
    ∃ m, run Map.new ops = .ok m ∧ ∀ k, get m k = .ok (spec ops k) :=
  run_spec ops Map.new false _ good_new (by simp [Map.new, keys]) (fun _ => by simp [NoTomb, Map.new])
    (fun k => get_new rfl k) h

example : Disciplined false (fun _ => none)
    [Op.put [0x61] 1, .put [0x61] 5, .put [0x71] 2, .del [0x61], .put [0x61] 3, .del [0x71], .del [0x61]] := by
  simp [Disciplined, specStep]

/-- **C03 violated**: a history whose last operation deletes a key, after which the key is still found
(with the value it had before it was overwritten). "a" and "q" collide; the second put of "q" takes the
tombstone left by "a" without noticing the live entry further on. -/
theorem C03_deleted_key_resurrects :
    ∃ (ops : List (Op Nat)) (k : Key) (m : Map Nat),
      run Map.new (ops ++ [.del k]) = .ok m ∧ get m k = .ok (some 1) :=
  ⟨[.put [0x61] 0, .put [0x71] 1, .del [0x61], .put [0x71] 2], [0x71], exists_ok (by decide +kernel)⟩

/-- **C03 violated**: a history of valid operations in which a put aborts the compiler
(assertion `map2.used == nkeys` of rehash). -/
theorem C03_put_aborts :
    ∃ ops : List (Op Nat), run Map.new ops = .error .assertUsed :=
  ⟨[.put [0x61] 0, .put [0x71] 1, .del [0x61], .put [0x71] 2] ++
     (List.range 12).map (fun i => .put [0x30 + i.toUInt8] i), by decide +kernel⟩

/-- **C04** After any history that did not abort, get and delete succeed and put can only fail by the
rehash assertion (never by `unreachable()`, a nested rehash or an access outside the table);
so do all histories. -/
theorem C04_probing_ends (ops : List (Op V)) :
    (∀ e, run Map.new ops = .error e → e = .assertUsed) ∧
    (∀ m, run Map.new ops = .ok m →
      ∀ k, (∃ r, get m k = .ok r) ∧ (∃ m', delete m k = .ok m')) := by
  have key : ∀ (ops : List (Op V)) (m : Map V), Good m → ∀ e, run m ops = .error e → e = .assertUsed := by
    intro ops
    induction ops with
    | nil => intro m g e h; simp [run] at h
    | cons o ops ih =>
      intro m g e h
      cases o with
      | put k v =>
        rcases put_good g k v with ⟨e1, _⟩ | ⟨m1, e1, w, _⟩
        · simp [run, step, e1] at h; exact h.symm
        · simp only [run, step, e1] at h; exact ih m1 (Or.inr w) e h
      | del k =>
        obtain ⟨m1, e1, w, _⟩ := delete_good g k
        simp only [run, step, e1] at h; exact ih m1 w e h
  refine ⟨fun e h => key ops _ good_new e h, ?_⟩
  intro m h k
  have g := run_good ops _ _ good_new h
  refine ⟨?_, ?_⟩
  · rcases g with ⟨g1, _⟩ | w
    · exact ⟨none, get_new g1 k⟩
    · obtain ⟨r, h1, _⟩ := get_sees w.occ_lt k; exact ⟨r, h1⟩
  · obtain ⟨m', e, _⟩ := delete_good g k; exact ⟨m', e⟩

/-- The wrap-around of `hash + i` at 2^64 (dropped in `probe`) does not change the bucket index, for every
capacity `16 * 2^k` that divides 2^64; an `int` capacity always does. -/
theorem probe_wrap_harmless (h i k : Nat) (hk : k ≤ 60) :
    ((h + i) % 2 ^ 64) % (16 * 2 ^ k) = probe (16 * 2 ^ k) h i := by
  unfold probe
  apply Nat.mod_mod_of_dvd
  refine ⟨2 ^ (60 - k), ?_⟩
  have : (16 : Nat) = 2 ^ 4 := rfl
  rw [this, ← Nat.pow_add, ← Nat.pow_add]
  congr 1; omega

/-- Every reachable table has a capacity of the form covered by `probe_wrap_harmless`. -/
theorem capacity_pow (ops : List (Op V)) (m : Map V) (h : run Map.new ops = .ok m) :
    m.buckets = [] ∨ ∃ k, m.buckets.length = 16 * 2 ^ k := by
  rcases run_good ops _ _ good_new h with ⟨g, _⟩ | w
  · exact Or.inl g
  · exact Or.inr w.pow

end Toycc.HashMap
