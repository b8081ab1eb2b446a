import Verif.Util.Model
/-! Properties C05 (string array), C61 (alignment, llog2), C62 (token comparison). -/
namespace Toycc.Util

/-! ### C05 -/

/-- The array holds exactly the strings `l`. -/
def Holds {S : Type} (a : StrArray S) (l : List S) : Prop :=
  a.len = l.length ∧ a.len ≤ a.cells.length ∧ a.cells.take a.len = l.map some

theorem push_holds {S : Type} (a : StrArray S) (l : List S) (s : S) (h : Holds a l) :
    ∃ a', push a s = some a' ∧ Holds a' (l ++ [s]) := by
  obtain ⟨h1, h2, h3⟩ := h
  have key : ∀ c : List (Option S), a.len < c.length → c.take a.len = l.map some →
      Holds ⟨c.set a.len (some s), a.len + 1⟩ (l ++ [s]) := by
    intro c hc ht
    refine ⟨by simp [h1], by simp; omega, ?_⟩
    simp only [List.map_append, List.map_cons, List.map_nil]
    rw [List.take_add_one, List.getElem?_set_self hc, List.take_set_of_le (Nat.le_refl _), ht]
    rfl
  unfold push
  by_cases e : a.cells = []
  · have hl : a.len = 0 := by rw [e] at h2; simpa using h2
    have hl' : l = [] := by cases l with
      | nil => rfl
      | cons x r => simp [hl] at h1
    refine ⟨_, by rw [if_pos e]; simp [hl]; rfl, ?_⟩
    subst hl'
    refine ⟨by simp, by simp, by simp⟩
  · rw [if_neg e]
    by_cases e2 : a.cells.length = a.len
    · have hpos : 0 < a.cells.length := List.length_pos_iff.mpr e
      have hlt : a.len < (a.cells ++ List.replicate a.cells.length none).length := by simp; omega
      refine ⟨_, by simp only [if_pos e2, if_pos hlt]; rfl, ?_⟩
      apply key _ hlt
      rw [List.take_append_of_le_length h2, h3]
    · have hlt : a.len < a.cells.length := by omega
      refine ⟨_, by simp only [if_neg e2, if_pos hlt]; rfl, ?_⟩
      exact key _ hlt h3

/-- **C05** After any pushes on a new array every store was in bounds, `len` is the number of pushes and the
first `len` cells are the pushed strings in order. -/
theorem C05_pushAll {S : Type} (l : List S) :
    ∃ a, pushAll StrArray.new l = some a ∧ a.len = l.length ∧ ∀ i (h : i < l.length), a.cells[i]? = some (some l[i]) := by
  have gen : ∀ (l l0 : List S) (a : StrArray S), Holds a l0 → ∃ a', pushAll a l = some a' ∧ Holds a' (l0 ++ l) := by
    intro l
    induction l with
    | nil => intro l0 a h; exact ⟨a, rfl, by simpa using h⟩
    | cons s l ih =>
      intro l0 a h
      obtain ⟨a1, e1, h1⟩ := push_holds a l0 s h
      obtain ⟨a2, e2, h2⟩ := ih _ _ h1
      exact ⟨a2, by simp [pushAll, e1, e2], by simpa using h2⟩
  obtain ⟨a, e, h1, h2, h3⟩ := gen l [] StrArray.new ⟨rfl, by simp [StrArray.new], rfl⟩
  simp only [List.nil_append] at h1 h3
  refine ⟨a, e, h1, ?_⟩
  intro i hi
  have : (a.cells.take a.len)[i]? = some (some l[i]) := by rw [h3]; simp [hi]
  rwa [List.getElem?_take_of_lt (by omega)] at this

/-- A case with two growth steps. -/
example : ((pushAll StrArray.new (List.range 17)).map fun a => (a.len, a.cells.length, a.cells[16]?)) = some (17, 32, some (some 16)) := by
  decide

/-! ### C61 -/

/-- **C61** align_to gives the least multiple of the alignment that is at least `n`. -/
theorem C61_alignTo (n a : Int) (hn : 0 ≤ n) (ha : 0 < a) :
    ∃ r, alignTo n a = some r ∧ a ∣ r ∧ n ≤ r ∧ ∀ s, a ∣ s → n ≤ s → r ≤ s := by
  refine ⟨_, by simp only [alignTo, if_neg (Int.ne_of_gt ha)]; rfl, Int.dvd_mul_left _ _, ?_, ?_⟩
  · rw [Int.tdiv_eq_ediv_of_nonneg (by omega)]
    have := Int.mul_ediv_add_emod (n + a - 1) a
    have := Int.emod_lt_of_pos (n + a - 1) ha
    rw [Int.mul_comm]; omega
  · rintro s ⟨k, rfl⟩ hs
    rw [Int.tdiv_eq_ediv_of_nonneg (by omega), Int.mul_comm]
    apply Int.mul_le_mul_of_nonneg_left _ (by omega)
    have h1 : n + a - 1 < a * (k + 1) := by rw [Int.mul_add]; omega
    have := Int.ediv_lt_of_lt_mul ha (by rw [Int.mul_comm] at h1; exact h1)
    omega

/-- **C61** align_down gives the greatest multiple of the alignment that is at most `n`. -/
theorem C61_alignDown (n a : Int) (hn : 0 ≤ n) (ha : 0 < a) :
    ∃ r, alignDown n a = some r ∧ a ∣ r ∧ r ≤ n ∧ ∀ s, a ∣ s → s ≤ n → s ≤ r := by
  have e : n - a + 1 + a - 1 = n := by omega
  refine ⟨_, by simp only [alignDown, alignTo, if_neg (Int.ne_of_gt ha), e]; rfl, Int.dvd_mul_left _ _, ?_, ?_⟩
  · rw [Int.tdiv_eq_ediv_of_nonneg (by omega)]
    have := Int.mul_ediv_add_emod n a
    have := Int.emod_nonneg n (Int.ne_of_gt ha)
    rw [Int.mul_comm]; omega
  · rintro s ⟨k, rfl⟩ hs
    rw [Int.tdiv_eq_ediv_of_nonneg (by omega), Int.mul_comm (n / a)]
    apply Int.mul_le_mul_of_nonneg_left _ (by omega)
    exact (Int.le_ediv_iff_mul_le ha).mpr (by rw [Int.mul_comm]; exact hs)

example : alignTo 5 8 = some 8 ∧ alignTo 16 8 = some 16 ∧ alignDown 15 8 = some 8 ∧ alignDown 0 4 = some 0 := by decide

theorem llog2Loop_pow (k ret : Nat) : llog2Loop (2 ^ k) ret = some (ret + k) := by
  induction k generalizing ret with
  | zero => unfold llog2Loop; simp
  | succ k ih =>
    unfold llog2Loop
    have h1 : 1 < 2 ^ (k + 1) := by have := Nat.two_pow_pos k; rw [Nat.pow_succ]; omega
    have h2 : 2 ^ (k + 1) % 2 = 0 := by rw [Nat.pow_succ]; simp
    have h3 : 2 ^ (k + 1) / 2 = 2 ^ k := by rw [Nat.pow_succ]; simp
    rw [if_pos h1, if_neg (by omega), h3, ih]
    congr 1; omega

theorem llog2Loop_inv (n ret r : Nat) (hn : 0 < n) (h : llog2Loop n ret = some r) : ∃ k, n = 2 ^ k ∧ r = ret + k := by
  fun_induction llog2Loop n ret with
  | case1 n ret h1 h2 => cases h
  | case2 n ret h1 h2 ih =>
    obtain ⟨k, h3, h4⟩ := ih (by omega) h
    refine ⟨k + 1, ?_, by omega⟩
    rw [Nat.pow_succ]; omega
  | case3 n ret h1 => cases h; exact ⟨0, by simp; omega, rfl⟩

/-- **C61** llog2 gives `k` exactly for `2^k`, and reports an error for every other number above one. -/
theorem C61_llog2 (n : Int) (k : Nat) (hn : 0 < n) : llog2 n = some k ↔ n = 2 ^ k := by
  unfold llog2
  constructor
  · intro h
    obtain ⟨j, h1, h2⟩ := llog2Loop_inv _ _ _ (by omega) h
    have : j = k := by omega
    subst this
    have h3 : n = ((n.toNat : Nat) : Int) := by omega
    rw [h3, h1]; simp
  · intro h
    have : n.toNat = 2 ^ k := by rw [h]; exact Int.toNat_natCast (2 ^ k)
    rw [this, llog2Loop_pow]; simp

example : llog2 8 = some 3 ∧ llog2 12 = none ∧ llog2 1 = some 0 := by decide +kernel

/-! ### C62 -/

theorem memcmpEq_spec : ∀ (t rest op : List UInt8), (0 : UInt8) ∉ t →
    memcmpEq t.length (t ++ rest) (op ++ [0]) = some (decide (t <+: op)) := by
  intro t
  induction t with
  | nil => intro rest op _; simp [memcmpEq]
  | cons x t ih =>
    intro rest op h0
    cases op with
    | nil =>
      have : x ≠ 0 := fun e => h0 (by simp [e])
      simp [memcmpEq, this]
    | cons y op =>
      simp only [List.length_cons, List.cons_append, memcmpEq]
      by_cases e : x = y
      · subst e
        rw [if_pos rfl, ih rest op (fun h => h0 (List.mem_cons_of_mem _ h))]
        simp [List.cons_prefix_cons]
      · rw [if_neg e]; simp [List.cons_prefix_cons, e]

/-- **C62** `equal` reads nothing outside its objects and holds exactly when the token's spelling is `op`.
(Token spellings and C string literals contain no NUL byte.) -/
theorem C62_equal (spelling rest op : List UInt8) (h0 : (0 : UInt8) ∉ spelling) (h1 : (0 : UInt8) ∉ op) :
    equal (spelling ++ rest) spelling.length op = some (decide (spelling = op)) := by
  unfold equal
  rw [memcmpEq_spec spelling rest op h0]
  by_cases hp : spelling <+: op
  · obtain ⟨s, rfl⟩ := hp
    simp only [List.prefix_append, decide_true]
    cases s with
    | nil => simp
    | cons y s =>
      have : y ≠ 0 := fun e => h1 (by simp [e])
      simp [this]
  · have hne : spelling ≠ op := fun e => hp (e ▸ List.prefix_refl _)
    simp [hp, hne]

example : equal [0x69, 0x66, 0x20] 2 [0x69, 0x66] = some true ∧ equal [0x69, 0x66, 0x20] 2 [0x69, 0x66, 0x66] = some false ∧
    equal [0x69, 0x66, 0x20] 2 [0x69] = some false := by decide

end Toycc.Util
