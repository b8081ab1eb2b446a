import Verif.Layout.Spec
import Verif.Util.Props
/-! Properties C33 (struct layout), C34 (bit-field layout), C35 (unions, re-declaration). -/
namespace Toycc.Layout
open Toycc.Util

theorem ediv_eq_of_range {x n k : Int} (hn : 0 < n) (h1 : n * k ≤ x) (h2 : x < n * (k + 1)) : x / n = k := by
  have a := Int.mul_ediv_add_emod x n
  have b := Int.emod_nonneg x (Int.ne_of_gt hn)
  have c := Int.emod_lt_of_pos x hn
  have d : n * (x / n) < n * (k + 1) := by omega
  have e : n * k < n * (x / n + 1) := by rw [Int.mul_add]; omega
  have d' := Int.lt_of_mul_lt_mul_left d (by omega)
  have e' := Int.lt_of_mul_lt_mul_left e (by omega)
  omega

theorem alignTo_least (x n : Int) (hx : 0 ≤ x) (hn : 0 < n) : ∃ b, alignTo x n = some b ∧ Least (fun c => n ∣ c ∧ x ≤ c) b := by
  obtain ⟨b, h1, h2, h3, h4⟩ := C61_alignTo x n hx hn
  exact ⟨b, h1, ⟨h2, h3⟩, fun y hy => h4 y hy.1 hy.2⟩

theorem placeBits_ok (cur : Int) (m : Mem) (w : Int) (p : Place) (hc : 0 ≤ cur) (hm : m.Ok) (hw : m.width = some w) :
    ∃ p' c', placeBits cur m w p = some (p', c') ∧ Follows cur m p' c' ∧ cur ≤ c' := by
  obtain ⟨hs, h0, hle⟩ := hm.2.2 w hw
  have hn : 0 < m.size * 8 := by omega
  unfold placeBits
  by_cases hz : w = 0
  · subst hz
    rw [if_pos rfl]
    obtain ⟨b, e, hl⟩ := alignTo_least cur _ hc hn
    rw [e]
    exact ⟨p, b, rfl, .close hw hl, hl.1.2⟩
  rw [if_neg hz, if_neg (by omega)]
  have hw0 : 0 < w := by omega
  -- the start that is chosen
  have key : ∃ b, (if cur.tdiv (m.size * 8) ≠ (cur + w - 1).tdiv (m.size * 8) then alignTo cur (m.size * 8) else some cur) = some b ∧
      Least (fun s => cur ≤ s ∧ InUnit m.size s w) b := by
    rw [Int.tdiv_eq_ediv_of_nonneg hc, Int.tdiv_eq_ediv_of_nonneg (by omega)]
    by_cases hx : cur / (m.size * 8) = (cur + w - 1) / (m.size * 8)
    · rw [if_neg (by simp [hx])]
      refine ⟨cur, rfl, ⟨Int.le_refl _, cur / (m.size * 8), ?_, ?_⟩, fun y hy => hy.1⟩
      · have := Int.mul_ediv_add_emod cur (m.size * 8)
        have := Int.emod_nonneg cur (Int.ne_of_gt hn)
        omega
      · rw [hx, Int.mul_add]
        have := Int.mul_ediv_add_emod (cur + w - 1) (m.size * 8)
        have := Int.emod_lt_of_pos (cur + w - 1) hn
        omega
    · rw [if_pos hx]
      obtain ⟨b, e, ⟨⟨k, hk⟩, hb⟩, hl⟩ := alignTo_least cur _ hc hn
      refine ⟨b, e, ⟨hb, k, by omega, by rw [Int.mul_add]; omega⟩, ?_⟩
      rintro s ⟨hs1, j, hj1, hj2⟩
      by_cases hlt : b ≤ s
      · exact hlt
      · exfalso
        have h1 : ¬ cur ≤ m.size * 8 * j := fun h => by
          have := hl (m.size * 8 * j) ⟨⟨j, rfl⟩, h⟩
          omega
        apply hx
        rw [ediv_eq_of_range hn (k := j) (by omega) (by omega), ediv_eq_of_range hn (k := j) (by omega) (by omega)]
  obtain ⟨b, e, hl⟩ := key
  simp only [e]
  have hb0 : 0 ≤ b := Int.le_trans hc hl.1.1
  have hb8 : 0 ≤ b.tdiv 8 := by rw [Int.tdiv_eq_ediv_of_nonneg hb0]; omega
  have hd : alignDown (b.tdiv 8) m.size = some (b / (m.size * 8) * m.size) := by
    have e1 : b.tdiv 8 - m.size + 1 + m.size - 1 = b.tdiv 8 := by omega
    simp only [alignDown, alignTo, if_neg (Int.ne_of_gt hs), e1]
    rw [Int.tdiv_eq_ediv_of_nonneg hb8, Int.tdiv_eq_ediv_of_nonneg hb0, Int.mul_comm m.size 8, Int.ediv_ediv_of_nonneg (by omega)]
  rw [hd]
  have hrem : b.tmod (m.size * 8) = b % (m.size * 8) := Int.tmod_eq_emod_of_nonneg hb0
  have hsum : 8 * (b / (m.size * 8) * m.size) + b % (m.size * 8) = b := by
    have := Int.mul_ediv_add_emod b (m.size * 8)
    have e2 : 8 * (b / (m.size * 8) * m.size) = m.size * 8 * (b / (m.size * 8)) := by
      rw [Int.mul_comm (b / (m.size * 8)), ← Int.mul_assoc, Int.mul_comm 8]
    omega
  refine ⟨⟨b / (m.size * 8) * m.size, b % (m.size * 8)⟩, b + w, by rw [hrem], .bits w hw hw0 ?_ ?_ ?_ ?_ ?_, ?_⟩
  · rw [hsum]; exact hl
  · exact Int.dvd_mul_left _ _
  · exact Int.emod_nonneg b (Int.ne_of_gt hn)
  · obtain ⟨_, k, h1, h2⟩ := hl.1
    have : b / (m.size * 8) = k := ediv_eq_of_range hn h1 (by omega)
    have h3 := Int.mul_ediv_add_emod b (m.size * 8)
    rw [this] at h3
    rw [Int.mul_add] at h2
    show b % (m.size * 8) + w ≤ 8 * m.size
    omega
  · show b + w = 8 * (b / (m.size * 8) * m.size) + b % (m.size * 8) + w
    omega
  · have := hl.1.1; omega

theorem placePlain_ok (cur : Int) (m : Mem) (p : Place) (hc : 0 ≤ cur) (hm : m.Ok) (hw : m.width = none) :
    ∃ p' c', placePlain false cur m p = some (p', c') ∧ Follows cur m p' c' ∧ cur ≤ c' := by
  have ha := hm.2.1
  obtain ⟨b, e, ⟨⟨k, hk⟩, hb⟩, hl⟩ := alignTo_least cur (m.align * 8) hc (by omega)
  unfold placePlain
  simp only [Bool.false_eq_true, if_false, e]
  have hd : b.tdiv 8 = m.align * k := by
    have : b = m.align * k * 8 := by rw [hk, Int.mul_assoc, Int.mul_comm 8, ← Int.mul_assoc]
    rw [this]; exact Int.mul_tdiv_cancel _ (by decide)
  have h8 : 8 * (m.align * k) = b := by rw [hk, Int.mul_right_comm, Int.mul_comm]
  refine ⟨_, _, rfl, .plain hw ?_ ?_, ?_⟩
  · rw [hd]
    refine ⟨⟨⟨k, rfl⟩, by show cur ≤ 8 * (m.align * k); omega⟩, ?_⟩
    rintro y ⟨⟨j, rfl⟩, hy⟩
    show m.align * k ≤ m.align * j
    have := hl (m.align * 8 * j) ⟨⟨j, rfl⟩, by rw [Int.mul_right_comm, Int.mul_comm]; exact hy⟩
    rw [Int.mul_right_comm, Int.mul_comm] at this
    omega
  · simp only [hd, Int.mul_add, h8]; omega
  · have := hm.1; omega

theorem placeOne_ok (cur : Int) (m : Mem) (p : Place) (hc : 0 ≤ cur) (hm : m.Ok) :
    ∃ p' c', placeOne false cur m p = some (p', c') ∧ Follows cur m p' c' ∧ cur ≤ c' := by
  unfold placeOne
  cases hw : m.width with
  | none => exact placePlain_ok cur m p hc hm hw
  | some w => exact placeBits_ok cur m w p hc hm hw

theorem placeAll_ok (ms : List (Mem × Place)) : ∀ (cur align : Int), 0 ≤ cur → (∀ x ∈ ms, x.1.Ok) →
    ∃ ms' fin a, placeAll false cur align ms = some (ms', fin, a) ∧ ms'.map (·.1) = ms.map (·.1) ∧ Laid cur ms' fin ∧
      cur ≤ fin ∧ MaxAlign align ms' a := by
  induction ms with
  | nil => intro cur align _ _; exact ⟨[], cur, align, rfl, rfl, .nil _, Int.le_refl _, Int.le_refl _, by simp, .inl rfl⟩
  | cons x r ih =>
    obtain ⟨m, p⟩ := x
    intro cur align hc hok
    obtain ⟨p', c', e, hf, hle⟩ := placeOne_ok cur m p hc (hok (m, p) (List.mem_cons_self ..))
    obtain ⟨r', fin, a, e2, h1, h2, h3, h4⟩ := ih c' (if align < m.align then m.align else align) (by omega)
      (fun x hx => hok x (List.mem_cons_of_mem _ hx))
    refine ⟨(m, p') :: r', fin, a, ?_, by simp [h1], .cons hf h2, by omega, ?_⟩
    · simp only [placeAll, e, true_and, e2]
    · obtain ⟨g1, g2, g3⟩ := h4
      refine ⟨by split at g1 <;> omega, ?_, ?_⟩
      · intro x hx
        rcases List.mem_cons.mp hx with rfl | hx
        · simp only; split at g1 <;> omega
        · exact g2 x hx
      · rcases g3 with g3 | ⟨x, hx, g3⟩
        · split at g3
          · right; exact ⟨(m, p'), List.mem_cons_self .., g3⟩
          · left; exact g3
        · right; exact ⟨x, List.mem_cons_of_mem _ hx, g3⟩

/-- **C33**, **C34** The layout of a struct that is not packed: it is defined for all well-formed members; each
member is placed at the lowest possible position after the ones before it (`Laid`: ordinary members at the lowest multiple
of their alignment, bit-fields at the lowest bit such that they lie in one aligned unit of their type, width 0 closes the
unit); the alignment is the largest of all; the size is the lowest multiple of the alignment that holds all members. -/
theorem C33_struct_layout (t : Agg) (hp : t.packed = false) (hs : 0 ≤ t.size) (ha : 0 < t.align)
    (hok : ∀ x ∈ t.members, x.1.Ok) :
    ∃ t' fin, structDecl t = some t' ∧ t'.members.map (·.1) = t.members.map (·.1) ∧
      Laid 0 t'.members fin ∧ MaxAlign t.align t'.members t'.align ∧
      Least (fun n => t'.align ∣ n ∧ fin ≤ 8 * n) t'.size := by
  obtain ⟨ms', fin, a, e, h1, h2, h3, h4⟩ := placeAll_ok t.members 0 t.align (Int.le_refl _) hok
  have ha' : 0 < a := Int.lt_of_lt_of_le ha h4.1
  obtain ⟨b, eb, ⟨⟨k, hk⟩, hb⟩, hl⟩ := alignTo_least fin (a * 8) (by omega) (by omega)
  refine ⟨{ t with isUnion := false, size := b.tdiv 8, align := a, members := ms' }, fin, ?_, h1, h2, h4, ?_⟩
  · unfold structDecl; rw [if_neg (by omega), hp]; simp only [e, eb]
  · have h8 : 8 * (a * k) = b := by rw [hk, Int.mul_right_comm, Int.mul_comm]
    have hd : b.tdiv 8 = a * k := by rw [← h8, Int.mul_comm]; exact Int.mul_tdiv_cancel _ (by decide)
    simp only [hd]
    refine ⟨⟨⟨k, rfl⟩, by omega⟩, ?_⟩
    rintro y ⟨⟨j, rfl⟩, hy⟩
    have := hl (a * 8 * j) ⟨⟨j, rfl⟩, by rw [Int.mul_right_comm, Int.mul_comm]; exact hy⟩
    rw [Int.mul_right_comm, Int.mul_comm] at this
    omega

/-! ### Consequences: order, disjointness, alignment, containment -/

/-- Members that occupy space (all but bit-fields of width 0). -/
def Occupies (m : Mem) : Prop := m.width ≠ some 0

theorem follows_range {cur cur' : Int} {m : Mem} {p : Place} (h : Follows cur m p cur') (hm : m.Ok) :
    cur ≤ cur' ∧ (Occupies m → cur ≤ first m p ∧ first m p + extent m = cur') := by
  cases h with
  | plain h l n =>
    have := hm.1; have := l.1.2
    refine ⟨by omega, fun _ => ?_⟩
    simp only [first, extent, h]; omega
  | bits w h pos l u lo hi n =>
    have := l.1.1
    refine ⟨by omega, fun _ => ?_⟩
    simp only [first, extent, h]; omega
  | close h l => exact ⟨l.1.2, fun hn => absurd h hn⟩

theorem laid_range {cur fin : Int} {ms : List (Mem × Place)} (h : Laid cur ms fin) : (∀ x ∈ ms, x.1.Ok) →
    cur ≤ fin ∧ ∀ x ∈ ms, Occupies x.1 → cur ≤ first x.1 x.2 ∧ first x.1 x.2 + extent x.1 ≤ fin := by
  induction h with
  | nil cur => intro _; exact ⟨Int.le_refl _, by simp⟩
  | @cons cur mid fin m p r hf hl ih =>
    intro hok
    obtain ⟨a1, a2⟩ := ih (fun x hx => hok x (List.mem_cons_of_mem _ hx))
    obtain ⟨b1, b2⟩ := follows_range hf (hok _ (List.mem_cons_self ..))
    refine ⟨by omega, ?_⟩
    intro x hx ho
    rcases List.mem_cons.mp hx with rfl | hx
    · have := b2 ho; simp only at *; omega
    · have := a2 x hx ho; omega

theorem laid_ordered {cur fin : Int} {ms : List (Mem × Place)} (h : Laid cur ms fin) : (∀ x ∈ ms, x.1.Ok) →
    ms.Pairwise fun x y => Occupies x.1 → Occupies y.1 → first x.1 x.2 + extent x.1 ≤ first y.1 y.2 := by
  induction h with
  | nil cur => intro _; exact .nil
  | @cons cur mid fin m p r hf hl ih =>
    intro hok
    have hok' := fun x hx => hok x (List.mem_cons_of_mem _ hx)
    refine .cons ?_ (ih hok')
    intro y hy ho1 ho2
    have h1 := (follows_range hf (hok _ (List.mem_cons_self ..))).2 ho1
    have h2 := (laid_range hl hok').2 y hy ho2
    simp only at *; omega

theorem laid_mem {cur fin : Int} {ms : List (Mem × Place)} (h : Laid cur ms fin) : ∀ x ∈ ms, ∃ c c', Follows c x.1 x.2 c' := by
  induction h with
  | nil cur => simp
  | @cons cur mid fin m p r hf hl ih =>
    intro x hx
    rcases List.mem_cons.mp hx with rfl | hx
    · exact ⟨_, _, hf⟩
    · exact ih x hx

/-- **C33**, **C34** In a laid-out struct that is not packed: no two members share a bit and they are in order; every
ordinary member is at a multiple of its alignment; every bit-field lies within one unit of its type at a multiple of the
type's size; all members are inside the struct; the size is a multiple of the alignment, which is at least that of every
member. -/
theorem C33_C34_no_overlap (t t' : Agg) (hp : t.packed = false) (hs : 0 ≤ t.size) (ha : 0 < t.align)
    (hok : ∀ x ∈ t.members, x.1.Ok) (h : structDecl t = some t') :
    (t'.members.Pairwise fun x y => Occupies x.1 → Occupies y.1 → first x.1 x.2 + extent x.1 ≤ first y.1 y.2) ∧
    (∀ x ∈ t'.members, x.1.width = none → x.1.align ∣ x.2.offset) ∧
    (∀ x ∈ t'.members, ∀ w, x.1.width = some w → 0 < w →
      x.1.size ∣ x.2.offset ∧ 0 ≤ x.2.bitOffset ∧ x.2.bitOffset + w ≤ 8 * x.1.size) ∧
    (∀ x ∈ t'.members, Occupies x.1 → 0 ≤ first x.1 x.2 ∧ first x.1 x.2 + extent x.1 ≤ 8 * t'.size) ∧
    t'.align ∣ t'.size ∧ (∀ x ∈ t'.members, x.1.align ≤ t'.align) := by
  obtain ⟨t1, fin, e, h1, h2, h3, h4⟩ := C33_struct_layout t hp hs ha hok
  rw [h] at e; cases e
  have hok' : ∀ x ∈ t'.members, x.1.Ok := by
    intro x hx
    have : x.1 ∈ t.members.map (·.1) := by rw [← h1]; exact List.mem_map_of_mem hx
    obtain ⟨y, hy, e⟩ := List.mem_map.mp this
    rw [← e]; exact hok y hy
  refine ⟨laid_ordered h2 hok', ?_, ?_, ?_, h4.1.1, h3.2.1⟩
  · intro x hx hw
    obtain ⟨c, c', hf⟩ := laid_mem h2 x hx
    cases hf with
    | plain h l n => exact l.1.1
    | bits w h => rw [hw] at h; cases h
    | close h => rw [hw] at h; cases h
  · intro x hx w hw hpos
    obtain ⟨c, c', hf⟩ := laid_mem h2 x hx
    cases hf with
    | plain h l n => rw [hw] at h; cases h
    | bits w' h pos l u lo hi n => rw [hw] at h; cases h; exact ⟨u, lo, hi⟩
    | close h => rw [hw] at h; cases h; omega
  · intro x hx ho
    have := (laid_range h2 hok').2 x hx ho
    have := h4.1.2
    omega

/-- **C34** The storage unit of each bit-field lies inside the struct, if bit-fields are at least as aligned as their
type's size asks for and alignments are powers of two (true unless lowered by `_Alignas`). -/
theorem C34_unit_inside (t t' : Agg) (hp : t.packed = false) (hs : 0 ≤ t.size) (ha : ∃ k : Nat, t.align = 2 ^ k)
    (hok : ∀ x ∈ t.members, x.1.Ok ∧ (∃ k : Nat, x.1.align = 2 ^ k) ∧ (∀ w, x.1.width = some w → x.1.size ∣ x.1.align))
    (h : structDecl t = some t') :
    ∀ x ∈ t'.members, ∀ w, x.1.width = some w → 0 < w → 0 ≤ x.2.offset ∧ x.2.offset + x.1.size ≤ t'.size := by
  have ha0 : 0 < t.align := by obtain ⟨k, hk⟩ := ha; rw [hk]; exact Int.pow_pos (by decide)
  obtain ⟨t1, fin, e, h1, h2, h3, h4⟩ := C33_struct_layout t hp hs ha0 (fun x hx => (hok x hx).1)
  rw [h] at e; cases e
  have g := C33_C34_no_overlap t t' hp hs ha0 (fun x hx => (hok x hx).1) h
  have hok' : ∀ x ∈ t'.members, x.1.Ok ∧ (∃ k : Nat, x.1.align = 2 ^ k) ∧ (∀ w, x.1.width = some w → x.1.size ∣ x.1.align) := by
    intro x hx
    have : x.1 ∈ t.members.map (·.1) := by rw [← h1]; exact List.mem_map_of_mem hx
    obtain ⟨y, hy, e⟩ := List.mem_map.mp this
    rw [← e]; exact hok y hy
  have hpow : ∃ k : Nat, t'.align = 2 ^ k := by
    rcases h3.2.2 with h | ⟨y, hy, h⟩
    · rw [h]; exact ha
    · rw [h]; exact (hok' y hy).2.1
  intro x hx w hw hpos
  obtain ⟨hxo, ⟨k, hk⟩, hdv⟩ := hok' x hx
  have hsz := (hxo.2.2 w hw).1
  obtain ⟨⟨q, hq⟩, lo, hi⟩ := g.2.2.1 x hx w hw hpos
  have hin := g.2.2.2.1 x hx (by unfold Occupies; rw [hw]; simp; omega)
  simp only [first, extent, hw] at hin
  have hdiv : x.1.size ∣ t'.size := by
    refine Int.dvd_trans (hdv w hw) (Int.dvd_trans ?_ g.2.2.2.2.1)
    obtain ⟨j, hj⟩ := hpow
    have hle := g.2.2.2.2.2 x hx
    rw [hk, hj] at hle ⊢
    have : k ≤ j := by
      by_cases hkj : k ≤ j
      · exact hkj
      · exfalso
        have : (2 : Nat) ^ j < 2 ^ k := Nat.pow_lt_pow_right (by decide) (by omega)
        have h2' : ((2 ^ j : Nat) : Int) < ((2 ^ k : Nat) : Int) := Int.ofNat_lt.mpr this
        simp only [Int.natCast_pow] at h2'
        have e2 : ((2 : Nat) : Int) = 2 := rfl
        rw [e2] at h2'
        omega
    exact ⟨2 ^ (j - k), by rw [← Int.pow_add]; congr 1; omega⟩
  obtain ⟨r, hr⟩ := hdiv
  have h5 : x.1.size * q < x.1.size * r := by omega
  have h6 := Int.lt_of_mul_lt_mul_left h5 (by omega)
  have h7 : x.1.size * (q + 1) ≤ x.1.size * r := Int.mul_le_mul_of_nonneg_left (by omega) (by omega)
  rw [Int.mul_add] at h7
  have h8 : 0 < x.1.size * (q + 1) := by
    rw [Int.mul_add]; omega
  have h9 : 0 < q + 1 := Int.pos_of_mul_pos_right h8 hsz
  have h10 : 0 ≤ x.1.size * q := Int.mul_nonneg (by omega) (by omega)
  omega

/-- struct { char a; int b:5; int c:28; int :0; long d; char e:3; } -/
example : structDecl { members := [(⟨1, 1, none⟩, {}), (⟨4, 4, some 5⟩, {}), (⟨4, 4, some 28⟩, {}), (⟨4, 4, some 0⟩, {}),
      (⟨8, 8, none⟩, {}), (⟨1, 1, some 3⟩, {})] } =
    some { size := 24, align := 8, members := [(⟨1, 1, none⟩, {}), (⟨4, 4, some 5⟩, ⟨0, 8⟩), (⟨4, 4, some 28⟩, ⟨4, 0⟩),
      (⟨4, 4, some 0⟩, {}), (⟨8, 8, none⟩, ⟨8, 0⟩), (⟨1, 1, some 3⟩, ⟨16, 0⟩)] } := by decide

/-! ### Packed structs -/

/-- Sum of the sizes. -/
def totalSize (ms : List (Mem × Place)) : Int := (ms.map (·.1.size)).sum

theorem packed_all (ms : List (Mem × Place)) : ∀ (base align : Int), 0 ≤ base → (∀ x ∈ ms, x.1.width = none ∧ 0 ≤ x.1.size) →
    ∃ ms', placeAll true (8 * base) align ms = some (ms', 8 * (base + totalSize ms), align) ∧ ms'.length = ms.length ∧
      ∀ i (h : i < ms'.length) (h' : i < ms.length), ms'[i].1 = ms[i].1 ∧ ms'[i].2.offset = base + totalSize (ms.take i) := by
  induction ms with
  | nil => intro base align _ _; exact ⟨[], by simp [placeAll, totalSize], rfl, by simp⟩
  | cons x r ih =>
    obtain ⟨m, p⟩ := x
    intro base align hb h
    obtain ⟨hw, hsz⟩ := h (m, p) (List.mem_cons_self ..)
    simp only at hw hsz
    obtain ⟨r', e, hl, hi⟩ := ih (base + m.size) align (by omega) (fun x hx => h x (List.mem_cons_of_mem _ hx))
    refine ⟨(m, { p with offset := base }) :: r', ?_, by simp [hl], ?_⟩
    · have h1 : (8 * base).tdiv 8 = base := by rw [Int.mul_comm]; exact Int.mul_tdiv_cancel _ (by decide)
      have h2 : 8 * base + m.size * 8 = 8 * (base + m.size) := by omega
      simp only [placeAll, placeOne, hw, placePlain, if_true, h1, h2, Bool.true_eq_false, false_and, if_false, e]
      simp [totalSize, Int.add_assoc]
    · intro i h1 h2
      cases i with
      | zero => simp [totalSize]
      | succ i =>
        have := hi i (by simpa using h1) (by simpa using h2)
        simp only [List.getElem_cons_succ, List.take_succ_cons]
        refine ⟨this.1, ?_⟩
        rw [this.2]; simp [totalSize, Int.add_assoc]

/-- **C33** A packed struct without bit-fields has no padding: each offset is the sum of the sizes before, and (without an
`aligned` attribute) the size is the sum of all sizes. -/
theorem C33_packed (t : Agg) (hp : t.packed = true) (hs : 0 ≤ t.size) (ha : t.align = 1)
    (hm : ∀ x ∈ t.members, x.1.width = none ∧ 0 ≤ x.1.size) :
    ∃ t', structDecl t = some t' ∧ t'.size = totalSize t.members ∧ t'.align = 1 ∧ t'.members.length = t.members.length ∧
      ∀ i (h : i < t'.members.length) (h' : i < t.members.length),
        t'.members[i].1 = t.members[i].1 ∧ t'.members[i].2.offset = totalSize (t.members.take i) := by
  obtain ⟨ms', e, hl, hi⟩ := packed_all t.members 0 t.align (Int.le_refl _) hm
  simp only [Int.mul_zero, Int.zero_add] at e hi
  have htot : 0 ≤ totalSize t.members := by
    unfold totalSize
    have : ∀ l : List (Mem × Place), (∀ x ∈ l, x.1.width = none ∧ 0 ≤ x.1.size) → 0 ≤ (l.map (·.1.size)).sum := by
      intro l
      induction l with
      | nil => simp
      | cons x r ih =>
        intro h
        have := ih (fun x hx => h x (List.mem_cons_of_mem _ hx))
        have := (h x (List.mem_cons_self ..)).2
        simp only [List.map_cons, List.sum_cons]; omega
    exact this _ hm
  refine ⟨{ t with isUnion := false, size := totalSize t.members, members := ms' }, ?_, rfl, ha, hl, hi⟩
  unfold structDecl
  rw [if_neg (by omega), hp]
  rw [ha] at e
  simp only [ha, e]
  have h1 : (8 * totalSize t.members + 1 * 8 - 1).tdiv (1 * 8) * (1 * 8) = 8 * totalSize t.members := by
    rw [Int.tdiv_eq_ediv_of_nonneg (by omega)]; omega
  simp only [alignTo, Int.one_mul] at h1 ⊢
  rw [if_neg (by decide), h1]
  have h2 : (8 * totalSize t.members).tdiv 8 = totalSize t.members := by
    rw [Int.mul_comm]; exact Int.mul_tdiv_cancel _ (by decide)
  simp only [h2]

example : (structDecl { packed := true, members := [(⟨1, 1, none⟩, {}), (⟨8, 8, none⟩, {}), (⟨2, 2, none⟩, {})] }).map
    (fun t => (t.size, t.members.map (·.2.offset))) = some (11, [0, 1, 9]) := by decide

/-- **C34** is violated in packed structs: in `struct { int a:4; char c; } __attribute__((packed))` the member `c`
is put on top of `a`. -/
theorem C34_violated_packed : ∃ t', structDecl { packed := true, members := [(⟨4, 4, some 4⟩, {}), (⟨1, 1, none⟩, {})] } = some t' ∧
    ∃ x y, t'.members = [x, y] ∧ first x.1 x.2 = 0 ∧ extent x.1 = 4 ∧ first y.1 y.2 = 0 ∧ extent y.1 = 8 := by
  refine ⟨{ packed := true, size := 2, members := [(⟨4, 4, some 4⟩, ⟨0, 0⟩), (⟨1, 1, none⟩, ⟨0, 0⟩)] }, by decide,
    _, _, rfl, ?_⟩
  decide

/-- **C34** is violated in packed structs: in `struct { int a:4; } packed` the unit of `a` (4 bytes, read and written by
generated code) is larger than the struct (1 byte). -/
theorem C34_violated_unit : ∃ t', structDecl { packed := true, members := [(⟨4, 4, some 4⟩, {})] } = some t' ∧
    t'.size = 1 ∧ ∃ x, t'.members = [x] ∧ t'.size < x.2.offset + x.1.size := by
  refine ⟨{ packed := true, size := 1, members := [(⟨4, 4, some 4⟩, ⟨0, 0⟩)] }, by decide, rfl, _, rfl, by decide⟩

/-! ### C35 -/

theorem unionMax_spec (ms : List (Mem × Place)) : ∀ a s,
    MaxAlign a ms (unionMax a s ms).1 ∧ s ≤ (unionMax a s ms).2 ∧ (∀ x ∈ ms, x.1.size ≤ (unionMax a s ms).2) ∧
      ((unionMax a s ms).2 = s ∨ ∃ x ∈ ms, (unionMax a s ms).2 = x.1.size) := by
  induction ms with
  | nil => intro a s; exact ⟨⟨Int.le_refl _, by simp, .inl rfl⟩, Int.le_refl _, by simp, .inl rfl⟩
  | cons x r ih =>
    obtain ⟨m, p⟩ := x
    intro a s
    obtain ⟨⟨g1, g2, g3⟩, h2, h3, h4⟩ := ih (if a < m.align then m.align else a) (if s < m.size then m.size else s)
    simp only [unionMax]
    have g1' : a ≤ (if a < m.align then m.align else a) ∧ m.align ≤ (if a < m.align then m.align else a) := by split <;> omega
    have h2' : s ≤ (if s < m.size then m.size else s) ∧ m.size ≤ (if s < m.size then m.size else s) := by split <;> omega
    refine ⟨⟨Int.le_trans g1'.1 g1, ?_, ?_⟩, Int.le_trans h2'.1 h2, ?_, ?_⟩
    · intro x hx
      rcases List.mem_cons.mp hx with rfl | hx
      · exact Int.le_trans g1'.2 g1
      · exact g2 x hx
    · rcases g3 with g3 | ⟨x, hx, g3⟩
      · by_cases hlt : a < m.align
        · right; exact ⟨(m, p), List.mem_cons_self .., by rw [g3, if_pos hlt]⟩
        · left; rw [g3, if_neg hlt]
      · right; exact ⟨x, List.mem_cons_of_mem _ hx, g3⟩
    · intro x hx
      rcases List.mem_cons.mp hx with rfl | hx
      · exact Int.le_trans h2'.2 h2
      · exact h3 x hx
    · rcases h4 with h4 | ⟨x, hx, h4⟩
      · by_cases hlt : s < m.size
        · right; exact ⟨(m, p), List.mem_cons_self .., by rw [h4, if_pos hlt]⟩
        · left; rw [h4, if_neg hlt]
      · right; exact ⟨x, List.mem_cons_of_mem _ hx, h4⟩

/-- **C35** The definition of a union (size 0, members at place 0 before): the alignment is the largest of all, the size the
least multiple of it that is at least every member's size, and the places stay zero. -/
theorem C35_union_layout (t : Agg) (hs : t.size = 0) (ha : 0 < t.align) (hz : ∀ x ∈ t.members, x.2 = {}) :
    ∃ t', unionDecl t = some t' ∧ t'.isUnion = true ∧ t'.members = t.members ∧ (∀ x ∈ t'.members, x.2.offset = 0 ∧ x.2.bitOffset = 0) ∧
      MaxAlign t.align t'.members t'.align ∧
      Least (fun n => t'.align ∣ n ∧ 0 ≤ n ∧ ∀ x ∈ t'.members, x.1.size ≤ n) t'.size := by
  obtain ⟨h1, h2, h3, h4⟩ := unionMax_spec t.members t.align t.size
  rw [hs] at h1 h2 h3 h4
  have ha' : 0 < (unionMax t.align 0 t.members).1 := Int.lt_of_lt_of_le ha h1.1
  obtain ⟨b, eb, hb, hl⟩ := alignTo_least (unionMax t.align 0 t.members).2 (unionMax t.align 0 t.members).1 h2 ha'
  refine ⟨{ t with isUnion := true, size := b, align := (unionMax t.align 0 t.members).1 }, ?_, rfl, rfl, ?_, h1, ?_⟩
  · unfold unionDecl; rw [if_neg (by omega), hs]; simp only [eb]
  · intro x hx; rw [hz x hx]; exact ⟨rfl, rfl⟩
  · refine ⟨⟨hb.1, Int.le_trans h2 hb.2, fun x hx => Int.le_trans (h3 x hx) hb.2⟩, ?_⟩
    rintro y ⟨y1, y2, y3⟩
    apply hl
    refine ⟨y1, ?_⟩
    rcases h4 with h4 | ⟨x, hx, h4⟩
    · omega
    · have := y3 x hx; omega

example : unionDecl { members := [(⟨5, 1, none⟩, {}), (⟨4, 4, none⟩, {})] } =
    some { isUnion := true, size := 8, align := 4, members := [(⟨5, 1, none⟩, {}), (⟨4, 4, none⟩, {})] } := by decide

/-- The places found do not depend on the places stored before, except for bit-fields of width 0 which keep theirs. -/
theorem placeOne_idem (packed : Bool) (c : Int) (m : Mem) (p p' : Place) (c' : Int) (h : placeOne packed c m p = some (p', c')) :
    placeOne packed c m p' = some (p', c') := by
  unfold placeOne at h ⊢
  cases hw : m.width with
  | none =>
    simp only [hw, placePlain] at h ⊢
    generalize (if packed = true then some c else alignTo c (m.align * 8)) = o at h ⊢
    cases o with
    | none => cases h
    | some b => simp only [Option.some.injEq, Prod.mk.injEq] at h; obtain ⟨rfl, rfl⟩ := h; rfl
  | some w =>
    simp only [hw, placeBits] at h ⊢
    by_cases hz : w = 0
    · rw [if_pos hz] at h ⊢
      cases ho : alignTo c (m.size * 8) with
      | none => rw [ho] at h; cases h
      | some b => rw [ho] at h; simp only [Option.some.injEq, Prod.mk.injEq, true_and] at h ⊢; exact h.2
    · rw [if_neg hz] at h ⊢
      exact h

theorem placeAll_idem (packed : Bool) (ms : List (Mem × Place)) : ∀ (c a : Int) ms' f a',
    placeAll packed c a ms = some (ms', f, a') →
      (∀ a2, a ≤ a2 → (packed = true → a = a2) → a2 ≤ a' → placeAll packed c a2 ms' = some (ms', f, a')) ∧ a ≤ a' ∧ (packed = true → a = a') := by
  induction ms with
  | nil =>
    intro c a ms' f a' h
    simp only [placeAll, Option.some.injEq, Prod.mk.injEq] at h
    obtain ⟨rfl, rfl, rfl⟩ := h
    refine ⟨fun a2 h1 h2 h3 => ?_, Int.le_refl _, fun _ => rfl⟩
    simp only [placeAll, Option.some.injEq, Prod.mk.injEq, true_and]; omega
  | cons x r ih =>
    obtain ⟨m, p⟩ := x
    intro c a ms' f a' h
    simp only [placeAll] at h
    cases hp : placeOne packed c m p with
    | none => rw [hp] at h; cases h
    | some q =>
      obtain ⟨p', c'⟩ := q
      rw [hp] at h
      simp only at h
      cases hr : placeAll packed c' (if packed = false ∧ a < m.align then m.align else a) r with
      | none => rw [hr] at h; cases h
      | some q =>
        obtain ⟨r', f', a''⟩ := q
        rw [hr] at h
        simp only [Option.some.injEq, Prod.mk.injEq] at h
        obtain ⟨rfl, rfl, rfl⟩ := h
        obtain ⟨h1, h2, h3⟩ := ih _ _ _ _ _ hr
        refine ⟨?_, by split at h2 <;> omega, ?_⟩
        · intro a2 g1 g2 g3
          simp only [placeAll, placeOne_idem packed c m p p' c' hp]
          rw [h1 _ ?_ ?_ ?_]
          · cases packed <;> simp at * <;> (try split) <;> (try split) <;> omega
          · intro hpk; subst hpk; simpa using g2 rfl
          · cases packed <;> simp at * <;> (try split at h2) <;> (try split) <;> omega
        · intro hpk; subst hpk; simpa using h3 rfl

/-- **C35** Mentioning a struct again (struct_decl runs again on the same type object) changes nothing. -/
theorem C35_struct_again (t t' : Agg) (h : structDecl t = some t') (hn : 0 ≤ t.size → 0 ≤ t'.size) :
    structDecl t' = some t' := by
  unfold structDecl at h
  by_cases hs : t.size < 0
  · rw [if_pos hs] at h; cases h; simp [structDecl, hs]
  rw [if_neg hs] at h
  cases hp : placeAll t.packed 0 t.align t.members with
  | none => rw [hp] at h; cases h
  | some q =>
    obtain ⟨ms, bits, a⟩ := q
    rw [hp] at h
    simp only at h
    cases hb : alignTo bits (a * 8) with
    | none => rw [hb] at h; cases h
    | some n =>
      rw [hb] at h
      simp only [Option.some.injEq] at h
      have hn' := hn (by omega)
      subst h
      obtain ⟨h1, h2, h3⟩ := placeAll_idem _ _ _ _ _ _ _ hp
      simp only at hn'
      simp only [structDecl]
      rw [if_neg (by omega)]
      simp only [h1 a h2 h3 (Int.le_refl _), hb]

/-- **C35** Mentioning a union again changes nothing. -/
theorem C35_union_again (t t' : Agg) (ha : 0 < t.align) (h : unionDecl t = some t') : unionDecl t' = some t' := by
  unfold unionDecl at h
  by_cases hs : t.size < 0
  · rw [if_pos hs] at h; cases h; simp [unionDecl, hs]
  rw [if_neg hs] at h
  simp only at h
  obtain ⟨h1, h2, h3, h4⟩ := unionMax_spec t.members t.align t.size
  have ha' : 0 < (unionMax t.align t.size t.members).1 := Int.lt_of_lt_of_le ha h1.1
  obtain ⟨b, eb, hb, hl⟩ := alignTo_least (unionMax t.align t.size t.members).2 (unionMax t.align t.size t.members).1 (by omega) ha'
  rw [eb] at h
  simp only [Option.some.injEq] at h
  subst h
  have hfix : ∀ (ms : List (Mem × Place)) a s, (∀ x ∈ ms, x.1.align ≤ a ∧ x.1.size ≤ s) → unionMax a s ms = (a, s) := by
    intro ms
    induction ms with
    | nil => intros; rfl
    | cons x r ih =>
      intro a s h
      have := h x (List.mem_cons_self ..)
      simp only [unionMax]
      rw [if_neg (by omega), if_neg (by omega)]
      exact ih a s (fun y hy => h y (List.mem_cons_of_mem _ hy))
  have hfix' := hfix t.members (unionMax t.align t.size t.members).1 b (fun x hx => ⟨h1.2.1 x hx, by have := h3 x hx; have := hb.2; omega⟩)
  simp only [unionDecl]
  rw [if_neg (by have := hb.2; omega), hfix']
  simp only
  obtain ⟨b2, eb2, hb2, hl2⟩ := alignTo_least b _ (by have := hb.2; omega) ha'
  rw [eb2]
  have : b2 = b := Int.le_antisymm (hl2 b ⟨hb.1, Int.le_refl _⟩) hb2.2
  rw [this]

example : ∃ t t', t ≠ t' ∧ structDecl t = some t' ∧ structDecl t' = some t' :=
  ⟨{ members := [(⟨1, 1, none⟩, {}), (⟨4, 4, none⟩, {})] },
   { size := 8, align := 4, members := [(⟨1, 1, none⟩, {}), (⟨4, 4, none⟩, ⟨4, 0⟩)] }, by decide⟩

/-- **C35** is violated when the other keyword is used with a tag: `union U {int a; int b;}` mentioned as `struct U`
becomes a struct of 8 bytes, for all its users. The program is wrong, but it is not diagnosed. -/
theorem C35_violated : ∃ t t' : Agg, t.isUnion = true ∧ unionDecl t = some t ∧ t.size = 4 ∧ structDecl t = some t' ∧
    t'.isUnion = false ∧ t'.size = 8 :=
  ⟨{ isUnion := true, size := 4, align := 4, members := [(⟨4, 4, none⟩, {}), (⟨4, 4, none⟩, {})] },
   { size := 8, align := 4, members := [(⟨4, 4, none⟩, {}), (⟨4, 4, none⟩, ⟨4, 0⟩)] }, by decide⟩

end Toycc.Layout
