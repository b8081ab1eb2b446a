import Verif.Low.Ops
import Verif.Low.Typed
/-! Assignments to objects, and through hidden variables. -/
namespace Toycc.Low
open Toycc.Cg Toycc.Rv

variable {S E : CEnv} {tmp : Nat → Int} {N : Nat}

theorem convC_convC {t : Ty} (hs : t.scalar = true) (v : Int) : convC t (convC t v) = convC t v := convC_id hs (convC_inRange hs v)

theorem wrapBits_convC {t : Ty} {w : Nat} (h : w ≤ t.bits) (v : Int) : wrapBits t w (convC t v) = wrapBits t w v := by
  have hd : (2 : Nat) ^ w ∣ 2 ^ t.bits := Nat.pow_dvd_pow 2 h
  have hd' : (2 : Int) ^ w ∣ 2 ^ t.bits := by
    have : ((2 ^ w : Nat) : Int) ∣ ((2 ^ t.bits : Nat) : Int) := by exact_mod_cast hd
    simpa using this
  unfold wrapBits
  split
  · rename_i hb
    subst hb
    simp only [convC]
    split <;> simp_all
  · rename_i hb
    have e : convC t v = if t.unsigned then v % 2 ^ t.bits else v.bmod (2 ^ t.bits) := by cases t <;> first | rfl | exact absurd rfl hb
    rw [e]
    split
    · exact Int.emod_emod_of_dvd v hd'
    · exact Int.bmod_bmod_of_dvd hd

/-- Converting before storing makes no difference. -/
theorem assignC_conv {t : Ty} (hs : t.scalar = true) {bf : Option (Field × Nat × Nat)} (hb : ∀ f o w, bf = some (f, o, w) → f.ty = t ∧ w ≤ t.bits)
    (a : W) (v : Int) (m : Mem) : assignC E bf t a (convC t v) m = assignC E bf t a v m := by
  cases bf with
  | none =>
    have e : ∀ v, assignC E none t a v m = if t.scalar && E.ok a t.size then some (convC t v, writeN m a t.size (rep (convC t v))) else none := by
      intro v
      cases t <;> first | rfl | cases hs
    rw [e, e, convC_convC hs]
  | some p =>
    obtain ⟨f, o, w⟩ := p
    obtain ⟨h1, h2⟩ := hb f o w rfl
    simp only [assignC, h1, wrapBits_convC h2]

/-- The bit-field of a node against that of the lvalue. -/
def SameBits (t : CTy) (b : Option (Nat × Nat)) (bf : Option (Field × Nat × Nat)) : Prop :=
  match b, bf with
  | none, none => True
  | some (o, w), some (f, o', w') => f.ty = t.low ∧ o' = o ∧ w' = w
  | _, _ => False

theorem assignC_same {t : CTy} {b : Option (Nat × Nat)} {bf : Option (Field × Nat × Nat)} (h : SameBits t b bf) (a : W) (v : Int) (m : Mem) :
    assignC E bf t.low a v m = storeL E t b a v m := by
  unfold SameBits at h
  unfold storeL
  cases b with
  | none =>
    cases bf with
    | none => rfl
    | some q => exact h.elim
  | some p =>
    cases bf with
    | none => exact h.elim
    | some q =>
      obtain ⟨f, o', w'⟩ := q
      obtain ⟨h1, h2, h3⟩ := h
      subst h2 h3
      simp only [Option.map, assignC, h1]

theorem storeL_agree (H : Hidden S E tmp N) {m m1 : Mem} (h : Agree S tmp m m1) {t : CTy} {b : Option (Nat × Nat)} {a : W} {v z : Int} {m' : Mem}
    (hc : storeL S t b a v m = some (z, m')) (lo hi : Nat) :
    ∃ m1', storeL E t b a v m1 = some (z, m1') ∧ Agree S tmp m' m1' ∧ Kept S tmp N lo hi m1 m1' := assignC_agree H h hc lo hi

theorem storeL_conv {t : CTy} (hs : t.scalar = true) {b : Option (Nat × Nat)} (hb : ∀ p, b = some p → p.1 + p.2 ≤ t.low.bits) (a : W) (v : Int) (m : Mem) :
    storeL E t b a (convC t.low v) m = storeL E t b a v m := by
  refine assignC_conv (scalar_low hs).1 ?_ a v m
  intro f o w hbf
  cases b with
  | none => cases hbf
  | some p =>
    cases hbf
    have := hb p rfl
    exact ⟨rfl, by omega⟩

/-- A value of a type is read back from its bytes. -/
theorem load_rep {t : Ty} (hs : t.scalar = true) {v : Int} (hv : inRange t v = true) {m : Mem} {a : W} (hok : E.ok a t.size = true)
    (hr : readN m a t.size = rep v % 2 ^ (8 * t.size)) : loadC E t m a = some v := by
  have hrep : ((rep v : Nat) : Int) = v % 2 ^ 64 := by
    unfold rep
    rw [BitVec.toNat_ofInt]
    have := Int.emod_nonneg v (show (2 : Int) ^ 64 ≠ 0 by decide)
    omega
  have hcast : ((rep v % 2 ^ (8 * t.size) : Nat) : Int) = v % 2 ^ 64 % 2 ^ (8 * t.size) := by
    rw [← hrep]; simp
  by_cases hb : t = .bool
  · subst hb
    have hv : 0 ≤ v ∧ v ≤ 1 := of_decide_eq_true hv
    have hr : readN m a 1 = rep v % 2 ^ (8 * 1) := hr
    have hcast : ((rep v % 2 ^ (8 * 1) : Nat) : Int) = v % 2 ^ 64 % 2 ^ (8 * 1) := hcast
    have e : ((readN m a 1 : Nat) : Int) = v := by rw [hr, hcast]; omega
    have hok : E.ok a 1 = true := hok
    simp only [loadC, hok, Bool.true_and]
    rw [if_pos (by rw [decide_eq_true_eq]; omega), e]
  · have e : loadC E t m a = if E.ok a t.size then
      some (if t.unsigned then (readN m a t.size : Int) else (readN m a t.size : Int).bmod (2 ^ t.bits)) else none := by
      cases t <;> first | exact absurd rfl hb | rfl | cases hs
    rw [e, if_pos hok, hr, hcast]
    have hsz : t.size = 1 ∨ t.size = 2 ∨ t.size = 4 ∨ t.size = 8 := by cases t <;> first | (simp [Ty.size]; done) | cases hs
    have hd : (2 : Int) ^ (8 * t.size) ∣ 2 ^ 64 := by
      rcases hsz with h | h | h | h <;> rw [h] <;> decide
    rw [Int.emod_emod_of_dvd _ hd]
    congr 1
    have hc := convC_id hs hv
    have e2 : convC t v = if t.unsigned then v % 2 ^ t.bits else v.bmod (2 ^ t.bits) := by cases t <;> first | rfl | exact absurd rfl hb
    rw [e2] at hc
    have hbits : t.bits = 8 * t.size := rfl
    rw [hbits] at hc ⊢
    cases hu : t.unsigned
    · rw [hu] at hc
      simp only [Bool.false_eq_true, if_false] at hc ⊢
      have : ((2 ^ (8 * t.size) : Nat) : Int) = 2 ^ (8 * t.size) := by simp
      rw [← this, Int.emod_bmod]
      exact hc
    · rw [hu] at hc
      simpa using hc

/-- A hidden variable keeps what was assigned to it. -/
theorem hidden_load (H : Hidden S E tmp N) {t : Ty} (hs : t.scalar = true) {v : Int} (hv : inRange t v = true) {m : Mem} {k d : Nat} (hk : k < N)
    (hr : readN m (slotA S tmp k) t.size = rep v % 2 ^ (8 * t.size)) : evalC E false d (.var t (.loc (tmp k))) m = some (v, m) := by
  have hsz : t.size ≤ 8 := by cases t <;> simp [Ty.size]; cases hs; cases hs
  have : loadC E t m (slotA S tmp k) = some v := load_rep hs hv (slot_ok H k hk hsz) hr
  have hf : E.fp + BitVec.ofInt 64 (tmp k) = slotA S tmp k := by rw [H.fp]; rfl
  simp [evalC, varAddrC, hf, this]

theorem hidden_store (H : Hidden S E tmp N) {t : Ty} (hs : t.scalar = true) {v : Int} (hv : inRange t v = true) {x : Expr} {m m1 m1' : Mem} {k lo hi d : Nat}
    (hx : evalC E false (d + 1) x m1 = some (v, m1')) (ha : Agree S tmp m m1') (hk : Kept S tmp N lo hi m1 m1') (h1 : lo ≤ k) (h2 : hi ≤ k + 1) (hN : k < N) :
    ∃ m2, evalC E false d (.assign t (.var t (.loc (tmp k))) x) m1 = some (v, m2) ∧ Agree S tmp m m2 ∧ Kept S tmp N lo (k + 1) m1 m2 ∧
      readN m2 (slotA S tmp k) t.size = rep v % 2 ^ (8 * t.size) := by
  have hsz : t.size ≤ 8 := by cases t <;> simp [Ty.size]; cases hs; cases hs
  have hw := slot_write H ha k hN hsz (rep v)
  refine ⟨writeN m1' (slotA S tmp k) t.size (rep v), ?_, hw.1, hk.trans hw.2 (Nat.le_refl _) h2 h1 (Nat.le_refl _), (by rw [readN_writeN _ _ _ _ (by omega) _ (Nat.le_refl _), Nat.pow_mul])⟩
  have e : ∀ a, assignC E none t a v m1' = if t.scalar && E.ok a t.size then some (convC t v, writeN m1' a t.size (rep (convC t v))) else none := by
    intro a
    cases t <;> first | rfl | cases hs
  have ea : evalC E true d (.var t (.loc (tmp k))) m1 = some (((slotA S tmp k).toNat : Int), m1) := by
    simp [evalC, varAddrC, H.fp, slotA]
  have ha2 : adr ((slotA S tmp k).toNat : Int) = slotA S tmp k := by unfold adr; rw [BitVec.ofInt_natCast, BitVec.ofNat_toNat, BitVec.setWidth_eq]
  simp only [evalC, Bool.false_and, Bool.false_eq_true, if_false]
  have ea' := ea
  simp only [evalC] at ea'
  rw [ea', bindSome]
  refine ⟨_, rfl, ?_⟩
  dsimp only
  rw [bindSome]
  refine ⟨_, hx, ?_⟩
  show assignC E none t _ v m1' = _
  rw [e, ha2, slot_ok H k hN hsz, hs, convC_id hs hv]
  rfl

end Toycc.Low
