import Verif.Low.Types
import Verif.Cg.SimpleProof
/-! Memory with the hidden variables, and without. -/
namespace Toycc.Low
open Toycc.Cg Toycc.Rv

variable {S E : CEnv} {tmp : Nat → Int} {N : Nat}

/-- Address of a hidden variable. -/
def slotA (S : CEnv) (tmp : Nat → Int) (k : Nat) : W := S.fp + BitVec.ofInt 64 (tmp k)

/-- Equal outside of the hidden variables. -/
def Agree (S : CEnv) (tmp : Nat → Int) (m m1 : Mem) : Prop := ∀ b, (∀ k, 8 ≤ (b - slotA S tmp k).toNat) → m b = m1 b

/-- The hidden variables other than those from `lo` to `hi` are unchanged. -/
def Kept (S : CEnv) (tmp : Nat → Int) (N : Nat) (lo hi : Nat) (m1 m1' : Mem) : Prop :=
  ∀ k, k < N → (k < lo ∨ hi ≤ k) → ∀ b, (b - slotA S tmp k).toNat < 8 → m1' b = m1 b

theorem Kept.refl (lo hi : Nat) (m : Mem) : Kept S tmp N lo hi m m := fun _ _ _ _ _ => rfl

theorem Kept.trans {a b c d lo hi : Nat} {m1 m2 m3 : Mem} (h1 : Kept S tmp N a b m1 m2) (h2 : Kept S tmp N c d m2 m3)
    (ha : lo ≤ a) (hb : b ≤ hi) (hc : lo ≤ c) (hd : d ≤ hi) : Kept S tmp N lo hi m1 m3 := by
  intro k hN hk x hx
  rw [h2 k hN (by omega) x hx, h1 k hN (by omega) x hx]

theorem Kept.mono {a b lo hi : Nat} {m1 m2 : Mem} (h1 : Kept S tmp N a b m1 m2) (ha : lo ≤ a) (hb : b ≤ hi) : Kept S tmp N lo hi m1 m2 :=
  fun k hN hk x hx => h1 k hN (by omega) x hx

theorem ok_valid {E : CEnv} {a : W} {n : Nat} (h : E.ok a n = true) {i : Nat} (hi : i < n) : E.valid (a + BitVec.ofNat 64 i) = true := by
  unfold CEnv.ok at h
  rw [List.all_eq_true] at h
  exact h i (List.mem_range.mpr hi)

theorem ok_of (H : Hidden S E tmp N) {a : W} {n : Nat} (h : S.ok a n = true) : E.ok a n = true := by
  unfold CEnv.ok
  rw [List.all_eq_true]
  intro i hi
  exact H.valid _ (ok_valid h (List.mem_range.mp hi))

theorem valid_agree (H : Hidden S E tmp N) {m m1 : Mem} (h : Agree S tmp m m1) {b : W} (hb : S.valid b = true) : m b = m1 b :=
  h b fun k => H.apart b k hb

theorem readN_agree (H : Hidden S E tmp N) {m m1 : Mem} (h : Agree S tmp m m1) {a : W} {n : Nat} (ha : S.ok a n = true) : readN m a n = readN m1 a n :=
  readN_congr fun i hi => valid_agree H h (ok_valid ha hi)

theorem loadC_agree (H : Hidden S E tmp N) {m m1 : Mem} (h : Agree S tmp m m1) {t : Ty} {a : W} {v : Int} (hl : loadC S t m a = some v) :
    loadC E t m1 a = some v := by
  cases t with
  | void => simp [loadC] at hl
  | arr n => exact hl
  | struc n => exact hl
  | func => exact hl
  | bool =>
    simp only [loadC] at hl ⊢
    split at hl
    · rename_i hc
      rw [Bool.and_eq_true] at hc
      have e := readN_agree H h hc.1
      rw [← e, if_pos (by rw [Bool.and_eq_true]; exact ⟨ok_of H hc.1, hc.2⟩)]
      exact hl
    · cases hl
  | _ =>
    simp only [loadC] at hl ⊢
    split at hl
    · rename_i hc
      have e := readN_agree H h hc
      rw [← e, if_pos (ok_of H hc)]
      exact hl
    · cases hl

theorem loadBitsC_agree (H : Hidden S E tmp N) {m m1 : Mem} (h : Agree S tmp m m1) {t : Ty} {o w : Nat} {a : W} {v : Int}
    (hl : loadBitsC S t o w m a = some v) : loadBitsC E t o w m1 a = some v := by
  simp only [loadBitsC] at hl ⊢
  split at hl
  · rename_i hc
    rw [Bool.and_eq_true] at hc
    rw [← readN_agree H h hc.2, if_pos (by rw [Bool.and_eq_true]; exact ⟨hc.1, ok_of H hc.2⟩)]
    exact hl
  · cases hl

theorem loadL_agree (H : Hidden S E tmp N) {m m1 : Mem} (h : Agree S tmp m m1) {t : CTy} {b : Option (Nat × Nat)} {a : W} {v : Int}
    (hl : loadL S t b m a = some v) : loadL E t b m1 a = some v := by
  cases b with
  | none => exact loadC_agree H h hl
  | some p => exact loadBitsC_agree H h hl

/-- A byte of a block is an offset from its start. -/
theorem in_block {a b : W} {n : Nat} (h : (b - a).toNat < n) : ∃ i, i < n ∧ b = a + BitVec.ofNat 64 i := by
  refine ⟨(b - a).toNat, h, ?_⟩
  rw [BitVec.ofNat_toNat, BitVec.setWidth_eq]
  rw [BitVec.add_comm]; exact (BitVec.sub_add_cancel b a).symm

theorem writeN_agree (H : Hidden S E tmp N) {m m1 : Mem} (h : Agree S tmp m m1) {a : W} {n x : Nat} (ha : S.ok a n = true) (lo hi : Nat) :
    Agree S tmp (writeN m a n x) (writeN m1 a n x) ∧ Kept S tmp N lo hi m1 (writeN m1 a n x) := by
  refine ⟨fun b hb => ?_, fun k _ _ b hb => ?_⟩
  · unfold writeN
    split
    · rfl
    · exact h b hb
  · unfold writeN
    rw [if_neg]
    intro hc
    obtain ⟨i, hi, rfl⟩ := in_block hc
    have := H.apart _ k (ok_valid ha hi)
    exact absurd hb (by unfold slotA; omega)

theorem copyC_agree (H : Hidden S E tmp N) {m m1 : Mem} (h : Agree S tmp m m1) {dst src : W} {n : Nat} {m' : Mem} (hc : copyC S n m dst src = some m')
    (lo hi : Nat) : ∃ m1', copyC E n m1 dst src = some m1' ∧ Agree S tmp m' m1' ∧ Kept S tmp N lo hi m1 m1' := by
  unfold copyC at hc ⊢
  split at hc
  · rename_i hh
    simp only [Bool.and_eq_true] at hh
    simp only [Option.some.injEq] at hc
    subst hc
    rw [if_pos (by simp only [Bool.and_eq_true]; exact ⟨⟨ok_of H hh.1.1, ok_of H hh.1.2⟩, hh.2⟩)]
    refine ⟨_, rfl, fun b hb => ?_, fun k _ _ b hb => ?_⟩
    · dsimp only
      split
      · rename_i hlt
        have := ok_valid hh.1.2 hlt
        rw [BitVec.ofNat_toNat, BitVec.setWidth_eq] at this
        exact valid_agree H h this
      · exact h b hb
    · dsimp only
      rw [if_neg]
      intro hlt
      obtain ⟨i, hi, rfl⟩ := in_block hlt
      have := H.apart _ k (ok_valid hh.1.1 hi)
      exact absurd hb (by unfold slotA; omega)
  · cases hc

theorem assignC_agree (H : Hidden S E tmp N) {m m1 : Mem} (h : Agree S tmp m m1) {bf : Option (Field × Nat × Nat)} {t : Ty} {a : W} {v z : Int} {m' : Mem}
    (hc : assignC S bf t a v m = some (z, m')) (lo hi : Nat) :
    ∃ m1', assignC E bf t a v m1 = some (z, m1') ∧ Agree S tmp m' m1' ∧ Kept S tmp N lo hi m1 m1' := by
  cases bf with
  | some p =>
    obtain ⟨f, o, w⟩ := p
    simp only [assignC] at hc ⊢
    split at hc
    · rename_i hh
      rw [Bool.and_eq_true] at hh
      simp only [Option.some.injEq, Prod.mk.injEq] at hc
      obtain ⟨rfl, rfl⟩ := hc
      rw [if_pos (by rw [Bool.and_eq_true]; exact ⟨hh.1, ok_of H hh.2⟩), ← readN_agree H h hh.2]
      exact ⟨_, rfl, writeN_agree H h hh.2 lo hi⟩
    · cases hc
  | none =>
    by_cases hs : ∃ n, t = .struc n
    · obtain ⟨n, rfl⟩ := hs
      simp only [assignC, Option.map_eq_some_iff, Prod.mk.injEq] at hc ⊢
      obtain ⟨q, hq, rfl, rfl⟩ := hc
      obtain ⟨q1, hq1, r1, r2⟩ := copyC_agree H h hq lo hi
      exact ⟨q1, ⟨q1, hq1, rfl, rfl⟩, r1, r2⟩
    · have e : ∀ E : CEnv, ∀ m, assignC E none t a v m =
          if t.scalar && E.ok a t.size then some (convC t v, writeN m a t.size (rep (convC t v))) else none := by
        intro E m
        cases t <;> first | rfl | exact absurd ⟨_, rfl⟩ hs
      rw [e] at hc ⊢
      split at hc
      · rename_i hh
        rw [Bool.and_eq_true] at hh
        simp only [Option.some.injEq, Prod.mk.injEq] at hc
        obtain ⟨rfl, rfl⟩ := hc
        rw [if_pos (by rw [Bool.and_eq_true]; exact ⟨hh.1, ok_of H hh.2⟩)]
        exact ⟨_, rfl, writeN_agree H h hh.2 lo hi⟩
      · cases hc

/-- A hidden variable of some type up to 8 bytes holds a value. -/
def Holds (S : CEnv) (tmp : Nat → Int) (k : Nat) (m : Mem) (n : Nat) (x : Nat) : Prop := readN m (slotA S tmp k) n = x

theorem slot_idx (a : W) {i : Nat} (h : i < 8) : (a + BitVec.ofNat 64 i - a).toNat = i := by
  rw [BitVec.add_comm, BitVec.add_sub_cancel, BitVec.toNat_ofNat]; omega

theorem slot_ok (H : Hidden S E tmp N) (k : Nat) (hk : k < N) {n : Nat} (hn : n ≤ 8) : E.ok (slotA S tmp k) n = true := by
  unfold CEnv.ok
  rw [List.all_eq_true]
  intro i hi
  exact H.slot k i hk (by have := List.mem_range.mp hi; omega)

/-- Storing to a hidden variable. -/
theorem slot_write (H : Hidden S E tmp N) {m m1 : Mem} (h : Agree S tmp m m1) (k : Nat) (hkN : k < N) {n : Nat} (hn : n ≤ 8) (x : Nat) :
    Agree S tmp m (writeN m1 (slotA S tmp k) n x) ∧ Kept S tmp N k (k + 1) m1 (writeN m1 (slotA S tmp k) n x) := by
  refine ⟨fun b hb => ?_, fun j hN hj b hb => ?_⟩
  · unfold writeN
    rw [if_neg (by have := hb k; omega)]
    exact h b hb
  · unfold writeN
    rw [if_neg]
    intro hc
    have := H.disjoint j k b hN hkN (by omega) hb
    unfold slotA at hc
    omega

theorem slot_kept {lo hi : Nat} {m1 m1' : Mem} (h : Kept S tmp N lo hi m1 m1') {k : Nat} (hkN : k < N) (hk : k < lo ∨ hi ≤ k) {n : Nat} (hn : n ≤ 8) :
    readN m1' (slotA S tmp k) n = readN m1 (slotA S tmp k) n :=
  readN_congr fun i hi => h k hkN hk _ (by rw [slot_idx _ (by omega)]; omega)

end Toycc.Low
