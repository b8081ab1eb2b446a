import Verif.Vla.Spec
import Verif.Low.All
/-! Lemmas for C83. -/
namespace Toycc.Vla
open Toycc.Cg Toycc.Rv Toycc.Low

variable {S E : CEnv} {tmp : Nat → Int} {N : Nat}

/-- A parsed type: the lengths are trees that compute what the source says. -/
inductive Parsed (S E : CEnv) (tmp : Nat → Int) (N lo : Nat) : STy → VTy → Nat → Prop
  | obj {t hi} : Parsed S E tmp N lo (.obj t) (.obj t) hi
  | ptr {b v hi} : Parsed S E tmp N lo b v hi → Parsed S E tmp N lo (.ptr b) (.ptr v) hi
  | arr {b len t v n k k' hi} : Parsed S E tmp N lo b v hi → typeC len = some t → (len.vty t).isInt = true → Good S E tmp N true len t k n k' → lo ≤ k → k' ≤ hi →
      Parsed S E tmp N lo (.arr b len) (.vla v n) hi

theorem Parsed.mono {lo lo' hi hi' : Nat} {st : STy} {vt : VTy} (h : Parsed S E tmp N lo st vt hi) (h1 : lo' ≤ lo) (h2 : hi ≤ hi') : Parsed S E tmp N lo' st vt hi' := by
  induction h with
  | obj => exact .obj
  | ptr _ ih => exact .ptr (ih h2)
  | arr _ ht hi g ha hb ih => exact .arr (ih h2) ht hi g (by omega) (by omega)

theorem parse (H : Hidden S E tmp N) (hS : S.CallsTyped) : ∀ (st : STy) (k : Nat), st.ok →
    ∃ vt k', parseTy tmp st k = some (vt, k') ∧ k ≤ k' ∧ Parsed S E tmp N k st vt k'
  | .obj t, k, _ => ⟨_, _, rfl, Nat.le_refl _, .obj⟩
  | .ptr b, k, h => by
    obtain ⟨v, k', h1, h2, h3⟩ := parse H hS b k h
    exact ⟨.ptr v, k', by simp [parseTy, h1], h2, .ptr h3⟩
  | .arr b len, k, h => by
    obtain ⟨hb, hp, t, ht, hi⟩ := h
    obtain ⟨n, k1, e1, g⟩ := good H hS len true t k hp ht
    obtain ⟨v, k', h1, h2, h3⟩ := parse H hS b k1 hb
    refine ⟨.vla v n, k', by simp [parseTy, e1, h1], by have := g.le; omega, ?_⟩
    exact .arr (h3.mono g.le (Nat.le_refl _)) ht hi g (Nat.le_refl _) (by omega)

theorem evalC_nulls (t : CTy) (d : Nat) (m : Mem) : evalC E false d (nulls t) m = some (0, m) := by
  induction t with
  | ptr b ih => simp [nulls, evalC, ih]
  | arr b n ih => simp [nulls, evalC, ih]
  | _ => simp [nulls, evalC]

/-- An annotated type whose variables are among the hidden ones from `lo` to `hi`. -/
inductive Within (tmp : Nat → Int) (lo hi : Nat) : ATy → Prop
  | obj {t} : Within tmp lo hi (.obj t)
  | ptr {b} : Within tmp lo hi b → Within tmp lo hi (.ptr b)
  | vla {b k} : Within tmp lo hi b → lo ≤ k → k < hi → Within tmp lo hi (.vla b (tmp k))

theorem Within.mono {lo hi lo' hi' : Nat} {a : ATy} (h : Within tmp lo hi a) (h1 : lo' ≤ lo) (h2 : hi ≤ hi') : Within tmp lo' hi' a := by
  induction h with
  | obj => exact .obj
  | ptr _ ih => exact .ptr ih
  | vla _ ha hb ih => exact .vla ih (by omega) (by omega)

/-- Sizes stay while other hidden variables are written. -/
theorem stored_kept {lo hi a b : Nat} {m m' : Mem} {t : ATy} {r : RTy} (hw : Within tmp lo hi t) (hN : hi ≤ N) (h : Stored S m t r)
    (hk : Kept S tmp N a b m m') (hd : hi ≤ a ∨ b ≤ lo) : Stored S m' t r := by
  induction hw generalizing r with
  | obj => cases r <;> exact h
  | ptr _ ih =>
    cases r with
    | ptr r => exact ih h
    | _ => exact h
  | @vla b' k _ h1 h2 ih =>
    cases r with
    | arr r n =>
      refine ⟨?_, ih h.2⟩
      rw [← h.1]
      exact slot_kept hk (by omega) (by omega) (Nat.le_refl 8)
    | _ => exact h

theorem ev_sizeVar (H : Hidden S E tmp N) {k : Nat} (hk : k < N) (d : Nat) (m : Mem) :
    evalC E false d (sizeVar (tmp k)).e m = some ((readN m (slotA S tmp k) 8 : Int), m) := by
  have h1 : E.fp + BitVec.ofInt 64 (tmp k) = slotA S tmp k := by rw [H.fp]; rfl
  have h2 := slot_ok H k hk (n := 8) (Nat.le_refl 8)
  simp only [sizeVar, evalC, varAddrC, Option.bind_eq_bind, Option.bind_some, h1, Bool.false_eq_true, if_false, loadC, Ty.size, h2, if_true, Ty.unsigned]

theorem mul_nat {x y : Int} {n s : Nat} (h1 : x = n) (h2 : y = s) : x * y = ((n * s : Nat) : Int) := by
  subst h1 h2; simp

/-- The largest value plus one. -/
def top : CTy → Int
  | .int false => 2 ^ 31
  | .int true => 2 ^ 32
  | .long false => 2 ^ 63
  | _ => 2 ^ 64

theorem range_iff {c : CTy} {v : Int} (hc : c = .int false ∨ c = .int true ∨ c = .long false ∨ c = .long true) (h0 : 0 ≤ v) : inRange c.low v = true ↔ v < top c := by
  rcases hc with rfl | rfl | rfl | rfl
  · have : inRange (.int false) v = decide (-(2 ^ 31) ≤ v ∧ v < 2 ^ 31) := rfl
    simp only [CTy.low, top, this, decide_eq_true_eq]; omega
  · have : inRange (.int true) v = decide (0 ≤ v ∧ v < 2 ^ 32) := rfl
    simp only [CTy.low, top, this, decide_eq_true_eq]; omega
  · have : inRange (.long false) v = decide (-(2 ^ 63) ≤ v ∧ v < 2 ^ 63) := rfl
    simp only [CTy.low, top, this, decide_eq_true_eq]; omega
  · have : inRange (.long true) v = decide (0 ≤ v ∧ v < 2 ^ 64) := rfl
    simp only [CTy.low, top, this, decide_eq_true_eq]; omega

theorem top_le (c : CTy) : top c ≤ 2 ^ 64 := by unfold top; split <;> omega

theorem range_max {c : CTy} {p : Nat} (hc : c = .int false ∨ c = .int true ∨ c = .long false ∨ c = .long true) (h : inRange c.low (p : Nat) = true) : p < 2 ^ 64 := by
  have h1 := (range_iff hc (by omega)).mp h
  have := top_le c
  omega

theorem range_le {c : CTy} {p : Nat} (hc : c = .int false ∨ c = .int true ∨ c = .long false ∨ c = .long true) (h : inRange c.low (p : Nat) = true) (v : Nat) (hv : v ≤ p) :
    inRange c.low v = true := by
  have h1 := (range_iff hc (by omega)).mp h
  exact (range_iff hc (by omega)).mpr (by omega)

/-- A product with an int that fits. -/
theorem product_fits {c : CTy} {n s : Nat} (hc : c = .int false ∨ c = .int true ∨ c = .long false ∨ c = .long true) (hn : 0 < n)
    (h : inRange c.low (n * s : Nat) = true) : binC .mul c.low (convC c.low n) (convC c.low s) = some ((n * s : Nat) : Int) := by
  have hs : s = 0 ∨ (n ≤ n * s ∧ s ≤ n * s) := by
    rcases Nat.eq_zero_or_pos s with h0 | h0
    · exact .inl h0
    · exact .inr ⟨Nat.le_mul_of_pos_right _ h0, Nat.le_mul_of_pos_left _ hn⟩
  generalize hp : n * s = p at *
  have hrg : ∀ v : Nat, v ≤ p → inRange c.low v = true := range_le hc h
  have hid : ∀ v : Nat, v ≤ p → convC c.low v = v := by
    intro v hv
    exact convC_id (by rcases hc with rfl | rfl | rfl | rfl <;> rfl) (hrg v hv)
  have hm : convC c.low n * convC c.low s = (p : Int) := by
    rcases hs with rfl | ⟨h1, h2⟩
    · rw [hid 0 (by omega)]; simp at hp ⊢; omega
    · rw [hid n h1, hid s h2, ← hp]; simp
  have hpm : promote c.low = c.low := by rcases hc with rfl | rfl | rfl | rfl <;> rfl
  simp only [binC, hpm, hm, arithC, h, if_true]
  split
  · rename_i hu
    have hcv : ∀ v : Int, convC c.low v = v % 2 ^ c.low.bits := by
      intro v
      rcases hc with rfl | rfl | rfl | rfl <;> first | rfl | simp [CTy.low, Ty.unsigned] at hu
    rw [← hcv, hid p (Nat.le_refl _)]
  · rfl

theorem cm_wide (t : CTy) (h : t.isInt = true) : let c := cm t.wide (CTy.int false); c = .int false ∨ c = .int true ∨ c = .long false ∨ c = .long true := by
  have : ∀ t ∈ ints, (let c := cm t.wide (CTy.int false); c = .int false ∨ c = .int true ∨ c = .long false ∨ c = .long true) := by decide +kernel
  exact this t (mem_ints h)

theorem opT_mul (t1 t2 : CTy) (h1 : t1.isInt = true) (h2 : t2.isInt = true) : opT .mul t1 t2 = usual t1 t2 := by
  simp [opT, decay_int h1, decay_int h2]

theorem opC_mul (t1 t2 : CTy) (h1 : t1.isInt = true) (h2 : t2.isInt = true) (x y : Int) :
    opC .mul t1 t2 x y = (usual t1 t2).bind fun t => binC .mul t.low (convC t.low x) (convC t.low y) := by
  simp [opC, decay_int h1, decay_int h2]

theorem cm_ulong (t : CTy) (h : t.isInt = true) : cm t.wide (CTy.wide (.long true)) = .long true := by
  have : ∀ t ∈ ints, cm t.wide (CTy.wide (.long true)) = .long true := by decide +kernel
  exact this t (mem_ints h)

/-- The product the size is: the right operand is the size `s` of the elements, the left one the length. -/
theorem product (len : SExpr) (t : CTy) (n : Node) (k k' : Nat) (hi : (len.vty t).isInt = true) (g : Good S E tmp N true len t k n k')
    (R : Node) (u : CTy) (hu : R.ty = u) (hui : u.isInt = true) {d : Nat} {m m1 : Mem} {x s : Nat} (hr : evalC E false d R.e m = some ((s : Int), m))
    (hl : evalC E false (d + 1) n.e m = some ((x : Int), m1)) (hx : 0 < x)
    (hf : (u = .long true ∧ x * s < 2 ^ 64) ∨ (u = .int false ∧ ∀ c, usual (len.vty t) (.int false) = some c → inRange c.low (x * s : Nat) = true)) :
    evalC E false d (binN .mul n R).e m = some (((x * s : Nat) : Int), m1) := by
  obtain ⟨hus, husi, -, -⟩ := usual_ints (len.vty t) (mem_ints hi) u (mem_ints hui)
  have ht : opT .mul (len.vty t) u = some (cm (len.vty t).wide u.wide) := by rw [opT_mul _ _ hi hui, hus]
  refine ((bin_int (E := E) .mul n R _ u _ (g.rel rfl) (hu ▸ Rel.refl _) hi hui ht).2 n rfl).2 d m m m1 x s _ hr hl ?_
  rw [opC_mul _ _ hi hui, hus, Option.bind_some]
  apply product_fits _ hx
  · rcases hf with ⟨rfl, hf⟩ | ⟨rfl, hf⟩
    · rw [cm_ulong _ hi]
      simp only [CTy.low, inRange, Ty.unsigned, Ty.bits, Ty.size, if_true]
      exact decide_eq_true ⟨by omega, by omega⟩
    · exact hf _ hus
  · rcases hf with ⟨rfl, hf⟩ | ⟨rfl, hf⟩
    · rw [cm_ulong _ hi]; simp
    · exact cm_wide _ hi

theorem assign_size (H : Hidden S E tmp N) {k : Nat} (hk : k < N) (r : Node) (a : Node) (ha : assignN (sizeVar (tmp k)) r = some a) {d : Nat} {m m1 : Mem} {v : Nat} (hv : v < 2 ^ 64)
    (hr : evalC E false (d + 1) r.e m = some ((v : Int), m1)) :
    evalC E false d a.e m = some ((v : Int), writeN m1 (slotA S tmp k) 8 v) := by
  have h1 : E.fp + BitVec.ofInt 64 (tmp k) = slotA S tmp k := by rw [H.fp]; rfl
  have h2 := slot_ok H k hk (n := 8) (Nat.le_refl 8)
  have hc := ev_cast hr (t := .long true) (by simp)
  have e1 : convC (.long true) (v : Int) = v := by
    simp only [convC, Ty.unsigned, Ty.bits, Ty.size, if_true]
    omega
  have e2 : rep (v : Int) = v := by simp [rep]; omega
  have e3 : adr ((slotA S tmp k).toNat : Int) = slotA S tmp k := by simp [adr]
  simp only [assignN, sizeVar, Option.some.injEq] at ha
  subst ha
  rw [e1] at hc
  simp only [castN, CTy.low] 
  rw [evalC]
  simp only [Bool.false_and, Bool.false_eq_true, if_false]
  rw [show evalC E true d (Expr.var (.long true) (.loc (tmp k))) m = some (((slotA S tmp k).toNat : Int), m) by simp [evalC, varAddrC, h1]]
  simp only [Option.bind_eq_bind, Option.bind_some, hc, Expr.bitfield, assignC, e3, Ty.size, h2, e1, e2, Ty.scalar, Bool.true_and, if_true]

theorem ev_null {d : Nat} {m : Mem} : evalC E false d .null m = some (0, m) := by simp [evalC]

theorem ev_comma {l r : Expr} {d : Nat} {m m1 m2 : Mem} {x y : Int} (h1 : evalC E false d l m = some (x, m1)) (h2 : evalC E false d r m1 = some (y, m2)) :
    evalC E false d (.comma l r) m = some (y, m2) := by simp [evalC, h1, h2]

/-- The trees compute the sizes. -/
theorem sizes (H : Hidden S E tmp N) {lo hi : Nat} {st : STy} {vt : VTy} (hp : Parsed S E tmp N lo st vt hi) : ∀ k, hi ≤ k →
    ∃ e at' k', vlaSize tmp vt k = some (e, at', k') ∧ k ≤ k' ∧ Within tmp k k' at' ∧
      (k' ≤ N → ∀ m r m', Elab S st m r m' → st.Fits r → ∀ d m1, Agree S tmp m m1 →
        ∃ v m1', evalC E false d e m1 = some (v, m1') ∧ Agree S tmp m' m1' ∧ Kept S tmp N lo k' m1 m1' ∧ Stored S m1' at' r) := by
  induction hp with
  | @obj t hi =>
    intro k hk
    refine ⟨_, _, _, rfl, Nat.le_refl _, .obj, fun hN m r m' he _ d m1 ha => ?_⟩
    cases he
    exact ⟨0, m1, evalC_nulls t d m1, ha, Kept.refl _ _ _, rfl⟩
  | ptr _ ih =>
    intro k hk
    obtain ⟨e, at', k', h1, h2, h3, h4⟩ := ih k hk
    refine ⟨_, _, _, by simp only [vlaSize, h1, Option.bind_eq_bind, Option.bind_some]; rfl, h2, .ptr h3, fun hN m r m' he hf d m1 ha => ?_⟩
    cases he with
    | ptr he =>
      obtain ⟨v, m1', q1, q2, q3, q4⟩ := h4 hN _ _ _ he hf d m1 ha
      exact ⟨v, m1', by simp [evalC, q1], q2, q3, q4⟩
  | @arr b len t v n k0 k1 hi hb ht hti g hlo hhi ih =>
    intro k hk
    obtain ⟨e, at', k', h1, h2, h3, h4⟩ := ih k hk
    have : ∃ a, assignN (sizeVar (tmp k')) (binN .mul n (baseSize at')) = some a := ⟨_, rfl⟩
    obtain ⟨a, ea⟩ := this
    refine ⟨_, _, _, by simp only [vlaSize, h1, ea, Option.bind_eq_bind, Option.bind_some]; rfl, by omega, .vla (h3.mono (Nat.le_refl _) (by omega)) h2 (by omega), fun hN m r m' he hf d m1 ha => ?_⟩
    cases he with
    | @arr _ _ _ r m2 x _ he hx hpos =>
      have hfb : b.Fits r := by cases b <;> exact hf.1
      obtain ⟨v0, m1', q1, q2, q3, q4⟩ := h4 (by omega) _ _ _ he hfb d m1 ha
      obtain ⟨m1'', s1, s2, s3⟩ := g.sim (by omega) false (d + 1 + 1) m2 m1' (x : Int) _ q2 hx
      have q5 : Stored S m1'' at' r := stored_kept h3 (by omega) q4 s3 (.inr (by omega))
      -- the size of the elements
      have hR : ∃ u s, (baseSize at').ty = u ∧ u.isInt = true ∧ s = r.size ∧ evalC E false (d + 1) (baseSize at').e m1' = some ((s : Int), m1') ∧
          ((u = .long true ∧ x * s < 2 ^ 64) ∨ (u = .int false ∧ ∀ c, usual (len.vty t) (.int false) = some c → inRange c.low (x * s : Nat) = true)) ∧ x * s < 2 ^ 64 := by
        have small : ∀ s : Nat, (∀ c, usual (len.vty t) (.int false) = some c → inRange c.low (x * s : Nat) = true) → x * s < 2 ^ 64 := by
          intro s hs
          have h := hs _ (usual_ints (len.vty t) (mem_ints hti) (.int false) (by decide)).1
          generalize x * s = p at h ⊢
          exact range_max (cm_wide _ hti) h
        cases he with
        | obj =>
          cases at' with
          | obj t' =>
            cases q4
            have := fun c => hf.2 t c ht
            exact ⟨_, _, rfl, rfl, rfl, ev_num, .inr ⟨rfl, this⟩, small _ this⟩
          | _ => exact absurd q4 id
        | ptr =>
          cases at' with
          | ptr t' =>
            have := fun c => hf.2 t c ht
            exact ⟨_, _, rfl, rfl, rfl, ev_num, .inr ⟨rfl, this⟩, small _ this⟩
          | _ => exact absurd q4 id
        | arr =>
          cases h3 with
          | vla _ ha hb =>
            exact ⟨_, _, rfl, rfl, rfl, by rw [baseSize, ev_sizeVar H (by omega)]; exact congrArg (fun z : Nat => some ((z : Int), m1')) q4.1, .inl ⟨rfl, hf.2⟩, hf.2⟩
          | _ => exact absurd q4 id
      obtain ⟨u, s, u1, u2, rfl, u3, u4, u5⟩ := hR
      have hprod := product len t n k0 k1 hti g (baseSize at') u u1 u2 u3 s1 hpos u4
      have has := assign_size H (k := k') (by omega) _ a ea u5 hprod
      obtain ⟨w1, w2⟩ := slot_write H s2 k' (by omega) (Nat.le_refl 8) (x * r.size)
      refine ⟨_, _, (ev_comma (ev_comma ev_null q1) has), w1, ?_, ?_, ?_⟩
      · exact (q3.trans s3 (Nat.le_refl _) (by omega) hlo (by omega)).trans w2 (Nat.le_refl _) (Nat.le_refl _) (by have := g.le; omega) (Nat.le_refl _)
      · show readN (writeN m1'' (slotA S tmp k') 8 _) (slotA S tmp k') 8 = _; rw [readN_writeN _ _ _ _ (by decide) 8 (Nat.le_refl 8)]; exact Nat.mod_eq_of_lt u5
      · exact stored_kept h3 (by omega) q5 w2 (.inl (Nat.le_refl _))

end Toycc.Vla

namespace Toycc.Vla
open Toycc.Cg Toycc.Rv Toycc.Low

variable {S E : CEnv} {tmp : Nat → Int} {N : Nat}

/-- A product with a size in a variable, modulo 2^64. -/
theorem scaledVar (H : Hidden S E tmp N) {k : Nat} (hk : k < N) (R : Node) (c2 : CTy) (h2 : Rel R.ty c2) (i2 : c2.isInt = true) {s : Nat} {d : Nat} {m m1 : Mem} {y : Int}
    (hs : readN m (slotA S tmp k) 8 = s) (hr : evalC E false (d + 1) R.e m = some (y, m1)) :
    ∃ z : Int, (2 ^ 64 : Int) ∣ z - y * s ∧ evalC E false d (binN .mul R (sizeVar (tmp k))).e m = some (z, m1) := by
  have j2 : R.ty.isInt = true := by rw [h2.int]; exact i2
  have hc : common R.ty (.long true) = .long true := by
    have : ∀ t ∈ ints, common t (.long true) = .long true := by decide +kernel
    exact this _ (mem_ints j2)
  have hb : binN .mul R (sizeVar (tmp k)) = ⟨.bin .mul (common R.ty (.long true)).low (castN R (common R.ty (.long true))).e
      (.cast (common R.ty (.long true)).low (sizeVar (tmp k)).e), common R.ty (.long true)⟩ := rfl
  rw [hb, hc]
  have hv := ev_sizeVar H hk d m
  rw [hs] at hv
  refine ⟨(y % 2 ^ 64) * ((s : Int) % 2 ^ 64) % 2 ^ 64, ?_, ?_⟩
  · apply Int.dvd_of_emod_eq_zero
    apply Int.emod_eq_zero_of_dvd
    rw [← Int.mul_emod]
    exact ⟨-(y * s / 2 ^ 64), by have := Int.emod_add_mul_ediv (y * s) (2 ^ 64); omega⟩
  · refine ev_bin (ev_cast hv (by simp [CTy.low])) (ev_cast hr (by simp [CTy.low])) ?_
    rfl

/-- Adding or subtracting what is congruent to a number of bytes. -/
theorem add_bytes (sub : Bool) (L R : Node) (b : CTy) (h1 : L.ty = .ptr b) {d : Nat} {m m1 m2 : Mem} {x q s z : Int}
    (hr : evalC E false d R.e m = some (s, m1)) (hl : evalC E false (d + 1) L.e m1 = some (x, m2)) (hs : (2 ^ 64 : Int) ∣ s - q)
    (hz : z = if sub then x - q else x + q) (h0 : 0 ≤ z) (h64 : z < 2 ^ 64) :
    evalC E false d (binN (if sub then .sub else .add) L R).e m = some (z, m2) := by
  have hcm : common L.ty R.ty = .ptr b := common_base (by rw [h1]; rfl)
  obtain ⟨w, hw⟩ := hs
  cases sub with
  | false =>
    simp only [Bool.false_eq_true, if_false] at hz ⊢
    show evalC E false d (Expr.bin .add (common _ _).low (castN _ _).e (castN _ _).e) m = _
    rw [hcm]
    refine ev_bin (ev_cast hr (by simp [CTy.low])) (ev_cast hl (by simp [CTy.low])) ?_
    show some ((x % 2 ^ 64 + s % 2 ^ 64) % 2 ^ 64) = _
    congr 1
    rw [← Int.add_emod, show x + s = z + 2 ^ 64 * w by omega, Int.add_mul_emod_self_left]
    exact Int.emod_eq_of_lt h0 h64
  | true =>
    simp only [if_true] at hz ⊢
    show evalC E false d (Expr.bin .sub (common _ _).low (castN _ _).e (castN _ _).e) m = _
    rw [hcm]
    refine ev_bin (ev_cast hr (by simp [CTy.low])) (ev_cast hl (by simp [CTy.low])) ?_
    show some ((x % 2 ^ 64 - s % 2 ^ 64) % 2 ^ 64) = _
    congr 1
    rw [← Int.sub_emod, show x - s = z + 2 ^ 64 * (-w) by omega, Int.add_mul_emod_self_left]
    exact Int.emod_eq_of_lt h0 h64

end Toycc.Vla
