import Verif.Init.Fields
import Verif.Cg.ExprCases2
/-! The image of a static object: lemmas for C51. -/
namespace Toycc.Init
open Toycc.Cg Toycc.Low Toycc.Rv

/-! ### Bits of the buffer -/

def bit (buf : Nat → BitVec 8) (i : Nat) : Bool := (buf (i / 8)).getLsbD (i % 8)

theorem byteOf_bit (v : W) (k j : Nat) (hj : j < 8) : (byteOf v k).getLsbD j = v.getLsbD (8 * k + j) := by
  unfold byteOf
  rw [BitVec.getLsbD_setWidth, BitVec.getLsbD_ushiftRight, decide_eq_true hj, Bool.true_and]

theorem writeBuf_ok {n o sz : Nat} (buf : Nat → BitVec 8) (v : W) (hs : sz = 1 ∨ sz = 2 ∨ sz = 4 ∨ sz = 8) (ho : o + sz ≤ n) :
    ∃ b', writeBuf n buf o v sz = some b' ∧ ∀ i, bit b' i = if 8 * o ≤ i ∧ i < 8 * (o + sz) then v.getLsbD (i - 8 * o) else bit buf i := by
  refine ⟨_, if_pos ⟨hs, ho⟩, fun i => ?_⟩
  unfold bit
  dsimp only
  by_cases h : 8 * o ≤ i ∧ i < 8 * (o + sz)
  · rw [if_pos h, if_pos (by omega), byteOf_bit _ _ _ (by omega)]
    congr 1; omega
  · rw [if_neg h, if_neg (by omega)]

theorem le_bit (buf : Nat → BitVec 8) : ∀ (n o k : Nat), n ≤ 8 → k < 8 * n → (le buf o n).getLsbD k = bit buf (8 * o + k)
  | 0, o, k, _, h => by omega
  | n + 1, o, k, hn, h => by
    rw [le, BitVec.getLsbD_or, BitVec.getLsbD_setWidth, BitVec.getLsbD_shiftLeft]
    by_cases hk : k < 8
    · rw [decide_eq_true (show k < 64 by omega), decide_eq_true hk]
      simp only [Bool.true_and, Bool.not_true, Bool.false_and, Bool.or_false, bit]
      congr 1
      · congr 1; omega
      · omega
    · rw [decide_eq_true (show k < 64 by omega), decide_eq_false hk, BitVec.getLsbD_of_ge _ _ (by omega), le_bit buf n (o + 1) (k - 8) (by omega) (by omega)]
      simp only [Bool.true_and, Bool.not_false, Bool.and_self, Bool.false_or, Bool.and_false]
      congr 1; omega

theorem readBuf_ok {n o sz : Nat} (buf : Nat → BitVec 8) (hs : sz = 1 ∨ sz = 2 ∨ sz = 4 ∨ sz = 8) (ho : o + sz ≤ n) :
    ∃ v, readBuf n buf o sz = some v ∧ ∀ k, k < 8 * sz → v.getLsbD k = bit buf (8 * o + k) := by
  refine ⟨_, if_pos ⟨hs, ho⟩, fun k hk => ?_⟩
  split
  · rename_i h; subst h
    rw [BitVec.getLsbD_signExtend, decide_eq_true (show k < 64 by omega), if_pos (by omega), Bool.true_and, bit]
    congr 1
    · congr 1; omega
    · omega
  · exact le_bit buf sz o k (by omega) hk

/-! ### Values -/

theorem ofInt_bits {x y : Int} {b k : Nat} (hb : b ≤ 64) (h : x % (2 ^ b : Nat) = y % (2 ^ b : Nat)) (hk : k < b) : (BitVec.ofInt 64 x).getLsbD k = (BitVec.ofInt 64 y).getLsbD k := by
  have key : ∀ z : Int, (BitVec.ofInt 64 z).getLsbD k = (z % (2 ^ b : Nat)).toNat.testBit k := by
    intro z
    have e : (z % (2 ^ b : Nat)).toNat = (z % (2 ^ 64 : Nat)).toNat % 2 ^ b := by
      have hd : ((2 ^ b : Nat) : Int) ∣ ((2 ^ 64 : Nat) : Int) := by exact_mod_cast Nat.pow_dvd_pow 2 hb
      have h1 : z % ((2 ^ 64 : Nat) : Int) % ((2 ^ b : Nat) : Int) = z % ((2 ^ b : Nat) : Int) := Int.emod_emod_of_dvd _ hd
      have h0 : 0 ≤ z % ((2 ^ 64 : Nat) : Int) := Int.emod_nonneg _ (by decide)
      rw [← h1]
      generalize z % ((2 ^ 64 : Nat) : Int) = w at *
      obtain ⟨m, rfl⟩ := Int.eq_ofNat_of_zero_le h0
      rw [← Int.natCast_emod, Int.toNat_natCast, Int.toNat_natCast]
    rw [e, Nat.testBit_mod_two_pow, decide_eq_true hk, Bool.true_and, BitVec.getLsbD, BitVec.toNat_ofInt]
  rw [key, key, h]

theorem convC_bits {t : CTy} (ht : t.scalar = true) {v : W} (h : t = .bool → v = 0 ∨ v = 1) {k : Nat} (hk : k < 8 * t.size) :
    (BitVec.ofInt 64 (convC t.low v.toInt)).getLsbD k = v.getLsbD k := by
  have e : (BitVec.ofInt 64 v.toInt) = v := BitVec.ofInt_toInt
  have hb : t.size ≤ 8 := by cases t <;> first | (cases ht; done) | (simp [CTy.size])
  have hc : t = .bool ∨ convC t.low v.toInt = if t.low.unsigned then v.toInt % 2 ^ (8 * t.size) else v.toInt.bmod (2 ^ (8 * t.size)) := by
    cases t <;> first | (cases ht; done) | (left; rfl) | (right; rfl)
  rcases hc with rfl | hc
  · rcases h rfl with rfl | rfl <;> rfl
  · rw [hc]
    conv => rhs; rw [← e]
    refine ofInt_bits (b := 8 * t.size) (by omega) ?_ hk
    split
    · rw [show (2 : Int) ^ (8 * t.size) = ((2 ^ (8 * t.size) : Nat) : Int) by simp, Int.emod_emod_of_dvd _ (Int.dvd_refl _)]
    · rw [Int.bmod_emod]

theorem wrapBits_bits {t : CTy} {w : Nat} (hw : w ≤ 64) {v : W} (h : t = .bool → v = 0 ∨ v = 1) {k : Nat} (hk : k < w) :
    (BitVec.ofInt 64 (wrapBits t.low w v.toInt)).getLsbD k = v.getLsbD k := by
  have e : (BitVec.ofInt 64 v.toInt) = v := BitVec.ofInt_toInt
  conv => rhs; rw [← e]
  refine ofInt_bits hw ?_ hk
  have := wrapBits_mod (t := t.low) (w := w) (x := v.toInt) (by
    by_cases hb : t = .bool
    · right; rcases h hb with rfl | rfl
      · left; rfl
      · right; rfl
    · left; intro hc; cases t <;> simp [CTy.low] at hc hb)
  simpa using this

/-! ### The invariant -/

/-- A relocation covers a bit. -/
abbrev Reloc.has (r : Reloc) (i : Nat) : Prop := 8 * r.offset ≤ i ∧ i < 8 * r.offset + 64

/-- The bits of the image: those of the buffer, overlaid by the relocated addresses. -/
def img (ρ : String → W) (buf : Nat → BitVec 8) : List Reloc → Nat → Bool
  | [], i => bit buf i
  | r :: rs, i => if r.has i then (ρ r.label + r.addend).getLsbD (i - 8 * r.offset) else img ρ buf rs i

theorem img_congr {ρ : String → W} {b b' : Nat → BitVec 8} {rels : List Reloc} {i : Nat} (h : bit b i = bit b' i) : img ρ b rels i = img ρ b' rels i := by
  induction rels with
  | nil => exact h
  | cons r rs ih => simp only [img, ih]

theorem img_out {ρ : String → W} {b : Nat → BitVec 8} {rels : List Reloc} {i : Nat} (h : ∀ r ∈ rels, ¬ r.has i) : img ρ b rels i = bit b i := by
  induction rels with
  | nil => rfl
  | cons r rs ih => rw [img, if_neg (h r (List.mem_cons_self ..)), ih fun r' hr => h r' (List.mem_cons_of_mem _ hr)]

theorem img_snoc {ρ : String → W} {b : Nat → BitVec 8} {rels : List Reloc} {r : Reloc} {i : Nat} (h : ∀ r' ∈ rels, 8 * r'.offset + 64 ≤ 8 * r.offset) :
    img ρ b (rels ++ [r]) i = if r.has i then (ρ r.label + r.addend).getLsbD (i - 8 * r.offset) else img ρ b rels i := by
  induction rels with
  | nil => rfl
  | cons r' rs ih =>
    rw [List.cons_append, img, ih fun r'' hr => h r'' (List.mem_cons_of_mem _ hr), img]
    have := h r' (List.mem_cons_self ..)
    by_cases h1 : r'.has i
    · have : ¬ r.has i := fun h2 => by have := h1.2; have := h2.1; omega
      rw [if_pos h1, if_neg this, if_pos h1]
    · rw [if_neg h1, if_neg h1]

/-- Nothing has been written from bit `cur` on; the relocations are in order, below `cur`. -/
structure Inv (n cur : Nat) (st : St) : Prop where
  zero : ∀ i, cur ≤ i → i < 8 * n → bit st.buf i = false
  below : ∀ r ∈ st.rels, 8 * r.offset + 64 ≤ cur
  order : st.rels.Pairwise fun r s => r.offset + 8 ≤ s.offset

theorem Inv.mono {n cur cur' : Nat} {st : St} (h : Inv n cur st) (hc : cur ≤ cur') : Inv n cur' st :=
  ⟨fun i hi => h.zero i (by omega), fun r hr => by have := h.below r hr; omega, h.order⟩

/-- What a step does: it succeeds, keeps the invariant, and puts the fields. -/
def Puts (ρ : String → W) (n : Nat) (st : St) (fs : List Fld) (cur' : Nat) (r : Option St) : Prop :=
  ∃ st', r = some st' ∧ Inv n cur' st' ∧ ∀ i, i < 8 * n → img ρ st'.buf st'.rels i = over fs (img ρ st.buf st.rels) i

variable {ρ : String → W} {n : Nat}

theorem Puts.same {st : St} {cur' : Nat} (h : Inv n cur' st) : Puts ρ n st [] cur' (some st) := ⟨st, rfl, h, fun _ _ => rfl⟩

theorem over_congr {fs : List Fld} {g g' : Nat → Bool} {m : Nat} (h : ∀ i, i < m → g i = g' i) : ∀ i, i < m → over fs g i = over fs g' i := by
  induction fs generalizing g g' with
  | nil => exact h
  | cons f fs ih =>
    refine ih fun i hi => ?_
    unfold put
    split
    · rfl
    · exact h i hi

theorem Puts.bind {st : St} {fs gs : List Fld} {c1 c2 : Nat} {r : Option St} {k : St → Option St} (h1 : Puts ρ n st fs c1 r)
    (h2 : ∀ st', Inv n c1 st' → Puts ρ n st' gs c2 (k st')) : Puts ρ n st (fs ++ gs) c2 (r.bind k) := by
  obtain ⟨st1, rfl, i1, e1⟩ := h1
  obtain ⟨st2, q, i2, e2⟩ := h2 st1 i1
  refine ⟨st2, q, i2, fun i hi => ?_⟩
  rw [e2 i hi, over_append]
  exact over_congr e1 i hi

/-- Writing a scalar. -/
theorem puts_buf {st : St} {o sz cur : Nat} {v w : W} (hi : Inv n cur st) (hc : cur ≤ 8 * o) (hs : sz = 1 ∨ sz = 2 ∨ sz = 4 ∨ sz = 8) (ho : o + sz ≤ n)
    (hv : ∀ k, k < 8 * sz → w.getLsbD k = v.getLsbD k) :
    Puts ρ n st [⟨8 * o, 8 * sz, w⟩] (8 * (o + sz)) ((writeBuf n st.buf o v sz).map fun b => { st with buf := b }) := by
  obtain ⟨b', e, hb⟩ := writeBuf_ok st.buf v hs ho
  refine ⟨{ st with buf := b' }, by rw [e]; rfl, ⟨fun i h1 h2 => ?_, fun r hr => ?_, hi.order⟩, fun i h => ?_⟩
  · dsimp only; rw [hb, if_neg (by omega)]; exact hi.zero i (by omega) h2
  · have := hi.below r hr; omega
  · simp only [over, put, Fld.has]
    by_cases hh : 8 * o ≤ i ∧ i < 8 * o + 8 * sz
    · rw [if_pos hh, img_out, hb, if_pos (by omega), hv _ (by omega)]
      intro r hr h3
      have := hi.below r hr; have := h3.2; omega
    · rw [if_neg hh]
      exact img_congr (by rw [hb, if_neg (by omega)])

theorem mask_bit {bw k : Nat} (hw : bw < 64) : (1#64 <<< bw - 1#64).getLsbD k = decide (k < bw) := by
  have : (1#64 <<< bw - 1#64) = BitVec.ofNat 64 (2 ^ bw - 1) := by
    have hlt : 2 ^ bw < 2 ^ 64 := Nat.pow_lt_pow_right (by omega) hw
    have hp := Nat.two_pow_pos bw
    apply BitVec.eq_of_toNat_eq
    rw [BitVec.toNat_sub, BitVec.toNat_shiftLeft, Nat.shiftLeft_eq]
    simp only [BitVec.toNat_ofNat]
    omega
  rw [this, BitVec.getLsbD_ofNat, Nat.testBit_two_pow_sub_one]
  by_cases h : k < bw
  · simp [h]; omega
  · simp [h]

/-- Writing a bit-field. -/
theorem puts_bits {st : St} {o sz bo bw cur : Nat} {e : CVal} {v w : W} (hi : Inv n cur st) (hc : cur ≤ 8 * o + bo) (hs : sz = 1 ∨ sz = 2 ∨ sz = 4 ∨ sz = 8) (ho : o + sz ≤ n)
    (hb : bo + bw ≤ 8 * sz) (hw : bw < 64) (he : e.int = .num v) (hv : ∀ k, k < bw → w.getLsbD k = v.getLsbD k) :
    Puts ρ n st [⟨8 * o + bo, bw, w⟩] (8 * o + bo + bw) (writeBits n st o bo bw sz e) := by
  obtain ⟨old, e1, hold⟩ := readBuf_ok st.buf hs ho
  obtain ⟨b', e2, hb'⟩ := writeBuf_ok st.buf (old ||| (v &&& (1#64 <<< bw - 1#64)) <<< bo) hs ho
  have hbit : ∀ i, i < 8 * n → bit b' i = if 8 * o + bo ≤ i ∧ i < 8 * o + bo + bw then v.getLsbD (i - (8 * o + bo)) else bit st.buf i := by
    intro i hin
    rw [hb']
    by_cases h1 : 8 * o ≤ i ∧ i < 8 * (o + sz)
    · rw [if_pos h1, BitVec.getLsbD_or, BitVec.getLsbD_shiftLeft, BitVec.getLsbD_and, mask_bit hw, hold _ (by omega), show 8 * o + (i - 8 * o) = i by omega]
      by_cases h2 : 8 * o + bo ≤ i ∧ i < 8 * o + bo + bw
      · rw [if_pos h2, hi.zero i (by omega) hin, decide_eq_true (show i - 8 * o < 64 by omega), decide_eq_false (show ¬ i - 8 * o < bo by omega),
          decide_eq_true (show i - 8 * o - bo < bw by omega), show i - 8 * o - bo = i - (8 * o + bo) by omega]
        simp
      · rw [if_neg h2]
        by_cases h3 : i - 8 * o < bo
        · rw [decide_eq_true h3]; simp
        · rw [decide_eq_false (show ¬ i - 8 * o - bo < bw by omega)]; simp
    · rw [if_neg h1, if_neg (by omega)]
  refine ⟨{ st with buf := b' }, ?_, ⟨fun i h1 h2 => ?_, fun r hr => ?_, hi.order⟩, fun i h => ?_⟩
  · simp only [writeBits, he, if_pos hw, e1, Option.bind_eq_bind, Option.bind_some, e2]
  · dsimp only; rw [hbit i h2, if_neg (by omega)]; exact hi.zero i (by omega) h2
  · have := hi.below r hr; omega
  · simp only [over, put, Fld.has]
    by_cases hh : 8 * o + bo ≤ i ∧ i < 8 * o + bo + bw
    · rw [if_pos hh, img_out, hbit i h, if_pos hh, hv _ (by omega)]
      intro r hr h3
      have := hi.below r hr; have := h3.2; omega
    · rw [if_neg hh]
      exact img_congr (by rw [hbit i h, if_neg hh])

theorem size_cases {t : CTy} (h : t.scalar = true) : t.size = 1 ∨ t.size = 2 ∨ t.size = 4 ∨ t.size = 8 := by
  cases t <;> first | (cases h; done) | simp [CTy.size]

/-- Writing a scalar of any type. -/
theorem puts_scalar {st : St} {o cur : Nat} {t : CTy} {e : CVal} (hi : Inv n cur st) (hc : cur ≤ 8 * o) (ht : t.scalar = true) (ho : o + t.size ≤ n) (hk : e.okFor t) :
    Puts ρ n st [⟨8 * o, 8 * t.size, (constMeaning ρ).scalar (.scalar t) e⟩] (8 * (o + t.size)) (writeScalar n st o (.scalar t) e) := by
  simp only [writeScalar]
  cases he : e.int with
  | num v =>
    have hvb : t = .bool → v = 0 ∨ v = 1 := fun hb => by
      rcases hk.1 hb with h | h <;> rw [he] at h <;> cases h
      · left; rfl
      · right; rfl
    exact puts_buf hi hc (size_cases ht) ho fun k hlt => by
      simp only [constMeaning, he, IVal.value]
      exact convC_bits ht hvb hlt
  | sym l a =>
    have h8 := hk.2 l a he
    have hnb : t ≠ .bool := fun hb => by rcases hk.1 hb with h | h <;> rw [he] at h <;> cases h
    refine ⟨_, rfl, ⟨fun i h1 h2 => hi.zero i (by omega) h2, fun r hr => ?_, ?_⟩, fun i h => ?_⟩
    · rcases List.mem_append.mp hr with hr | hr
      · have := hi.below r hr; omega
      · rw [List.mem_singleton.mp hr]; dsimp only; omega
    · refine List.pairwise_append.mpr ⟨hi.order, by simp, fun r hr s hs => ?_⟩
      rw [List.mem_singleton.mp hs]
      have := hi.below r hr; dsimp only; omega
    · dsimp only
      rw [img_snoc (fun r' hr => by have := hi.below r' hr; dsimp only; omega)]
      simp only [over, put, Fld.has, Reloc.has, h8]
      by_cases hh : 8 * o ≤ i ∧ i < 8 * o + 64
      · rw [if_pos hh, if_pos (by omega)]
        simp only [constMeaning, he, IVal.value]
        exact (convC_bits ht (fun hb => absurd hb hnb) (by omega)).symm
      · rw [if_neg hh, if_neg (by omega)]

mutual
theorem write_puts : ∀ (i : Ini CVal) (t : Ty) (o cur : Nat) (st : St), t.Wf → Fits t i → Handled t i → Inv n cur st → cur ≤ 8 * o → o + t.size ≤ n →
    Puts ρ n st (flds (constMeaning ρ) t i o) (8 * (o + t.size)) (write n t i o st)
  | .mk x m cs, .arr b k, o, cur, st, hw, hf, hh, hi, hc, ho => writeArr_puts cs b k o cur st hw hf hh hi hc ho
  | .mk x m cs, .struc k ms, o, cur, st, hw, hf, hh, hi, hc, ho => writeMems_puts cs ms k 0 o st hw hf hh (hi.mono (by omega)) ho
  | .mk x none cs, .union k ms, o, cur, st, hw, hf, hh, hi, hc, ho => .same (hi.mono (by omega))
  | .mk x (some j) cs, .union k ms, o, cur, st, hw, hf, hh, hi, hc, ho =>
    writeNth_puts cs j ms k o cur st hw hf.1 (hf.2 j rfl) hh hi hc ho
  | .mk none m cs, .scalar t, o, cur, st, hw, hf, hh, hi, hc, ho => .same (hi.mono (by omega))
  | .mk none m cs, .flt, o, cur, st, hw, hf, hh, hi, hc, ho => .same (hi.mono (by omega))
  | .mk none m cs, .dbl, o, cur, st, hw, hf, hh, hi, hc, ho => .same (hi.mono (by omega))
  | .mk none m cs, .ldbl, o, cur, st, hw, hf, hh, hi, hc, ho => .same (hi.mono (by omega))
  | .mk (some e) m cs, .scalar t, o, cur, st, hw, hf, hh, hi, hc, ho => puts_scalar hi hc hw ho hh
  | .mk (some e) m cs, .flt, o, cur, st, hw, hf, hh, hi, hc, ho => puts_buf (sz := 4) hi hc (by omega) ho fun _ _ => rfl
  | .mk (some e) m cs, .dbl, o, cur, st, hw, hf, hh, hi, hc, ho => puts_buf (sz := 8) hi hc (by omega) ho fun _ _ => rfl
  | .mk (some e) m cs, .ldbl, o, cur, st, hw, hf, hh, hi, hc, ho => by cases hh
theorem writeArr_puts : ∀ (cs : Inis CVal) (b : Ty) (k o cur : Nat) (st : St), b.Wf → FitsArr b k cs → HandledArr b cs → Inv n cur st → cur ≤ 8 * o → o + b.size * k ≤ n →
    Puts ρ n st (fldsArr (constMeaning ρ) b k cs o) (8 * (o + b.size * k)) (writeArr n b k cs o st)
  | _, b, 0, o, cur, st, hw, hf, hh, hi, hc, ho => by
    simp only [fldsArr, writeArr]
    exact .same (hi.mono (by omega))
  | .nil, b, k + 1, o, cur, st, hw, hf, hh, hi, hc, ho => by
    simp only [FitsArr] at hf; omega
  | .cons c r, b, k + 1, o, cur, st, hw, hf, hh, hi, hc, ho => by
    rw [Nat.mul_succ] at ho ⊢
    obtain ⟨-, f1, f2⟩ := hf
    obtain ⟨h1, h2⟩ := hh
    rw [show o + (b.size * k + b.size) = o + b.size + b.size * k by omega]
    exact (write_puts c b o cur st hw f1 h1 hi hc (by omega)).bind fun st' hi' =>
      writeArr_puts r b k (o + b.size) _ st' hw f2 h2 hi' (Nat.le_refl _) (by omega)
theorem writeMems_puts : ∀ (cs : Inis CVal) (ms : Mems) (k cur o : Nat) (st : St), ms.Wf k cur → FitsMems ms cs → HandledMems ms cs → Inv n (8 * o + cur) st → o + k ≤ n →
    Puts ρ n st (fldsMems (constMeaning ρ) ms cs o) (8 * (o + k)) (writeMems n ms cs o st)
  | cs, .nil, k, cur, o, st, hw, hf, hh, hi, ho => by
    have := hw.le
    simp only [fldsMems, writeMems]
    exact .same (hi.mono (by omega))
  | .nil, .cons _ _ _ _, k, cur, o, st, hw, hf, hh, hi, ho => by simp [FitsMems] at hf
  | .cons c cs, .cons off none t r, k, cur, o, st, hw, hf, hh, hi, ho => by
    obtain ⟨w1, w2, w3, w4⟩ := hw
    obtain ⟨f1, f2⟩ := hf
    obtain ⟨h1, h2⟩ := hh
    exact (write_puts c t (o + off) _ st w2 f1 h1 hi (by omega) (by omega)).bind fun st' hi' =>
      writeMems_puts cs r k _ o st' w4 f2 h2 (hi'.mono (by omega)) ho
  | .cons c cs, .cons off (some (bo, bw)) t r, k, cur, o, st, hw, hf, hh, hi, ho => by
    obtain ⟨w1, w2, ⟨ct, rfl, hint⟩, w4, w5, w6, w7⟩ := hw
    obtain ⟨f1, f2⟩ := hf
    obtain ⟨h1, h2, h3⟩ := hh
    rw [fldsMems_cons]
    cases he : c.expr with
    | none =>
      simp only [writeMems, fldsMem, he, blank_mems cs r o (h2 he), List.append_nil]
      have := Mems.Wf.le w7
      exact .same (hi.mono (by omega))
    | some e =>
      obtain ⟨g1, g2, g3⟩ := h1 e he
      simp only [writeMems, fldsMem, he]
      cases hv : e.int with
      | sym l a => exact absurd hv (g3 l a)
      | num v =>
        have hsz : ct.size ≤ 8 := by rcases size_cases w2 with h | h | h | h <;> omega
        refine (puts_bits (v := v) hi (by omega) (size_cases w2) (by show o + off + ct.size ≤ n; simp only [Ty.size] at w4; omega) w6 g2 hv fun k' hk' => ?_).bind fun st' hi' =>
          writeMems_puts cs r k _ o st' w7 f2 h3 (hi'.mono (by omega)) ho
        simp only [constMeaning, hv, IVal.value]
        refine wrapBits_bits (by omega) (fun hb => ?_) hk'
        rcases g1.1 hb with h | h <;> rw [hv] at h <;> cases h
        · left; rfl
        · right; rfl
theorem writeNth_puts : ∀ (cs : Inis CVal) (j : Nat) (ms : Mems) (k o cur : Nat) (st : St), ms.WfU k → FitsMems ms cs → (ms.get? j).isSome = true → HandledNth j ms cs → Inv n cur st →
    cur ≤ 8 * o → o + k ≤ n → Puts ρ n st (fldsNth (constMeaning ρ) j ms cs o) (8 * (o + k)) (writeNth n j ms cs o st)
  | cs, j, .nil, k, o, cur, st, hw, hf, hj, hh, hi, hc, ho => by simp [Mems.get?] at hj
  | .nil, j, .cons _ _ _ _, k, o, cur, st, hw, hf, hj, hh, hi, hc, ho => by simp [FitsMems] at hf
  | .cons c cs, 0, .cons off b t r, k, o, cur, st, hw, hf, hj, hh, hi, hc, ho => by
    obtain ⟨rfl, w2, w3, -, -⟩ := hw
    obtain ⟨rfl, h1⟩ := hh
    obtain ⟨st', e, i', q⟩ := write_puts c t o cur st w2 hf.1 h1 hi hc (by omega)
    exact ⟨st', e, i'.mono (by omega), q⟩
  | .cons c cs, j + 1, .cons off b t r, k, o, cur, st, hw, hf, hj, hh, hi, hc, ho =>
    writeNth_puts cs j r k o cur st hw.2.2.2.2 hf.2 hj hh hi hc ho
end

/-! ### Printing the image -/

theorem linked_cons (ρ : String → W) (i : Item) (is : List Item) : linked ρ (i :: is) = i.bytes ρ ++ linked ρ is := rfl

theorem bitOf_append {a b : List (BitVec 8)} (i : Nat) : bitOf (a ++ b) i = if i < 8 * a.length then bitOf a i else bitOf b (i - 8 * a.length) := by
  unfold bitOf
  by_cases h : i < 8 * a.length
  · rw [if_pos h, List.getElem?_append_left (by omega)]
  · rw [if_neg h, List.getElem?_append_right (by omega), show (i - 8 * a.length) / 8 = i / 8 - a.length by omega, show (i - 8 * a.length) % 8 = i % 8 by omega]

theorem quad_bit (ρ : String → W) (l : String) (a : W) {i : Nat} (h : i < 64) : bitOf (Item.bytes ρ (.quad l a)) i = (ρ l + a).getLsbD i := by
  unfold bitOf Item.bytes
  rw [List.getElem?_map, List.getElem?_range (by omega)]
  show (byteOf (ρ l + a) (i / 8)).getLsbD (i % 8) = _
  rw [byteOf_bit _ _ _ (by omega)]
  congr 1; omega

theorem emit_img (ρ : String → W) (size : Nat) (buf : Nat → BitVec 8) : ∀ (fuel pos : Nat) (rels : List Reloc), size - pos ≤ fuel → pos ≤ size →
    (∀ r ∈ rels, pos ≤ r.offset ∧ r.offset + 8 ≤ size) → rels.Pairwise (fun r s => r.offset + 8 ≤ s.offset) →
    (linked ρ (emit size buf rels pos)).length = size - pos ∧
    ∀ i, 8 * pos + i < 8 * size → bitOf (linked ρ (emit size buf rels pos)) i = img ρ buf rels (8 * pos + i)
  | fuel, pos, rels, hf, hp, hr, ho => by
    rw [emit.eq_def]
    by_cases h : pos < size
    · rw [dif_pos h]
      obtain ⟨fuel, rfl⟩ : ∃ f, fuel = f + 1 := ⟨fuel - 1, by omega⟩
      have hbyte : ∀ rels : List Reloc, (∀ r ∈ rels, pos + 1 ≤ r.offset ∧ r.offset + 8 ≤ size) → rels.Pairwise (fun r s => r.offset + 8 ≤ s.offset) →
          (linked ρ (.byte (buf pos) :: emit size buf rels (pos + 1))).length = size - pos ∧
          ∀ i, 8 * pos + i < 8 * size → bitOf (linked ρ (.byte (buf pos) :: emit size buf rels (pos + 1))) i = img ρ buf rels (8 * pos + i) := by
        intro rels hr ho
        obtain ⟨g1, g2⟩ := emit_img ρ size buf fuel (pos + 1) rels (by omega) (by omega) hr ho
        constructor
        · simp only [linked_cons, List.length_append, g1, Item.bytes, List.length_singleton]; omega
        · intro i hi
          have hlen : (Item.bytes ρ (.byte (buf pos))).length = 1 := rfl
          rw [linked_cons, bitOf_append, hlen]
          by_cases h8 : i < 8 * 1
          · rw [if_pos h8, img_out (fun r hr' hh => by have := (hr r hr').1; have := hh.1; omega)]
            unfold bitOf bit
            rw [show i / 8 = 0 by omega, show (8 * pos + i) / 8 = pos by omega, show (8 * pos + i) % 8 = i % 8 by omega]
            rfl
          · rw [if_neg h8, g2 _ (by omega)]
            congr 1; omega
      cases rels with
      | nil => exact hbyte [] (by simp) .nil
      | cons r rs =>
        dsimp only
        have hr0 := hr r (List.mem_cons_self ..)
        rw [List.pairwise_cons] at ho
        by_cases he : r.offset = pos
        · rw [if_pos he]
          obtain ⟨g1, g2⟩ := emit_img ρ size buf fuel (pos + 8) rs (by omega) (by omega) (fun r' hr' => by
            have := ho.1 r' hr'; have := (hr r' (List.mem_cons_of_mem _ hr')).2; omega) ho.2
          have hlen : (Item.bytes ρ (.quad r.label r.addend)).length = 8 := by simp [Item.bytes]
          constructor
          · rw [linked_cons, List.length_append, g1, hlen]; omega
          · intro i hi
            rw [linked_cons, bitOf_append, hlen, img]
            by_cases h8 : i < 8 * 8
            · rw [if_pos h8, if_pos ⟨by omega, by omega⟩, quad_bit ρ _ _ (by omega)]
              congr 1; omega
            · rw [if_neg h8, if_neg (fun hh => by have := hh.2; omega), g2 _ (by omega)]
              congr 1; omega
        · rw [if_neg he]
          exact hbyte (r :: rs) (fun r' hr' => by
            rcases List.mem_cons.mp hr' with rfl | h'
            · omega
            · have := ho.1 r' h'; have := (hr r' hr').2; omega) (List.pairwise_cons.mpr ho)
    · rw [dif_neg h]
      exact ⟨by simp [linked]; omega, fun i hi => by omega⟩

end Toycc.Init
