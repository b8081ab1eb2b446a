import Verif.Init.LocalLemmas
import Verif.Init.Global
/-! Proof for C52: the assignments of an initialiser put its fields. -/
namespace Toycc.Init
open Toycc.Cg Toycc.Low Toycc.Rv

variable {E : CEnv} {a : W} {n : Nat}

/-- Evaluating `x` takes memories that agree with `M` outside the object to memories that agree with `M1`, and puts the fields `fs`. -/
def Doing (E : CEnv) (a : W) (n : Nat) (x : Expr) (fs : List Fld) (M M1 : Mem) : Prop :=
  ∀ d m, AgreeOut a n m M → ∃ v m', evalC E false d x m = some (v, m') ∧ AgreeOut a n m' M1 ∧ ∀ i, i < 8 * n → mbit m' a i = over fs (mbit m a) i

def Does (E : CEnv) (a : W) (n : Nat) (x : Option Expr) (fs : List Fld) (M M1 : Mem) : Prop :=
  ∃ e, x = some e ∧ Doing E a n e fs M M1

theorem doing_null (M : Mem) : Doing E a n .null [] M M := fun d m h => ⟨0, m, by rw [evalC]; rfl, h, fun _ _ => rfl⟩

theorem Doing.comma {x y : Expr} {fs gs : List Fld} {M M1 M2 : Mem} (h1 : Doing E a n x fs M M1) (h2 : Doing E a n y gs M1 M2) : Doing E a n (.comma x y) (fs ++ gs) M M2 := by
  intro d m hm
  obtain ⟨v, m1, e1, o1, b1⟩ := h1 d m hm
  obtain ⟨w, m2, e2, o2, b2⟩ := h2 d m1 o1
  refine ⟨w, m2, ?_, o2, fun i hi => ?_⟩
  · rw [evalC, e1]; simp only [Option.bind_eq_bind, Option.bind_some, e2]
  · rw [b2 i hi, over_append]
    exact over_congr b1 i hi

theorem mbit_in {m m' : Mem} (h : AgreeIn a n m' m) (hn : n < 2 ^ 63) {i : Nat} (hi : i < 8 * n) : mbit m' a i = mbit m a i := by
  unfold mbit
  rw [h]
  have e : a + BitVec.ofNat 64 (i / 8) - a = BitVec.ofNat 64 (i / 8) := by
    rw [BitVec.add_comm]; exact BitVec.add_sub_cancel _ _
  rw [e, BitVec.toNat_ofNat]
  omega

theorem rep_bits (v : Int) (k : Nat) : (rep v).testBit k = (BitVec.ofInt 64 v).getLsbD k := rfl

theorem mod_bits {z : Int} {w k : Nat} (hw : w ≤ 64) (hk : k < w) : (z % 2 ^ w).toNat.testBit k = (BitVec.ofInt 64 z).getLsbD k := by
  rw [← ofInt_bits (x := z % 2 ^ w) (y := z) hw (by rw [Int.natCast_pow]; exact Int.emod_emod_of_dvd _ (Int.dvd_refl _)) hk]
  have h0 : 0 ≤ z % 2 ^ w := Int.emod_nonneg _ (Int.ne_of_gt (Int.pow_pos (by omega)))
  have e : z % 2 ^ w = ((z % 2 ^ w).toNat : Int) := (Int.toNat_of_nonneg h0).symm
  rw [e, BitVec.ofInt_natCast, BitVec.getLsbD_ofNat, Int.toNat_natCast, decide_eq_true (by omega : k < 64), Bool.true_and]

theorem low_size_eq {t : CTy} (h : t.scalar = true) : t.low.size = t.size ∧ t.low.bits = 8 * t.size := by
  cases t <;> simp_all [CTy.scalar, CTy.isInt, CTy.low, CTy.size, Cg.Ty.size, Cg.Ty.bits]

/-- Where a leaf puts its value. -/
def leafFld (t : CTy) (bits : Option (Nat × Nat)) (e : Leaf) (o : Nat) : Fld :=
  match bits with
  | none => ⟨8 * o, 8 * t.size, valueMeaning.scalar (.scalar t) e⟩
  | some (bo, bw) => ⟨8 * o + bo, bw, valueMeaning.field t bw e⟩

theorem over_one {f : Fld} {g : Nat → Bool} {i : Nat} (p w : Nat) (v : W) (hf : f = ⟨p, w, v⟩) : over [f] g i = if p ≤ i ∧ i < p + w then v.getLsbD (i - p) else g i := by
  subst hf; rfl

/-- The assignment for a leaf. -/
theorem leaf_doing {d : Desg} {t : CTy} {bits : Option (Nat × Nat)} {f : Field} {o : Nat} {e : Leaf} {M M1 : Mem} (hn : n < 2 ^ 63) (hok : E.ok a n = true)
    (ht : t.scalar = true) (hd : DesgOk E a d t (bits.map fun p => (f, p.1, p.2)) o) (hf : f.ty = t.low) (hb : ∀ p, bits = some p → p.1 + p.2 ≤ 8 * t.size) (ho : o + t.size ≤ n)
    (he : ∀ d m, AgreeOut a n m M → ∃ m', evalC E false d e.1.e m = some (e.2, m') ∧ AgreeOut a n m' M1 ∧ AgreeIn a n m' m) :
    Does E a n (create Prod.fst (.scalar t) (.mk (some e) none .nil) d) [leafFld t bits e o] M M1 := by
  obtain ⟨nd, h1, h2, h3, h4⟩ := hd.ok
  obtain ⟨s1, s2, s3⟩ := scalar_low ht
  obtain ⟨z1, z2⟩ := low_size_eq ht
  have hsz : t.size ≤ 8 := by rcases size_cases ht with h | h | h | h <;> omega
  have ha : assignN nd e.1 = some ⟨.assign t.low nd.e (.cast t.low e.1.e), t⟩ := by
    unfold assignN
    rw [h2]
    cases t <;> simp_all [CTy.scalar, CTy.isInt, castN]
  refine ⟨.assign t.low nd.e (.cast t.low e.1.e), by simp [create, Ty.cty, h1, ha], fun dep m hm => ?_⟩
  obtain ⟨m1, g1, g2, g3⟩ := he (dep + 1) m hm
  have hc := cast_eval (t := t.low) g1 s2 rfl
  have hev : evalC E false dep (.assign t.low nd.e (.cast t.low e.1.e)) m = assignC E (bits.map fun p => (f, p.1, p.2)) t.low (a + BitVec.ofNat 64 o) e.2 m1 := by
    rw [evalC, (h4 dep m).1]
    simp only [Bool.false_and, Bool.false_eq_true, if_false, Option.bind_eq_bind, Option.bind_some, hc, h3, adr_toNat]
    refine assignC_conv s1 (fun f' o' w' hbf => ?_) _ _ _
    cases bits with
    | none => cases hbf
    | some p =>
      simp only [Option.map_some, Option.some.injEq, Prod.mk.injEq] at hbf
      obtain ⟨rfl, rfl, rfl⟩ := hbf
      have := hb p rfl
      exact ⟨hf, by omega⟩
  have hok' : E.ok (a + BitVec.ofNat 64 o) t.low.size = true := by rw [z1]; exact ok_sub hok ho
  rw [hev]
  cases bits with
  | none =>
    refine ⟨convC t.low e.2, writeN m1 (a + BitVec.ofNat 64 o) t.low.size (rep (convC t.low e.2)), ?_, ?_, fun i hi => ?_⟩
    · have : assignC E none t.low (a + BitVec.ofNat 64 o) e.2 m1 = if t.low.scalar && E.ok (a + BitVec.ofNat 64 o) t.low.size then some (convC t.low e.2, writeN m1 (a + BitVec.ofNat 64 o) t.low.size (rep (convC t.low e.2))) else none := by
        generalize t.low = u at *
        cases u <;> first | rfl | cases s1
      rw [Option.map_none, this, if_pos (by simp [s1, hok'])]
    · intro b hb'
      rw [writeN_out (n := n) (by omega) b hb', g2 b hb']
    · rw [writeN_bits (by omega) (by omega) hi, mbit_in g3 hn hi, z1]
      rw [over_one (f := leafFld t none e o) (8 * o) (8 * t.size) (BitVec.ofInt 64 (convC t.low e.2)) rfl]
      by_cases hin : 8 * o ≤ i ∧ i < 8 * (o + t.size)
      · rw [if_pos hin, if_pos (by omega), rep_bits]
      · rw [if_neg hin, if_neg (by omega)]
  | some p =>
    obtain ⟨bo, bw⟩ := p
    have hbw := hb _ rfl
    dsimp only at hbw
    rw [← hf] at z1 z2 s1 hok'
    refine ⟨wrapBits f.ty bw e.2, writeN m1 (a + BitVec.ofNat 64 o) f.ty.size (mergeBits bo bw (readN m1 (a + BitVec.ofNat 64 o) f.ty.size) (wrapBits f.ty bw e.2)), ?_, ?_, fun i hi => ?_⟩
    · simp only [Option.map_some, assignC, s1, hok', Bool.and_self, if_true]
    · intro b hb'
      rw [writeN_out (n := n) (by omega) b hb', g2 b hb']
    · rw [writeN_bits (by omega) (by omega) hi, mbit_in g3 hn hi, z1]
      rw [over_one (f := leafFld t (some (bo, bw)) e o) (8 * o + bo) bw (BitVec.ofInt 64 (wrapBits t.low bw e.2)) rfl]
      by_cases hin : 8 * o ≤ i ∧ i < 8 * (o + t.size)
      · rw [if_pos hin, mergeBits_testBit]
        by_cases hfl : bo ≤ i - 8 * o ∧ i - 8 * o < bo + bw
        · rw [if_pos hfl, if_pos (by omega), mod_bits (by omega) (by omega), hf]
          congr 1; omega
        · rw [if_neg hfl, if_neg (by omega), readN_bits (by omega), mbit_shift, mbit_in g3 hn (by omega)]
          congr 1; omega
      · rw [if_neg hin, if_neg (by omega)]

/-! ### Types -/

theorem cty_size : ∀ {t : Ty} {c : CTy}, t.cty = some c → c.size = t.size
  | .scalar t, c, h => by cases h; rfl
  | .arr b k, c, h => by
    simp only [Ty.cty, Option.map_eq_some_iff] at h
    obtain ⟨b', h1, rfl⟩ := h
    rw [CTy.size, Ty.size, cty_size h1]
  | .struc k ms, c, h => by cases h; rfl
  | .union k ms, c, h => by cases h; rfl
  | .flt, _, h => by cases h
  | .dbl, _, h => by cases h
  | .ldbl, _, h => by cases h

theorem cty_ne_void {t : Ty} {c : CTy} (hw : t.Wf) (h : t.cty = some c) : c ≠ .void := by
  cases t with
  | scalar t => cases h; exact (scalar_low hw).2.2
  | arr b k =>
    simp only [Ty.cty, Option.map_eq_some_iff] at h
    obtain ⟨b', h1, rfl⟩ := h
    simp
  | struc => cases h; simp
  | union => cases h; simp
  | _ => cases h

/-! ### Blank initialisers -/

mutual
theorem blank_leaves : ∀ (i : Ini Leaf) (t : Ty), i.blank = true → leaves t i = []
  | .mk x m cs, .arr b k, h => by
    simp only [Ini.blank, Bool.and_eq_true] at h
    exact blank_leavesArr cs b k h.2
  | .mk x m cs, .struc k ms, h => by
    simp only [Ini.blank, Bool.and_eq_true] at h
    exact blank_leavesMems cs ms h.2
  | .mk x none cs, .union k ms, h => rfl
  | .mk x (some j) cs, .union k ms, h => by
    simp only [Ini.blank, Bool.and_eq_true] at h
    exact blank_leavesNth cs j ms h.2
  | .mk none m cs, .scalar t, h => rfl
  | .mk none m cs, .flt, h => rfl
  | .mk none m cs, .dbl, h => rfl
  | .mk none m cs, .ldbl, h => rfl
  | .mk (some e) m cs, .scalar t, h => by simp [Ini.blank] at h
  | .mk (some e) m cs, .flt, h => by simp [Ini.blank] at h
  | .mk (some e) m cs, .dbl, h => by simp [Ini.blank] at h
  | .mk (some e) m cs, .ldbl, h => by simp [Ini.blank] at h
theorem blank_leavesArr : ∀ (cs : Inis Leaf) (b : Ty) (k : Nat), cs.blank = true → leavesArr b k cs = []
  | _, b, 0, h => by simp [leavesArr]
  | .nil, b, k + 1, h => rfl
  | .cons c r, b, k + 1, h => by
    simp only [Inis.blank, Bool.and_eq_true] at h
    simp only [leavesArr, blank_leaves c b h.1, blank_leavesArr r b k h.2, List.append_nil]
theorem blank_leavesMems : ∀ (cs : Inis Leaf) (ms : Mems), cs.blank = true → leavesMems ms cs = []
  | _, .nil, h => by simp [leavesMems]
  | .nil, .cons _ _ _ _, h => rfl
  | .cons c cs, .cons off b t r, h => by
    simp only [Inis.blank, Bool.and_eq_true] at h
    simp only [leavesMems, blank_leaves c t h.1, blank_leavesMems cs r h.2, List.append_nil]
theorem blank_leavesNth : ∀ (cs : Inis Leaf) (j : Nat) (ms : Mems), cs.blank = true → leavesNth j ms cs = []
  | cs, j, .nil, h => by cases j <;> simp [leavesNth]
  | .nil, j, .cons _ _ _ _, h => by cases j <;> rfl
  | .cons c cs, 0, .cons off b t r, h => by
    simp only [Inis.blank, Bool.and_eq_true] at h
    exact blank_leaves c t h.1
  | .cons c cs, j + 1, .cons off b t r, h => by
    simp only [Inis.blank, Bool.and_eq_true] at h
    exact blank_leavesNth cs j r h.2
end

/-! ### All of it -/

/-- The expressions `ls` come first; then the rest, from memory `M1` on. -/
def Step (E : CEnv) (a : W) (n : Nat) (x : Option Expr) (fs : List Fld) (M0 M2 : Mem) (rest : List Leaf) : Prop :=
  ∃ M1, Evaluate E a n rest M1 M2 ∧ Does E a n x fs M0 M1

theorem step_null {M M2 : Mem} {rest : List Leaf} (h : Evaluate E a n rest M M2) : Step E a n (some .null) [] M M2 rest := ⟨M, h, .null, rfl, doing_null M⟩

theorem step_leaf {d : Desg} {t : CTy} {bits : Option (Nat × Nat)} {f : Field} {o : Nat} {e : Leaf} {j : Option Nat} {cs : Inis Leaf} {M M2 : Mem} {rest : List Leaf} (hn : n < 2 ^ 63) (hok : E.ok a n = true)
    (ht : t.scalar = true) (hd : DesgOk E a d t (bits.map fun p => (f, p.1, p.2)) o) (hf : f.ty = t.low) (hb : ∀ p, bits = some p → p.1 + p.2 ≤ 8 * t.size) (ho : o + t.size ≤ n)
    (he : Evaluate E a n (e :: rest) M M2) :
    Step E a n (create Prod.fst (.scalar t) (.mk (some e) j cs) d) [leafFld t bits e o] M M2 rest := by
  cases he with
  | cons h hr => exact ⟨_, hr, leaf_doing (e := (_, _)) hn hok ht hd hf hb ho h⟩

/-- A bit-field. -/
theorem step_bits {d : Desg} {t : CTy} {bo bw off o k : Nat} {c : Ini Leaf} {M M2 : Mem} {rest : List Leaf} (hn : n < 2 ^ 63) (hok : E.ok a n = true)
    (ht : t.scalar = true) (hd : DesgOk E a d (.struc k) none o) (hb : bo + bw ≤ 8 * t.size) (ho : o + off + t.size ≤ n)
    (he : Evaluate E a n (leaves (.scalar t) c ++ rest) M M2) :
    Step E a n (create Prod.fst (.scalar t) c (.mem d off (some (bo, bw)) t)) (fldsMem valueMeaning off (some (bo, bw)) (.scalar t) c o) M M2 rest := by
  cases c with
  | mk x j cs =>
    cases x with
    | none => exact step_null he
    | some e =>
      have := desg_mem hd off (some (bo, bw)) t (fun _ b k h => by subst h; cases ht)
      exact step_leaf (bits := some (bo, bw)) (f := ⟨t.low, off, some (bo, bw)⟩) hn hok ht this rfl (fun p hp => by cases hp; exact hb) ho he

mutual
theorem create_ok (hn : n < 2 ^ 63) (hok : E.ok a n = true) : ∀ (i : Ini Leaf) (t : Ty) (o : Nat) (d : Desg) (M M2 : Mem) (rest : List Leaf), t.Wf → Fits t i → Listed t i → o + t.size ≤ n →
    (∀ c, t.cty = some c → DesgOk E a d c none o) → Evaluate E a n (leaves t i ++ rest) M M2 → Step E a n (create Prod.fst t i d) (flds valueMeaning t i o) M M2 rest
  | .mk x m cs, .arr b k, o, d, M, M2, rest, hw, hf, hh, ho, hd, he => by
    refine createArr_ok hn hok cs b k o o 0 d .null [] M M M2 rest hw hf hh (by simp) ho (fun c hc j hj => ?_) (doing_null M) he
    obtain hd := hd (.arr c k) (by simp [Ty.cty, hc])
    have hs := cty_size hc
    have hk : b.size ≤ b.size * k := Nat.le_mul_of_pos_right _ (by omega)
    have hjk : b.size * j ≤ b.size * k := Nat.mul_le_mul (Nat.le_refl _) (by omega)
    rw [Ty.size] at ho
    rw [← hs]
    exact desg_elem hd (cty_ne_void (t := b) hw hc) (by rw [hs, Nat.mul_comm]; omega) (by omega)
  | .mk x m cs, .struc k ms, o, d, M, M2, rest, hw, hf, hh, ho, hd, he => by
    obtain ⟨rfl, hh⟩ := hh
    exact createMems_ok hn hok cs ms k 0 o d .null [] M M M2 rest hw hf hh ho (hd _ rfl) (doing_null M) he
  | .mk x none cs, .union k ms, o, d, M, M2, rest, hw, hf, hh, ho, hd, he => by
    obtain ⟨h1, h2, h3⟩ := hh
    have hb := h2 rfl
    have := createNth_ok hn hok cs 0 ms k o d M M2 rest hw hf.1 h1 (by cases ms <;> simp_all [Mems.get?]) ho (hd _ rfl) (by rw [blank_leavesNth cs 0 ms hb]; exact he)
    have e : fldsNth valueMeaning 0 ms cs o = [] := blank_flds (.mk none (some 0) cs) (.union k ms) o (by simp [Ini.blank, hb])
    rw [e] at this
    exact this
  | .mk x (some j) cs, .union k ms, o, d, M, M2, rest, hw, hf, hh, ho, hd, he => by
    obtain ⟨h1, h2, h3⟩ := hh
    exact createNth_ok hn hok cs j ms k o d M M2 rest hw hf.1 h1 (hf.2 j rfl) ho (hd _ rfl) he
  | .mk none m cs, .scalar t, o, d, M, M2, rest, hw, hf, hh, ho, hd, he => step_null he
  | .mk none m cs, .flt, o, d, M, M2, rest, hw, hf, hh, ho, hd, he => step_null he
  | .mk none m cs, .dbl, o, d, M, M2, rest, hw, hf, hh, ho, hd, he => step_null he
  | .mk none m cs, .ldbl, o, d, M, M2, rest, hw, hf, hh, ho, hd, he => step_null he
  | .mk (some e) m cs, .scalar t, o, d, M, M2, rest, hw, hf, hh, ho, hd, he =>
    step_leaf (bits := none) (f := ⟨t.low, 0, none⟩) hn hok hw (hd _ rfl) rfl (fun _ h => by cases h) ho he
  | .mk (some e) m cs, .flt, o, d, M, M2, rest, hw, hf, hh, ho, hd, he => by cases hh
  | .mk (some e) m cs, .dbl, o, d, M, M2, rest, hw, hf, hh, ho, hd, he => by cases hh
  | .mk (some e) m cs, .ldbl, o, d, M, M2, rest, hw, hf, hh, ho, hd, he => by cases hh
theorem createArr_ok (hn : n < 2 ^ 63) (hok : E.ok a n = true) : ∀ (cs : Inis Leaf) (b : Ty) (k o0 o j : Nat) (d : Desg) (x : Expr) (fs : List Fld) (M0 M M2 : Mem) (rest : List Leaf), b.Wf → FitsArr b k cs → ListedArr b cs →
    o = o0 + b.size * j → o + b.size * k ≤ n → (∀ c, b.cty = some c → ∀ i, i < j + k → DesgOk E a (.elem d i) c none (o0 + b.size * i)) → Doing E a n x fs M0 M →
    Evaluate E a n (leavesArr b k cs ++ rest) M M2 → Step E a n (createArr Prod.fst b k cs d j x) (fs ++ fldsArr valueMeaning b k cs o) M0 M2 rest
  | _, b, 0, o0, o, j, d, x, fs, M0, M, M2, rest, hw, hf, hh, hj, ho, hd, hx, he => by
    simp only [leavesArr, List.nil_append] at he
    simp only [createArr, fldsArr, List.append_nil]
    exact ⟨M, he, x, rfl, hx⟩
  | .nil, b, k + 1, o0, o, j, d, x, fs, M0, M, M2, rest, hw, hf, hh, hj, ho, hd, hx, he => by
    simp only [FitsArr] at hf; omega
  | .cons c r, b, k + 1, o0, o, j, d, x, fs, M0, M, M2, rest, hw, hf, hh, hj, ho, hd, hx, he => by
    rw [Nat.mul_succ] at ho
    obtain ⟨-, f1, f2⟩ := hf
    obtain ⟨h1, h2⟩ := hh
    simp only [leavesArr, List.append_assoc] at he
    obtain ⟨M1, he1, y, hy, hdy⟩ := create_ok hn hok c b o (.elem d j) M M2 _ hw f1 h1 (by omega) (fun c' hc' => by rw [hj]; exact hd c' hc' j (by omega)) he
    simp only [createArr, hy, Option.bind_eq_bind, Option.bind_some, fldsArr]
    rw [← List.append_assoc]
    exact createArr_ok hn hok r b k o0 (o + b.size) (j + 1) d (.comma x y) (fs ++ flds valueMeaning b c o) M0 M1 M2 rest hw f2 h2 (by rw [Nat.mul_succ]; omega) (by omega) (fun c' hc' i hi => hd c' hc' i (by omega)) (hx.comma hdy) he1
theorem createMems_ok (hn : n < 2 ^ 63) (hok : E.ok a n = true) : ∀ (cs : Inis Leaf) (ms : Mems) (k cur o : Nat) (d : Desg) (x : Expr) (fs : List Fld) (M0 M M2 : Mem) (rest : List Leaf), ms.Wf k cur → FitsMems ms cs →
    ListedMems ms cs → o + k ≤ n → DesgOk E a d (.struc k) none o → Doing E a n x fs M0 M → Evaluate E a n (leavesMems ms cs ++ rest) M M2 →
    Step E a n (createMems Prod.fst ms cs d x) (fs ++ fldsMems valueMeaning ms cs o) M0 M2 rest
  | cs, .nil, k, cur, o, d, x, fs, M0, M, M2, rest, hw, hf, hh, ho, hd, hx, he => by
    simp only [leavesMems, List.nil_append] at he
    simp only [createMems, fldsMems, List.append_nil]
    exact ⟨M, he, x, rfl, hx⟩
  | .nil, .cons _ _ _ _, k, cur, o, d, x, fs, M0, M, M2, rest, hw, hf, hh, ho, hd, hx, he => by simp [FitsMems] at hf
  | .cons c cs, .cons off none t r, k, cur, o, d, x, fs, M0, M, M2, rest, hw, hf, hh, ho, hd, hx, he => by
    obtain ⟨w1, w2, w3, w4⟩ := hw
    obtain ⟨f1, f2⟩ := hf
    obtain ⟨h1, h2⟩ := hh
    simp only [leavesMems, List.append_assoc] at he
    obtain ⟨M1, he1, y, hy, hdy⟩ := create_ok hn hok c t (o + off) (.mem d off none (t.cty.getD .void)) M M2 _ w2 f1 h1 (by omega)
      (fun c' hc' => by rw [hc']; exact desg_mem hd off none c' (by simp)) he
    simp only [createMems, hy, Option.bind_eq_bind, Option.bind_some]
    rw [fldsMems_cons, ← List.append_assoc]
    exact createMems_ok hn hok cs r k _ o d (.comma x y) (fs ++ flds valueMeaning t c (o + off)) M0 M1 M2 rest w4 f2 h2 ho hd (hx.comma hdy) he1
  | .cons c cs, .cons off (some (bo, bw)) t r, k, cur, o, d, x, fs, M0, M, M2, rest, hw, hf, hh, ho, hd, hx, he => by
    obtain ⟨w1, w2, ⟨ct, rfl, hint⟩, w4, w5, w6, w7⟩ := hw
    obtain ⟨f1, f2⟩ := hf
    obtain ⟨h1, h2⟩ := hh
    simp only [Ty.size] at w4 w6
    simp only [leavesMems, List.append_assoc] at he
    obtain ⟨M1, he1, y, hy, hdy⟩ := step_bits (off := off) hn hok w2 hd w6 (by omega) he
    simp only [createMems, Ty.cty, Option.getD_some, hy, Option.bind_eq_bind, Option.bind_some]
    rw [fldsMems_cons, ← List.append_assoc]
    exact createMems_ok hn hok cs r k _ o d (.comma x y) _ M0 M1 M2 rest w7 f2 h2 ho hd (hx.comma hdy) he1
theorem createNth_ok (hn : n < 2 ^ 63) (hok : E.ok a n = true) : ∀ (cs : Inis Leaf) (j : Nat) (ms : Mems) (k o : Nat) (d : Desg) (M M2 : Mem) (rest : List Leaf), ms.WfU k → FitsMems ms cs → ListedMems ms cs →
    (ms.get? j).isSome = true → o + k ≤ n → DesgOk E a d (.struc k) none o → Evaluate E a n (leavesNth j ms cs ++ rest) M M2 →
    Step E a n (createNth Prod.fst j ms cs d) (fldsNth valueMeaning j ms cs o) M M2 rest
  | cs, j, .nil, k, o, d, M, M2, rest, hw, hf, hh, hj, ho, hd, he => by simp [Mems.get?] at hj
  | .nil, j, .cons _ _ _ _, k, o, d, M, M2, rest, hw, hf, hh, hj, ho, hd, he => by simp [FitsMems] at hf
  | .cons c cs, 0, .cons off none t r, k, o, d, M, M2, rest, hw, hf, hh, hj, ho, hd, he => by
    obtain ⟨rfl, w2, w3, -, -⟩ := hw
    exact create_ok hn hok c t (o + 0) (.mem d 0 none (t.cty.getD .void)) M M2 _ w2 hf.1 hh.1 (by omega)
      (fun c' hc' => by rw [hc']; exact desg_mem hd 0 none c' (by simp)) he
  | .cons c cs, 0, .cons off (some (bo, bw)) t r, k, o, d, M, M2, rest, hw, hf, hh, hj, ho, hd, he => by
    obtain ⟨rfl, w2, w3, w4, -⟩ := hw
    obtain ⟨rfl, w5, w6, ct, rfl, -⟩ := w4 bo bw rfl
    simp only [Ty.size] at w3 w6
    exact step_bits (off := 0) hn hok w2 hd (by omega) (by omega) he
  | .cons c cs, j + 1, .cons off b t r, k, o, d, M, M2, rest, hw, hf, hh, hj, ho, hd, he =>
    createNth_ok hn hok cs j r k o d M M2 rest hw.2.2.2.2 hf.2 hh.2 hj ho hd he
end

end Toycc.Init
