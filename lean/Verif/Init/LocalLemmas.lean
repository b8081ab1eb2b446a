import Verif.Init.Local
import Verif.Init.Fields
import Verif.Low.Assign
/-! Lemmas for C52. -/
namespace Toycc.Init
open Toycc.Cg Toycc.Low Toycc.Rv

/-! ### Bits of memory -/

def mbit (m : Mem) (a : W) (i : Nat) : Bool := (m (a + BitVec.ofNat 64 (i / 8))).getLsbD (i % 8)

theorem byte_testBit (x k r : Nat) (hr : r < 8) : (BitVec.ofNat 8 (x / 256 ^ k)).getLsbD r = x.testBit (8 * k + r) := by
  rw [BitVec.getLsbD_ofNat, decide_eq_true hr, Bool.true_and, pow256, Nat.testBit_div_two_pow, Nat.add_comm]

theorem diff_toNat {a : W} {o j : Nat} (ho : o < 2 ^ 64) (hj : j < 2 ^ 64) :
    (a + BitVec.ofNat 64 j - (a + BitVec.ofNat 64 o)).toNat = if o ≤ j then j - o else 2 ^ 64 - o + j := by
  have : a + BitVec.ofNat 64 j - (a + BitVec.ofNat 64 o) = BitVec.ofNat 64 j - BitVec.ofNat 64 o := by
    apply BitVec.eq_of_toNat_eq
    rw [BitVec.toNat_sub, BitVec.toNat_sub, BitVec.toNat_add, BitVec.toNat_add]
    have := a.isLt
    omega
  rw [this, BitVec.toNat_sub, BitVec.toNat_ofNat, BitVec.toNat_ofNat]
  split <;> omega

theorem writeN_bits {m : Mem} {a : W} {o sz n x : Nat} (hn : n < 2 ^ 64) (ho : o + sz ≤ n) {i : Nat} (hi : i < 8 * n) :
    mbit (writeN m (a + BitVec.ofNat 64 o) sz x) a i = if 8 * o ≤ i ∧ i < 8 * (o + sz) then x.testBit (i - 8 * o) else mbit m a i := by
  unfold mbit writeN
  rw [diff_toNat (by omega) (by omega)]
  by_cases h : 8 * o ≤ i ∧ i < 8 * (o + sz)
  · rw [if_pos h, if_pos (show o ≤ i / 8 by omega), if_pos (by omega), byte_testBit _ _ _ (by omega)]
    congr 1; omega
  · rw [if_neg h]
    by_cases h2 : o ≤ i / 8
    · rw [if_pos h2, if_neg (by omega)]
    · rw [if_neg h2, if_neg (by omega)]

theorem writeN_out {m : Mem} {a : W} {o sz n x : Nat} (ho : o + sz ≤ n) : AgreeOut a n (writeN m (a + BitVec.ofNat 64 o) sz x) m := by
  intro b hb
  unfold writeN
  rw [if_neg]
  have e : (b - (a + BitVec.ofNat 64 o)).toNat = (2 ^ 64 - o % 2 ^ 64 + (b - a).toNat) % 2 ^ 64 := by
    have : b - (a + BitVec.ofNat 64 o) = b - a - BitVec.ofNat 64 o := by
      apply BitVec.eq_of_toNat_eq
      rw [BitVec.toNat_sub, BitVec.toNat_sub, BitVec.toNat_sub, BitVec.toNat_add]
      have := a.isLt; have := b.isLt
      omega
    rw [this, BitVec.toNat_sub, BitVec.toNat_ofNat]
  have := (b - a).isLt
  rw [e]
  omega

theorem readN_bits {m : Mem} {a : W} : ∀ {n k : Nat}, k < 8 * n → (readN m a n).testBit k = mbit m a k
  | 0, k, h => by omega
  | n + 1, k, h => by
    have hl := readN_lt m a n
    rw [pow256] at hl
    rw [readN, pow256, Nat.add_comm, Nat.mul_comm, Nat.testBit_two_pow_mul_add _ hl]
    by_cases hk : k < 8 * n
    · rw [if_pos hk, readN_bits hk]
    · rw [if_neg hk, mbit, show k / 8 = n by omega, show k % 8 = k - 8 * n by omega]
      rfl

theorem mbit_shift {m : Mem} {a : W} {o k : Nat} : mbit m (a + BitVec.ofNat 64 o) k = mbit m a (8 * o + k) := by
  unfold mbit
  rw [BitVec.add_assoc, ← BitVec.ofNat_add, show (8 * o + k) / 8 = o + k / 8 by omega, show (8 * o + k) % 8 = k % 8 by omega]

theorem ok_sub {E : CEnv} {a : W} {n o sz : Nat} (h : E.ok a n = true) (ho : o + sz ≤ n) : E.ok (a + BitVec.ofNat 64 o) sz = true := by
  rw [ok_iff] at h ⊢
  intro i hi
  rw [BitVec.add_assoc, ← BitVec.ofNat_add]
  exact h _ (by omega)

theorem adr_toNat (x : W) : adr (x.toNat : Int) = x := by
  unfold adr
  rw [BitVec.ofInt_natCast, BitVec.ofNat_toNat, BitVec.setWidth_eq]

/-! ### Designators -/

variable {E : CEnv} {a : W} {n : Nat}

/-- The node of a designator designates the object at byte `o`. -/
structure DesgOk (E : CEnv) (a : W) (d : Desg) (c : CTy) (bf : Option (Field × Nat × Nat)) (o : Nat) : Prop where
  ok : ∃ nd, desgExpr d = some nd ∧ nd.ty = c ∧ nd.e.bitfield = bf ∧
    ∀ dep m, evalC E true dep nd.e m = some (((a + BitVec.ofNat 64 o).toNat : Int), m) ∧
      ((∃ b k, c = .arr b k) → evalC E false dep nd.e m = some (((a + BitVec.ofNat 64 o).toNat : Int), m))

theorem desg_var {off : Int} (ha : a = E.fp + BitVec.ofInt 64 off) (c : CTy) : DesgOk E a (.var c off) c none 0 := by
  refine ⟨_, rfl, rfl, rfl, fun dep m => ?_⟩
  have e : a + BitVec.ofNat 64 0 = a := by simp
  rw [e]
  constructor
  · simp [evalC, varAddrC, ha]
  · rintro ⟨b, k, rfl⟩
    simp [evalC, varAddrC, ha, loadC, CTy.low]

theorem desg_mem {d : Desg} {c : CTy} {bf : Option (Field × Nat × Nat)} {o : Nat} (h : DesgOk E a d c bf o) (off : Nat) (bits : Option (Nat × Nat)) (t : CTy)
    (hb : bits.isSome → ∀ b k, t ≠ .arr b k) :
    DesgOk E a (.mem d off bits t) t (bits.map fun p => (⟨t.low, off, bits⟩, p.1, p.2)) (o + off) := by
  obtain ⟨nd, h1, h2, h3, h4⟩ := h.ok
  refine ⟨⟨.member ⟨t.low, off, bits⟩ nd.e, t⟩, by simp [desgExpr, h1], rfl, ?_, fun dep m => ?_⟩
  · cases bits <;> rfl
  · have e : adr ((a + BitVec.ofNat 64 o).toNat : Int) + BitVec.ofInt 64 (off : Int) = a + BitVec.ofNat 64 (o + off) := by
      rw [adr_toNat, BitVec.ofInt_natCast, BitVec.add_assoc, ← BitVec.ofNat_add]
    constructor
    · simp only [evalC, (h4 dep m).1, Option.bind_eq_bind, Option.bind_some, e, if_true]
    · rintro ⟨b, k, rfl⟩
      cases bits with
      | some p => exact absurd rfl (hb rfl b k)
      | none =>
        simp only [evalC, (h4 dep m).1, Option.bind_eq_bind, Option.bind_some, e, Bool.false_eq_true, if_false, fieldC, CTy.low, loadC]

theorem addr_sum (a : W) (o q : Nat) : (((a + BitVec.ofNat 64 o).toNat : Int) + (q : Int)) % 2 ^ (8 * 8) = ((a + BitVec.ofNat 64 (o + q)).toNat : Int) := by
  rw [BitVec.toNat_add, BitVec.toNat_add, BitVec.toNat_ofNat, BitVec.toNat_ofNat]
  omega

theorem conv_long {x : Nat} (hx : x < 2 ^ 63) : (x : Int).bmod (2 ^ (8 * 8)) = x := by
  apply Int.bmod_eq_of_le
  · have : (0:Int) ≤ x := Int.natCast_nonneg x
    exact Int.le_trans (by decide) this
  · exact Int.lt_of_lt_of_le (Int.ofNat_lt.2 hx) (by decide)

theorem conv_longC {x : Nat} (hx : x < 2 ^ 63) : convC (.long false) (x : Int) = x := by
  simp only [convC, Cg.Ty.unsigned, Cg.Ty.bits, Cg.Ty.size, Bool.false_eq_true, if_false]
  exact conv_long hx

theorem mul_longC {x y : Nat} (h : x * y < 2 ^ 63) : binC .mul (.long false) (x : Int) (y : Int) = some ((x * y : Nat) : Int) := by
  have hr : inRange (.long false) ((x * y : Nat) : Int) = true := by
    simp only [inRange, Cg.Ty.unsigned, Cg.Ty.bits, Cg.Ty.size, Bool.false_eq_true, if_false, Nat.reduceMul, Nat.reduceSub]
    generalize x * y = q at *
    apply decide_eq_true
    omega
  have e : arithC (.long false) ((x * y : Nat) : Int) = some ((x * y : Nat) : Int) := by
    rw [arithC, if_neg (by decide), if_pos hr]
  rw [Int.natCast_mul] at e ⊢
  exact e

theorem mul_longC' {x y : Nat} (h : x * y < 2 ^ 63) : binC .mul (.long false) (convC (.long false) (x : Int)) (y : Int) = some ((x * y : Nat) : Int) := by
  by_cases hy : y = 0
  · subst hy
    rw [Nat.mul_zero]
    have e : arithC (.long false) 0 = some 0 := by decide
    have e2 : ∀ z : Int, binC .mul (.long false) z ((0 : Nat) : Int) = arithC (.long false) (z * 0) := fun z => rfl
    rw [e2, Int.mul_zero, e]
    rfl
  · rw [conv_longC (Nat.lt_of_le_of_lt (Nat.le_mul_of_pos_right x (by omega)) h)]
    exact mul_longC h

theorem conv_ptrC {x : Nat} (hx : x < 2 ^ 64) : convC .ptr (x : Int) = x := by
  have : (x : Int) % 2 ^ (8 * 8) = x := by omega
  simp only [convC, Cg.Ty.unsigned, Cg.Ty.bits, Cg.Ty.size, if_true]
  exact this

theorem add_ptrC (a : W) (o q : Nat) : binC .add .ptr ((a + BitVec.ofNat 64 o).toNat : Int) (q : Int) = some (((a + BitVec.ofNat 64 (o + q)).toNat : Nat) : Int) := by
  rw [← addr_sum]
  simp only [binC, promote, arithC, Cg.Ty.unsigned, if_true, Cg.Ty.bits, Cg.Ty.size]

theorem cast_eval {t : Cg.Ty} {x : Expr} {d : Nat} {m m' : Mem} {v w : Int} (h : evalC E false d x m = some (v, m')) (ht : t ≠ .void) (hw : convC t v = w) :
    evalC E false d (.cast t x) m = some (w, m') := by
  rw [evalC, h]
  simp only [Bool.false_eq_true, if_false, Option.bind_eq_bind, Option.bind_some, ht, hw]

theorem bin_eval {op : BinOp} {t : Cg.Ty} {l r : Expr} {d : Nat} {m m1 m2 : Mem} {x y v : Int} (hr : evalC E false d r m = some (y, m1)) (hl : evalC E false (d + 1) l m1 = some (x, m2))
    (hv : binC op t x y = some v) : evalC E false d (.bin op t l r) m = some (v, m2) := by
  rw [evalC, hr]
  simp only [Bool.false_eq_true, if_false, Option.bind_eq_bind, Option.bind_some, hl, hv]

theorem elem_eval {x : Expr} {b : CTy} {o i dep : Nat} {m : Mem} (h : evalC E false (dep + 1) x m = some (((a + BitVec.ofNat 64 o).toNat : Int), m))
    (hs : i * b.size < 2 ^ 63) (hb : b.size < 2 ^ 63) :
    evalC E false dep (.bin .add .ptr (.cast .ptr x) (.cast .ptr (.bin .mul (.long false) (.cast (.long false) (.num (.int false) i)) (.cast (.long false) (.num (.long false) b.size))))) m =
        some (((a + BitVec.ofNat 64 (o + b.size * i)).toNat : Int), m) := by
  have hx : i * b.size < 2 ^ 64 := Nat.lt_trans hs (by decide)
  have hy := (a + BitVec.ofNat 64 o).isLt
  have hsum := add_ptrC a o (i * b.size)
  rw [Nat.mul_comm b.size i]
  have num : ∀ (d : Nat) (t : Cg.Ty) (v : Int), evalC E false d (.num t v) m = some (v, m) := fun d t v => by rw [evalC]; rfl
  have e1 : ∀ d, evalC E false d (.cast (.long false) (.num (.int false) i)) m = some (convC (.long false) (i : Int), m) := fun d =>
    cast_eval (num _ _ _) (by decide) rfl
  have e2 : ∀ d, evalC E false d (.cast (.long false) (.num (.long false) b.size)) m = some ((b.size : Int), m) := fun d =>
    cast_eval (num _ _ _) (by decide) (conv_longC hb)
  have e3 := cast_eval (t := .ptr) (bin_eval (e2 dep) (e1 (dep + 1)) (mul_longC' hs)) (by decide) (conv_ptrC hx)
  exact bin_eval e3 (cast_eval h (by decide) (conv_ptrC hy)) hsum

theorem desg_elem {d : Desg} {b : CTy} {k o i : Nat} {bf : Option (Field × Nat × Nat)} (h : DesgOk E a d (.arr b k) bf o) (hv : b ≠ .void) (hs : i * b.size < 2 ^ 63) (hb : b.size < 2 ^ 63) :
    DesgOk E a (.elem d i) b none (o + b.size * i) := by
  obtain ⟨nd, h1, h2, h3, h4⟩ := h.ok
  have hadd : newAdd nd (numN i) = some ⟨.add, nd, binN .mul (numN i) ⟨.num (.long false) b.size, .long false⟩⟩ := by
    simp [newAdd, h2, numN, CTy.isInt, CTy.base]
  have hnode : Bin.node ⟨.add, nd, binN .mul (numN i) ⟨.num (.long false) b.size, .long false⟩⟩ =
      ⟨.bin .add .ptr (.cast .ptr nd.e) (.cast .ptr (.bin .mul (.long false) (.cast (.long false) (.num (.int false) i)) (.cast (.long false) (.num (.long false) b.size)))), .ptr b⟩ := by
    simp [Bin.node, binN, h2, common, CTy.base, castN, CTy.low, numN, CTy.size]
  refine ⟨⟨.deref b.low (.bin .add .ptr (.cast .ptr nd.e) (.cast .ptr (.bin .mul (.long false) (.cast (.long false) (.num (.int false) i)) (.cast (.long false) (.num (.long false) b.size))))), b⟩, ?_, rfl, rfl, fun dep m => ?_⟩
  · simp only [desgExpr, h1, Option.bind_eq_bind, Option.bind_some, hadd, hnode, CTy.base, hv, if_false]
  · have hev := elem_eval (b := b) ((h4 (dep + 1) m).2 ⟨b, k, rfl⟩) hs hb
    constructor
    · rw [evalC, hev]; simp only [Option.bind_eq_bind, Option.bind_some, if_true]
    · rintro ⟨b', k', rfl⟩
      rw [evalC, hev]
      simp only [Option.bind_eq_bind, Option.bind_some, Bool.false_eq_true, if_false, CTy.low, loadC, adr_toNat]

end Toycc.Init
