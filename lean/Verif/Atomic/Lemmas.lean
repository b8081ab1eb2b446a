import Verif.Atomic.Spec
import Verif.Rv.Lemmas
import Verif.Cg.UnCorrect
import Verif.Cg.Repr
/-! Lemmas on harts, local runs and memory. -/
namespace Toycc.Atomic
open Toycc.Rv hiding Prog find step Runs
open Toycc.Cg (GS genLoad pushI popI cmpZero)

theorem LRuns.trans {P env obj a b c} (h1 : LRuns P env obj a b) (h2 : LRuns P env obj b c) : LRuns P env obj a c := by
  induction h1 with
  | refl => exact h2
  | step h _ ih => exact .step h (ih h2)

theorem LRuns.one {P env obj a b} (h : lstep P env obj a = some b) : LRuns P env obj a b := .step h (.refl _)

/-! ### Straight code -/

theorem At.left {P pc a b} (h : At P pc (a ++ b)) : At P pc a := by
  intro i hi
  rw [h i (by rw [List.length_append]; omega), List.getElem?_append_left hi]

theorem At.right {P pc a b} (h : At P pc (a ++ b)) : At P (pc + a.length) b := by
  intro i hi
  have := h (a.length + i) (by rw [List.length_append]; omega)
  rw [List.getElem?_append_right (by omega)] at this
  rw [Nat.add_assoc, this]
  congr 2; omega

theorem At.head {P pc x b} (h : At P pc (x :: b)) : P[pc]? = some (Ins.base x) := by
  have := h 0 (by simp)
  simpa using this

theorem At.tail {P pc x b} (h : At P pc (x :: b)) : At P (pc + 1) b := by
  have : x :: b = [x] ++ b := rfl
  rw [this] at h
  exact h.right

theorem At.mid {P pre post : Prog} {c : List Instr} (h : P = pre ++ base c ++ post) : At P pre.length c := by
  intro i hi
  rw [h, List.append_assoc, List.getElem?_append_right (by omega), Nat.add_sub_cancel_left,
    List.getElem?_append_left (by rw [base, List.length_map]; exact hi), base, List.getElem?_map]

/-- Guarded execution of straight code. -/
def execG (env : Env) (obj : W) : List Instr → St → Option St
  | [], s => some s
  | i :: r, s => if private_ obj i s then (exec env i s).bind (execG env obj r) else none

theorem lstep_exec {P env obj pc i s s'} (hi : P[pc]? = some (Ins.base i)) (hp : private_ obj i s = true) (h : exec env i s = some s') :
    lstep P env obj (pc, s) = some (pc + 1, s') := by
  unfold lstep
  simp only [hi]
  cases i <;> simp_all [exec]

theorem lruns_execG {P env obj c pc s s'} (hc : At P pc c) (h : execG env obj c s = some s') :
    LRuns P env obj (pc, s) (pc + c.length, s') := by
  induction c generalizing pc s with
  | nil => simp only [execG, Option.some.injEq] at h; subst h; exact .refl _
  | cons i r ih =>
    rw [execG] at h
    split at h
    · rename_i hp
      cases he : exec env i s with
      | none => rw [he] at h; simp at h
      | some s1 =>
        rw [he, Option.bind_some] at h
        have := ih hc.tail h
        rw [List.length_cons, Nat.add_comm r.length 1, ← Nat.add_assoc]
        exact .step (lstep_exec hc.head hp he) this
    · simp at h

theorem execG_append {env obj a b s} : execG env obj (a ++ b) s = (execG env obj a s).bind (execG env obj b) := by
  induction a generalizing s with
  | nil => rfl
  | cons i r ih =>
    simp only [List.cons_append, execG]
    split
    · cases exec env i s with
      | none => rfl
      | some s1 => simp only [Option.bind_some, ih]
    · rfl

/-! ### Labels -/

theorem find_eq {P : Prog} (hu : Unique P) {i l} (h : P[i]? = some (Ins.base (.label l))) : find P l = some i := by
  unfold find
  rw [List.findIdx?_eq_some_iff_getElem]
  obtain ⟨hi, he⟩ := List.getElem?_eq_some_iff.mp h
  refine ⟨hi, by rw [he]; exact beq_self_eq_true _, ?_⟩
  intro k hk
  have hk' : k < P.length := by omega
  intro hc
  rw [beq_iff_eq] at hc
  have := hu k i l (by rw [List.getElem?_eq_getElem hk', hc]) h
  omega

theorem lstep_label {P env obj pc s l} (hi : P[pc]? = some (Ins.base (.label l))) : lstep P env obj (pc, s) = some (pc + 1, s) :=
  lstep_exec hi rfl rfl

theorem lstep_bnez {P env obj pc s r l t} (hi : P[pc]? = some (Ins.base (.bnez r l))) (ht : find P l = some t) :
    lstep P env obj (pc, s) = some (if s.r r = 0 then pc + 1 else t, s) := by
  unfold lstep jump
  simp only [hi, ht]
  by_cases h : s.r r = 0#64 <;> simp [h]

theorem lstep_beqz {P env obj pc s r l t} (hi : P[pc]? = some (Ins.base (.beqz r l))) (ht : find P l = some t) :
    lstep P env obj (pc, s) = some (if s.r r = 0 then t else pc + 1, s) := by
  unfold lstep jump
  simp only [hi, ht]
  by_cases h : s.r r = 0#64 <;> simp [h]

theorem lstep_bne {P env obj pc s a b l t} (hi : P[pc]? = some (Ins.bne a b l)) (ht : find P l = some t) :
    lstep P env obj (pc, s) = some (if s.r a = s.r b then pc + 1 else t, s) := by
  unfold lstep jump
  simp only [hi, ht]
  by_cases h : s.r a = s.r b <;> simp [h]

/-! ### Memory -/

theorem inR_self {a : W} {n i : Nat} (h : i < n) (hn : n ≤ 8) : inR a n (a + BitVec.ofNat 64 i) = true := by
  rw [inR, Cg.sub_ofNat a (by omega)]
  exact decide_eq_true h

theorem read_same {m m' : Mem} {a : W} {n : Nat} (hn : n ≤ 8) (h : ∀ b, inR a n b = true → m b = m' b) : readN m a n = readN m' a n :=
  Cg.readN_congr fun _ hi => h _ (inR_self hi hn)

theorem write_out {m : Mem} {a b : W} {n x : Nat} (h : inR a n b = false) : writeN m a n x b = m b := by
  unfold writeN
  rw [if_neg (by simpa [inR] using h)]

theorem read_write {m : Mem} {a : W} {n x : Nat} (hn : n ≤ 8) (hx : x < 256 ^ n) : readN (writeN m a n x) a n = x := by
  rw [Cg.readN_writeN m a n x (by omega) n (Nat.le_refl _), Nat.mod_eq_of_lt hx]

theorem read_apart {m : Mem} {a c : W} {n k x : Nat} (hk : k ≤ 8) (h : Apart (a, n) (c, k)) : readN (writeN m a n x) c k = readN m c k :=
  read_same hk fun b hb => write_out (by
    by_cases e : inR a n b = true
    · exact absurd hb (by rw [h b e]; simp)
    · simpa using e)

theorem Apart.symm {r s : W × Nat} (h : Apart r s) : Apart s r := by
  intro b hb
  by_cases e : inR r.1 r.2 b = true
  · exact absurd hb (by rw [h b e]; simp)
  · simpa using e

theorem ext8 {x : W} : extend false 8 x.toNat = x := by
  unfold extend
  rw [if_neg (by simp)]
  show (BitVec.ofNat 64 x.toNat).signExtend 64 = x
  rw [BitVec.signExtend_eq, BitVec.ofNat_toNat, BitVec.setWidth_eq]

theorem ext4 {x : BitVec 32} : extend false 4 x.toNat = sext32 x := by
  unfold extend sext32
  rw [if_neg (by simp)]
  show (BitVec.ofNat 32 x.toNat).signExtend 64 = _
  rw [BitVec.ofNat_toNat, BitVec.setWidth_eq]

theorem lo_sext (x : BitVec 32) : lo (sext32 x) = x := Cg.lo_sext32 x

theorem sext_inj {x y : BitVec 32} (h : sext32 x = sext32 y) : x = y := by
  rw [← lo_sext x, h, lo_sext]

/-! ### Operators -/

theorem sext_mod32 (v : BitVec 32) : (sext32 v).toNat % 32 = v.toNat % 32 := by
  have h : (lo (sext32 v)).toNat = (sext32 v).toNat % 2 ^ 32 := BitVec.toNat_setWidth _ _
  rw [lo_sext] at h
  rw [h]
  omega

/-- The instruction for an operator on int. -/
theorem bin_instr {op : Cg.BinOp} {o v n : BitVec 32} (h : apply op o v = some n) :
    ∃ alu, (∀ o' v' n', apply op o' v' = some n' → alu.eval (sext32 o') (sext32 v') = sext32 n') ∧
      Cg.binInstrs op (.int false) (.int false) = [.op alu .a0 .a0 .a1] := by
  cases op
  case eq => simp [apply] at h
  case ne => simp [apply] at h
  case lt => simp [apply] at h
  case le => simp [apply] at h
  all_goals refine ⟨_, ?_, rfl⟩
  all_goals intro o v n h
  case add | sub | mul =>
    simp only [apply, Option.some.injEq] at h
    subst h
    simp [Cg.Ty.isLong, Cg.Ty.hasBase, Cg.Ty.size, Cg.Ty.unsigned, Alu.eval, lo_sext]
  case and =>
    simp only [apply, Option.some.injEq] at h
    subst h
    simp [Alu.eval, sext32, BitVec.signExtend_and]
  case or =>
    simp only [apply, Option.some.injEq] at h
    subst h
    simp [Alu.eval, sext32, BitVec.signExtend_or]
  case xor =>
    simp only [apply, Option.some.injEq] at h
    subst h
    simp [Alu.eval, sext32, BitVec.signExtend_xor]
  case shl | shr =>
    simp only [apply, Option.some.injEq] at h
    subst h
    simp [Cg.Ty.isLong, Cg.Ty.hasBase, Cg.Ty.size, Cg.Ty.unsigned, Alu.eval, lo_sext, sext_mod32]
  case div | mod =>
    simp only [apply] at h
    split at h
    · simp at h
    · rename_i hv
      simp only [Option.some.injEq] at h
      subst h
      simp [Cg.Ty.isLong, Cg.Ty.hasBase, Cg.Ty.size, Cg.Ty.unsigned, Alu.eval, lo_sext]
      exact fun e => absurd e hv

end Toycc.Atomic
