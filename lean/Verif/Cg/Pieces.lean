import Verif.Cg.Bits
import Verif.Rv.Lemmas
/-! Effect of the straight-line pieces of generated code on the machine state. -/
namespace Toycc.Cg
open Toycc.Rv

/-- Registers outside `L` are unchanged. -/
def Same (L : List Reg) (s s' : St) : Prop := ∀ x, x ∉ L → s'.r x = s.r x

theorem Same.refl {L s} : Same L s s := fun _ _ => rfl

theorem Same.trans {L s1 s2 s3} (h1 : Same L s1 s2) (h2 : Same L s2 s3) : Same L s1 s3 :=
  fun x hx => (h2 x hx).trans (h1 x hx)

theorem Same.mono {L L' s s'} (h : Same L s s') (hl : ∀ x, x ∈ L → x ∈ L') : Same L' s s' :=
  fun x hx => h x (fun hm => hx (hl x hm))

theorem same_set {L : List Reg} {s : St} {x v} (h : x ∈ L) : Same L s (s.set x v) := by
  intro y hy
  exact r_set_ne s x y v (fun e => hy (e ▸ h))

theorem same_mem {L : List Reg} {s : St} {m} : Same L s { s with mem := m } := fun _ _ => rfl

theorem ofInt_neg8 (x : W) : x + BitVec.ofInt 64 (-8) = x - 8 := by
  rw [BitVec.ofInt_neg, BitVec.sub_eq_add_neg]; rfl

theorem exec_push (env : Env) (s : St) (r : Reg) (hr : r ≠ .sp) :
    ∃ s', execL env (pushI r) s = some s' ∧ Same [.sp] s s' ∧ s'.r .sp = s.r .sp - 8 ∧
      s'.mem = writeN s.mem (s.r .sp - 8) 8 (s.r r).toNat := by
  simp only [pushI, execL, exec, Option.bind_some, Option.some.injEq, exists_eq_left', Width.bytes, ofInt_neg8, mem_set]
  refine ⟨(same_set (by simp)).trans same_mem, ?_, ?_⟩
  · simp only [r_mem]
    rw [r_set_same _ _ _ (by decide)]
  · rw [r_set_same _ _ _ (by decide), r_set_ne _ _ _ _ hr, BitVec.ofInt_ofNat, BitVec.add_zero]

theorem exec_pop (env : Env) (s : St) (r : Reg) (hr : r ≠ .sp) (hz : r ≠ .zero) :
    ∃ s', execL env (popI r) s = some s' ∧ Same [.sp, r] s s' ∧ s'.r .sp = s.r .sp + 8 ∧
      s'.r r = BitVec.ofNat 64 (readN s.mem (s.r .sp) 8) ∧ s'.mem = s.mem := by
  refine ⟨_, rfl, ?_, ?_, ?_, rfl⟩
  · exact (same_set (by simp)).trans (same_set (by simp))
  · rw [r_set_same _ _ _ (by decide), r_set_ne _ _ _ _ (Ne.symm hr)]; rfl
  · rw [r_set_ne _ _ _ _ hr, r_set_same _ _ _ hz]
    simp [Width.bytes, extend]

theorem exec_addOffset (env : Env) (s : St) (b : Reg) (off : Int) (hb : b ≠ .t0) :
    ∃ s', execL env (addOffset b off) s = some s' ∧ Same [.a0, .t0] s s' ∧ s'.r .a0 = s.r b + BitVec.ofInt 64 off ∧
      s'.mem = s.mem := by
  unfold addOffset
  split
  · refine ⟨_, rfl, (same_set (by simp)).trans (same_set (by simp)), ?_, rfl⟩
    rw [r_set_same _ _ _ (by decide), r_set_ne _ _ _ _ hb, r_set_same _ _ _ (by decide)]
    rfl
  · refine ⟨_, rfl, same_set (by simp), ?_, rfl⟩
    rw [r_set_same _ _ _ (by decide)]

theorem exec_load (env : Env) (s : St) (t : Ty) :
    ∃ s', execL env (genLoad t) s = some s' ∧ Same [.a0] s s' ∧ s'.r .a0 = loadVal t s.mem (s.r .a0) ∧ s'.mem = s.mem := by
  have h0 : ∀ x : W, x + BitVec.ofInt 64 0 = x := by intro x; simp
  cases t <;>
  first
  | exact ⟨s, rfl, Same.refl, rfl, rfl⟩
  | (refine ⟨_, rfl, same_set (by simp), ?_, rfl⟩
     rw [r_set_same _ _ _ (by decide), h0]; rfl)

theorem exec_shiftExt (env : Env) (s : St) (u : Bool) (n : Nat) :
    ∃ s', execL env (shiftExt u n) s = some s' ∧ Same [.a0] s s' ∧ s'.r .a0 = shiftVal u n (s.r .a0) ∧ s'.mem = s.mem := by
  cases u
  · refine ⟨_, rfl, (same_set (by simp)).trans (same_set (by simp)), ?_, rfl⟩
    rw [r_set_same _ _ _ (by decide), r_set_same _ _ _ (by decide)]; rfl
  · refine ⟨_, rfl, (same_set (by simp)).trans (same_set (by simp)), ?_, rfl⟩
    rw [r_set_same _ _ _ (by decide), r_set_same _ _ _ (by decide)]; rfl

theorem exec_cast (env : Env) (s : St) (a t : Ty) (ht : t.scalar = true ∨ t = .void) :
    ∃ s', execL env (genCast a t) s = some s' ∧ Same [.a0] s s' ∧ s'.r .a0 = castVal a t (s.r .a0) ∧ s'.mem = s.mem := by
  by_cases hv : t = .void
  · subst hv; exact ⟨s, rfl, Same.refl, rfl, rfl⟩
  by_cases hb : t = .bool
  · subst hb
    refine ⟨_, rfl, same_set (by simp), ?_, rfl⟩
    rw [r_set_same _ _ _ (by decide)]; rfl
  have ht : t.scalar = true := by simpa [hv] using ht
  have e1 : genCast a t = (castMatrix (typeId a) (typeId t)).getD [] := by cases t <;> simp_all [genCast]
  have e2 : castVal a t (s.r .a0) = match castMatrix (typeId a) (typeId t) with
    | some _ => shiftVal t.unsigned (64 - t.bits) (s.r .a0)
    | none => s.r .a0 := by
      unfold castVal
      split
      · exact absurd rfl hv
      · exact absurd rfl hb
      · rfl
  rw [e1, e2]
  cases hm : castMatrix (typeId a) (typeId t) with
  | none => exact ⟨s, rfl, Same.refl, rfl, rfl⟩
  | some c =>
    rw [(castMatrix_some ht hb hm).1]
    exact exec_shiftExt env s _ _

theorem exec_bin (env : Env) (s : St) (op : BinOp) (lt ty : Ty) :
    ∃ s', execL env (binInstrs op lt ty) s = some s' ∧ Same [.a0] s s' ∧
      s'.r .a0 = binVal op lt ty (s.r .a0) (s.r .a1) ∧ s'.mem = s.mem := by
  cases op <;> simp only [binInstrs, binVal] <;> (repeat' split) <;>
  first
  | (refine ⟨_, rfl, same_set (by simp), ?_, rfl⟩
     rw [r_set_same _ _ _ (by decide)]; (try rfl))
  | (refine ⟨_, rfl, (same_set (by simp)).trans (same_set (by simp)), ?_, rfl⟩
     rw [r_set_same _ _ _ (by decide), r_set_same _ _ _ (by decide)]; (try rfl))

theorem exec_extract (env : Env) (s : St) (t : Ty) (o w : Nat) :
    ∃ s', execL env (extractBits t o w) s = some s' ∧ Same [.a0] s s' ∧ s'.r .a0 = extractVal t o w (s.r .a0) ∧
      s'.mem = s.mem := by
  unfold extractBits extractVal
  split
  · refine ⟨_, rfl, (same_set (by simp)).trans (same_set (by simp)), ?_, rfl⟩
    rw [r_set_same _ _ _ (by decide), r_set_same _ _ _ (by decide)]
  · refine ⟨_, rfl, (same_set (by simp)).trans (same_set (by simp)), ?_, rfl⟩
    rw [r_set_same _ _ _ (by decide), r_set_same _ _ _ (by decide)]

theorem exec_store (env : Env) (s : St) (t : Ty) (ht : t.scalar = true) :
    ∃ s', execL env (genStore t) s = some s' ∧ Same [.sp, .a1] s s' ∧ s'.r .sp = s.r .sp + 8 ∧
      s'.mem = writeN s.mem (BitVec.ofNat 64 (readN s.mem (s.r .sp) 8)) t.size (s.r .a0).toNat := by
  have e : genStore t = popI .a1 ++ [.store (widthOf t.size) .a0 0 .a1] := by cases t <;> simp_all [genStore, Ty.scalar]
  obtain ⟨s1, h1, h2, h3, h4, h5⟩ := exec_pop env s .a1 (by decide) (by decide)
  rw [e, execL_append, h1]
  refine ⟨_, rfl, h2.trans same_mem, h3, ?_⟩
  show writeN _ _ _ _ = _
  rw [h4, h2 .a0 (by decide), h5, bytes_widthOf (scalar_size ht)]
  simp

/-- Byte `i` of a structure copied from a0 to a1. -/
theorem exec_copyByte (env : Env) (s : St) (i : Nat) :
    ∃ s', execL env (copyByte i) s = some s' ∧ Same [.t0, .t1] s s' ∧
      s'.mem = writeN s.mem (s.r .a1 + BitVec.ofNat 64 i) 1 (s.mem (s.r .a0 + BitVec.ofNat 64 i)).toNat := by
  have key : ∀ x : BitVec 8, (extend false 1 x.toNat).toNat % 256 ^ 1 = x.toNat % 256 ^ 1 := by
    intro x
    rw [extend_signed (by simp), BitVec.toNat_ofInt, Int.bmod_def]
    have := x.isLt
    split <;> omega
  have rd : ∀ (m : Mem) (a : W), readN m a 1 = (m a).toNat := by
    intro m a; simp [readN]
  unfold copyByte
  split
  · refine ⟨_, rfl, ?_, ?_⟩
    · refine Same.trans ?_ same_mem
      exact (same_set (by simp)).trans ((same_set (by simp)).trans ((same_set (by simp)).trans ((same_set (by simp)).trans
        (same_set (by simp)))))
    · show writeN _ _ _ _ = _
      simp only [mem_set]
      rw [r_set_same _ _ _ (by decide), r_set_same _ _ _ (by decide)]
      simp only [r_set_same _ .t0 _ (by decide), r_set_same _ .t1 _ (by decide), r_set_ne _ .t0 .t1 _ (by decide),
        r_set_ne _ .t0 .a1 _ (by decide), r_set_ne _ .t1 .a1 _ (by decide), r_set_ne _ .t0 .a0 _ (by decide), Alu.eval,
        Width.bytes, BitVec.ofInt_natCast, BitVec.ofInt_ofNat, BitVec.add_zero, rd]
      exact writeN_congr (key _)
  · refine ⟨_, rfl, ?_, ?_⟩
    · exact (same_set (by simp)).trans same_mem
    · show writeN _ _ _ _ = _
      simp only [mem_set]
      rw [r_set_same _ _ _ (by decide)]
      simp only [r_set_ne _ .t0 .a1 _ (by decide), Width.bytes, BitVec.ofInt_natCast, rd]
      exact writeN_congr (key _)

theorem exec_zeroByte (env : Env) (s : St) (off : Int) :
    ∃ s', execL env (zeroByte off) s = some s' ∧ Same [.t0] s s' ∧
      s'.mem = writeN s.mem (s.r .fp + BitVec.ofInt 64 off) 1 0 := by
  unfold zeroByte
  split
  · refine ⟨_, rfl, ?_, ?_⟩
    · exact (same_set (by simp)).trans ((same_set (by simp)).trans same_mem)
    · show writeN _ _ _ _ = _
      simp only [mem_set]
      rw [r_set_same _ _ _ (by decide), r_set_same _ _ _ (by decide)]
      simp only [r_set_ne _ .t0 .fp _ (by decide), r_set_ne _ .t0 .zero _ (by decide), Alu.eval,
        Width.bytes, BitVec.ofInt_ofNat, BitVec.add_zero]
      rfl
  · refine ⟨_, rfl, same_mem, ?_⟩
    show writeN _ _ _ _ = _
    simp only [Width.bytes]
    rfl

theorem sub_add_ofNat {a b : W} {k : Nat} (hk : k < 2 ^ 64) : (b - (a + BitVec.ofNat 64 k)).toNat < 1 ↔ (b - a).toNat = k := by
  have h1 := b.isLt
  have h2 := a.isLt
  rw [BitVec.toNat_sub, BitVec.toNat_sub, BitVec.toNat_add, BitVec.toNat_ofNat]
  constructor <;> intro h <;> omega

theorem writeN_zero_succ (m : Mem) (a : W) (k : Nat) (hk : k < 2 ^ 64) :
    writeN (writeN m a k 0) (a + BitVec.ofNat 64 k) 1 0 = writeN m a (k + 1) 0 := by
  funext b
  unfold writeN
  by_cases h : (b - (a + BitVec.ofNat 64 k)).toNat < 1
  · rw [if_pos h, if_pos (by rw [sub_add_ofNat hk] at h; omega)]; simp
  · rw [if_neg h]
    rw [sub_add_ofNat hk] at h
    by_cases h2 : (b - a).toNat < k
    · rw [if_pos h2, if_pos (by omega)]
    · rw [if_neg h2, if_neg (by omega)]

theorem exec_zero (env : Env) (s : St) (off : Int) (n : Nat) (hn : n < 2 ^ 64) :
    ∃ s', execL env ((List.range n).flatMap (fun (i : Nat) => zeroByte (off + (i : Int)))) s = some s' ∧ Same [.t0] s s' ∧
      s'.mem = writeN s.mem (s.r .fp + BitVec.ofInt 64 off) n 0 := by
  induction n with
  | zero => exact ⟨s, rfl, Same.refl, by funext b; simp [writeN]⟩
  | succ k ih =>
    obtain ⟨s1, h1, h2, h3⟩ := ih (by omega)
    obtain ⟨s2, h4, h5, h6⟩ := exec_zeroByte env s1 (off + k)
    rw [List.range_succ, List.flatMap_append, execL_append, h1]
    refine ⟨s2, ?_, h2.trans h5, ?_⟩
    · simpa using h4
    · rw [h6, h3, h2 .fp (by decide), BitVec.ofInt_add, BitVec.ofInt_natCast, ← BitVec.add_assoc]
      exact writeN_zero_succ _ _ _ (by omega)

theorem exec_copy (env : Env) (s : St) (n : Nat) (hn : n < 2 ^ 64)
    (hov : s.r .a1 = s.r .a0 ∨ (n ≤ (s.r .a1 - s.r .a0).toNat ∧ n ≤ (s.r .a0 - s.r .a1).toNat)) :
    ∃ s', execL env ((List.range n).flatMap copyByte) s = some s' ∧ Same [.t0, .t1] s s' ∧
      s'.mem = fun b => if (b - s.r .a1).toNat < n then s.mem (s.r .a0 + (b - s.r .a1)) else s.mem b := by
  generalize hN : n = N at hov
  suffices ∀ k, k ≤ n → ∃ s', execL env ((List.range k).flatMap copyByte) s = some s' ∧ Same [.t0, .t1] s s' ∧
      s'.mem = fun b => if (b - s.r .a1).toNat < k then s.mem (s.r .a0 + (b - s.r .a1)) else s.mem b by
    rw [← hN]; exact this n (Nat.le_refl n)
  intro k hk
  induction k with
  | zero => exact ⟨s, rfl, Same.refl, by simp⟩
  | succ k ih =>
    obtain ⟨s1, h1, h2, h3⟩ := ih (by omega)
    obtain ⟨s2, h4, h5, h6⟩ := exec_copyByte env s1 k
    rw [List.range_succ, List.flatMap_append, execL_append, h1]
    refine ⟨s2, ?_, h2.trans h5, ?_⟩
    · simpa using h4
    · rw [h6, h2 .a1 (by decide), h2 .a0 (by decide)]
      -- the byte read has not been overwritten with anything else
      have hsrc : s1.mem (s.r .a0 + BitVec.ofNat 64 k) = s.mem (s.r .a0 + BitVec.ofNat 64 k) := by
        rw [h3]
        simp only
        split
        · rename_i hc
          rcases hov with hov | hov
          · rw [hov]
            congr 1
            rw [BitVec.add_comm (s.r .a0) (BitVec.ofNat 64 k), BitVec.add_sub_cancel, BitVec.add_comm]
          · exfalso
            have e : s.r .a0 + BitVec.ofNat 64 k - s.r .a1 = (s.r .a0 - s.r .a1) + BitVec.ofNat 64 k := by
              rw [BitVec.sub_eq_add_neg, BitVec.sub_eq_add_neg, BitVec.add_assoc, BitVec.add_comm (BitVec.ofNat 64 k), ← BitVec.add_assoc]
            rw [e] at hc
            have hneg : s.r .a1 - s.r .a0 = -(s.r .a0 - s.r .a1) := by
              rw [BitVec.neg_sub, BitVec.add_comm, BitVec.sub_eq_add_neg]
            rw [hneg] at hov
            generalize s.r .a0 - s.r .a1 = c at *
            rw [BitVec.toNat_add, BitVec.toNat_ofNat] at hc
            rw [BitVec.toNat_neg] at hov
            have := c.isLt
            omega
        · rfl
      rw [hsrc]
      funext b
      unfold writeN
      by_cases hb : (b - (s.r .a1 + BitVec.ofNat 64 k)).toNat < 1
      · rw [if_pos hb]
        have h0 : (b - (s.r .a1 + BitVec.ofNat 64 k)).toNat = 0 := by omega
        rw [sub_add_ofNat (by omega)] at hb
        rw [if_pos (by omega), h0]
        have : b - s.r .a1 = BitVec.ofNat 64 k := by
          apply BitVec.eq_of_toNat_eq
          rw [hb, BitVec.toNat_ofNat]; omega
        rw [this]
        apply BitVec.eq_of_toNat_eq
        simp
      · rw [if_neg hb, h3]
        rw [sub_add_ofNat (by omega)] at hb
        simp only
        by_cases hc : (b - s.r .a1).toNat < k
        · rw [if_pos hc, if_pos (by omega)]
        · rw [if_neg hc, if_neg (by omega)]

theorem exec_structStore (env : Env) (s : St) (n : Nat) (hn : n < 2 ^ 64) (A : W)
    (hA : A = BitVec.ofNat 64 (readN s.mem (s.r .sp) 8))
    (hov : A = s.r .a0 ∨ (n ≤ (A - s.r .a0).toNat ∧ n ≤ (s.r .a0 - A).toNat)) :
    ∃ s', execL env (genStore (.struc n)) s = some s' ∧ Same [.sp, .a1, .t0, .t1] s s' ∧ s'.r .sp = s.r .sp + 8 ∧
      s'.mem = fun b => if (b - A).toNat < n then s.mem (s.r .a0 + (b - A)) else s.mem b := by
  obtain ⟨s1, h1, h2, h3, h4, h5⟩ := exec_pop env s .a1 (by decide) (by decide)
  rw [← hA] at h4
  have ha0 := h2 .a0 (by decide)
  obtain ⟨s2, h6, h7, h8⟩ := exec_copy env s1 n hn (by rw [h4, ha0]; exact hov)
  simp only [genStore]
  rw [execL_append, h1]
  refine ⟨s2, h6, ?_, ?_, ?_⟩
  · exact (h2.mono (by simp)).trans (h7.mono (by simp))
  · rw [h7 .sp (by decide), h3]
  · rw [h8, h4, ha0, h5]

theorem exec_storeBits (env : Env) (s : St) (t : Ty) (ht : t.scalar = true) (o w : Nat) :
    ∃ s', execL env (storeBits t t o w) s = some s' ∧ Same [.sp, .a1, .t0, .t1, .t2] s s' ∧ s'.r .sp = s.r .sp + 8 ∧
      s'.mem = writeN s.mem (BitVec.ofNat 64 (readN s.mem (s.r .sp) 8)) t.size
        (mergeVal o w (loadVal t s.mem (BitVec.ofNat 64 (readN s.mem (s.r .sp) 8))) (s.r .a0)).toNat := by
  unfold storeBits
  rw [execL_append, execL_append, execL_append, execL_append]
  -- the value in t0 and t2, the unit's address in a0
  have step1 : ∃ s1, execL env [.mv .t2 .a0, .mv .t0 .a0, .li .t1 (2 ^ w - 1), .op .and .t0 .t0 .t1, .slli .t0 .t0 o,
      .load .d false .a0 0 .sp] s = some s1 ∧ Same [.a0, .t0, .t1, .t2] s s1 ∧ s1.r .t2 = s.r .a0 ∧
      s1.r .t0 = ((s.r .a0 &&& BitVec.ofInt 64 (2 ^ w - 1)) <<< o) ∧ s1.r .a0 = BitVec.ofNat 64 (readN s.mem (s.r .sp) 8) ∧
      s1.mem = s.mem := by
    simp only [execL, exec, Option.bind_some, Option.some.injEq, exists_eq_left', Width.bytes, mem_set, and_true]
    refine ⟨?_, ?_, ?_, ?_⟩
    · exact (same_set (by simp)).trans ((same_set (by simp)).trans ((same_set (by simp)).trans ((same_set (by simp)).trans
        ((same_set (by simp)).trans (same_set (by simp))))))
    · simp only [r_set_ne _ .a0 .t2 _ (by decide), r_set_ne _ .t0 .t2 _ (by decide), r_set_ne _ .t1 .t2 _ (by decide),
        r_set_same _ .t2 _ (by decide)]
    · simp only [r_set_ne _ .a0 .t0 _ (by decide), r_set_same _ .t0 _ (by decide), r_set_ne _ .t1 .t0 _ (by decide),
        r_set_same _ .t1 _ (by decide), r_set_ne _ .t2 .a0 _ (by decide), Alu.eval]
    · simp only [r_set_same _ .a0 _ (by decide), r_set_ne _ .t0 .sp _ (by decide), r_set_ne _ .t1 .sp _ (by decide),
        r_set_ne _ .t2 .sp _ (by decide), BitVec.ofInt_ofNat, BitVec.add_zero, extend]
      simp
  obtain ⟨s1, h1, k1, k2, k3, k4, k5⟩ := step1
  obtain ⟨s2, h2, l1, l2, l3⟩ := exec_load env s1 t
  have step3 : ∃ s3, execL env [.li .t1 (-(((2 : Int) ^ w - 1) * 2 ^ o) - 1), .op .and .a0 .a0 .t1, .op .or .a0 .a0 .t0] s2 = some s3 ∧
      Same [.a0, .t1] s2 s3 ∧ s3.r .a0 = (s2.r .a0 &&& BitVec.ofInt 64 (-(((2 : Int) ^ w - 1) * 2 ^ o) - 1)) ||| s2.r .t0 ∧
      s3.mem = s2.mem := by
    simp only [execL, exec, Option.bind_some, Option.some.injEq, exists_eq_left', mem_set, and_true]
    refine ⟨?_, ?_⟩
    · exact (same_set (by simp)).trans ((same_set (by simp)).trans (same_set (by simp)))
    · simp only [r_set_same _ .a0 _ (by decide), r_set_same _ .t1 _ (by decide), r_set_ne _ .t1 .a0 _ (by decide),
        r_set_ne _ .a0 .t0 _ (by decide), r_set_ne _ .t1 .t0 _ (by decide), Alu.eval]
  obtain ⟨s3, h3, m1, m2, m3⟩ := step3
  obtain ⟨s4, h4, n1, n2, n3⟩ := exec_store env s3 t ht
  rw [h1]
  simp only [Option.bind_some, h2, h3, h4]
  refine ⟨s4.set .a0 (s4.r .t2), rfl, ?_, ?_, ?_⟩
  · intro x hx
    by_cases hx0 : x = .a0
    · subst hx0
      rw [r_set_same _ _ _ (by decide), n1 .t2 (by decide), m1 .t2 (by decide), l1 .t2 (by decide), k2]
    · simp only [List.mem_cons, not_or] at hx
      rw [r_set_ne _ _ _ _ hx0, n1 x (by simp [hx]), m1 x (by simp [hx, hx0]), l1 x (by simp [hx0]), k1 x (by simp [hx, hx0])]
  · rw [r_set_ne _ _ _ _ (by decide), n2, m1 .sp (by decide), l1 .sp (by decide), k1 .sp (by decide)]
  · rw [mem_set, n3, m2, m3, l3, k5, m1 .sp (by decide), l1 .sp (by decide), k1 .sp (by decide), l2, k4, k5,
      l1 .t0 (by decide), k3]
    rfl

end Toycc.Cg
