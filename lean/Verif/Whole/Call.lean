import Verif.Whole.Geom
/-! One call of a compiled function. -/
namespace Toycc.Whole
open Toycc.Rv Toycc.Cg Toycc.Fn
open Toycc.Stm hiding exec
open Toycc.Frame hiding St

theorem indep_all {h : Mem → Option (Int × Mem)} {r : Int × Mem} (e : indep h = some r) (g : Mem) : h g = some r := by
  unfold indep at e
  split at e
  · rename_i hr
    obtain ⟨r', hr⟩ := hr
    rw [hr] at e
    rw [hr, e]
  · cases e

theorem temps_le {l : List Nat} {n : Nat} (h : n ∈ l) : n ≤ l.foldr max 0 := by
  induction l with
  | nil => cases h
  | cons a r ih =>
    rw [List.foldr_cons]
    rcases List.mem_cons.mp h with rfl | h
    · exact Nat.le_max_left _ _
    · exact Nat.le_trans (ih h) (Nat.le_max_right _ _)

theorem setWidth_ofInt {n : Nat} (h : n ≤ 64) (w : Int) : (BitVec.ofInt 64 w).setWidth n = BitVec.ofInt n w := by
  apply BitVec.eq_of_toNat_eq
  rw [BitVec.toNat_setWidth, BitVec.toNat_ofInt, BitVec.toNat_ofInt]
  have hd : ((2 ^ n : Nat) : Int) ∣ ((2 ^ 64 : Nat) : Int) := Int.natCast_dvd_natCast.mpr (Nat.pow_dvd_pow 2 h)
  have h1 : ((w % ((2 ^ 64 : Nat) : Int)).toNat : Int) = w % ((2 ^ 64 : Nat) : Int) := Int.toNat_of_nonneg (Int.emod_nonneg _ (by decide))
  have hp : ((2 ^ n : Nat) : Int) ≠ 0 := by have := Nat.two_pow_pos n; omega
  have h2 : ((w % ((2 ^ n : Nat) : Int)).toNat : Int) = w % ((2 ^ n : Nat) : Int) := Int.toNat_of_nonneg (Int.emod_nonneg _ hp)
  have : (((w % ((2 ^ 64 : Nat) : Int)).toNat % 2 ^ n : Nat) : Int) = ((w % ((2 ^ n : Nat) : Int)).toNat : Int) := by
    rw [Int.natCast_emod, h1, h2]
    exact Int.emod_emod_of_dvd w hd
  exact Int.ofNat.inj this

/-- A returned value in a0. -/
theorem retRep_of {f : Func} {e : End} {v : Int} {x : W} (hr : result f e = some v) (h : Props.Returns f.name e x) : RetRep f.ret v x := by
  cases e with
  | ret w =>
    cases w with
    | none =>
      simp only [result] at hr
      split at hr
      · rename_i hv; rw [hv]; trivial
      · cases hr
    | some w =>
      simp only [result] at hr
      split at hr
      · rename_i hv
        simp only [Bool.and_eq_true] at hv
        cases hr
        have hx : x = BitVec.ofInt 64 v := h
        subst hx
        have h8 : ∀ n, n ≤ 64 → (BitVec.ofInt 64 v).setWidth n = BitVec.ofInt n v := fun n h => setWidth_ofInt h v
        cases hf : f.ret with
        | int u => cases u <;> simp only [RetRep] <;> rw [hf] at hv <;> first | exact ⟨trivial, hv.2⟩ | exact ⟨lo_ofInt v, hv.2⟩
        | bool => simp only [RetRep]; rw [hf] at hv; exact ⟨h8 _ (by decide), hv.2⟩
        | char u => simp only [RetRep]; rw [hf] at hv; exact ⟨h8 8 (by decide), hv.2⟩
        | short u => simp only [RetRep]; rw [hf] at hv; exact ⟨h8 16 (by decide), hv.2⟩
        | long u => simp only [RetRep]; rw [hf] at hv; exact ⟨trivial, hv.2⟩
        | enum => simp only [RetRep]; rw [hf] at hv; exact ⟨trivial, hv.2⟩
        | ptr => simp only [RetRep]; rw [hf] at hv; exact ⟨trivial, hv.2⟩
        | _ => trivial
      · cases hr
  | fell =>
    simp only [result] at hr
    split at hr
    · rename_i hv; rw [hv]; trivial
    · split at hr
      · rename_i hm
        cases hr
        rw [hm.2]
        refine ⟨?_, by decide⟩
        rw [h hm.1]; rfl
      · cases hr

/-- The values of calls are in the range of their types. -/
theorem result_range {f : Func} {e : End} {v : Int} (hr : result f e = some v) (hs : f.ret.scalar = true) : inRange f.ret v = true := by
  have hv : f.ret ≠ .void := by intro h; rw [h] at hs; cases hs
  cases e with
  | ret w =>
    cases w with
    | none => simp only [result, if_neg hv] at hr; cases hr
    | some w =>
      simp only [result] at hr
      split at hr
      · rename_i h; cases hr; simp only [Bool.and_eq_true] at h; exact h.2
      · cases hr
  | fell =>
    simp only [result, if_neg hv] at hr
    split at hr
    · rename_i h; cases hr; rw [h.2]; decide
    · cases hr

theorem sp_eq {B : W} {k : Nat} {f : Func} {fr : Frame} (hw : Wf f) (hl : layout f.frame = .ok fr) :
    B - BitVec.ofNat 64 (8 * k) - 8 - 8 - BitVec.ofInt 64 fr.size = B - BitVec.ofNat 64 (8 * (k + Func.bytes fr / 8)) := by
  obtain ⟨h1, h2⟩ := bytes_eq hw hl
  obtain ⟨n, hn⟩ : ∃ n : Nat, fr.size = n := ⟨fr.size.toNat, by omega⟩
  have h4 : Func.bytes fr = 16 + n := by unfold Func.bytes; rw [hn]; rfl
  have h3 : 8 * (k + Func.bytes fr / 8) = 8 * k + (16 + n) := by omega
  rw [hn, h3, BitVec.ofInt_natCast, sub_sixteen, BitVec.ofNat_add, BitVec.ofNat_add]
  simp only [BitVec.sub_eq_add_neg, BitVec.neg_add]
  ac_rfl

theorem undo_push (S : W) : S - 8 - 8 + 8 + 8 = S := by
  rw [BitVec.add_assoc, BitVec.sub_eq_add_neg, BitVec.sub_eq_add_neg, BitVec.add_assoc, BitVec.add_assoc]
  have : (-8 + (-8 + (8 + 8)) : W) = 0 := by decide
  rw [this]
  exact BitVec.add_zero S

theorem undo_one (S : W) : S - 8 - 8 + 8 = S - 8 := BitVec.sub_add_cancel _ _

/-- A compiled function behaves as the specification of a call says. `E` is the environment of its body. -/
theorem fn_runs {env : Env} {P : Prog} {f : Func} {fr : Frame} {pro : List PI} {c : List Instr} {uid uid' : Nat} {gs gs' : GS} {pos : Nat}
    (hw : Wf f) (hl : layout f.frame = .ok fr) (hp : prologue f.frame fr = some pro)
    (hc : compileBody f.name uid f.body gs = some (c, uid', gs')) (hd : gs.depth = 0)
    (hP : CodeAt P pos (.label (.sym f.name) :: (intOnly pro ++ c ++ intOnly (epilogue f.frame))))
    {B : W} {k room : Nat} {valid : W → Bool} (hroom : 8 * room < 2 ^ 64) (hst : ∀ b, idx B b < 8 * room → valid b = false)
    (hfit : k + Func.bytes fr / 8 + f.temps ≤ room)
    {E : CEnv} (hE : World E (B - BitVec.ofNat 64 (8 * (k + Func.bytes fr / 8))) env P) (ht : E.CallsTyped)
    (hfp : E.fp = B - BitVec.ofNat 64 (8 * k) - 8 - 8)
    (hv : E.valid = fun b => valid b || inObjs (B - BitVec.ofNat 64 (8 * k) - 8 - 8) (f.objs fr) b)
    (hr : E.room = room - (k + Func.bytes fr / 8)) {n : Nat} {vs : List Int} {m m' : Mem} {v : Int} (hcall : callFn E n f fr vs m = some (v, m'))
    {s : St} (hsp : s.r .sp = B - BitVec.ofNat 64 (8 * k)) (hm : ∀ b, valid b = true → s.mem b = m b) (hlen : vs.length = f.params.length)
    (ha : ∀ (i : Nat) (t : Ty) (x : Int), f.params[i]? = some t → vs[i]? = some x → ∃ r, argRegs[i]? = some r ∧ ArgRep t x (s.r r))
    {t : Nat} (hra : env.index (s.r .ra) = some t) :
    ∃ s', Runs P env (pos, s) (t, s') ∧ s'.r .sp = s.r .sp ∧ s'.r .fp = s.r .fp ∧ (∀ b, valid b = true → s'.mem b = m' b) ∧
      RetRep f.ret v (s'.r .a0) ∧
      (∀ b, valid b = false → ¬ (8 * k ≤ idx B b ∧ idx B b < 8 * room) → s'.mem b = s.mem b) := by
  obtain ⟨hneg, al, hal, s1, r1, r2, r3, x, r4⟩ := enter (env := env) hw.few hw.scalar hp hlen ha
  have hby := (bytes_eq hw hl).1
  generalize hS : B - BitVec.ofNat 64 (8 * k) = S at *
  generalize hQ : Func.bytes fr = Q at *
  have hQ64 : Func.bytes fr < 2 ^ 64 := by omega
  rw [hsp] at r2 r3 r4
  -- where things are, seen from B
  have hB : ∀ b, idx S b < Q → idx B b = idx S b + 8 * k := by
    intro b hb
    rw [← hS] at hb ⊢
    exact idx_down (by omega)
  have hstack : ∀ b, idx S b < Q → valid b = false := fun b hb => hst b (by have := hB b hb; omega)
  have hobj : ∀ b, inObjs (S - 8 - 8) (f.objs fr) b = true → 16 ≤ idx S b ∧ idx S b < Q ∧ ¬ (b - (S - 8 - 8 + BitVec.ofInt 64 al)).toNat < 8 := by
    intro b hb
    obtain ⟨h1, h2, h3⟩ := objs_idx hw hl hneg hQ64 hb
    exact ⟨h1, by omega, h3 al hal⟩
  have hslot : ∀ b, (b - (S - 8 - 8 + BitVec.ofInt 64 al)).toNat < 8 → 16 ≤ idx S b ∧ idx S b < Q := by
    intro b hb
    have := alloca_idx hw hl hQ64 hal hb
    omega
  have hQ16 : 16 ≤ Q := by rw [← hQ]; unfold Func.bytes; omega
  have hsaved : ∀ b, ¬ idx S b < 16 → saved s b = s.mem b := by
    intro b hb
    unfold saved
    rw [hsp, writeN, if_neg, writeN, if_neg]
    · intro h; have := idx_push (S := S) rfl h; omega
    · intro h; have := idx_push2 (S := S) rfl h; omega
  -- the memory at the start of the body
  have hmem1 : ∀ b, inObjs (S - 8 - 8) (f.objs fr) b = false → ¬ (b - (S - 8 - 8 + BitVec.ofInt 64 al)).toNat < 8 → s1.mem b = saved s b := by
    intro b h1 h2
    rw [r4, writeN, if_neg h2, bind_keep hw hl h1]
  have hmatch : Match E (B - BitVec.ofNat 64 (8 * (k + Q / 8))) gs.depth
      (bindArgs E.fp (f.slots fr) vs fun b => if inObjs E.fp (f.objs fr) b then saved s b else m b) s1 := by
    refine ⟨?_, by rw [r2, hfp], ?_⟩
    · rw [r3, hd, Nat.mul_zero, BitVec.ofNat_eq_ofNat, BitVec.sub_zero, ← hS, ← hQ]
      exact sp_eq hw hl
    · intro b hb
      rw [hv] at hb
      rw [hfp]
      by_cases ho : inObjs (S - 8 - 8) (f.objs fr) b = true
      · rw [r4, writeN, if_neg (hobj b ho).2.2]
        exact bindArgs_congr _ _ _ _ (by rw [if_pos ho])
      · simp only [Bool.or_eq_true, ho, or_false, Bool.false_eq_true] at hb
        have ho' : inObjs (S - 8 - 8) (f.objs fr) b = false := by simpa using ho
        have hns : ¬ (b - (S - 8 - 8 + BitVec.ofInt 64 al)).toNat < 8 := by
          intro h
          have := hstack b (hslot b h).2
          rw [hb] at this; cases this
        have hni : ¬ idx S b < 16 := by
          intro h
          have := hstack b (by omega)
          rw [hb] at this; cases this
        rw [hmem1 b ho' hns, hsaved b hni, hm b hb, bind_keep hw hl ho', if_neg ho]
  -- the body
  have hcode := hP.tail
  have hpro : CodeAt P (pos + 1) (intOnly pro) := hcode.left.left
  have hbody : CodeAt P (pos + 1 + (intOnly pro).length) c := hcode.left.right
  have hepi : CodeAt P (pos + 1 + (intOnly pro).length + c.length) (intOnly (epilogue f.frame)) := by
    have := hcode.right
    rwa [List.length_append, ← Nat.add_assoc] at this
  have hrm : Props.Room E gs.depth f.body := by
    intro p hp
    have : need p.2 ≤ f.temps := temps_le (List.mem_map.mpr ⟨p, hp, rfl⟩)
    omega
  have hrun := (Props.compiled_body_partial hE ht hw.body hrm hc hbody hmatch).1
  have hres := indep_all hcall (saved s)
  rw [hd] at hrun
  split at hres
  · rename_i e m1 hdone
    rw [Option.map_eq_some_iff] at hres
    obtain ⟨v', hv', e2⟩ := hres
    cases e2
    obtain ⟨s2, q1, q2, q3, q4, q5, q6⟩ := hrun _ _ _ hdone
    -- everything outside the frame and the objects is as after the prologue
    have hkeep : ∀ b, valid b = false → inObjs (S - 8 - 8) (f.objs fr) b = false →
        ¬ (8 * (k + Q / 8) ≤ idx B b ∧ idx B b < 8 * room) → s2.mem b = s1.mem b := by
      intro b h1 h2 h3
      refine q5 b (by rw [hv]; show (valid b || _) = false; rw [h1, h2]; rfl) ?_
      rintro ⟨_, h4⟩
      rw [hr] at h4
      apply h3
      by_cases h5 : 8 * (k + Q / 8) ≤ idx B b
      · rw [idx_in h5] at h4; omega
      · rw [idx_out (by omega) (by omega)] at h4; omega
    have hlow : ∀ b, idx S b < 16 → s2.mem b = saved s b := by
      intro b hb
      have h1 := hstack b (by omega)
      have h2 : inObjs (S - 8 - 8) (f.objs fr) b = false := by
        cases h : inObjs (S - 8 - 8) (f.objs fr) b with
        | false => rfl
        | true => have := (hobj b h).1; omega
      have h3 := hB b (by omega)
      rw [hkeep b h1 h2 (by omega), hmem1 b h2 (by intro h; have := (hslot b h).1; omega)]
    obtain ⟨ce, e1, s3, f1, f2, f3, f4, f5, f6⟩ := leave (env := env) f s2
    rw [e1] at hepi
    rw [q3, r2] at f2 f3 f4
    have hbyte2 : ∀ i, i < 8 → idx S (S - 8 - 8 + BitVec.ofNat 64 i) = 15 - i := fun i hi => idx_push2 (sub_ofNat _ (by omega)) hi
    have hbyte1 : ∀ i, i < 8 → idx S (S - 8 + BitVec.ofNat 64 i) = 7 - i := fun i hi => idx_push (sub_ofNat _ (by omega)) hi
    have g1 : s3.r .fp = s.r .fp := by
      rw [f3, readN_congr (m' := saved s) (fun i hi => hlow _ (by rw [hbyte2 i hi]; omega)), saved, hsp,
        readN_writeN _ _ _ _ (by omega) 8 (by omega), Nat.mod_eq_of_lt]
      · simp
      · have := (s.r .fp).isLt; omega
    have g2 : s3.r .ra = s.r .ra := by
      rw [f4, undo_one, readN_congr (m' := writeN s.mem (S - 8) 8 (s.r .ra).toNat), readN_writeN _ _ _ _ (by omega) 8 (by omega), Nat.mod_eq_of_lt]
      · simp
      · have := (s.r .ra).isLt; omega
      · intro i hi
        rw [hlow _ (by rw [hbyte1 i hi]; omega), saved, hsp, writeN, if_neg]
        intro h
        have h5 := idx_push2 (S := S) rfl h
        rw [hbyte1 i hi] at h5
        omega
    refine ⟨s3, ?_, ?_, g1, ?_, ?_, ?_⟩
    · refine (runs_label hP.head).trans ((runs_execL hpro r1).trans (q1.trans ((runs_execL hepi.left f1).trans (Runs.one ?_))))
      unfold step
      rw [hepi.right.head]
      simp only [g2, hra, Option.map_some]
    · rw [f2, undo_push, hsp]
    · intro b hb
      have ho : ¬ inObjs (S - 8 - 8) (f.objs fr) b = true := by
        intro h
        have := hstack b (hobj b h).2.1
        rw [hb] at this; cases this
      rw [f6, q4 b (by rw [hv]; simp [hb]), hfp]
      exact (if_neg ho).symm
    · rw [f5]; exact retRep_of hv' q6
    · intro b h1 h2
      have hnQ : ¬ idx S b < Q := by
        intro h
        have := hB b h
        omega
      have ho : inObjs (S - 8 - 8) (f.objs fr) b = false := by
        cases h : inObjs (S - 8 - 8) (f.objs fr) b with
        | false => rfl
        | true => exact absurd (hobj b h).2.1 hnQ
      rw [f6, hkeep b h1 ho (by omega), hmem1 b ho (fun h => hnQ (hslot b h).2), hsaved b (by omega)]
  · cases hres

end Toycc.Whole
