import Verif.Whole.Sem
import Verif.Stm.Props
import Verif.Frame.LayProps
/-! Execution of prologue and epilogue. -/
namespace Toycc.Whole
open Toycc.Rv Toycc.Cg Toycc.Stm Toycc.Fn
open Toycc.Frame hiding St

variable {env : Env}

theorem intOnly_append (a b : List PI) : intOnly (a ++ b) = intOnly a ++ intOnly b := by
  induction a with
  | nil => rfl
  | cons x r ih => cases x <;> simp [intOnly, ih]

theorem intOnly_ints (c : List Instr) : intOnly (ints c) = c := by
  induction c with
  | nil => rfl
  | cons x r ih => exact congrArg (x :: ·) ih

theorem intOnly_moves (b : Bool) : ∀ l : List Nat, intOnly (l.map (.fmove b)) = []
  | [] => rfl
  | _ :: r => intOnly_moves b r

/-- The low bytes of an argument register are those of the argument. -/
theorem arg_write {t : Ty} {v : Int} {x : W} {m : Mem} {a : W} (ht : t.scalar = true) (h : ArgRep t v x) :
    writeN m a t.size x.toNat = writeN m a t.size (rep v) := by
  apply writeN_congr
  unfold ArgRep at h
  by_cases h4 : t.size ≤ 4
  · rw [if_pos h4, ← lo_ofInt] at h
    have h1 : x.toNat % 2 ^ 32 = rep v % 2 ^ 32 := by
      have := congrArg BitVec.toNat h
      rwa [lo, lo, BitVec.toNat_setWidth, BitVec.toNat_setWidth] at this
    have hd : (256 : Nat) ^ t.size ∣ 2 ^ 32 := by
      rw [pow256]; exact Nat.pow_dvd_pow 2 (by omega)
    rw [← Nat.mod_mod_of_dvd x.toNat hd, ← Nat.mod_mod_of_dvd (rep v) hd, h1]
  · rw [if_neg h4] at h
    rw [h, rep]

theorem exec_storeReg {t : Ty} (ht : t.scalar = true) (r b : Reg) (off : Int) (s : St) :
    execL env (storeReg r off b t.size) s = some { s with mem := writeN s.mem (s.r b + BitVec.ofInt 64 off) t.size (s.r r).toNat } := by
  rcases scalar_size ht with h | h | h | h <;> rw [h] <;> rfl

theorem argReg_ne {g : Nat} {r : Reg} (h : argRegs[g]? = some r) : r ≠ .t0 ∧ r ≠ .sp ∧ r ≠ .zero ∧ r ≠ .fp ∧ r ≠ .ra := by
  have : r ∈ argRegs := List.mem_of_getElem? h
  simp only [argRegs, List.mem_cons, List.not_mem_nil, or_false] at this
  rcases this with h | h | h | h | h | h | h | h <;> subst h <;> decide

theorem exec_storeArgs {t : Ty} (ht : t.scalar = true) {g : Nat} {r : Reg} {o : Int} {c : List Instr} (hr : argRegs[g]? = some r)
    (h : storeArgs g o t.size = some c) (s : St) :
    ∃ s', execL env c s = some s' ∧ Same [.t0] s s' ∧ s'.mem = writeN s.mem (s.r .sp + BitVec.ofInt 64 o) t.size (s.r r).toNat := by
  unfold storeArgs at h
  rw [hr] at h
  simp only [Option.some.injEq] at h
  obtain ⟨n1, n2, _⟩ := argReg_ne hr
  split at h
  · subst h
    rw [execL_append]
    simp only [execL, Rv.exec, Option.bind_some]
    rw [exec_storeReg ht]
    refine ⟨_, rfl, ((same_set (by simp)).trans (same_set (by simp))).trans same_mem, ?_⟩
    simp only [mem_set]
    rw [r_set_same _ _ _ (by decide), r_set_same _ _ _ (by decide), r_set_ne _ _ _ _ (by decide), r_set_ne _ _ _ _ n1, r_set_ne _ _ _ _ n1]
    simp [Alu.eval]
  · subst h
    rw [exec_storeReg ht]
    exact ⟨_, rfl, same_mem, rfl⟩

theorem same_argRep {s s' : St} (h : Same [.t0] s s') {g : Nat} {r : Reg} (hr : argRegs[g]? = some r) : s'.r r = s.r r :=
  h r (by simpa using (argReg_ne hr).1)

/-- Storing the parameters. -/
theorem saves_run : ∀ (ps : List Ty) (os vs : List Int) (g k : Nat) (c : List PI) (g' : Nat) (s : St),
    saveParams ((ps.map intVar).zip os) g k = some (c, g') → (∀ t ∈ ps, t.scalar = true) → ps.length + g ≤ 8 → vs.length = ps.length →
    (∀ (i : Nat) (t : Ty) (v : Int), ps[i]? = some t → vs[i]? = some v → ∃ r, argRegs[g + i]? = some r ∧ ArgRep t v (s.r r)) →
    (∀ p ∈ (ps.map intVar).zip os, p.2 ≤ 0) ∧
    ∃ s', execL env (intOnly c) s = some s' ∧ Same [.t0] s s' ∧ s'.mem = bindArgs (s.r .sp) (ps.zip os) vs s.mem
  | [], os, vs, g, k, c, g', s, h, _, _, _, _ => by
    simp only [List.map_nil, List.zip_nil_left, saveParams, Option.some.injEq, Prod.mk.injEq] at h
    obtain ⟨rfl, rfl⟩ := h
    exact ⟨by simp, s, rfl, Same.refl, rfl⟩
  | t :: ps, [], vs, g, k, c, g', s, h, _, _, _, _ => by
    simp only [List.map_cons, List.zip_nil_right, saveParams, Option.some.injEq, Prod.mk.injEq] at h
    obtain ⟨rfl, rfl⟩ := h
    exact ⟨by simp, s, rfl, Same.refl, by simp [bindArgs]⟩
  | t :: ps, o :: os, [], g, k, c, g', s, h, _, _, hl, _ => by simp at hl
  | t :: ps, o :: os, v :: vs, g, k, c, g', s, h, hs, hg, hl, ha => by
    simp only [List.map_cons, List.zip_cons_cons, saveParams, bindSome, Option.some.injEq, Prod.mk.injEq] at h
    obtain ⟨⟨c1, g1, k1⟩, h1, ⟨c2, g2⟩, h2, rfl, rfl⟩ := h
    dsimp only at h2 ⊢
    simp only [List.length_cons] at hg hl
    have hg8 : g < maxRegs := by unfold maxRegs; omega
    simp only [saveParam, intVar] at h1
    have ho : ¬ 0 < o := by
      intro ho
      rw [if_pos ho, if_pos hg8] at h1
      simp at h1
    rw [if_neg ho, if_pos hg8, Option.map_eq_some_iff] at h1
    obtain ⟨c0, h0, e⟩ := h1
    simp only [Prod.mk.injEq] at e
    obtain ⟨rfl, rfl, rfl⟩ := e
    have ht := hs t List.mem_cons_self
    obtain ⟨r, hr, hrep⟩ := ha 0 t v rfl rfl
    rw [Nat.add_zero] at hr
    obtain ⟨s1, e1, e2, e3⟩ := exec_storeArgs (env := env) ht hr h0 s
    obtain ⟨q1, s2, q2, q3, q4⟩ := saves_run ps os vs (g + 1) k c2 g2 s1 h2 (fun t h => hs t (List.mem_cons_of_mem _ h)) (by omega) (by omega) (by
      intro i t' v' h1 h2
      obtain ⟨r, a, b⟩ := ha (i + 1) t' v' (by simpa using h1) (by simpa using h2)
      refine ⟨r, ?_, ?_⟩
      · rw [← a]; congr 1; omega
      · rwa [same_argRep e2 a])
    refine ⟨?_, s2, ?_, e2.trans q3, ?_⟩
    · intro p hp
      rcases List.mem_cons.mp hp with rfl | hp
      · exact Int.not_lt.mp ho
      · exact q1 p hp
    · rw [intOnly_append, intOnly_ints, execL_append, e1, Option.bind_some, q2]
    · rw [q4, e3, arg_write ht hrep, e2 .sp (by decide), List.zip_cons_cons, bindArgs]

theorem exec_reserve (size : Int) (s : St) :
    ∃ s', execL env (reserve size) s = some s' ∧ Same [.sp, .t0] s s' ∧ s'.r .sp = s.r .sp - BitVec.ofInt 64 size ∧ s'.mem = s.mem := by
  have e : ∀ x : W, x + BitVec.ofInt 64 (-size) = x - BitVec.ofInt 64 size := by
    intro x; rw [BitVec.ofInt_neg, BitVec.sub_eq_add_neg]
  unfold reserve
  split
  · refine ⟨_, rfl, (same_set (by simp)).trans (same_set (by simp)), ?_, rfl⟩
    rw [r_set_same _ _ _ (by decide), r_set_same _ _ _ (by decide), r_set_ne _ _ _ _ (by decide)]
    exact e _
  · refine ⟨_, rfl, same_set (by simp), ?_, rfl⟩
    rw [r_set_same _ _ _ (by decide)]
    exact e _

theorem exec_bottom (al : Int) (s : St) :
    ∃ s', execL env [.li .t0 al, .op .add .t0 .t0 .fp, .store .d .sp 0 .t0] s = some s' ∧ Same [.t0] s s' ∧
      s'.mem = writeN s.mem (s.r .fp + BitVec.ofInt 64 al) 8 (s.r .sp).toNat := by
  refine ⟨_, rfl, ((same_set (by simp)).trans (same_set (by simp))).trans same_mem, ?_⟩
  simp only [mem_set, Width.bytes]
  rw [r_set_same _ _ _ (by decide), r_set_same _ _ _ (by decide), r_set_ne _ _ .fp _ (by decide), r_set_ne _ _ .sp _ (by decide),
    r_set_ne _ _ .sp _ (by decide)]
  simp only [Alu.eval]
  rw [BitVec.add_comm (BitVec.ofInt 64 al), BitVec.ofInt_ofNat, BitVec.add_zero]

/-- Memory after the two pushes. -/
def saved (s : St) : Mem := writeN (writeN s.mem (s.r .sp - 8) 8 (s.r .ra).toNat) (s.r .sp - 8 - 8) 8 (s.r .fp).toNat

theorem exec_saves (s : St) :
    ∃ s', execL env (pushI .ra ++ pushI .fp ++ [.mv .fp .sp]) s = some s' ∧ Same [.sp, .fp] s s' ∧ s'.r .sp = s.r .sp - 8 - 8 ∧
      s'.r .fp = s.r .sp - 8 - 8 ∧ s'.mem = saved s := by
  obtain ⟨s1, a1, a2, a3, a4⟩ := exec_push env s .ra (by decide)
  obtain ⟨s2, b1, b2, b3, b4⟩ := exec_push env s1 .fp (by decide)
  refine ⟨s2.set .fp (s2.r .sp), ?_, ?_, ?_, ?_, ?_⟩
  · rw [execL_append, execL_append, a1, Option.bind_some, b1]; rfl
  · exact ((a2.mono (by simp)).trans (b2.mono (by simp))).trans (same_set (by simp))
  · rw [r_set_ne _ _ _ _ (by decide), b3, a3]
  · rw [r_set_same _ _ _ (by decide), b3, a3]
  · rw [mem_set, b4, a4, a3, a2 .fp (by decide)]; rfl

/-- The prologue. -/
theorem enter {f : Func} {fr : Frame} {pro : List PI} (hw : f.params.length ≤ 8) (hs : ∀ t ∈ f.params, t.scalar = true)
    (hp : prologue f.frame fr = some pro) {vs : List Int} {s : St} (hl : vs.length = f.params.length)
    (ha : ∀ (i : Nat) (t : Ty) (v : Int), f.params[i]? = some t → vs[i]? = some v → ∃ r, argRegs[i]? = some r ∧ ArgRep t v (s.r r)) :
    (∀ p ∈ f.slots fr, p.2 ≤ 0) ∧ ∃ al, fr.offs[f.others.length - 1]? = some al ∧
    ∃ s', execL env (intOnly pro) s = some s' ∧ s'.r .fp = s.r .sp - 8 - 8 ∧ s'.r .sp = s.r .sp - 8 - 8 - BitVec.ofInt 64 fr.size ∧
      ∃ x, s'.mem = writeN (bindArgs (s.r .sp - 8 - 8) (f.slots fr) vs (saved s)) (s.r .sp - 8 - 8 + BitVec.ofInt 64 al) 8 x := by
  have hv : f.frame.variadic = false := rfl
  simp only [prologue, hv, Bool.false_eq_true, false_and, if_false, bindSome, Option.some.injEq] at hp
  obtain ⟨⟨c1, g⟩, h1, c2, h2, al, h3, rfl⟩ := hp
  simp only [vaSaves, hv, Bool.false_eq_true, if_false, Option.some.injEq] at h2
  subst h2
  have hz : vaSize f.frame = 0 := by simp [vaSize, hv]
  obtain ⟨s1, a1, a2, a3, a4, a5⟩ := exec_saves (env := env) s
  have hlen : f.frame.params.length = f.params.length := by simp [Func.frame]
  rw [hlen] at h1
  obtain ⟨b0, s2, b1, b2, b3⟩ := saves_run (env := env) f.params _ vs 0 0 c1 g s1 h1 hs (by omega) hl (by
    intro i t v h1 h2
    obtain ⟨r, x, y⟩ := ha i t v h1 h2
    refine ⟨r, by rwa [Nat.zero_add], ?_⟩
    obtain ⟨_, n2, _, n4, _⟩ := argReg_ne x
    rwa [a2 r (by simp [n2, n4])])
  obtain ⟨s3, d1, d2, d3, d4⟩ := exec_reserve (env := env) fr.size s2
  obtain ⟨s4, e1, e2, e3⟩ := exec_bottom (env := env) al s3
  refine ⟨?_, al, h3, s4, ?_, ?_, ?_, (s3.r .sp).toNat, ?_⟩
  · intro p hp
    obtain ⟨i, hi⟩ := List.getElem?_of_mem hp
    rw [Func.slots, List.getElem?_zip_eq_some] at hi
    refine b0 (intVar p.1, p.2) (List.mem_of_getElem? (i := i) ?_)
    rw [List.getElem?_zip_eq_some]
    exact ⟨by rw [List.getElem?_map, hi.1]; rfl, hi.2⟩
  · dsimp only
    rw [hz, if_pos rfl]
    simp only [intOnly_append, intOnly_ints, intOnly_moves, List.append_nil, List.nil_append]
    rw [execL_append, execL_append, a1, Option.bind_some, b1, Option.bind_some, execL_append, d1, Option.bind_some, e1]
  · rw [e2 .fp (by decide), d2 .fp (by decide), b2 .fp (by decide), a4]
  · rw [e2 .sp (by decide), d3, b2 .sp (by decide), a3]
  · rw [e3, d4, b3, d2 .fp (by decide), b2 .fp (by decide), a4, a3, a5]
    rfl

/-- The epilogue, up to the jump. -/
theorem leave (f : Func) (s : St) :
    ∃ c, intOnly (epilogue f.frame) = c ++ [.ret] ∧
    ∃ s', execL env c s = some s' ∧ s'.r .sp = s.r .fp + 8 + 8 ∧ s'.r .fp = BitVec.ofNat 64 (readN s.mem (s.r .fp) 8) ∧
      s'.r .ra = BitVec.ofNat 64 (readN s.mem (s.r .fp + 8) 8) ∧ s'.r .a0 = s.r .a0 ∧ s'.mem = s.mem := by
  have hz : vaSize f.frame = 0 := by simp [vaSize, Func.frame]
  refine ⟨[.mv .sp .fp] ++ popI .fp ++ popI .ra, ?_, ?_⟩
  · rw [epilogue, hz, if_pos rfl, intOnly_append, intOnly_ints, intOnly_moves]
    simp
  obtain ⟨s2, b1, b2, b3, b4, b5⟩ := exec_pop env (s.set .sp (s.r .fp)) .fp (by decide) (by decide)
  obtain ⟨s3, d1, d2, d3, d4, d5⟩ := exec_pop env s2 .ra (by decide) (by decide)
  have h0 : (s.set .sp (s.r .fp)).r .sp = s.r .fp := r_set_same _ _ _ (by decide)
  refine ⟨s3, ?_, ?_, ?_, ?_, ?_, ?_⟩
  · rw [execL_append, execL_append]
    show (((some (s.set .sp (s.r .fp))).bind _).bind _) = _
    rw [Option.bind_some, b1, Option.bind_some, d1]
  · rw [d3, b3, h0]
  · rw [d2 .fp (by decide), b4, h0, mem_set]
  · rw [d4, b5, b3, h0, mem_set]
  · rw [d2 .a0 (by decide), b2 .a0 (by decide), r_set_ne _ _ _ _ (by decide)]
  · rw [d5, b5, mem_set]

end Toycc.Whole
