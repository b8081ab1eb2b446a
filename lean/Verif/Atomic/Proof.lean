import Verif.Atomic.Thread
/-! Every schedule: the invariant of the system. -/
namespace Toycc.Atomic
open Toycc.Rv hiding Prog find step Runs
open Toycc.Cg (BinOp)

/-! ### From what a thread starts with -/

theorem ev_of {op : BinOp} {v : BitVec 32} (h : ∀ o, (apply op o v).isSome = true) :
    ∃ (alu : Alu) (f : BitVec 32 → BitVec 32), (∀ o, apply op o v = some (f o)) ∧ (∀ o, alu.eval (sext32 o) (sext32 v) = sext32 (f o)) ∧
      Cg.binInstrs op (.int false) (.int false) = [.op alu .a0 .a0 .a1] ∧ (op ≠ .eq ∧ op ≠ .ne ∧ op ≠ .lt ∧ op ≠ .le) := by
  have h0 := h 0
  obtain ⟨n, hn⟩ := Option.isSome_iff_exists.mp h0
  obtain ⟨alu, h1, h2⟩ := bin_instr hn
  have hf : ∀ o, apply op o v = some ((apply op o v).get (h o)) := fun o => (Option.some_get _).symm
  refine ⟨alu, fun o => (apply op o v).get (h o), hf, fun o => h1 _ _ _ (hf o), h2, ?_⟩
  refine ⟨?_, ?_, ?_, ?_⟩ <;> (intro e; rw [e] at hn; simp [apply] at hn)

/-- All that is known of a thread: where it is, relative to its accesses. -/
inductive Phase (P : Prog) (env : Env) (obj : W) (n : Nat) (F S D A V O N : W) (v : BitVec 32) (f : BitVec 32 → BitVec 32) (x : W) (h : Hart) :
    List Write → Prop
  /-- on the way to the load -/
  | load {s} : LRuns P env obj (h.pc, h.st) (n, s) → AtLoad obj F D A V O v s → Phase P env obj n F S D A V O N v f x h []
  /-- on the way to lr -/
  | lr {s o} : LRuns P env obj (h.pc, h.st) (n + 32, s) → AtLr obj F S A V O N v f o s → Phase P env obj n F S D A V O N v f x h []
  /-- on the way from lr to sc -/
  | sc {s o} : LRuns P env obj (h.pc, h.st) (n + 34, s.set .t4 (sext32 o)) → AtLr obj F S A V O N v f o s → (h.res = true → lo x = o) →
      Phase P env obj n F S D A V O N v f x h []
  /-- on the way to the end -/
  | done {s w} : LRuns P env obj (h.pc, h.st) (n + 48, s) → lo w.after = f (lo w.before) → behind w.after = behind w.before →
      s.r .a0 = sext32 (lo w.after) → Phase P env obj n F S D A V O N v f x h [w]

/-- A local step follows the run; otherwise the run is over. -/
theorem lruns_step {P : Prog} {env : Env} {obj : W} {a b : Nat × St} (h : LRuns P env obj a b) :
    (∃ c, lstep P env obj a = some c ∧ LRuns P env obj c b) ∨ a = b := by
  cases h with
  | refl => exact .inr rfl
  | step h1 h2 => exact .inl ⟨_, h1, h2⟩

theorem patch_toNat (x : W) (n : Nat) : (patch x 0 4 n).toNat = n % 2 ^ 32 + x.toNat / 2 ^ 32 * 2 ^ 32 := by
  have e1 : (256 : Nat) ^ 0 = 1 := by decide
  have e4 : (256 : Nat) ^ 4 = 2 ^ 32 := by decide
  have e : ∀ y, (patch x 0 4 y).toNat = (x.toNat % 256 ^ 0 + y % 256 ^ 4 * 256 ^ 0 + x.toNat / 256 ^ 4 * 256 ^ 4) % 2 ^ 64 := fun y => BitVec.toNat_ofNat _ _
  rw [e, e1, e4, Nat.mod_one, Nat.mul_one, Nat.zero_add]
  have hx := x.isLt
  generalize x.toNat = y at *
  omega

theorem patch_lo (x : W) (v : BitVec 32) : lo (patch x 0 4 (sext32 v).toNat) = v := by
  apply BitVec.eq_of_toNat_eq
  have hv : (lo (sext32 v)).toNat = (sext32 v).toNat % 2 ^ 32 := BitVec.toNat_setWidth _ _
  rw [lo_sext] at hv
  have e : (lo (patch x 0 4 (sext32 v).toNat)).toNat = (patch x 0 4 (sext32 v).toNat).toNat % 2 ^ 32 := BitVec.toNat_setWidth _ _
  rw [e, patch_toNat, ← hv]
  have hvl := v.isLt
  generalize v.toNat = z at *
  generalize x.toNat = y at *
  omega

theorem patch_behind (x : W) (n : Nat) : behind (patch x 0 4 n) = behind x := by
  apply BitVec.eq_of_toNat_eq
  have e : ∀ y : W, (behind y).toNat = y.toNat / 2 ^ 32 % 2 ^ 32 := fun y => by
    rw [behind, BitVec.extractLsb'_toNat, Nat.shiftRight_eq_div_pow]
  rw [e, e, patch_toNat]
  generalize x.toNat = y at *
  omega

theorem extend_bytes (x : W) : extend false 4 (bytes x 0 4) = sext32 (lo x) := by
  have e : bytes x 0 4 = x.toNat / 256 ^ 0 % 256 ^ 4 := rfl
  have e1 : (256 : Nat) ^ 0 = 1 := by decide
  have e4 : (256 : Nat) ^ 4 = 2 ^ 32 := by decide
  have e2 : (lo x).toNat = x.toNat % 2 ^ 32 := BitVec.toNat_setWidth _ _
  rw [e, e1, e4, Nat.div_one, ← e2, ext4]

section
variable {P : Prog} {env : Env} {obj : W} {t : Tmp} {alu : Alu} {k k' : Nat} {cA cB : List Instr} {F S D D2 A V O N : W} {v : BitVec 32}
  {f : BitVec 32 → BitVec 32} (C : Ok P obj t alu k k' cA cB F S D D2 A V O N v f)
include C

/-- One instruction of a thread. -/
theorem Ok.hstep {fail : Bool} {h h' : Hart} {x : W} {l : List Write} {r : Option W} {i : Nat}
    (hp : Phase P env obj (nL t cA cB) F S D A V O N v f x h l) (hs : hstep P env obj fail h x = some (h', r)) :
    (r = none ∧ Phase P env obj (nL t cA cB) F S D A V O N v f x h' l) ∨
    ∃ y, r = some y ∧ l = [] ∧ Phase P env obj (nL t cA cB) F S D A V O N v f y h' [⟨i, x, y⟩] := by
  unfold Atomic.hstep at hs
  cases hp with
  | @load s hr ha =>
    rcases lruns_step hr with ⟨c, h1, h2⟩ | e
    · rw [h1] at hs
      cases hs
      exact .inl ⟨rfl, .load h2 ha⟩
    · rw [e] at hs
      have hpc : h.pc = nL t cA cB := congrArg Prod.fst e
      have hst : h.st = s := congrArg Prod.snd e
      have e2 : h.st.r .a0 + BitVec.ofInt 64 0 = obj := by rw [hst, ha.a0]; simp
      have hi : inside obj obj 4 = true := by simp [inside]
      have ht : touches obj obj 4 = true := by simp [touches]
      have hl : lstep P env obj (nL t cA cB, s) = none := by
        unfold lstep
        simp only [C.atLoad, private_, access, ha.a0, Width.bytes]
        simp [ht]
      rw [hl] at hs
      unfold sstep at hs
      simp only [hpc, C.atLoad] at hs
      simp only [Width.bytes, e2, hi, if_true, Option.some.injEq, Prod.mk.injEq] at hs
      obtain ⟨rfl, rfl⟩ := hs
      obtain ⟨s', r1, h1⟩ := C.loaded (env := env) (o := lo x) ha
      have e3 : extend false 4 (bytes x (obj - obj).toNat 4) = sext32 (lo x) := by
        rw [BitVec.sub_self]; exact extend_bytes x
      rw [e3, hst]
      exact .inl ⟨rfl, .lr r1 h1⟩
  | @lr s o hr ha =>
    rcases lruns_step hr with ⟨c, h1, h2⟩ | e
    · rw [h1] at hs
      cases hs
      exact .inl ⟨rfl, .lr h2 ha⟩
    · rw [e] at hs
      have hpc : h.pc = nL t cA cB + 32 := congrArg Prod.fst e
      have hst : h.st = s := congrArg Prod.snd e
      have hi : P[nL t cA cB + 32]? = some (.lr .t4 .t0) := C.mid3 0 (by omega)
      have hl : lstep P env obj (nL t cA cB + 32, s) = none := by
        unfold lstep
        simp only [hi]
      rw [hl] at hs
      unfold sstep at hs
      simp only [hpc, hi] at hs
      rw [if_pos (by rw [hst]; exact ha.t0)] at hs
      simp only [Option.some.injEq, Prod.mk.injEq] at hs
      obtain ⟨rfl, rfl⟩ := hs
      rw [hst]
      by_cases hw : lo x = o
      · refine .inl ⟨rfl, .sc (s := s) (o := o) ?_ ha (fun _ => hw)⟩
        rw [hw]
        exact C.hit ha
      · obtain ⟨s', r1, h1⟩ := C.miss (env := env) ha hw
        exact .inl ⟨rfl, .lr r1 h1⟩
  | @sc s o hr ha hx =>
    rcases lruns_step hr with ⟨c, h1, h2⟩ | e
    · rw [h1] at hs
      cases hs
      exact .inl ⟨rfl, .sc h2 ha hx⟩
    · rw [e] at hs
      have hpc : h.pc = nL t cA cB + 34 := congrArg Prod.fst e
      have hst : h.st = s.set .t4 (sext32 o) := congrArg Prod.snd e
      have hi : P[nL t cA cB + 34]? = some (.sc .a0 .t3 .t0) := C.mid3 2 (by omega)
      have hl : lstep P env obj (nL t cA cB + 34, s.set .t4 (sext32 o)) = none := by
        unfold lstep
        simp only [hi]
      rw [hl] at hs
      unfold sstep at hs
      simp only [hpc, hi] at hs
      rw [if_pos (by rw [hst, r_set_ne _ _ _ _ (by decide)]; exact ha.t0)] at hs
      have h3 : h.st.r .t3 = sext32 (f o) := by rw [hst, r_set_ne _ _ _ _ (by decide)]; exact ha.t3
      split at hs
      · rename_i hc
        simp only [Option.some.injEq, Prod.mk.injEq] at hs
        obtain ⟨rfl, rfl⟩ := hs
        have hres : h.res = true := by
          cases hh : h.res <;> simp [hh] at hc ⊢
        refine .inr ⟨_, rfl, rfl, ?_⟩
        obtain ⟨s', r1, h1⟩ := C.stored (env := env) ha
        rw [h3, hst]
        refine .done (w := ⟨i, x, patch x 0 4 (sext32 (f o)).toNat⟩) r1 ?_ (patch_behind _ _) ?_
        · rw [patch_lo, hx hres]
        · rw [h1, patch_lo]
      · simp only [Option.some.injEq, Prod.mk.injEq] at hs
        obtain ⟨rfl, rfl⟩ := hs
        obtain ⟨s', r1, h1⟩ := C.failed (env := env) (x := sext32 o) ha
        rw [hst]
        exact .inl ⟨rfl, .lr r1 h1⟩
  | @done s w hr ha hb hres =>
    rcases lruns_step hr with ⟨c, h1, h2⟩ | e
    · rw [h1] at hs
      cases hs
      exact .inl ⟨rfl, .done h2 ha hb hres⟩
    · exfalso
      rw [e] at hs
      have hpc : h.pc = nL t cA cB + 48 := congrArg Prod.fst e
      have hi : P[nL t cA cB + 48]? = none := by
        rw [List.getElem?_eq_none_iff, C.len]
        omega
      have hl : lstep P env obj (nL t cA cB + 48, s) = none := by
        unfold lstep
        simp only [hi]
      rw [hl] at hs
      unfold sstep at hs
      simp only [hpc, hi] at hs
      simp at hs

end

/-- An instruction of another thread that writes breaks the reservation. -/
theorem Phase.other {P env obj n F S D A V O N v f x y h l} (hp : Phase P env obj n F S D A V O N v f x h l) :
    Phase P env obj n F S D A V O N v f y { h with res := false } l := by
  cases hp with
  | load a b => exact .load a b
  | lr a b => exact .lr a b
  | sc a b _ => exact .sc a b (fun h => by simp at h)
  | done a b c d => exact .done a b c d

end Toycc.Atomic
