import Verif.Atomic.Sys
/-!
**C85.** An atomic compound assignment is one indivisible read-modify-write under every schedule, for any number of threads.
-/
namespace Toycc.Atomic
open Toycc.Rv hiding Prog find step Runs
open Toycc.Cg (BinOp)

/-- **C85** for int objects that are not members, with operand B of type int: in every state any schedule of any number of threads leads to,
the writes to the object follow each other without gap from the initial value to the present one, each of them is the whole effect of one
assignment and leaves the bytes behind the object alone, no thread has written twice, and a thread that is at its end has written once and
has the value it wrote as its result. (Some threads may execute nothing.) -/
theorem C85_atomic_partial {T : Threads} {c0 c : Sys} (J : Nat → Job)
    (hJ : ∀ i, T.prog i = [] ∨ Starts (T.prog i) (T.env i) T.obj (c0.harts i) (J i)) (h0 : c0.log = []) (h : Reach T c0 c) :
    History c0.shared c.log c.shared ∧
    (∀ w ∈ c.log, Applies (J w.hart).op (J w.hart).v w) ∧
    (∀ i, (by_ i c.log).length ≤ 1) ∧
    ∀ i, T.prog i ≠ [] → Finished T c i → ∃ w, by_ i c.log = [w] ∧ (c.harts i).st.r .a0 = sext32 (int_ w.after) := by
  have hi : Inv T J c0.shared c := inv_reach ⟨by rw [h0]; exact .nil _, fun i => by
    rw [h0]
    rcases hJ i with h | h
    · exact .inl ⟨h, rfl⟩
    · exact .inr (th_start h)⟩ h
  refine ⟨hi.hist, ?_, ?_, ?_⟩
  · intro w hw
    have hm : w ∈ by_ w.hart c.log := by simp [by_, hw]
    rcases hi.th w.hart with ⟨_, h⟩ | h
    · rw [h] at hm; simp at hm
    · rcases th_log h with h | ⟨w', h, ha⟩
      · rw [h] at hm; simp at hm
      · rw [h, List.mem_singleton] at hm
        exact hm ▸ ha
  · intro i
    rcases hi.th i with ⟨_, h⟩ | h
    · rw [h]; simp
    · rcases th_log h with h | ⟨w', h, _⟩ <;> rw [h] <;> simp
  · intro i hn hf
    rcases hi.th i with ⟨h, _⟩ | h
    · exact absurd h hn
    · exact th_end h hf

/-- No update is lost: when `n` threads have executed `x += v i`, the object has grown by the sum. -/
theorem C85_no_lost_update_partial {T : Threads} {c0 c : Sys} (J : Nat → Job) (n : Nat) (hn : ∀ i, T.prog i = [] ↔ n ≤ i)
    (hJ : ∀ i, i < n → Starts (T.prog i) (T.env i) T.obj (c0.harts i) (J i)) (hadd : ∀ i, (J i).op = .add) (h0 : c0.log = [])
    (h : Reach T c0 c) (hf : ∀ i, i < n → Finished T c i) :
    int_ c.shared = int_ c0.shared + ((List.range n).map fun i => (J i).v).sum ∧ behind c.shared = behind c0.shared := by
  obtain ⟨h1, h2, h3, h4⟩ := C85_atomic_partial J (fun i => by
    by_cases e : n ≤ i
    · exact .inl ((hn i).mpr e)
    · exact .inr (hJ i (by omega))) h0 h
  have hs := history_sum (v := fun i => (J i).v) h1 (fun w hw => by
    have := (h2 w hw).1
    rw [hadd] at this
    exact (Option.some.inj this).symm)
  have hb : ∀ x l y, History x l y → (∀ w ∈ l, behind w.after = behind w.before) → behind y = behind x := by
    intro x l y hh ha
    induction hh with
    | nil => rfl
    | @snoc l w _ ih => rw [ha w (by simp), ih (fun w' hw => ha w' (by simp [hw]))]
  refine ⟨?_, hb _ _ _ h1 fun w hw => (h2 w hw).2⟩
  rw [hs]
  congr 1
  have hcount : ∀ i, (c.log.map Write.hart).count i = if i < n then 1 else 0 := by
    intro i
    rw [count_by]
    by_cases hi : i < n
    · obtain ⟨w, hw, _⟩ := h4 i (fun e => by have := (hn i).mp e; omega) (hf i hi)
      rw [hw, if_pos hi]
      rfl
    · rw [if_neg hi]
      have he : T.prog i = [] := (hn i).mpr (by omega)
      have : ∀ c, Reach T c0 c → by_ i c.log = [] := by
        intro c hr
        induction hr with
        | refl => rw [h0]; rfl
        | @step c1 c2 k fail _ hs ih =>
          unfold sysStep at hs
          by_cases hk : k = i
          · rw [hk, he, hstep_nil] at hs
            simp at hs
          · split at hs
            · simp at hs
            · simp only [Option.some.injEq] at hs
              subst hs
              exact ih
            · simp only [Option.some.injEq] at hs
              subst hs
              dsimp only
              rw [by_snoc_ne (fun e => hk e.symm), ih]
      rw [this c h]
      rfl
  rw [show (c.log.map fun w => (J w.hart).v) = (c.log.map Write.hart).map fun i => (J i).v by rw [List.map_map]; rfl]
  exact sum_perm_range n _ hcount

/-! ### Threads that start like this -/

/-- The address of a global variable. -/
theorem leaves_global {env : Env} {obj fp sp : W} {pre : Mem → Prop} {wr : W → Bool} {name : String} {k : Nat}
    (h : env.sym (.sym name) = obj) : Leaves env obj fp sp pre wr [.label (.gen ".L.pcrel" k), .la .a0 (.sym name)] obj := by
  intro P pc s hc hfp hsp _
  refine ⟨s.set .a0 obj, lruns_execG hc ?_, r_set_same _ _ _ (by decide), ?_, ?_, fun _ _ => rfl⟩
  · simp only [execG, private_, access, exec, Option.bind_some, if_true, h]
  · rw [r_set_ne _ _ _ _ (by decide), hfp]
  · rw [r_set_ne _ _ _ _ (by decide), hsp]

/-- A constant. -/
theorem leaves_num {env : Env} {obj fp sp : W} {pre : Mem → Prop} {wr : W → Bool} {v : Int} :
    Leaves env obj fp sp pre wr [.li .a0 v] (BitVec.ofInt 64 v) := by
  intro P pc s hc hfp hsp _
  refine ⟨s.set .a0 (BitVec.ofInt 64 v), lruns_execG hc ?_, r_set_same _ _ _ (by decide), ?_, ?_, fun _ _ => rfl⟩
  · simp only [execG, private_, access, exec, Option.bind_some, if_true]
  · rw [r_set_ne _ _ _ _ (by decide), hfp]
  · rw [r_set_ne _ _ _ _ (by decide), hsp]

/-- `x op= v` for a global `_Atomic int x` and a constant. -/
def globalBin (op : BinOp) (v : Int) : Low.Bin := ⟨op, ⟨.var (.int false) (.glob "x"), .int false⟩, ⟨.num (.int false) v, .int false⟩⟩

def exTmp : Tmp := ⟨-16, -20, -24, -28, 1, 0⟩

def exJob (op : BinOp) (v : BitVec 32) : Job := ⟨op, globalBin op v.toInt, exTmp, ⟨0, 0⟩, v, 1024, 960, fun _ => false⟩

def labelOf : Ins → Option Label
  | .base (.label l) => some l
  | _ => none

theorem unique_of_nodup {P : Prog} (h : (P.filterMap labelOf).Nodup) : Unique P := by
  induction P with
  | nil => intro i k l hi; simp at hi
  | cons x r ih =>
    have key : ∀ (k : Nat) (l : Label), r[k]? = some (Ins.base (.label l)) → l ∈ r.filterMap labelOf := fun k l hk =>
      List.mem_filterMap.mpr ⟨_, List.mem_of_getElem? hk, rfl⟩
    have hr : (r.filterMap labelOf).Nodup := by
      rw [List.filterMap_cons] at h
      split at h
      · exact h
      · exact (List.nodup_cons.mp h).2
    intro i k l hi hk
    cases i with
    | zero =>
      cases k with
      | zero => rfl
      | succ k =>
        rw [List.getElem?_cons_zero, Option.some.injEq] at hi
        rw [List.getElem?_cons_succ] at hk
        rw [hi, List.filterMap_cons] at h
        exact absurd (key _ _ hk) (List.nodup_cons.mp h).1
    | succ i =>
      rw [List.getElem?_cons_succ] at hi
      cases k with
      | zero =>
        rw [List.getElem?_cons_zero, Option.some.injEq] at hk
        rw [hk, List.filterMap_cons] at h
        exact absurd (key _ _ hi) (List.nodup_cons.mp h).1
      | succ k =>
        rw [List.getElem?_cons_succ] at hk
        rw [ih hr i k l hi hk]

/-- The program of the thread. -/
def exProg (op : BinOp) (v : BitVec 32) : Prog := ((atomicAssign (globalBin op v.toInt) exTmp ⟨0, 0⟩).getD ([], ⟨0, 0⟩)).1

def exEnv (obj : W) : Env := ⟨fun _ => obj, fun _ => 0, fun _ => none, fun _ _ => none⟩

theorem exLabels (op : BinOp) (v : BitVec 32) :
    (exProg op v).filterMap labelOf = [.gen ".L.pcrel" 0, begin_ 1, .uniq 1, retry 2, return_ 2, end_ 2, .uniq 0] := by
  cases op <;>
    (simp only [exProg, atomicAssign, globalBin, exTmp, lvar]
     rfl)

/-- Any thread that is about to execute `x op= v` with its stack frame at 1024 and the object at 4096. -/
theorem exStarts (op : BinOp) (v : BitVec 32) (hv : ∀ o, (apply op o v).isSome = true) (h : Hart) (hpc : h.pc = 0) (hfp : h.st.r .fp = 1024)
    (hsp : h.st.r .sp = 960) : Starts (exProg op v) (exEnv 4096) 4096 h (exJob op v) := by
  have hcode : ∃ gs', atomicAssign (globalBin op v.toInt) exTmp ⟨0, 0⟩ = some (exProg op v, gs') := by
    cases op <;>
      (simp only [exProg, atomicAssign, globalBin, exTmp, lvar]
       exact ⟨_, rfl⟩)
  refine ⟨rfl, ⟨rfl, rfl⟩, rfl, hv, hcode, ?_, hpc, hfp, hsp,
    (by decide : ∀ o ∈ [(-16 : Int), -20, -24, -28], -2048 ≤ o ∧ o ≤ 2047), ?_, ?_, ?_, ?_, ?_⟩
  · apply unique_of_nodup
    rw [exLabels]
    decide
  · have ap : ∀ (a b : W) (n k : Nat), n ≤ 8 → k ≤ 8 → (b - a).toNat ≥ n → (a - b).toNat ≥ k → Apart (a, n) (b, k) := by
      intro a b n k hn hk hd he x hx
      simp only [inR, decide_eq_true_eq, decide_eq_false_iff_not] at hx ⊢
      bv_omega
    have e : (exJob op v).regions = [(1008, 8), (1004, 4), (1000, 4), (996, 4), (952, 8), (944, 8)] := by
      simp only [Job.regions, exJob, exTmp]
      decide +kernel
    rw [e]
    simp only [List.pairwise_cons, List.mem_cons, List.not_mem_nil, or_false, forall_eq_or_imp, forall_eq]
    refine ⟨⟨?_, ?_, ?_, ?_, ?_⟩, ⟨?_, ?_, ?_, ?_⟩, ⟨?_, ?_, ?_⟩, ⟨?_, ?_⟩, ?_, ?_, .nil⟩ <;>
      first
      | exact ap _ _ _ _ (by decide) (by decide) (by decide) (by decide)
      | (intro x hx; simp at hx)
  · have e : (exJob op v).regions = [(1008, 8), (1004, 4), (1000, 4), (996, 4), (952, 8), (944, 8)] := by
      simp only [Job.regions, exJob, exTmp]
      decide +kernel
    rw [e]
    decide +kernel
  · intro _ _ _ _; rfl
  · intro c gs' hg
    simp only [exJob, globalBin, Cg.gen, Cg.varAddr, if_true, Option.some.injEq, Prod.mk.injEq] at hg
    rw [← hg.1]
    exact leaves_global rfl
  · intro gs c gs' hg
    simp only [exJob, globalBin, Cg.gen, Bool.false_eq_true, if_false, Option.some.injEq, Prod.mk.injEq] at hg
    rw [← hg.1]
    rw [show sext32 (exJob op v).v = BitVec.ofInt 64 v.toInt from rfl]
    exact leaves_num

/-- `n` threads, each about to execute `x += v i` for the same object: any schedule that lets them finish adds the sum. -/
theorem C85_counter (n : Nat) (v : Nat → BitVec 32) (x0 : W) (st : Nat → St) (hfp : ∀ i, (st i).r .fp = 1024) (hsp : ∀ i, (st i).r .sp = 960)
    {c : Sys} (h : Reach ⟨fun i => if i < n then exProg .add (v i) else [], fun _ => exEnv 4096, 4096⟩ ⟨x0, fun i => ⟨0, st i, false⟩, []⟩ c)
    (hf : ∀ i, i < n → (c.harts i).pc = (exProg .add (v i)).length) :
    int_ c.shared = int_ x0 + ((List.range n).map v).sum := by
  refine (C85_no_lost_update_partial (fun i => exJob .add (v i)) n ?_ ?_ (fun _ => rfl) rfl h ?_).1
  · intro i
    by_cases hi : i < n
    · have : exProg .add (v i) ≠ [] := by
        intro e
        have := exLabels .add (v i)
        rw [e] at this
        simp at this
      simp [hi, this]
    · simp [hi]; omega
  · intro i hi
    simp only [hi, if_true]
    exact exStarts .add (v i) (fun _ => rfl) _ rfl (hfp i) (hsp i)
  · intro i hi
    simp only [Finished, hi, if_true]
    exact hf i hi

end Toycc.Atomic
