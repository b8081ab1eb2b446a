import Verif.Atomic.OpsCas
import Verif.Atomic.Wrong
/-!
**C86.** Atomic operations on the same object, of all kinds and in any number of threads, take effect one after the other.
-/
namespace Toycc.Atomic
open Toycc.Rv hiding Prog find step Runs
open Toycc.Cg (GS BinOp)

/-- What is known of a thread. -/
def Th2 (P : Prog) (env : Env) (obj : W) (vs : List W) (x : W) (h : Hart) (l : List Write) : Op → Prop
  | .assign j => Th P env obj j x h l
  | .cas E e d => ∃ n k, Ck P obj n k E ∧ CPhase P env obj n E e d vs x h l
  | op => Once P env obj op vs h l

theorem th2_start {P : Prog} {env : Env} {obj : W} {vs : List W} {x : W} {h : Hart} {op : Op} (hb : Begins P env obj h op) :
    Th2 P env obj vs x h [] op := by
  cases hb with
  | assign hs => exact th_start hs
  | exch h1 h2 h3 => exact once_exch h1 h2 h3 fun s a b => ⟨rfl, a, b⟩
  | exch8 h1 h2 h3 => exact once_exch h1 h2 h3 fun s a b => ⟨rfl, a, b⟩
  | store h1 h2 h3 h4 => subst h2; exact once_store h1 h3 h4
  | load h1 h2 h3 h4 => subst h2; exact once_load h1 h3 h4
  | cas h1 h2 h3 h4 h5 h6 h7 h8 h9 => exact cas_start h1 h2 h3 h4 h5 h6 h7 h8 h9

theorem th2_other {P : Prog} {env : Env} {obj : W} {vs ws : List W} {x y : W} {h : Hart} {l : List Write} {op : Op} (hv : ∀ v ∈ vs, v ∈ ws)
    (ht : Th2 P env obj vs x h l op) : Th2 P env obj ws y { h with res := false } l op := by
  cases op with
  | assign j => exact th_other ht
  | cas E e d =>
    obtain ⟨n, k, C, hp⟩ := ht
    exact ⟨n, k, C, hp.other hv⟩
  | _ => exact once_other hv ht

theorem th2_step {P : Prog} {env : Env} {obj : W} {vs : List W} {x : W} {h h' : Hart} {l : List Write} {op : Op} {fail : Bool} {r : Option W} {i : Nat}
    (hx : x ∈ vs) (ht : Th2 P env obj vs x h l op) (hs : hstep P env obj fail h x = some (h', r)) :
    (r = none ∧ Th2 P env obj vs x h' l op) ∨ ∃ y, r = some y ∧ l = [] ∧ Th2 P env obj (vs ++ [y]) y h' [⟨i, x, y⟩] op := by
  cases op with
  | assign j => exact th_step ht hs
  | cas E e d =>
    obtain ⟨n, k, C, hp⟩ := ht
    rcases C.hstep (i := i) hx hp hs with ⟨h1, h2⟩ | ⟨y, h1, h2, h3⟩
    · exact .inl ⟨h1, n, k, C, h2⟩
    · exact .inr ⟨y, h1, h2, n, k, C, h3⟩
  | _ => exact once_step hx ht hs

theorem th2_log {P : Prog} {env : Env} {obj : W} {vs : List W} {x : W} {h : Hart} {l : List Write} {op : Op} (ht : Th2 P env obj vs x h l op) :
    (∀ w ∈ l, Does op w) ∧ l.length ≤ 1 := by
  cases op with
  | assign j =>
    rcases th_log ht with rfl | ⟨w, rfl, hw⟩
    · simp
    · refine ⟨fun w' h' => ?_, by simp⟩
      rw [List.mem_singleton] at h'
      exact h' ▸ hw
  | cas E e d =>
    obtain ⟨n, k, C, hp⟩ := ht
    cases hp with
    | lr _ _ => simp
    | sc _ _ _ => simp
    | done _ _ a b => exact ⟨a, b⟩
  | _ =>
    cases ht with
    | before _ _ _ => simp
    | after _ _ a b => exact ⟨a, b⟩

theorem th2_end {P : Prog} {env : Env} {obj : W} {vs : List W} {x : W} {h : Hart} {l : List Write} {op : Op} (ht : Th2 P env obj vs x h l op)
    (he : h.pc = P.length) : Result op vs l h.st := by
  cases op with
  | assign j =>
    obtain ⟨w, h1, h2⟩ := th_end ht he
    have := (th2_log (op := .assign j) (vs := vs) ht).1 w (by rw [h1]; simp)
    exact ⟨w, h1, this, h2⟩
  | cas E e d =>
    obtain ⟨n, k, C, hp⟩ := ht
    have hl := C.len
    cases hp with
    | lr r _ =>
      have := congrArg Prod.fst (lruns_end he r)
      dsimp only at this
      omega
    | sc r _ _ =>
      have := congrArg Prod.fst (lruns_end he r)
      dsimp only at this
      omega
    | done r a _ _ =>
      have := congrArg Prod.snd (lruns_end he r)
      dsimp only at this
      rw [this]
      exact a
  | _ =>
    cases ht with
    | before h1 r _ =>
      have := congrArg Prod.fst (lruns_end he r)
      dsimp only at this
      omega
    | after _ a _ _ => exact a

theorem seen_snoc {x0 : W} {l : List Write} {w : Write} : seen x0 (l ++ [w]) = seen x0 l ++ [w.after] := by simp [seen]

theorem seen_last {x y : W} {l : List Write} (h : History x l y) : y ∈ seen x l := by
  cases h with
  | nil => simp [seen]
  | snoc _ => simp [seen]

/-- The invariant. -/
structure Inv2 (T : Threads) (ops : Nat → Option Op) (x0 : W) (c : Sys) : Prop where
  hist : History x0 c.log c.shared
  idle : ∀ i, ops i = none → T.prog i = [] ∧ by_ i c.log = []
  busy : ∀ i op, ops i = some op → Th2 (T.prog i) (T.env i) T.obj (seen x0 c.log) c.shared (c.harts i) (by_ i c.log) op

theorem inv2_step {T : Threads} {ops : Nat → Option Op} {x0 : W} {c c' : Sys} {i : Nat} {fail : Bool} (hi : Inv2 T ops x0 c)
    (hs : sysStep T i fail c = some c') : Inv2 T ops x0 c' := by
  unfold sysStep at hs
  cases ho : ops i with
  | none =>
    rw [(hi.idle i ho).1, hstep_nil] at hs
    simp at hs
  | some op =>
    cases hh : hstep (T.prog i) (T.env i) T.obj fail (c.harts i) c.shared with
    | none => rw [hh] at hs; simp at hs
    | some p =>
      obtain ⟨h', r⟩ := p
      rw [hh] at hs
      rcases th2_step (i := i) (seen_last hi.hist) (hi.busy i op ho) hh with ⟨rfl, h2⟩ | ⟨y, rfl, h2, h3⟩
      · simp only [Option.some.injEq] at hs
        subst hs
        refine ⟨hi.hist, hi.idle, fun k op' hk => ?_⟩
        dsimp only
        by_cases e : k = i
        · subst e
          rw [if_pos rfl]
          rw [ho, Option.some.injEq] at hk
          exact hk ▸ h2
        · rw [if_neg e]
          exact hi.busy k op' hk
      · simp only [Option.some.injEq] at hs
        subst hs
        refine ⟨History.snoc (w := ⟨i, c.shared, y⟩) hi.hist, fun k hk => ?_, fun k op' hk => ?_⟩
        · have e : k ≠ i := fun e => by rw [e, ho] at hk; simp at hk
          dsimp only
          rw [by_snoc_ne e]
          exact hi.idle k hk
        · dsimp only
          rw [seen_snoc]
          by_cases e : k = i
          · subst e
            rw [if_pos rfl, by_snoc_same, h2, List.nil_append]
            rw [ho, Option.some.injEq] at hk
            exact hk ▸ h3
          · rw [if_neg e, by_snoc_ne e]
            exact th2_other (fun v hv => List.mem_append_left _ hv) (hi.busy k op' hk)

theorem inv2_of {T : Threads} {c0 c : Sys} {ops : Nat → Option Op} (hn : ∀ i, ops i = none → T.prog i = [])
    (hb : ∀ i op, ops i = some op → Begins (T.prog i) (T.env i) T.obj (c0.harts i) op) (h0 : c0.log = []) (h : Reach T c0 c) :
    Inv2 T ops c0.shared c := by
  induction h with
  | refl =>
    refine ⟨by rw [h0]; exact .nil _, fun i hi => ⟨hn i hi, by rw [h0]; rfl⟩, fun i op hi => ?_⟩
    rw [h0]
    exact th2_start (hb i op hi)
  | step _ hs ih => exact inv2_step ih hs

/-- **C86** for int objects (and exchanges of 8 bytes): whatever operations any number of threads execute on the object, and however they are
interleaved, the writes form one history without gaps; each is one that the operation of its thread may make, from the value then in the
object; none makes two; and at its end each operation has made the write it should, or none, and gives the value it should. -/
theorem C86_linear_partial {T : Threads} {c0 c : Sys} (ops : Nat → Option Op) (hn : ∀ i, ops i = none → T.prog i = [])
    (hb : ∀ i op, ops i = some op → Begins (T.prog i) (T.env i) T.obj (c0.harts i) op) (h0 : c0.log = []) (h : Reach T c0 c) :
    History c0.shared c.log c.shared ∧
    (∀ w ∈ c.log, ∃ op, ops w.hart = some op ∧ Does op w) ∧
    (∀ i, (by_ i c.log).length ≤ 1) ∧
    ∀ i op, ops i = some op → Finished T c i → Result op (seen c0.shared c.log) (by_ i c.log) (c.harts i).st := by
  have hi := inv2_of hn hb h0 h
  refine ⟨hi.hist, ?_, ?_, ?_⟩
  · intro w hw
    have hm : w ∈ by_ w.hart c.log := by simp [by_, hw]
    cases ho : ops w.hart with
    | none => rw [(hi.idle _ ho).2] at hm; simp at hm
    | some op => exact ⟨op, rfl, (th2_log (hi.busy _ _ ho)).1 w hm⟩
  · intro i
    cases ho : ops i with
    | none => rw [(hi.idle _ ho).2]; simp
    | some op => exact (th2_log (hi.busy _ _ ho)).2
  · intro i op ho hf
    exact th2_end (hi.busy _ _ ho) hf

/-! ### A consequence: test and set -/

theorem hist_nil {x y : W} {l : List Write} (h : History x l y) (e : l = []) : y = x := by
  cases h with
  | nil => rfl
  | snoc _ => simp at e

theorem hist_ones {x y : W} {l : List Write} (h : History x l y) (h1 : ∀ w ∈ l, int_ w.after = 1) :
    (∀ w ∈ l.tail, int_ w.before = 1) ∧ (l ≠ [] → int_ y = 1) ∧ ∀ w, l.head? = some w → w.before = x := by
  induction h with
  | nil => simp
  | @snoc l w h ih =>
    obtain ⟨i1, i2, i3⟩ := ih (fun w' hw => h1 w' (by simp [hw]))
    refine ⟨?_, fun _ => h1 w (by simp), ?_⟩
    · cases l with
      | nil => simp
      | cons a l =>
        intro w' hw
        simp only [List.cons_append, List.tail_cons, List.mem_append, List.mem_singleton] at hw
        rcases hw with hw | rfl
        · exact i1 w' hw
        · exact i2 (by simp)
    · cases l with
      | nil =>
        intro w' hw
        simp only [List.nil_append, List.head?_cons, Option.some.injEq] at hw
        subst hw
        exact hist_nil h rfl
      | cons a l => exact i3

/-- When `n` threads have executed `atomic_exchange(&x, 1)` on an int that was 0, exactly one of them got 0. -/
theorem C86_test_and_set {T : Threads} {c0 c : Sys} {n : Nat} (hn : 0 < n) (hi : ∀ i, n ≤ i → T.prog i = [])
    (hb : ∀ i, i < n → Begins (T.prog i) (T.env i) T.obj (c0.harts i) (.exch 1)) (h0 : c0.log = []) (hx : int_ c0.shared = 0)
    (h : Reach T c0 c) (hf : ∀ i, i < n → Finished T c i) :
    ∃ i, i < n ∧ (c.harts i).st.r .a0 = 0 ∧ ∀ k, k < n → k ≠ i → (c.harts k).st.r .a0 = 1 := by
  obtain ⟨h1, h2, h3, h4⟩ := C86_linear_partial (fun i => if i < n then some (.exch 1) else none)
    (fun i e => hi i (by
      by_cases hh : i < n
      · simp [hh] at e
      · omega))
    (fun i op e => by
      by_cases hh : i < n
      · simp only [hh, if_true, Option.some.injEq] at e
        exact e ▸ hb i hh
      · simp [hh] at e) h0 h
  have hone : ∀ w ∈ c.log, w.hart < n ∧ int_ w.after = 1 := by
    intro w hw
    obtain ⟨op, e, hd⟩ := h2 w hw
    by_cases hh : w.hart < n
    · simp only [hh, if_true, Option.some.injEq] at e
      subst e
      exact ⟨hh, hd.1⟩
    · simp [hh] at e
  obtain ⟨k1, k2, k3⟩ := hist_ones h1 fun w hw => (hone w hw).2
  have res : ∀ i, i < n → ∃ w, by_ i c.log = [w] ∧ (c.harts i).st.r .a0 = sext32 (int_ w.before) := by
    intro i hh
    obtain ⟨w, a, _, b⟩ := h4 i (.exch 1) (by simp [hh]) (hf i hh)
    exact ⟨w, a, b⟩
  have hmem : ∀ i w, by_ i c.log = [w] → w ∈ c.log ∧ w.hart = i := by
    intro i w e
    have : w ∈ by_ i c.log := by rw [e]; simp
    simp only [by_, List.mem_filter, beq_iff_eq] at this
    exact this
  cases hl : c.log with
  | nil =>
    obtain ⟨w, e, _⟩ := res 0 hn
    have := (hmem 0 w e).1
    rw [hl] at this
    simp at this
  | cons w0 rest =>
    have hw0 : w0 ∈ c.log := by rw [hl]; simp
    refine ⟨w0.hart, (hone w0 hw0).1, ?_, ?_⟩
    · obtain ⟨w, e, b⟩ := res w0.hart (hone w0 hw0).1
      have : w0 ∈ by_ w0.hart c.log := by simp [by_, hw0]
      rw [e, List.mem_singleton] at this
      subst this
      rw [b, k3 _ (by rw [hl]; rfl), hx]
      decide
    · intro k hk hne
      obtain ⟨w, e, b⟩ := res k hk
      obtain ⟨m1, m2⟩ := hmem k w e
      have : w ∈ c.log.tail := by
        rw [hl] at m1 ⊢
        rcases List.mem_cons.mp m1 with rfl | m
        · exact absurd m2.symm hne
        · exact m
      rw [b, k1 w this]
      decide

/-! ### Threads that start like this -/

theorem leavesT_global {env : Env} {obj fp sp : W} {pre : Mem → Prop} {wr : W → Bool} {name : String} {k : Nat}
    (h : env.sym (.sym name) = obj) : LeavesT env obj fp sp pre wr [.label (.gen ".L.pcrel" k), .la .a0 (.sym name)] obj := by
  intro P pc s hc hfp hsp _
  refine ⟨s.set .a0 obj, lruns_execG hc ?_, r_set_same _ _ _ (by decide), ?_, ?_, ?_, ?_, ?_, fun _ _ => rfl⟩
  · simp only [execG, private_, access, exec, Option.bind_some, if_true, h]
  · rw [r_set_ne _ _ _ _ (by decide), hfp]
  · rw [r_set_ne _ _ _ _ (by decide), hsp]
  all_goals rw [r_set_ne _ _ _ _ (by decide)]

theorem leavesT_num {env : Env} {obj fp sp : W} {pre : Mem → Prop} {wr : W → Bool} {v : Int} :
    LeavesT env obj fp sp pre wr [.li .a0 v] (BitVec.ofInt 64 v) := by
  intro P pc s hc hfp hsp _
  refine ⟨s.set .a0 (BitVec.ofInt 64 v), lruns_execG hc ?_, r_set_same _ _ _ (by decide), ?_, ?_, ?_, ?_, ?_, fun _ _ => rfl⟩
  · simp only [execG, private_, access, exec, Option.bind_some, if_true]
  · rw [r_set_ne _ _ _ _ (by decide), hfp]
  · rw [r_set_ne _ _ _ _ (by decide), hsp]
  all_goals rw [r_set_ne _ _ _ _ (by decide)]

theorem leavesT_local {env : Env} {obj fp sp X : W} {pre : Mem → Prop} {wr : W → Bool} {off : Int} (hX : fp + BitVec.ofInt 64 off = X) :
    LeavesT env obj fp sp pre wr [.addi .a0 .fp off] X := by
  intro P pc s hc hfp hsp _
  refine ⟨s.set .a0 X, lruns_execG hc (addi_exec (by rw [hfp]; exact hX)), r_set_same _ _ _ (by decide), ?_, ?_, ?_, ?_, ?_, fun _ _ => rfl⟩
  · rw [r_set_ne _ _ _ _ (by decide), hfp]
  · rw [r_set_ne _ _ _ _ (by decide), hsp]
  all_goals rw [r_set_ne _ _ _ _ (by decide)]

/-- `&x` for the object. -/
def theObj : Cg.Expr := .addr (.var (.int false) (.glob "x"))

theorem exOperands (v : Int) (x : W) (hx : BitVec.ofInt 64 v = x) (st : St) (hsp : st.r .sp = 960) :
    Operands (exEnv 4096) 4096 st ⟨0, 0⟩ theObj (.num (.int false) v) x := by
  refine ⟨by rw [hsp]; decide +kernel, fun _ => false, fun _ => false, fun _ _ => rfl, ?_, ?_⟩
  · intro c gs' hg
    simp only [theObj, Cg.gen, Cg.varAddr, if_true, Bool.false_eq_true, if_false, Option.some.injEq, Prod.mk.injEq] at hg
    rw [← hg.1]
    exact leaves_global rfl
  · intro gs c gs' hg
    simp only [Cg.gen, Bool.false_eq_true, if_false, Option.some.injEq, Prod.mk.injEq] at hg
    rw [← hg.1, ← hx]
    exact leaves_num

/-- `atomic_exchange(&x, v)`. -/
example (v : BitVec 32) (st : St) (hsp : st.r .sp = 960) : ∃ P, Begins P (exEnv 4096) 4096 ⟨0, st, false⟩ (.exch v) :=
  ⟨_, .exch (l := theObj) (r := .num (.int false) v.toInt) (gs := ⟨0, 0⟩) rfl rfl (exOperands _ _ rfl st hsp)⟩

/-- `atomic_store(&x, v)` and `atomic_load(&x)`. -/
example (v : BitVec 32) (st : St) (hsp : st.r .sp = 960) : ∃ P, Begins P (exEnv 4096) 4096 ⟨0, st, false⟩ (.store v) :=
  ⟨_, .store (l := theObj) (r := .num (.int false) v.toInt) (gs := ⟨0, 0⟩) rfl rfl rfl (exOperands _ _ rfl st hsp)⟩

example (st : St) : ∃ P, Begins P (exEnv 4096) 4096 ⟨0, st, false⟩ .load :=
  ⟨_, .load (l := theObj) (gs := ⟨0, 0⟩) (wr := fun _ => false) rfl rfl rfl (by
    intro c gs' hg
    simp only [theObj, Cg.gen, Cg.varAddr, if_true, Bool.false_eq_true, if_false, Option.some.injEq, Prod.mk.injEq] at hg
    rw [← hg.1]
    exact leaves_global rfl)⟩

/-- `atomic_compare_exchange_strong(&x, &e, d)` with a local variable `e`. -/
def casProg (d : BitVec 32) : Prog :=
  ((genCas theObj (.addr (.var (.int false) (.loc (-16)))) (.num (.int false) d.toInt) (.int false) ⟨0, 0⟩).getD ([], ⟨0, 0⟩)).1

theorem exCas (e d : BitVec 32) (st : St) (hfp : st.r .fp = 1024) (he : readN st.mem 1008 4 = e.toNat) :
    Begins (casProg d) (exEnv 4096) 4096 ⟨0, st, false⟩ (.cas 1008 e d) := by
  refine .cas (a := theObj) (o := .addr (.var (.int false) (.loc (-16)))) (n := .num (.int false) d.toInt) (gs := ⟨0, 0⟩) (wr := fun _ => false)
    rfl rfl ?_ (by decide +kernel) (fun _ _ => rfl) he ?_ ?_ ?_
  · apply unique_of_nodup
    exact (by decide : [Label.gen ".L.pcrel" 0, retry 1, return_ 1, end_ 1].Nodup)
  · intro gs c gs' hg
    simp only [theObj, Cg.gen, Cg.varAddr, if_true, Bool.false_eq_true, if_false, Option.some.injEq, Prod.mk.injEq] at hg
    rw [← hg.1]
    exact leavesT_global rfl
  · intro gs c gs' hg
    have hn : Cg.addOffset .fp (-16) = [.addi .a0 .fp (-16)] := by decide +kernel
    simp only [Cg.gen, Cg.varAddr, if_true, Bool.false_eq_true, if_false, Option.some.injEq, Prod.mk.injEq, hn] at hg
    rw [← hg.1]
    refine leavesT_local ?_
    rw [hfp]
    decide +kernel
  · intro gs c gs' hg
    simp only [Cg.gen, Bool.false_eq_true, if_false, Option.some.injEq, Prod.mk.injEq] at hg
    rw [← hg.1]
    exact leavesT_num

/-! ### Where the code does not have the property -/

/-- `atomic_flag_test_and_set(&f)`: an exchange for an object of one byte. -/
def flagProg : Prog := ((genExch theObj (.num (.int false) 1) 1 ⟨0, 0⟩).getD ([], ⟨0, 0⟩)).1

/-- **Found:** `atomic_flag_test_and_set` writes the three bytes behind the flag too, and gives their value. -/
theorem C86_flag_wrong : ∃ c, Reach (threads flagProg) (start 0xaabbcc00) c ∧
    Finished (threads flagProg) c 0 ∧ c.shared = 1 ∧ (c.harts 0).st.r .a0 = 0xffffffffaabbcc00 ∧ c.log = [⟨0, 0xaabbcc00, 1⟩] :=
  of_solo (n := flagProg.length) (by decide +kernel)

/-- `atomic_compare_exchange_strong(&x, &e, 7)` for long objects, with 0 in `e`. -/
def casLong : Prog :=
  ((genCas theObj (.addr (.var (.long false) (.loc (-16)))) (.num (.long false) 7) (.long false) ⟨0, 0⟩).getD ([], ⟨0, 0⟩)).1

/-- **Found:** it succeeds although `x` is 2^32. -/
theorem C86_long_wrong : ∃ c, Reach (threads casLong) (start 0x100000000) c ∧
    Finished (threads casLong) c 0 ∧ c.shared = 0x100000007 ∧ (c.harts 0).st.r .a0 = 1 ∧ c.log = [⟨0, 0x100000000, 0x100000007⟩] :=
  of_solo (n := casLong.length - 1) (by decide +kernel)

end Toycc.Atomic
