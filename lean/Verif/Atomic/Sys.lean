import Verif.Atomic.Proof
/-! The invariant of all threads together. -/
namespace Toycc.Atomic
open Toycc.Rv hiding Prog find step Runs
open Toycc.Cg (BinOp)

/-- What is known of a thread. -/
def Th (P : Prog) (env : Env) (obj : W) (j : Job) (x : W) (h : Hart) (l : List Write) : Prop :=
  ∃ t alu k k' cA cB F S D D2 A V O N f, Ok P obj t alu k k' cA cB F S D D2 A V O N j.v f ∧ (∀ o, apply j.op o j.v = some (f o)) ∧
    Phase P env obj (nL t cA cB) F S D A V O N j.v f x h l

theorem th_start {P : Prog} {env : Env} {obj : W} {j : Job} {x : W} {h : Hart} (hs : Starts P env obj h j) : Th P env obj j x h [] := by
  obtain ⟨alu, f, h1, h2, h3, h4⟩ := ev_of hs.defined
  obtain ⟨gs', hc⟩ := hs.code
  rw [← hs.op] at h3 h4
  obtain ⟨cA, s1, s2, cB, s3, k, k', g1, g2, hP⟩ := code_eq hs.int_l hs.int_r hs.near h3 h4 hc
  obtain ⟨A, hA⟩ : ∃ A, j.fp + BitVec.ofInt 64 j.tmp.addr = A := ⟨_, rfl⟩
  obtain ⟨V, hV⟩ : ∃ V, j.fp + BitVec.ofInt 64 j.tmp.val = V := ⟨_, rfl⟩
  obtain ⟨O, hO⟩ : ∃ O, j.fp + BitVec.ofInt 64 j.tmp.old = O := ⟨_, rfl⟩
  obtain ⟨N, hN⟩ : ∃ N, j.fp + BitVec.ofInt 64 j.tmp.new = N := ⟨_, rfl⟩
  obtain ⟨D, hD⟩ : ∃ D, j.sp + BitVec.ofInt 64 (-8) = D := ⟨_, rfl⟩
  obtain ⟨D2, hD2⟩ : ∃ D2, D + BitVec.ofInt 64 (-8) = D2 := ⟨_, rfl⟩
  have hreg : j.regions = [(A, 8), (V, 4), (O, 4), (N, 4), (D, 8), (D2, 8)] := by
    rw [Job.regions, hA, hV, hO, hN, hD, hD2]
  have hp := hs.private_
  have hw := hs.stack
  have ha := hs.apart
  have lA := hs.evalA _ _ g1
  have lB := hs.evalB _ _ _ g2
  rw [hreg] at hp hw ha
  rw [hD] at lA lB
  have C : Ok P obj j.tmp alu k k' cA cB j.fp j.sp D D2 A V O N j.v f :=
    ⟨hP, hs.unique, hD, hD2, hA, hV, hO, hN, hp (A, 8) (by simp), hp (V, 4) (by simp), hp (O, 4) (by simp), hp (N, 4) (by simp),
      hp (D, 8) (by simp), hp (D2, 8) (by simp), ha, h2⟩
  obtain ⟨s', r, hl⟩ := C.start (env := env) (m0 := h.st.mem) (pre := j.asAtStart h.st.mem) (wr := j.wr) hs.fp hs.sp rfl
    (fun m hm b h1 h2 => by
      rw [hreg] at h2
      exact hm b h1 (h2 (A, 8) (by simp)) (h2 (V, 4) (by simp)) (h2 (D, 8) (by simp)))
    hw lA lB
  refine ⟨_, _, _, _, _, _, _, _, _, _, _, _, _, _, _, C, h1, .load ?_ hl⟩
  rw [hs.pc]
  exact r

theorem th_other {P : Prog} {env : Env} {obj : W} {j : Job} {x y : W} {h : Hart} {l : List Write} (ht : Th P env obj j x h l) :
    Th P env obj j y { h with res := false } l := by
  obtain ⟨t, alu, k, k', cA, cB, F, S, D, D2, A, V, O, N, f, C, hf, hp⟩ := ht
  exact ⟨t, alu, k, k', cA, cB, F, S, D, D2, A, V, O, N, f, C, hf, hp.other⟩

theorem th_step {P : Prog} {env : Env} {obj : W} {j : Job} {x : W} {h h' : Hart} {l : List Write} {fail : Bool} {r : Option W} {i : Nat}
    (ht : Th P env obj j x h l) (hs : hstep P env obj fail h x = some (h', r)) :
    (r = none ∧ Th P env obj j x h' l) ∨ ∃ y, r = some y ∧ l = [] ∧ Th P env obj j y h' [⟨i, x, y⟩] := by
  obtain ⟨t, alu, k, k', cA, cB, F, S, D, D2, A, V, O, N, f, C, hf, hp⟩ := ht
  rcases C.hstep (i := i) hp hs with ⟨h1, h2⟩ | ⟨y, h1, h2, h3⟩
  · exact .inl ⟨h1, t, alu, k, k', cA, cB, F, S, D, D2, A, V, O, N, f, C, hf, h2⟩
  · exact .inr ⟨y, h1, h2, t, alu, k, k', cA, cB, F, S, D, D2, A, V, O, N, f, C, hf, h3⟩

theorem th_log {P : Prog} {env : Env} {obj : W} {j : Job} {x : W} {h : Hart} {l : List Write} (ht : Th P env obj j x h l) :
    l = [] ∨ ∃ w, l = [w] ∧ Applies j.op j.v w := by
  obtain ⟨t, alu, k, k', cA, cB, F, S, D, D2, A, V, O, N, f, C, hf, hp⟩ := ht
  cases hp with
  | load _ _ => exact .inl rfl
  | lr _ _ => exact .inl rfl
  | sc _ _ _ => exact .inl rfl
  | @done s w _ h1 h2 _ =>
    refine .inr ⟨w, rfl, ?_, h2⟩
    rw [hf]
    exact congrArg some h1.symm

/-- A hart at the end of its program has nowhere to go. -/
theorem lruns_end {P : Prog} {env : Env} {obj : W} {pc : Nat} {s : St} {b : Nat × St} (hpc : pc = P.length) (h : LRuns P env obj (pc, s) b) :
    (pc, s) = b := by
  rcases lruns_step h with ⟨c, h1, _⟩ | e
  · exfalso
    have : P[pc]? = none := by rw [List.getElem?_eq_none_iff, hpc]; exact Nat.le_refl _
    unfold lstep at h1
    simp only [this] at h1
    simp at h1
  · exact e

theorem th_end {P : Prog} {env : Env} {obj : W} {j : Job} {x : W} {h : Hart} {l : List Write} (ht : Th P env obj j x h l) (he : h.pc = P.length) :
    ∃ w, l = [w] ∧ h.st.r .a0 = sext32 (int_ w.after) := by
  obtain ⟨t, alu, k, k', cA, cB, F, S, D, D2, A, V, O, N, f, C, hf, hp⟩ := ht
  have hl := C.len
  cases hp with
  | load r _ =>
    have := congrArg Prod.fst (lruns_end he r)
    dsimp only at this
    omega
  | lr r _ =>
    have := congrArg Prod.fst (lruns_end he r)
    dsimp only at this
    omega
  | sc r _ _ =>
    have := congrArg Prod.fst (lruns_end he r)
    dsimp only at this
    omega
  | @done s w r h1 h2 h3 =>
    refine ⟨w, rfl, ?_⟩
    have := congrArg Prod.snd (lruns_end he r)
    dsimp only at this
    rw [this, h3]
    rfl

/-- The invariant. -/
structure Inv (T : Threads) (J : Nat → Job) (x0 : W) (c : Sys) : Prop where
  hist : History x0 c.log c.shared
  th : ∀ i, (T.prog i = [] ∧ by_ i c.log = []) ∨ Th (T.prog i) (T.env i) T.obj (J i) c.shared (c.harts i) (by_ i c.log)

theorem hstep_nil {env : Env} {obj : W} {fail : Bool} {h : Hart} {x : W} : hstep [] env obj fail h x = none := by
  simp [hstep, lstep, sstep]

theorem by_snoc_same {i : Nat} {l : List Write} {x y : W} : by_ i (l ++ [⟨i, x, y⟩]) = by_ i l ++ [⟨i, x, y⟩] := by
  simp [by_, List.filter_append]

theorem by_snoc_ne {i k : Nat} {l : List Write} {x y : W} (h : k ≠ i) : by_ k (l ++ [⟨i, x, y⟩]) = by_ k l := by
  have : (i == k) = false := by simpa using fun e => h e.symm
  simp [by_, List.filter_append, this]

theorem inv_step {T : Threads} {J : Nat → Job} {x0 : W} {c c' : Sys} {i : Nat} {fail : Bool} (hi : Inv T J x0 c) (hs : sysStep T i fail c = some c') :
    Inv T J x0 c' := by
  unfold sysStep at hs
  rcases hi.th i with ⟨hn, _⟩ | ht
  · rw [hn, hstep_nil] at hs
    simp at hs
  · cases hh : hstep (T.prog i) (T.env i) T.obj fail (c.harts i) c.shared with
    | none => rw [hh] at hs; simp at hs
    | some p =>
      obtain ⟨h', r⟩ := p
      rw [hh] at hs
      rcases th_step (i := i) ht hh with ⟨rfl, h2⟩ | ⟨y, rfl, h2, h3⟩
      · simp only [Option.some.injEq] at hs
        subst hs
        refine ⟨hi.hist, fun k => ?_⟩
        dsimp only
        by_cases hk : k = i
        · subst hk
          rw [if_pos rfl]
          exact .inr h2
        · rw [if_neg hk]
          exact hi.th k
      · simp only [Option.some.injEq] at hs
        subst hs
        refine ⟨History.snoc (w := ⟨i, c.shared, y⟩) hi.hist, fun k => ?_⟩
        dsimp only
        by_cases hk : k = i
        · subst hk
          rw [if_pos rfl, by_snoc_same, h2, List.nil_append]
          exact .inr h3
        · rw [if_neg hk, by_snoc_ne hk]
          rcases hi.th k with h | h
          · exact .inl h
          · exact .inr (th_other h)

theorem inv_reach {T : Threads} {J : Nat → Job} {c0 c : Sys} (h0 : Inv T J c0.shared c0) (h : Reach T c0 c) : Inv T J c0.shared c := by
  induction h with
  | refl => exact h0
  | step _ hs ih => exact inv_step ih hs

/-! ### Sums -/

theorem history_sum {v : Nat → BitVec 32} {x y : W} {l : List Write} (h : History x l y)
    (ha : ∀ w ∈ l, int_ w.after = int_ w.before + v w.hart) : int_ y = int_ x + (l.map fun w => v w.hart).sum := by
  induction h with
  | nil => simp
  | @snoc l w h ih =>
    rw [ha w (by simp), ih (fun w' hw => ha w' (by simp [hw]))]
    simp [List.sum_append, BitVec.add_assoc]

theorem sum_perm_range {v : Nat → BitVec 32} : ∀ (n : Nat) (l : List Nat), (∀ i, l.count i = if i < n then 1 else 0) →
    (l.map v).sum = ((List.range n).map v).sum := by
  intro n l h
  have hp : l.Perm (List.range n) := by
    rw [List.perm_iff_count]
    intro a
    rw [h a, List.count_range]
  have := hp.map v
  clear h hp
  generalize l.map v = a at *
  generalize (List.range n).map v = b at *
  induction this with
  | nil => rfl
  | cons x _ ih => simp only [List.sum_cons, ih]
  | swap x y l => simp only [List.sum_cons, ← BitVec.add_assoc, BitVec.add_comm x y]
  | trans _ _ h1 h2 => exact h1.trans h2

theorem count_by {l : List Write} {i : Nat} : (l.map Write.hart).count i = (by_ i l).length := by
  induction l with
  | nil => rfl
  | cons w l ih =>
    rw [List.map_cons, List.count_cons, ih, by_, by_, List.filter_cons]
    split <;> simp_all

end Toycc.Atomic
