import Verif.Atomic.OpsProps
/-! An operation that runs alone ends. -/
namespace Toycc.Atomic
open Toycc.Rv hiding Prog find step Runs

/-- Instructions of one hart, without spurious failures. -/
inductive HRuns (P : Prog) (env : Env) (obj : W) : Hart → W → Prop
  | refl {h x} : h.pc = P.length → HRuns P env obj h x
  | step {h h' x} : hstep P env obj false h x = some (h', none) → HRuns P env obj h' x → HRuns P env obj h x
  | write {h h' x y} : hstep P env obj false h x = some (h', some y) → HRuns P env obj h' y → HRuns P env obj h x

theorem HRuns.local {P : Prog} {env : Env} {obj x : W} {a b : Nat × St} (hr : LRuns P env obj a b) :
    ∀ {res}, HRuns P env obj ⟨b.1, b.2, res⟩ x → HRuns P env obj ⟨a.1, a.2, res⟩ x := by
  induction hr with
  | refl => intro _ h; exact h
  | @step a c b h1 _ ih =>
    intro res h
    refine .step (h' := ⟨c.1, c.2, res⟩) ?_ (ih h)
    unfold hstep
    simp only [h1]

/-- The system follows. -/
theorem HRuns.sys {T : Threads} {i : Nat} {h : Hart} {x : W} (hr : HRuns (T.prog i) (T.env i) T.obj h x) :
    ∀ {c : Sys}, c.harts i = h → c.shared = x → ∃ k c', runS T (List.replicate k (i, false)) c = some c' ∧ Finished T c' i := by
  induction hr with
  | refl hp =>
    intro c h1 h2
    exact ⟨0, c, rfl, by rw [Finished, h1]; exact hp⟩
  | @step h h' x hs _ ih =>
    intro c h1 h2
    have e : sysStep T i false c = some { c with harts := fun j => if j = i then h' else c.harts j } := by
      unfold sysStep
      rw [h1, h2, hs]
    obtain ⟨k, c', r, f⟩ := ih (c := { c with harts := fun j => if j = i then h' else c.harts j }) (if_pos rfl) h2
    exact ⟨k + 1, c', by rw [List.replicate_succ, runS, e]; exact r, f⟩
  | @write h h' x y hs _ ih =>
    intro c h1 h2
    have e : sysStep T i false c =
        some ⟨y, fun j => if j = i then h' else { c.harts j with res := false }, c.log ++ [⟨i, c.shared, y⟩]⟩ := by
      unfold sysStep
      rw [h1, h2, hs]
    obtain ⟨k, c', r, f⟩ := ih (c := ⟨y, fun j => if j = i then h' else { c.harts j with res := false }, c.log ++ [⟨i, c.shared, y⟩]⟩) (if_pos rfl) rfl
    exact ⟨k + 1, c', by rw [List.replicate_succ, runS, e]; exact r, f⟩

/-! ### Accesses -/

theorem hstep_lr {P : Prog} {env : Env} {obj x : W} {fail res : Bool} {n : Nat} {s : St} {rd rs : Reg} (hi : P[n]? = some (.lr rd rs)) (h : s.r rs = obj) :
    hstep P env obj fail ⟨n, s, res⟩ x = some (⟨n + 1, s.set rd (sext32 (lo x)), true⟩, none) := by
  have hl : lstep P env obj (n, s) = none := by unfold lstep; simp only [hi]
  unfold hstep
  rw [hl]
  unfold sstep
  simp only [hi, h, if_true]

theorem hstep_sc {P : Prog} {env : Env} {obj x : W} {n : Nat} {s : St} {rd r2 r1 : Reg} (hi : P[n]? = some (.sc rd r2 r1)) (h : s.r r1 = obj) :
    hstep P env obj false ⟨n, s, true⟩ x = some (⟨n + 1, s.set rd 0, false⟩, some (patch x 0 4 (s.r r2).toNat)) := by
  have hl : lstep P env obj (n, s) = none := by unfold lstep; simp only [hi]
  unfold hstep
  rw [hl]
  unfold sstep
  simp [hi, h]

theorem hstep_scf {P : Prog} {env : Env} {obj x : W} {n : Nat} {s : St} {rd r2 r1 : Reg} (hi : P[n]? = some (.sc rd r2 r1)) (h : s.r r1 = obj) :
    hstep P env obj false ⟨n, s, false⟩ x = some (⟨n + 1, s.set rd 1, false⟩, none) := by
  have hl : lstep P env obj (n, s) = none := by unfold lstep; simp only [hi]
  unfold hstep
  rw [hl]
  unfold sstep
  simp [hi, h]

/-! ### Assignment -/

section
variable {P : Prog} {env : Env} {obj : W} {t : Tmp} {alu : Alu} {k k' : Nat} {cA cB : List Instr} {F S D D2 A V O N : W} {v : BitVec 32}
  {f : BitVec 32 → BitVec 32} (C : Ok P obj t alu k k' cA cB F S D D2 A V O N v f)
include C

theorem Ok.solo_sc {x : W} {s : St} {o : BitVec 32} (ha : AtLr obj F S A V O N v f o s) :
    HRuns P env obj ⟨nL t cA cB + 34, s.set .t4 (sext32 o), true⟩ x := by
  have hi : P[nL t cA cB + 34]? = some (.sc .a0 .t3 .t0) := C.mid3 2 (by omega)
  refine .write (hstep_sc hi (by rw [r_set_ne _ _ _ _ (by decide)]; exact ha.t0)) ?_
  obtain ⟨s', r1, _⟩ := C.stored (env := env) ha
  exact HRuns.local r1 (.refl C.len.symm)

theorem Ok.solo_same {x : W} {s : St} {res : Bool} (ha : AtLr obj F S A V O N v f (lo x) s) : HRuns P env obj ⟨nL t cA cB + 32, s, res⟩ x := by
  have hi : P[nL t cA cB + 32]? = some (.lr .t4 .t0) := C.mid3 0 (by omega)
  exact .step (hstep_lr hi ha.t0) (HRuns.local (C.hit ha) (C.solo_sc ha))

theorem Ok.solo_lr {x : W} {s : St} {res : Bool} {o : BitVec 32} (ha : AtLr obj F S A V O N v f o s) : HRuns P env obj ⟨nL t cA cB + 32, s, res⟩ x := by
  by_cases hw : lo x = o
  · subst hw; exact C.solo_same ha
  · have hi : P[nL t cA cB + 32]? = some (.lr .t4 .t0) := C.mid3 0 (by omega)
    obtain ⟨s', r1, h1⟩ := C.miss (env := env) ha hw
    exact .step (hstep_lr hi ha.t0) (HRuns.local r1 (C.solo_same h1))

theorem Ok.solo {x : W} {h : Hart} {l : List Write} (hp : Phase P env obj (nL t cA cB) F S D A V O N v f x h l) : HRuns P env obj h x := by
  cases hp with
  | @load s hr ha =>
    refine HRuns.local (a := (h.pc, h.st)) hr ?_
    have e2 : s.r .a0 + BitVec.ofInt 64 0 = obj := by rw [ha.a0]; simp
    have hi : inside obj obj 4 = true := by simp [inside]
    have ht : touches obj obj 4 = true := by simp [touches]
    have hl : lstep P env obj (nL t cA cB, s) = none := by
      unfold lstep
      simp only [C.atLoad, private_, access, ha.a0, Width.bytes]
      simp [ht]
    have hs : Atomic.hstep P env obj false ⟨nL t cA cB, s, h.res⟩ x = some (⟨nL t cA cB + 1, s.set .a0 (sext32 (lo x)), h.res⟩, none) := by
      unfold Atomic.hstep
      rw [hl]
      unfold sstep
      simp only [C.atLoad, Width.bytes, e2, hi, if_true, BitVec.sub_self, BitVec.toNat_zero, extend_bytes]
    obtain ⟨s', r1, h1⟩ := C.loaded (env := env) (o := lo x) ha
    exact .step hs (HRuns.local r1 (C.solo_same h1))
  | @lr s o hr ha => exact HRuns.local (a := (h.pc, h.st)) hr (C.solo_lr ha)
  | @sc s o hr ha hx =>
    refine HRuns.local (a := (h.pc, h.st)) hr ?_
    cases h.res with
    | true => exact C.solo_sc ha
    | false =>
      have hi : P[nL t cA cB + 34]? = some (.sc .a0 .t3 .t0) := C.mid3 2 (by omega)
      obtain ⟨s', r1, h1⟩ := C.failed (env := env) (x := sext32 o) ha
      exact .step (hstep_scf hi (by rw [r_set_ne _ _ _ _ (by decide)]; exact ha.t0)) (HRuns.local r1 (C.solo_lr h1))
  | @done s w hr _ _ _ => exact HRuns.local (a := (h.pc, h.st)) hr (.refl C.len.symm)

end

/-! ### Compare-and-exchange -/

section
variable {P : Prog} {env : Env} {obj : W} {n k : Nat} {E : W} {e d : BitVec 32} (C : Ck P obj n k E)
include C

theorem Ck.solo_sc {x : W} {s : St} (ha : AtC obj E e d s) : HRuns P env obj ⟨n + 2, s.set .t4 (sext32 e), true⟩ x := by
  refine .write (hstep_sc C.sc (by rw [r_set_ne _ _ _ _ (by decide)]; exact ha.t0)) ?_
  have l := lstep_bnez (env := env) (obj := obj) (s := (s.set .t4 (sext32 e)).set .a0 0) (C.cI (i := 0) rfl) C.retry
  rw [r_set_same _ _ _ (by decide), if_pos rfl] at l
  obtain ⟨s', r1, _⟩ := C.finish (env := env) (e := e) (s := (s.set .t4 (sext32 e)).set .a0 0) (w := e)
    (by rw [r_set_ne _ _ _ _ (by decide), r_set_same _ _ _ (by decide)])
    (by rw [r_set_ne _ _ _ _ (by decide), r_set_ne _ _ _ _ (by decide), ha.t2])
    (by rw [r_set_ne _ _ _ _ (by decide), r_set_ne _ _ _ _ (by decide), ha.t1])
  exact HRuns.local ((LRuns.one l).trans r1) (.refl C.len.symm)

theorem Ck.solo_lr {x : W} {s : St} {res : Bool} (ha : AtC obj E e d s) : HRuns P env obj ⟨n, s, res⟩ x := by
  refine .step (hstep_lr C.lr ha.t0) ?_
  have l := lstep_bne (env := env) (obj := obj) (s := s.set .t4 (sext32 (lo x))) C.bne C.ret
  rw [r_set_same _ _ _ (by decide), r_set_ne _ _ _ _ (by decide), ha.t2] at l
  by_cases hw : lo x = e
  · rw [hw, if_pos rfl] at l
    rw [hw]
    exact HRuns.local (LRuns.one l) (C.solo_sc ha)
  · rw [if_neg (fun e => hw (sext_inj e))] at l
    obtain ⟨s', r1, _⟩ := C.finish (env := env) (e := e) (s := s.set .t4 (sext32 (lo x))) (w := lo x) (r_set_same _ _ _ (by decide))
      (by rw [r_set_ne _ _ _ _ (by decide), ha.t2]) (by rw [r_set_ne _ _ _ _ (by decide), ha.t1])
    exact HRuns.local ((LRuns.one l).trans r1) (.refl C.len.symm)

theorem Ck.solo {x : W} {h : Hart} {l : List Write} {vs : List W} (hp : CPhase P env obj n E e d vs x h l) : HRuns P env obj h x := by
  cases hp with
  | @lr s hr ha => exact HRuns.local (a := (h.pc, h.st)) hr (C.solo_lr ha)
  | @sc s hr ha hx =>
    refine HRuns.local (a := (h.pc, h.st)) hr ?_
    cases h.res with
    | true => exact C.solo_sc ha
    | false =>
      refine .step (hstep_scf C.sc (by rw [r_set_ne _ _ _ _ (by decide)]; exact ha.t0)) ?_
      have l := lstep_bnez (env := env) (obj := obj) (s := (s.set .t4 (sext32 e)).set .a0 1) (C.cI (i := 0) rfl) C.retry
      rw [r_set_same _ _ _ (by decide), if_neg (by decide)] at l
      have hpos := C.pos
      have l2 : lstep P env obj (n - 1, (s.set .t4 (sext32 e)).set .a0 1) = some (n - 1 + 1, (s.set .t4 (sext32 e)).set .a0 1) :=
        lstep_label (C.lab _ (by omega))
      have hn : n - 1 + 1 = n := by omega
      rw [hn] at l2
      have g : ∀ y, y ≠ .t4 → y ≠ .a0 → ((s.set .t4 (sext32 e)).set .a0 1).r y = s.r y := fun y h1 h2 => by
        rw [r_set_ne _ _ _ _ h2, r_set_ne _ _ _ _ h1]
      refine HRuns.local ((LRuns.one l).trans (LRuns.one l2)) (C.solo_lr (e := e) (d := d) ⟨?_, ?_, ?_, ?_, ha.exp⟩)
      · rw [g _ (by decide) (by decide), ha.t0]
      · rw [g _ (by decide) (by decide), ha.t1]
      · rw [g _ (by decide) (by decide), ha.t2]
      · rw [g _ (by decide) (by decide), ha.t3]
  | @done s l hr _ _ _ => exact HRuns.local (a := (h.pc, h.st)) hr (.refl C.len.symm)

end

theorem once_solo {P : Prog} {env : Env} {obj : W} {op : Op} {vs : List W} {x : W} {h : Hart} {l : List Write} (ht : Once P env obj op vs h l) :
    HRuns P env obj h x := by
  cases ht with
  | after hp _ _ _ => exact .refl hp
  | @before n s hn hr hd =>
    refine HRuns.local (a := (h.pc, h.st)) hr ?_
    have ht : touches obj obj 4 = true := by simp [touches]
    have hi : inside obj obj 4 = true := by simp [inside]
    cases op with
    | assign j => exact absurd hd (by simp [Ready])
    | cas E e d => exact absurd hd (by simp [Ready])
    | exch v =>
      obtain ⟨d1, d2, d3⟩ := hd
      have hl : lstep P env obj (n, s) = none := by unfold lstep; simp only [d1]
      refine .write (h' := ⟨n + 1, s.set .a0 (extend false 4 (bytes x 0 4)), h.res⟩) (y := patch x 0 4 (sext32 v).toNat) ?_ (.refl hn.symm)
      unfold hstep
      rw [hl]
      unfold sstep
      simp only [d1, d2, d3, if_true, Width.bytes]
    | exch8 v =>
      obtain ⟨d1, d2, d3⟩ := hd
      have hl : lstep P env obj (n, s) = none := by unfold lstep; simp only [d1]
      refine .write (h' := ⟨n + 1, s.set .a0 (extend false 8 (bytes x 0 8)), h.res⟩) (y := patch x 0 8 v.toNat) ?_ (.refl hn.symm)
      unfold hstep
      rw [hl]
      unfold sstep
      simp only [d1, d2, d3, if_true, Width.bytes]
    | store v =>
      obtain ⟨d1, d2, d3⟩ := hd
      have hl : lstep P env obj (n, s) = none := by
        unfold lstep
        simp only [d1, private_, access, d2, Width.bytes, add0]
        simp [ht]
      refine .write (h' := ⟨n + 1, s, h.res⟩) (y := patch x 0 4 (sext32 v).toNat) ?_ (.refl hn.symm)
      unfold hstep
      rw [hl]
      unfold sstep
      simp only [d1, d2, d3, Width.bytes, add0, hi, if_true, BitVec.sub_self, BitVec.toNat_zero]
    | load =>
      obtain ⟨d1, d2⟩ := hd
      have hl : lstep P env obj (n, s) = none := by
        unfold lstep
        simp only [d1, private_, access, d2, Width.bytes, add0]
        simp [ht]
      refine .step (h' := ⟨n + 1, s.set .a0 (extend false 4 (bytes x 0 4)), h.res⟩) ?_ (.refl hn.symm)
      unfold hstep
      rw [hl]
      unfold sstep
      simp only [d1, d2, Width.bytes, add0, hi, if_true, BitVec.sub_self, BitVec.toNat_zero]

/-- Whatever the others have done before, an operation that is left alone, without spurious failures, ends. -/
theorem C86_solo_ends {T : Threads} {c0 c : Sys} (ops : Nat → Option Op) (hn : ∀ i, ops i = none → T.prog i = [])
    (hb : ∀ i op, ops i = some op → Begins (T.prog i) (T.env i) T.obj (c0.harts i) op) (h0 : c0.log = []) (h : Reach T c0 c)
    {i : Nat} {op : Op} (ho : ops i = some op) : ∃ k c', runS T (List.replicate k (i, false)) c = some c' ∧ Finished T c' i := by
  have ht := (inv2_of hn hb h0 h).busy i op ho
  refine HRuns.sys (x := c.shared) (h := c.harts i) ?_ rfl rfl
  cases op with
  | assign j =>
    obtain ⟨t, alu, k, k', cA, cB, F, S, D, D2, A, V, O, N, f, C, _, hp⟩ := ht
    exact C.solo hp
  | cas E e d =>
    obtain ⟨n, k, C, hp⟩ := ht
    exact C.solo hp
  | _ => exact once_solo ht

end Toycc.Atomic
