import Verif.Atomic.OpsProof
/-! A thread with a compare-and-exchange. -/
namespace Toycc.Atomic
open Toycc.Rv hiding Prog find step Runs
open Toycc.Cg (GS genLoad pushI popI)

/-- From the end of sc. -/
def casPost (k : Nat) : List Instr :=
  [.bnez .a0 (retry k), .label (return_ k), .op .subw .t2 .t4 .t2, .seqz .a0 .t2, .beqz .t2 (end_ k), .store .w .t4 0 .t1, .label (end_ k)]

/-- Up to the label before lr. -/
def casOps (c1 c2 c3 : List Instr) : List Instr :=
  c1 ++ [.mv .t0 .a0] ++ c2 ++ [.mv .t1 .a0, .load .w false .a0 0 .a0, .mv .t2 .a0] ++ c3 ++ [.mv .t3 .a0]

/-- The facts on the code; `n` is where lr is. -/
structure Ck (P : Prog) (obj : W) (n k : Nat) (E : W) : Prop where
  uni : Unique P
  priv : touches obj E 4 = false
  lab : ∀ m, m + 1 = n → P[m]? = some (.base (.label (retry k)))
  pos : 0 < n
  lr : P[n]? = some (.lr .t4 .t0)
  bne : P[n + 1]? = some (.bne .t4 .t2 (return_ k))
  sc : P[n + 2]? = some (.sc .a0 .t3 .t0)
  post : At P (n + 3) (casPost k)
  len : P.length = n + 10

/-- At lr. -/
structure AtC (obj E : W) (e d : BitVec 32) (s : St) : Prop where
  t0 : s.r .t0 = obj
  t1 : s.r .t1 = E
  t2 : s.r .t2 = sext32 e
  t3 : s.r .t3 = sext32 d
  exp : readN s.mem E 4 = e.toNat

inductive CPhase (P : Prog) (env : Env) (obj : W) (n : Nat) (E : W) (e d : BitVec 32) (vs : List W) (x : W) (h : Hart) : List Write → Prop
  | lr {s} : LRuns P env obj (h.pc, h.st) (n, s) → AtC obj E e d s → CPhase P env obj n E e d vs x h []
  | sc {s} : LRuns P env obj (h.pc, h.st) (n + 2, s.set .t4 (sext32 e)) → AtC obj E e d s → (h.res = true → lo x = e) →
      CPhase P env obj n E e d vs x h []
  | done {s l} : LRuns P env obj (h.pc, h.st) (n + 10, s) → Result (.cas E e d) vs l s → (∀ w ∈ l, Does (.cas E e d) w) → l.length ≤ 1 →
      CPhase P env obj n E e d vs x h l

section
variable {P : Prog} {env : Env} {obj : W} {n k : Nat} {E : W} {e d : BitVec 32} (C : Ck P obj n k E)
include C

theorem Ck.cI {i : Nat} {x : Instr} (h : (casPost k)[i]? = some x) : P[n + 3 + i]? = some (Ins.base x) := by
  have hi := (List.getElem?_eq_some_iff.mp h).1
  rw [C.post i hi, h]
  rfl

theorem Ck.retry : find P (retry k) = some (n - 1) := find_eq C.uni (C.lab _ (by have := C.pos; omega))
theorem Ck.ret : find P (return_ k) = some (n + 4) := find_eq C.uni (C.cI (i := 1) rfl)
theorem Ck.fin : find P (end_ k) = some (n + 9) := find_eq C.uni (C.cI (i := 6) rfl)

/-- From the comparison to the end. -/
theorem Ck.finish {s : St} {w : BitVec 32} (h4 : s.r .t4 = sext32 w) (h2 : s.r .t2 = sext32 e) (h1 : s.r .t1 = E) :
    ∃ s', LRuns P env obj (n + 4, s) (n + 10, s') ∧ s'.r .a0 = ofBool (w == e) ∧
      s'.mem = if w = e then s.mem else writeN s.mem E 4 (sext32 w).toNat := by
  have hc : At P (n + 4) [.label (return_ k), .op .subw .t2 .t4 .t2, .seqz .a0 .t2] := by
    have : casPost k = [.bnez .a0 (Atomic.retry k)] ++ ([.label (return_ k), .op .subw .t2 .t4 .t2, .seqz .a0 .t2] ++ (casPost k).drop 4) := rfl
    have h := C.post
    rw [this] at h
    exact h.right.left
  have x : execG env obj [.label (return_ k), .op .subw .t2 .t4 .t2, .seqz .a0 .t2] s =
      some ((s.set .t2 (sext32 (w - e))).set .a0 (ofBool (sext32 (w - e) == 0))) := by
    simp only [execG, private_, access, exec, Option.bind_some, if_true, h4, h2, sub_sext, r_set_same _ _ _ (by decide : Reg.t2 ≠ .zero)]
  have r1 := lruns_execG hc x
  have hz : (sext32 (w - e) == 0) = (w == e) := by
    rw [Bool.eq_iff_iff, beq_iff_eq, beq_iff_eq, sext_zero]
    constructor
    · intro h
      have := congrArg (· + e) h
      simpa [BitVec.sub_add_cancel] using this
    · intro h; rw [h, BitVec.sub_self]; rfl
  rw [hz] at r1
  have l2 := lstep_beqz (env := env) (obj := obj) (s := (s.set .t2 (sext32 (w - e))).set .a0 (ofBool (w == e))) (C.cI (i := 4) rfl) C.fin
  rw [r_set_ne _ _ _ _ (by decide), r_set_same _ _ _ (by decide)] at l2
  have l4 : ∀ s, lstep P env obj (n + 9, s) = some (n + 10, s) := fun s => lstep_label (C.cI (i := 6) rfl)
  by_cases hw : w = e
  · have hs : sext32 (w - e) = 0 := by rw [hw, BitVec.sub_self]; decide
    rw [if_pos hs] at l2
    refine ⟨_, r1.trans ((LRuns.one l2).trans (LRuns.one (l4 _))), r_set_same _ _ _ (by decide), ?_⟩
    rw [if_pos hw, mem_set, mem_set]
  · have hs : sext32 (w - e) ≠ 0 := by
      intro hh
      have := hz
      rw [hh] at this
      simp [hw] at this
    rw [if_neg hs] at l2
    have hst := store_exec (env := env) (obj := obj) (s := (s.set .t2 (sext32 (w - e))).set .a0 (ofBool (w == e))) (rs := .t4) (rb := .t1) (w := .w)
      (X := E) (x := sext32 w) (by rw [r_set_ne _ _ _ _ (by decide), r_set_ne _ _ _ _ (by decide), h1])
      (by rw [r_set_ne _ _ _ _ (by decide), r_set_ne _ _ _ _ (by decide), h4]) C.priv
    have hat : At P (n + 8) [.store .w .t4 0 .t1] := by
      intro i hi
      have : i = 0 := by simp at hi; omega
      subst this
      exact C.cI (i := 5) rfl
    have r3 := lruns_execG hat hst
    refine ⟨_, r1.trans ((LRuns.one l2).trans (r3.trans (LRuns.one (l4 _)))), ?_, ?_⟩
    · rw [r_mem, r_set_same _ _ _ (by decide)]
    · rw [if_neg hw]
      rfl

/-- One instruction. -/
theorem Ck.hstep {fail : Bool} {h h' : Hart} {x : W} {l : List Write} {r : Option W} {i : Nat} {vs : List W} (hx : x ∈ vs)
    (hp : CPhase P env obj n E e d vs x h l) (hs : hstep P env obj fail h x = some (h', r)) :
    (r = none ∧ CPhase P env obj n E e d vs x h' l) ∨
    ∃ y, r = some y ∧ l = [] ∧ CPhase P env obj n E e d (vs ++ [y]) y h' [⟨i, x, y⟩] := by
  unfold Atomic.hstep at hs
  cases hp with
  | @lr s hr ha =>
    rcases lruns_step hr with ⟨c, h1, h2⟩ | e0
    · rw [h1] at hs
      cases hs
      exact .inl ⟨rfl, .lr h2 ha⟩
    · rw [e0] at hs
      have hpc : h.pc = n := congrArg Prod.fst e0
      have hst : h.st = s := congrArg Prod.snd e0
      have hl : lstep P env obj (n, s) = none := by
        unfold lstep
        simp only [C.lr]
      rw [hl] at hs
      unfold sstep at hs
      simp only [hpc, C.lr] at hs
      rw [if_pos (by rw [hst]; exact ha.t0)] at hs
      simp only [Option.some.injEq, Prod.mk.injEq] at hs
      obtain ⟨rfl, rfl⟩ := hs
      rw [hst]
      have l := lstep_bne (env := env) (obj := obj) (s := s.set .t4 (sext32 (lo x))) C.bne C.ret
      rw [r_set_same _ _ _ (by decide), r_set_ne _ _ _ _ (by decide), ha.t2] at l
      by_cases hw : lo x = e
      · refine .inl ⟨rfl, .sc (s := s) ?_ ha (fun _ => hw)⟩
        rw [hw, if_pos rfl] at l
        rw [hw]
        exact .one l
      · rw [if_neg (fun e => hw (sext_inj e))] at l
        obtain ⟨s', r1, r2, r3⟩ := C.finish (env := env) (e := e) (s := s.set .t4 (sext32 (lo x))) (w := lo x) (r_set_same _ _ _ (by decide))
          (by rw [r_set_ne _ _ _ _ (by decide), ha.t2]) (by rw [r_set_ne _ _ _ _ (by decide), ha.t1])
        refine .inl ⟨rfl, .done ((LRuns.one l).trans r1) (.inr ⟨rfl, ?_, x, hx, hw, ?_⟩) (by simp) (by simp)⟩
        · rw [r2, beq_eq_false_iff_ne.mpr hw]; rfl
        · rw [r3, if_neg hw]
          have := Cg.readN_writeN (s.set .t4 (sext32 (lo x))).mem E 4 (sext32 (lo x)).toNat (by omega) 4 (Nat.le_refl _)
          rw [this]
          have hv : (lo (sext32 (lo x))).toNat = (sext32 (lo x)).toNat % 2 ^ 32 := BitVec.toNat_setWidth _ _
          rw [lo_sext] at hv
          exact hv.symm
  | @sc s hr ha hres =>
    rcases lruns_step hr with ⟨c, h1, h2⟩ | e0
    · rw [h1] at hs
      cases hs
      exact .inl ⟨rfl, .sc h2 ha hres⟩
    · rw [e0] at hs
      have hpc : h.pc = n + 2 := congrArg Prod.fst e0
      have hst : h.st = s.set .t4 (sext32 e) := congrArg Prod.snd e0
      have hl : lstep P env obj (n + 2, s.set .t4 (sext32 e)) = none := by
        unfold lstep
        simp only [C.sc]
      rw [hl] at hs
      unfold sstep at hs
      simp only [hpc, C.sc] at hs
      rw [if_pos (by rw [hst, r_set_ne _ _ _ _ (by decide)]; exact ha.t0)] at hs
      have h3 : h.st.r .t3 = sext32 d := by rw [hst, r_set_ne _ _ _ _ (by decide)]; exact ha.t3
      split at hs
      · rename_i hc
        simp only [Option.some.injEq, Prod.mk.injEq] at hs
        obtain ⟨rfl, rfl⟩ := hs
        have hr1 : h.res = true := by
          cases hh : h.res <;> simp [hh] at hc ⊢
        rw [h3, hst]
        have l := lstep_bnez (env := env) (obj := obj) (s := (s.set .t4 (sext32 e)).set .a0 0) (C.cI (i := 0) rfl) C.retry
        rw [r_set_same _ _ _ (by decide), if_pos rfl] at l
        obtain ⟨s', r1, r2, r3⟩ := C.finish (env := env) (e := e) (s := (s.set .t4 (sext32 e)).set .a0 0) (w := e)
          (by rw [r_set_ne _ _ _ _ (by decide), r_set_same _ _ _ (by decide)])
          (by rw [r_set_ne _ _ _ _ (by decide), r_set_ne _ _ _ _ (by decide), ha.t2])
          (by rw [r_set_ne _ _ _ _ (by decide), r_set_ne _ _ _ _ (by decide), ha.t1])
        have hS : Does (.cas E e d) ⟨i, x, patch x 0 4 (sext32 d).toNat⟩ := ⟨hres hr1, patch_lo _ _, patch_behind _ _⟩
        refine .inr ⟨_, rfl, rfl, .done ((LRuns.one l).trans r1) (.inl ⟨_, rfl, hS.1, hS.2, ?_, ?_⟩) (fun w hw => ?_) (by simp)⟩
        · rw [r2, beq_self_eq_true]; rfl
        · rw [r3, if_pos rfl]; exact ha.exp
        · rw [List.mem_singleton] at hw
          subst hw
          exact hS
      · simp only [Option.some.injEq, Prod.mk.injEq] at hs
        obtain ⟨rfl, rfl⟩ := hs
        rw [hst]
        have l := lstep_bnez (env := env) (obj := obj) (s := (s.set .t4 (sext32 e)).set .a0 1) (C.cI (i := 0) rfl) C.retry
        rw [r_set_same _ _ _ (by decide), if_neg (by decide)] at l
        have hpos := C.pos
        have l2 : lstep P env obj (n - 1, (s.set .t4 (sext32 e)).set .a0 1) = some (n - 1 + 1, (s.set .t4 (sext32 e)).set .a0 1) :=
          lstep_label (C.lab _ (by omega))
        have hn : n - 1 + 1 = n := by omega
        rw [hn] at l2
        have g : ∀ y, y ≠ .t4 → y ≠ .a0 → ((s.set .t4 (sext32 e)).set .a0 1).r y = s.r y := fun y h1 h2 => by
          rw [r_set_ne _ _ _ _ h2, r_set_ne _ _ _ _ h1]
        refine .inl ⟨rfl, .lr ((LRuns.one l).trans (LRuns.one l2)) ⟨?_, ?_, ?_, ?_, ha.exp⟩⟩
        · rw [g _ (by decide) (by decide), ha.t0]
        · rw [g _ (by decide) (by decide), ha.t1]
        · rw [g _ (by decide) (by decide), ha.t2]
        · rw [g _ (by decide) (by decide), ha.t3]
  | @done s l hr ha hb hc =>
    rcases lruns_step hr with ⟨c, h1, h2⟩ | e0
    · rw [h1] at hs
      cases hs
      exact .inl ⟨rfl, .done h2 ha hb hc⟩
    · exfalso
      have hpc : h.pc = P.length := by rw [C.len]; exact congrArg Prod.fst e0
      have := hstep_end (env := env) (obj := obj) (x := x) (fail := fail) hpc
      unfold Atomic.hstep at this
      rw [this] at hs
      simp at hs

end

theorem CPhase.other {P env obj n E e d vs ws x y h l} (hv : ∀ v ∈ vs, v ∈ ws) (hp : CPhase P env obj n E e d vs x h l) :
    CPhase P env obj n E e d ws y { h with res := false } l := by
  cases hp with
  | lr a b => exact .lr a b
  | sc a b _ => exact .sc a b (fun h => by simp at h)
  | done a b c d => exact .done a (result_mono hv b) c d

/-- The operands of a compare-and-exchange. -/
theorem cas_start {P : Prog} {env : Env} {obj : W} {h : Hart} {a o nw : Cg.Expr} {gs gs' : GS} {wr : W → Bool} {E : W} {e d : BitVec 32}
    {vs : List W} {x : W} (hg : genCas a o nw (.int false) gs = some (P, gs')) (hpc : h.pc = 0) (hu : Unique P)
    (hE : touches obj E 4 = false) (hw : ∀ b, inR E 4 b = true → wr b = false) (he : readN h.st.mem E 4 = e.toNat)
    (e1 : ∀ gs c gs', Cg.gen false a gs = some (c, gs') → LeavesT env obj (h.st.r .fp) (h.st.r .sp) (fun m => ∀ b, wr b = false → m b = h.st.mem b) wr c obj)
    (e2 : ∀ gs c gs', Cg.gen false o gs = some (c, gs') → LeavesT env obj (h.st.r .fp) (h.st.r .sp) (fun m => ∀ b, wr b = false → m b = h.st.mem b) wr c E)
    (e3 : ∀ gs c gs', Cg.gen false nw gs = some (c, gs') →
      LeavesT env obj (h.st.r .fp) (h.st.r .sp) (fun m => ∀ b, wr b = false → m b = h.st.mem b) wr c (sext32 d)) :
    ∃ n k, Ck P obj n k E ∧ CPhase P env obj n E e d vs x h [] := by
  unfold genCas at hg
  cases h1 : Cg.gen false a gs with
  | none => rw [h1] at hg; simp at hg
  | some p =>
    obtain ⟨c1, s1⟩ := p
    cases h2 : Cg.gen false o s1 with
    | none => simp [h1, h2] at hg
    | some p =>
      obtain ⟨c2, s2⟩ := p
      cases h3 : Cg.gen false nw s2 with
      | none => simp [h1, h2, h3] at hg
      | some p =>
        obtain ⟨c3, s3⟩ := p
        simp only [h1, h2, h3, Option.bind_eq_bind, Option.bind_some, Option.some.injEq, Prod.mk.injEq] at hg
        obtain ⟨hP, _⟩ := hg
        have L1 := e1 _ _ _ h1
        have L2 := e2 _ _ _ h2
        have L3 := e3 _ _ _ h3
        clear e1 e2 e3
        have hP' : P = base (casOps c1 c2 c3 ++ [.label (retry s3.cnt)]) ++
            ([.lr .t4 .t0, .bne .t4 .t2 (return_ s3.cnt), .sc .a0 .t3 .t0] ++ base (casPost s3.cnt)) := by
          rw [← hP]
          simp [casOps, casPost, base, Cg.genLoad, Cg.widthOf, Cg.Ty.size, Cg.Ty.unsigned]
        have hlen : (base (casOps c1 c2 c3 ++ [.label (retry s3.cnt)])).length = (casOps c1 c2 c3).length + 1 := by simp [base]
        have hgt : ∀ i, P[(casOps c1 c2 c3).length + 1 + i]? =
            ([.lr .t4 .t0, .bne .t4 .t2 (return_ s3.cnt), .sc .a0 .t3 .t0] ++ base (casPost s3.cnt))[i]? := by
          intro i
          rw [hP', List.getElem?_append_right (by rw [hlen]; omega), hlen, Nat.add_sub_cancel_left]
        have hat : At P 0 (casOps c1 c2 c3 ++ [.label (retry s3.cnt)]) := by
          have := at_base (c := casOps c1 c2 c3 ++ [.label (retry s3.cnt)]) [] ([.lr .t4 .t0, .bne .t4 .t2 (return_ s3.cnt), .sc .a0 .t3 .t0] ++ base (casPost s3.cnt))
          rw [hP']
          exact this
        have hck : Ck P obj ((casOps c1 c2 c3).length + 1) s3.cnt E := by
          refine ⟨hu, hE, ?_, by omega, hgt 0, hgt 1, hgt 2, ?_, ?_⟩
          · intro m hm
            have : m = (casOps c1 c2 c3).length := by omega
            subst this
            have := hat.right.head
            simpa using this
          · intro i hi
            rw [show (casOps c1 c2 c3).length + 1 + 3 + i = (casOps c1 c2 c3).length + 1 + (3 + i) by omega, hgt,
              List.getElem?_append_right (by simp), base]
            simp
          · rw [hP']; simp [base, casPost]
        refine ⟨_, _, hck, ?_⟩
        rw [casOps] at hat
        have b1 := hat.left.left.left.left.left.left
        have b2 := hat.left.left.left.left.left.right
        have b3 := hat.left.left.left.left.right
        have b4 := hat.left.left.left.right
        have b5 := hat.left.left.right
        have b6 := hat.left.right
        have b7 := hat.right
        obtain ⟨t1, r1, v1, f1, p1, _, _, _, m1⟩ := L1 P 0 h.st b1 rfl rfl (fun _ _ => rfl)
        have x2 : execG env obj [.mv .t0 .a0] t1 = some (t1.set .t0 obj) := by
          simp only [execG, private_, access, exec, Option.bind_some, if_true, v1]
        have r2 := lruns_execG b2 x2
        obtain ⟨t2, r3, v3, f3, p3, q30, _, _, m3⟩ := L2 P _ (t1.set .t0 obj) b3 (by rw [r_set_ne _ _ _ _ (by decide), f1])
          (by rw [r_set_ne _ _ _ _ (by decide), p1]) (fun b hb => m1 b hb)
        rw [r_set_same _ _ _ (by decide)] at q30
        have hm3 : ∀ b, wr b = false → t2.mem b = h.st.mem b := fun b hb => (m3 b hb).trans (m1 b hb)
        have hrd : readN t2.mem E 4 = e.toNat := by
          rw [read_same (by omega) (fun b hb => hm3 b (hw b hb)), he]
        have x4 : execG env obj [.mv .t1 .a0, .load .w false .a0 0 .a0, .mv .t2 .a0] t2 =
            some (((t2.set .t1 E).set .a0 (sext32 e)).set .t2 (sext32 e)) := by
          have g : ∀ y : St, (y.set .a0 (sext32 e)).r .a0 = sext32 e := fun y => r_set_same _ _ _ (by decide)
          have q : (t2.set .t1 E).r .a0 = E := by rw [r_set_ne _ _ _ _ (by decide), v3]
          simp only [execG, private_, access, exec, Option.bind_some, if_true, v3, q, add0, Width.bytes, hE, Bool.not_false, mem_set, hrd, ext4, g]
        have r4 := lruns_execG b4 x4
        let u := ((t2.set .t1 E).set .a0 (sext32 e)).set .t2 (sext32 e)
        have uf : u.r .fp = h.st.r .fp := by
          show (((t2.set .t1 E).set .a0 (sext32 e)).set .t2 (sext32 e)).r .fp = _
          rw [r_set_ne _ _ _ _ (by decide), r_set_ne _ _ _ _ (by decide), r_set_ne _ _ _ _ (by decide), f3]
        have up : u.r .sp = h.st.r .sp := by
          show (((t2.set .t1 E).set .a0 (sext32 e)).set .t2 (sext32 e)).r .sp = _
          rw [r_set_ne _ _ _ _ (by decide), r_set_ne _ _ _ _ (by decide), r_set_ne _ _ _ _ (by decide), p3]
        have u0 : u.r .t0 = obj := by
          show (((t2.set .t1 E).set .a0 (sext32 e)).set .t2 (sext32 e)).r .t0 = _
          rw [r_set_ne _ _ _ _ (by decide), r_set_ne _ _ _ _ (by decide), r_set_ne _ _ _ _ (by decide), q30]
        have u1 : u.r .t1 = E := by
          show (((t2.set .t1 E).set .a0 (sext32 e)).set .t2 (sext32 e)).r .t1 = _
          rw [r_set_ne _ _ _ _ (by decide), r_set_ne _ _ _ _ (by decide), r_set_same _ _ _ (by decide)]
        have u2 : u.r .t2 = sext32 e := r_set_same _ _ _ (by decide)
        have um : u.mem = t2.mem := rfl
        have r4' : LRuns P env obj _ (_, u) := r4
        clear_value u
        obtain ⟨t3, r5, v5, f5, p5, q50, q51, q52, m5⟩ := L3 P _ u b5 uf up (fun b hb => by rw [um]; exact hm3 b hb)
        have x6 : execG env obj ([.mv .t3 .a0]) t3 = some (t3.set .t3 (sext32 d)) := by
          simp only [execG, private_, access, exec, Option.bind_some, if_true, v5]
        have r6 := lruns_execG b6 x6
        have x7 : execG env obj ([.label (retry s3.cnt)]) (t3.set .t3 (sext32 d)) = some (t3.set .t3 (sext32 d)) := by
          simp only [execG, private_, access, exec, Option.bind_some, if_true]
        have r7 := lruns_execG b7 x7
        refine .lr (s := t3.set .t3 (sext32 d)) ?_ ⟨?_, ?_, ?_, ?_, ?_⟩
        · rw [hpc]
          simp only [casOps, List.length_append, List.length_cons, List.length_nil, Nat.add_assoc, Nat.zero_add] at r1 r2 r3 r4' r5 r6 r7 ⊢
          exact r1.trans (r2.trans (r3.trans (r4'.trans (r5.trans (r6.trans r7)))))
        · rw [r_set_ne _ _ _ _ (by decide), q50, u0]
        · rw [r_set_ne _ _ _ _ (by decide), q51, u1]
        · rw [r_set_ne _ _ _ _ (by decide), q52, u2]
        · exact r_set_same _ _ _ (by decide)
        · rw [mem_set, read_same (by omega) (fun b hb => m5 b (hw b hb)), um, hrd]

end Toycc.Atomic
