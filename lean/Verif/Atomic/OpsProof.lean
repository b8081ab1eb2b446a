import Verif.Atomic.Ops
/-! One thread with one of the operations. -/
namespace Toycc.Atomic
open Toycc.Rv hiding Prog find step Runs
open Toycc.Cg (GS genLoad pushI popI)

/-! ### Operations with one access -/

/-- The last instruction, which is the access, and the operands it finds. -/
def Ready (obj : W) : Op → Option Ins → St → Prop
  | .exch v, i, s => i = some (.amoswap .w .a0 .a0 .a1) ∧ s.r .a1 = obj ∧ s.r .a0 = sext32 v
  | .exch8 v, i, s => i = some (.amoswap .d .a0 .a0 .a1) ∧ s.r .a1 = obj ∧ s.r .a0 = v
  | .store v, i, s => i = some (.base (.store .w .a0 0 .a1)) ∧ s.r .a1 = obj ∧ s.r .a0 = sext32 v
  | .load, i, s => i = some (.base (.load .w false .a0 0 .a0)) ∧ s.r .a0 = obj
  | _, _, _ => False

inductive Once (P : Prog) (env : Env) (obj : W) (op : Op) (vs : List W) (h : Hart) : List Write → Prop
  | before {n s} : P.length = n + 1 → LRuns P env obj (h.pc, h.st) (n, s) → Ready obj op P[n]? s → Once P env obj op vs h []
  | after {l} : h.pc = P.length → Result op vs l h.st → (∀ w ∈ l, Does op w) → l.length ≤ 1 → Once P env obj op vs h l

theorem lstep_end {P : Prog} {env : Env} {obj : W} {s : St} {pc : Nat} (h : pc = P.length) : lstep P env obj (pc, s) = none := by
  have : P[pc]? = none := by rw [List.getElem?_eq_none_iff, h]; exact Nat.le_refl _
  unfold lstep
  simp only [this]

theorem hstep_end {P : Prog} {env : Env} {obj x : W} {fail : Bool} {h : Hart} (hp : h.pc = P.length) : hstep P env obj fail h x = none := by
  have : P[h.pc]? = none := by rw [List.getElem?_eq_none_iff, hp]; exact Nat.le_refl _
  unfold hstep
  rw [lstep_end hp]
  unfold sstep
  simp only [this]

theorem patch8 (x : W) (v : W) : patch x 0 8 v.toNat = v := by
  apply BitVec.eq_of_toNat_eq
  have e0 : (256 : Nat) ^ 0 = 1 := by decide
  have e8 : (256 : Nat) ^ 8 = 2 ^ 64 := by decide
  have e : (patch x 0 8 v.toNat).toNat = (x.toNat % 256 ^ 0 + v.toNat % 256 ^ 8 * 256 ^ 0 + x.toNat / 256 ^ 8 * 256 ^ 8) % 2 ^ 64 :=
    BitVec.toNat_ofNat _ _
  rw [e, e0, e8]
  have hx := x.isLt
  have hv := v.isLt
  generalize x.toNat = a at *
  generalize v.toNat = b at *
  omega

theorem extend8 (x : W) : extend false 8 (bytes x 0 8) = x := by
  have e0 : (256 : Nat) ^ 0 = 1 := by decide
  have e8 : (256 : Nat) ^ 8 = 2 ^ 64 := by decide
  have e : bytes x 0 8 = x.toNat / 256 ^ 0 % 256 ^ 8 := rfl
  rw [e, e0, e8, Nat.div_one, Nat.mod_eq_of_lt x.isLt, ext8]

theorem once_step {P : Prog} {env : Env} {obj : W} {op : Op} {vs : List W} {x : W} {h h' : Hart} {l : List Write} {fail : Bool} {r : Option W} {i : Nat}
    (hx : x ∈ vs) (ht : Once P env obj op vs h l) (hs : hstep P env obj fail h x = some (h', r)) :
    (r = none ∧ Once P env obj op vs h' l) ∨ ∃ y, r = some y ∧ l = [] ∧ Once P env obj op (vs ++ [y]) h' [⟨i, x, y⟩] := by
  cases ht with
  | @after hpc =>
    rename_i hl _ _ _
    rw [hstep_end hl] at hs
    simp at hs
  | @before n s hn hr hd =>
    unfold Atomic.hstep at hs
    rcases lruns_step hr with ⟨c, h1, h2⟩ | e
    · rw [h1] at hs
      cases hs
      exact .inl ⟨rfl, .before hn h2 hd⟩
    · rw [e] at hs
      have hpc : h.pc = n := congrArg Prod.fst e
      have hst : h.st = s := congrArg Prod.snd e
      have ht : touches obj obj 4 = true := by simp [touches]
      have hi : inside obj obj 4 = true := by simp [inside]
      cases op with
      | assign j => exact absurd hd (by simp [Ready])
      | cas E e d => exact absurd hd (by simp [Ready])
      | exch v =>
        obtain ⟨d1, d2, d3⟩ := hd
        have hl : lstep P env obj (n, s) = none := by unfold lstep; simp only [d1]
        rw [hl] at hs
        unfold sstep at hs
        simp only [hpc, d1, hst, d2, d3, if_true, Option.some.injEq, Prod.mk.injEq] at hs
        obtain ⟨rfl, rfl⟩ := hs
        have hS : Sets v ⟨i, x, patch x 0 4 (sext32 v).toNat⟩ := ⟨patch_lo _ _, patch_behind _ _⟩
        refine .inr ⟨_, rfl, rfl, .after (by dsimp only; omega) ⟨_, rfl, hS, ?_⟩ (fun w hw => ?_) (by simp)⟩
        · show (s.set .a0 (extend false 4 (bytes x 0 4))).r .a0 = _
          rw [r_set_same _ _ _ (by decide), extend_bytes]
          rfl
        · rw [List.mem_singleton] at hw
          subst hw
          exact hS
      | exch8 v =>
        obtain ⟨d1, d2, d3⟩ := hd
        have hl : lstep P env obj (n, s) = none := by unfold lstep; simp only [d1]
        rw [hl] at hs
        unfold sstep at hs
        simp only [hpc, d1, hst, d2, d3, if_true, Option.some.injEq, Prod.mk.injEq] at hs
        obtain ⟨rfl, rfl⟩ := hs
        have hS : patch x 0 8 v.toNat = v := patch8 _ _
        refine .inr ⟨_, rfl, rfl, .after (by dsimp only; omega) ⟨_, rfl, hS, ?_⟩ (fun w hw => ?_) (by simp)⟩
        · show (s.set .a0 (extend false 8 (bytes x 0 8))).r .a0 = x
          rw [r_set_same _ _ _ (by decide), extend8]
        · rw [List.mem_singleton] at hw
          subst hw
          exact hS
      | store v =>
        obtain ⟨d1, d2, d3⟩ := hd
        have hl : lstep P env obj (n, s) = none := by
          unfold lstep
          simp only [d1, private_, access, d2, Width.bytes, add0]
          simp [ht]
        rw [hl] at hs
        unfold sstep at hs
        simp only [hpc, d1, hst, d2, d3, Width.bytes, add0, hi, if_true, Option.some.injEq, Prod.mk.injEq, BitVec.sub_self, BitVec.toNat_zero] at hs
        obtain ⟨rfl, rfl⟩ := hs
        have hS : Sets v ⟨i, x, patch x 0 4 (sext32 v).toNat⟩ := ⟨patch_lo _ _, patch_behind _ _⟩
        refine .inr ⟨_, rfl, rfl, .after (by dsimp only; omega) ⟨_, rfl, hS, d3⟩ (fun w hw => ?_) (by simp)⟩
        rw [List.mem_singleton] at hw
        subst hw
        exact hS
      | load =>
        obtain ⟨d1, d2⟩ := hd
        have hl : lstep P env obj (n, s) = none := by
          unfold lstep
          simp only [d1, private_, access, d2, Width.bytes, add0]
          simp [ht]
        rw [hl] at hs
        unfold sstep at hs
        simp only [hpc, d1, hst, d2, Width.bytes, add0, hi, if_true, Option.some.injEq, Prod.mk.injEq, BitVec.sub_self, BitVec.toNat_zero] at hs
        obtain ⟨rfl, rfl⟩ := hs
        refine .inl ⟨rfl, .after (by dsimp only; omega) ⟨rfl, x, hx, ?_⟩ (by simp) (by simp)⟩
        show (s.set .a0 (extend false 4 (bytes x 0 4))).r .a0 = _
        rw [r_set_same _ _ _ (by decide), extend_bytes]
        rfl

theorem result_mono {op : Op} {vs ws : List W} {l : List Write} {s : St} (h : ∀ v ∈ vs, v ∈ ws) (hr : Result op vs l s) : Result op ws l s := by
  cases op with
  | load =>
    obtain ⟨h1, y, h2, h3⟩ := hr
    exact ⟨h1, y, h y h2, h3⟩
  | cas E e d =>
    rcases hr with hr | ⟨h1, h2, y, h3, h4⟩
    · exact .inl hr
    · exact .inr ⟨h1, h2, y, h y h3, h4⟩
  | _ => exact hr

theorem once_other {P : Prog} {env : Env} {obj : W} {op : Op} {vs ws : List W} {h : Hart} {l : List Write} (hv : ∀ v ∈ vs, v ∈ ws)
    (ht : Once P env obj op vs h l) : Once P env obj op ws { h with res := false } l := by
  cases ht with
  | before h1 h2 h3 => exact .before h1 h2 h3
  | after h1 h2 h3 h4 => exact .after h1 (result_mono hv h2) h3 h4

/-! ### Their start -/

theorem at_base {c : List Instr} (pre : List Instr) (post : Prog) : At (base (pre ++ c) ++ post) pre.length c :=
  have h := At.mid (P := base (pre ++ c) ++ post) (pre := base pre) (post := post) (c := c) (by simp [base])
  by simpa [base] using h

/-- Address on the stack, value in a0, address back into a1. -/
theorem operands_run {env : Env} {obj : W} {st : St} {gs gs1 gs2 gs3 : GS} {l r : Cg.Expr} {x : W} {c1 c2 : List Instr} {post : Prog}
    (ho : Operands env obj st gs l r x) (h1 : Cg.gen false l gs = some (c1, gs1)) (h2 : Cg.gen false r gs2 = some (c2, gs3)) :
    ∃ s', LRuns (base (c1 ++ pushI .a0 ++ c2 ++ popI .a1) ++ post) env obj (0, st) ((c1 ++ pushI .a0 ++ c2 ++ popI .a1).length, s') ∧
      s'.r .a1 = obj ∧ s'.r .a0 = x := by
  obtain ⟨tD, wr, wr', hw, e1, e2⟩ := ho
  have L1 := e1 _ _ h1
  have L2 := e2 _ _ _ h2
  clear e1 e2
  obtain ⟨D, hD⟩ : ∃ D, st.r .sp + BitVec.ofInt 64 (-8) = D := ⟨_, rfl⟩
  rw [hD] at tD hw L2
  have hDS : D + BitVec.ofInt 64 8 = st.r .sp := by rw [← hD]; exact pop_push _
  have hP : At (base (c1 ++ pushI .a0 ++ c2 ++ popI .a1) ++ post) 0 (c1 ++ pushI .a0 ++ c2 ++ popI .a1) :=
    at_base (c := c1 ++ pushI .a0 ++ c2 ++ popI .a1) [] post
  generalize base (c1 ++ pushI .a0 ++ c2 ++ popI .a1) ++ post = P at *
  have a1 := hP.left.left.left
  have a2 := hP.left.left.right
  have a3 := hP.left.right
  have a4 := hP.right
  obtain ⟨s1, r1, v1, f1, p1, m1⟩ := L1 P 0 st a1 rfl rfl rfl
  have x2 := push_exec (env := env) (obj := obj) (s := s1) (d := D) (by rw [p1]; exact hD) tD
  have r2 := lruns_execG a2 x2
  obtain ⟨s3, r3, v3, f3, p3, m3⟩ := L2 P _ (stAt s1 D (writeN s1.mem D 8 (s1.r .a0).toNat)) a3
    (by rw [at_ne _ _ _ (by decide), f1]) (at_sp _ _ _) (by
      intro b hb hd
      rw [at_mem, write_out hd, m1 b hb])
  have x4 := pop_exec (env := env) (obj := obj) p3 hDS tD
  have hread : readN s3.mem D 8 = obj.toNat := by
    rw [read_same (by omega) (fun b hb => m3 b (hw b hb)), at_mem, v1]
    exact read_write (by omega) obj.isLt
  rw [hread, ext8] at x4
  have r4 := lruns_execG a4 x4
  refine ⟨(s3.set .a1 obj).set .sp (st.r .sp), ?_, ?_, ?_⟩
  rotate_left 1
  · rw [r_set_ne _ _ _ _ (by decide), r_set_same _ _ _ (by decide)]
  · rw [r_set_ne _ _ _ _ (by decide), r_set_ne _ _ _ _ (by decide), v3]
  · simp only [List.length_append, Nat.add_assoc, Nat.zero_add] at r1 r2 r3 r4 ⊢
    exact r1.trans (r2.trans (r3.trans r4))

theorem once_exch {P : Prog} {env : Env} {obj : W} {h : Hart} {l r : Cg.Expr} {gs gs' : GS} {k : Nat} {x : W} {op : Op} {vs : List W}
    (hg : genExch l r k gs = some (P, gs')) (hpc : h.pc = 0) (ho : Operands env obj h.st gs l r x)
    (hr : ∀ s, s.r .a1 = obj → s.r .a0 = x → Ready obj op (some (.amoswap (if k ≤ 4 then .w else .d) .a0 .a0 .a1)) s) : Once P env obj op vs h [] := by
  unfold genExch at hg
  cases h1 : Cg.gen false l gs with
  | none => rw [h1] at hg; simp at hg
  | some a =>
    obtain ⟨c1, s1⟩ := a
    rw [h1] at hg
    cases h2 : Cg.gen false r s1.push with
    | none => simp [h2] at hg
    | some b =>
      obtain ⟨c2, s2⟩ := b
      simp only [h2, Option.bind_eq_bind, Option.bind_some, Option.some.injEq, Prod.mk.injEq] at hg
      obtain ⟨rfl, _⟩ := hg
      obtain ⟨s', r1, r2, r3⟩ := operands_run (post := [.amoswap (if k ≤ 4 then .w else .d) .a0 .a0 .a1]) ho h1 h2
      refine .before (n := (c1 ++ pushI .a0 ++ c2 ++ popI .a1).length) (s := s') (by simp [base]; omega) (by rw [hpc]; exact r1) ?_
      have e : (base (c1 ++ pushI .a0 ++ c2 ++ popI .a1) ++ [Ins.amoswap (if k ≤ 4 then .w else .d) .a0 .a0 .a1])[(c1 ++ pushI .a0 ++ c2 ++ popI .a1).length]? =
          some (.amoswap (if k ≤ 4 then .w else .d) .a0 .a0 .a1) := by
        rw [List.getElem?_append_right (by simp [base])]
        simp [base]
      rw [e]
      exact hr s' r2 r3

theorem once_store {env : Env} {obj : W} {h : Hart} {l r : Cg.Expr} {gs gs' : GS} {c : List Instr} {v : BitVec 32} {vs : List W}
    (hg : Cg.gen false (.assign (.int false) (.deref (.int false) l) r) gs = some (c, gs')) (hpc : h.pc = 0)
    (ho : Operands env obj h.st gs l r (sext32 v)) : Once (base c) env obj (.store v) vs h [] := by
  have hc : ∃ c1 s1 c2 s2, Cg.gen false l gs = some (c1, s1) ∧ Cg.gen false r s1.push = some (c2, s2) ∧
      c = c1 ++ pushI .a0 ++ c2 ++ popI .a1 ++ [.store .w .a0 0 .a1] := by
    cases h1 : Cg.gen false l gs with
    | none => simp [Cg.gen, h1] at hg
    | some a =>
      obtain ⟨c1, s1⟩ := a
      cases h2 : Cg.gen false r s1.push with
      | none => simp [Cg.gen, h1, h2] at hg
      | some b =>
        obtain ⟨c2, s2⟩ := b
        simp [Cg.gen, h1, h2, Cg.genStore, Cg.Expr.bitfield, Cg.widthOf, Cg.Ty.size] at hg
        refine ⟨c1, s1, c2, s2, rfl, h2, ?_⟩
        rw [← hg.1]
        simp
  obtain ⟨c1, s1, c2, s2, h1, h2, rfl⟩ := hc
  have eP : base (c1 ++ pushI .a0 ++ c2 ++ popI .a1 ++ [.store .w .a0 0 .a1]) =
      base (c1 ++ pushI .a0 ++ c2 ++ popI .a1) ++ [.base (.store .w .a0 0 .a1)] := by simp [base]
  rw [eP]
  obtain ⟨s', r1, r2, r3⟩ := operands_run (post := [.base (.store .w .a0 0 .a1)]) ho h1 h2
  refine .before (n := (c1 ++ pushI .a0 ++ c2 ++ popI .a1).length) (s := s') (by simp [base]; omega) (by rw [hpc]; exact r1) ⟨?_, r2, r3⟩
  rw [List.getElem?_append_right (by simp [base])]
  simp [base]

theorem once_load {env : Env} {obj : W} {h : Hart} {l : Cg.Expr} {gs gs' : GS} {c : List Instr} {vs : List W} {wr : W → Bool}
    (hg : Cg.gen false (.deref (.int false) l) gs = some (c, gs')) (hpc : h.pc = 0)
    (ho : ∀ c gs', Cg.gen false l gs = some (c, gs') → Leaves env obj (h.st.r .fp) (h.st.r .sp) (fun m => m = h.st.mem) wr c obj) :
    Once (base c) env obj .load vs h [] := by
  have hc : ∃ c1 s1, Cg.gen false l gs = some (c1, s1) ∧ c = c1 ++ [.load .w false .a0 0 .a0] := by
    cases h1 : Cg.gen false l gs with
    | none => simp [Cg.gen, h1] at hg
    | some a =>
      obtain ⟨c1, s1⟩ := a
      simp [Cg.gen, h1, Cg.genLoad, Cg.widthOf, Cg.Ty.size, Cg.Ty.unsigned] at hg
      exact ⟨c1, s1, rfl, hg.1.symm⟩
  obtain ⟨c1, s1, h1, rfl⟩ := hc
  have eP : base (c1 ++ [.load .w false .a0 0 .a0]) = base c1 ++ [.base (.load .w false .a0 0 .a0)] := by simp [base]
  rw [eP]
  obtain ⟨s', r1, v1, _⟩ := ho _ _ h1 (base c1 ++ [.base (.load .w false .a0 0 .a0)]) 0 h.st (by
    have := at_base (c := c1) [] [.base (.load .w false .a0 0 .a0)]
    exact this) rfl rfl rfl
  refine .before (n := c1.length) (s := s') (by simp [base]) (by rw [hpc]; simpa using r1) ⟨?_, v1⟩
  rw [List.getElem?_append_right (by simp [base])]
  simp [base]

end Toycc.Atomic
