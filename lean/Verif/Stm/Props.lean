import Verif.Stm.Labels
import Verif.Stm.Fuel
import Verif.Cg.Props
/-!
Properties of compiled statements: C39 (stack discipline), C40 (effects and termination), C41 (switch).
-/
namespace Toycc.Stm.Props
open Toycc.Rv Toycc.Cg Toycc.Stm Toycc.Cg.Props

/-! ### Pieces -/

theorem compile_inv {fn uid body gs code uid' gs'} (h : compileBody fn uid body gs = some (code, uid', gs')) :
    ∃ st c, elabBody uid body = some (st, uid') ∧ genStmt fn st gs = some (c, gs') ∧
      code = c ++ (if fn = "main" then [Instr.li .a0 0] else []) ++ [Instr.label (.ret fn)] := by
  simp only [compileBody, genBody, bindSome] at h
  obtain ⟨⟨st, u⟩, h1, ⟨c', g⟩, ⟨⟨c, g'⟩, h2, h3⟩, h4⟩ := h
  simp only [Option.some.injEq, Prod.mk.injEq] at h3 h4
  obtain ⟨rfl, rfl⟩ := h3
  obtain ⟨rfl, rfl, rfl⟩ := h4
  exact ⟨st, c, h1, h2, rfl⟩

/-- Labels of a compiled body. -/
theorem compile_labels {fn uid body gs code uid' gs'} (h : compileBody fn uid body gs = some (code, uid', gs')) :
    (labels code).Nodup ∧ ∀ l ∈ labels code,
      (∃ p n, l = .gen p n ∧ gs.cnt ≤ n ∧ n < gs'.cnt) ∨ (∃ n, l = .uniq n ∧ uid ≤ n ∧ n < uid') ∨ l = .ret fn := by
  obtain ⟨st, c, h1, h2, rfl⟩ := compile_inv h
  simp only [elabBody, bindSome] at h1
  obtain ⟨⟨st0, b⟩, e1, st', e2, e3⟩ := h1
  simp only [Option.some.injEq, Prod.mk.injEq] at e3
  obtain ⟨rfl, rfl⟩ := e3
  have hu := elab_labs _ _ _ _ _ _ e1
  rw [← resolve_labs _ _ e2] at hu
  obtain ⟨G, p, hg⟩ := genStmt_new _ _ _ _ h2
  have hl : labels (c ++ (if fn = "main" then [Instr.li .a0 0] else []) ++ [Instr.label (.ret fn)]) = labels c ++ [.ret fn] := by
    rw [labels_append, labels_append]
    split <;> simp [labels]
  have hr : ∀ l ∈ labels c, (∃ p n, l = .gen p n ∧ gs.cnt ≤ n ∧ n < gs'.cnt) ∨ (∃ n, l = .uniq n ∧ uid ≤ n ∧ n < b.uid) := by
    intro l hl
    rcases List.mem_append.mp (p.mem_iff.mp hl) with h | h
    · exact .inl (hg.2 l h)
    · exact .inr (hu.2 l h)
  rw [hl]
  constructor
  · rw [List.nodup_append]
    refine ⟨?_, by simp, ?_⟩
    · rw [p.nodup_iff, List.nodup_append]
      refine ⟨hg.1, hu.1, ?_⟩
      intro x hx y hy e
      subst e
      obtain ⟨_, _, rfl, _⟩ := hg.2 x hx
      obtain ⟨_, e, _⟩ := hu.2 _ hy
      cases e
    · intro x hx y hy e
      simp only [List.mem_singleton] at hy
      subst hy
      subst e
      rcases hr _ hx with ⟨_, _, e, _⟩ | ⟨_, e, _⟩ <;> cases e
  · intro l h
    rcases List.mem_append.mp h with h | h
    · rcases hr l h with h | h
      · exact .inl h
      · exact .inr (.inl h)
    · exact .inr (.inr (by simpa using h))

/-- The source statement is in the class that the theorems cover: its expressions are simple (Verif.Cg.Simple), its labels are
distinct, its switches have admissible cases; and the parser's own constraints hold. -/
structure Covered (body : SStmt) : Prop where
  exprs : body.uses.all useSimple = true
  names : body.names.Nodup
  switches : body.switchesOk = true
  placed : body.placed false false false = true
  gotos : ∀ n ∈ body.gotos, n ∈ body.names

/-- Enough stack for every expression of the body. -/
def Room (E : CEnv) (d : Nat) (body : SStmt) : Prop := ∀ p ∈ body.uses, d + need p.2 ≤ E.room

theorem elab_exprs : ∀ (s : SStmt) (brk cont : Option Label) (a : PS) (st : Stmt) (b : PS), elabS brk cont s a = some (st, b) →
    st.exprs = s.uses.map (·.2) := by
  intro s
  induction s with
  | seq x y ix iy =>
    intro brk cont a st b h
    simp only [elabS, bindSome] at h
    obtain ⟨⟨x1, s1⟩, h1, ⟨y1, s2⟩, h2, h3⟩ := h
    simp only [Option.some.injEq, Prod.mk.injEq] at h3
    obtain ⟨rfl, rfl⟩ := h3
    simp only [Stmt.exprs, SStmt.uses, ix _ _ _ _ _ h1, iy _ _ _ _ _ h2, List.map_append]
  | ifs c x y ix iy =>
    intro brk cont a st b h
    simp only [elabS, bindSome] at h
    obtain ⟨⟨x1, s1⟩, h1, ⟨y1, s2⟩, h2, h3⟩ := h
    simp only [Option.some.injEq, Prod.mk.injEq] at h3
    obtain ⟨rfl, rfl⟩ := h3
    simp only [Stmt.exprs, SStmt.uses, ix _ _ _ _ _ h1, iy _ _ _ _ _ h2, List.map_append, List.map_cons]
  | loop i c inc x ix =>
    intro brk cont a st b h
    simp only [elabS, bindSome, PS.fresh] at h
    obtain ⟨⟨x1, s1⟩, h1, h3⟩ := h
    simp only [Option.some.injEq, Prod.mk.injEq] at h3
    obtain ⟨rfl, rfl⟩ := h3
    have := ix _ _ _ _ _ h1
    simp only [Stmt.exprs, SStmt.uses, this, List.map_append, List.map_map, Function.comp_def, List.map_id']
  | doW x c ix =>
    intro brk cont a st b h
    simp only [elabS, bindSome, PS.fresh] at h
    obtain ⟨⟨x1, s1⟩, h1, h3⟩ := h
    simp only [Option.some.injEq, Prod.mk.injEq] at h3
    obtain ⟨rfl, rfl⟩ := h3
    have := ix _ _ _ _ _ h1
    simp only [Stmt.exprs, SStmt.uses, this, List.map_cons]
  | switch c x ix =>
    intro brk cont a st b h
    simp only [elabS, bindSome, PS.fresh] at h
    obtain ⟨⟨x1, s1⟩, h1, ⟨cs, d⟩, h2, h3⟩ := h
    simp only [Option.some.injEq, Prod.mk.injEq] at h3
    obtain ⟨rfl, rfl⟩ := h3
    have := ix _ _ _ _ _ h1
    simp only [Stmt.exprs, SStmt.uses, this, List.map_cons]
  | case lo hi x ix =>
    intro brk cont a st b h
    simp only [elabS, bindSome, PS.fresh] at h
    obtain ⟨sw0, h0, h⟩ := h
    split at h
    · simp at h
    simp only [bindSome] at h
    obtain ⟨⟨x1, s1⟩, h1, ⟨cs, d⟩, h2, h3⟩ := h
    simp only [Option.some.injEq, Prod.mk.injEq] at h3
    obtain ⟨rfl, rfl⟩ := h3
    have := ix _ _ _ _ _ h1
    exact this
  | dflt x ix =>
    intro brk cont a st b h
    simp only [elabS, bindSome, PS.fresh] at h
    obtain ⟨sw0, h0, ⟨x1, s1⟩, h1, ⟨cs, d⟩, h2, h3⟩ := h
    simp only [Option.some.injEq, Prod.mk.injEq] at h3
    obtain ⟨rfl, rfl⟩ := h3
    have := ix _ _ _ _ _ h1
    exact this
  | label n x ix =>
    intro brk cont a st b h
    simp only [elabS, bindSome, PS.fresh] at h
    obtain ⟨⟨x1, s1⟩, h1, h3⟩ := h
    simp only [Option.some.injEq, Prod.mk.injEq] at h3
    obtain ⟨rfl, rfl⟩ := h3
    have := ix _ _ _ _ _ h1
    exact this
  | brk =>
    intro brk cont a st b h
    simp only [elabS, bindSome, Option.some.injEq, Prod.mk.injEq] at h
    obtain ⟨l, rfl, rfl, rfl⟩ := h
    rfl
  | cont =>
    intro brk cont a st b h
    simp only [elabS, bindSome, Option.some.injEq, Prod.mk.injEq] at h
    obtain ⟨l, rfl, rfl, rfl⟩ := h
    rfl
  | ret e =>
    intro brk cont a st b h
    simp only [elabS, Option.some.injEq, Prod.mk.injEq] at h
    obtain ⟨rfl, rfl⟩ := h
    cases e <;> rfl
  | _ =>
    intro brk cont a st b h
    simp only [elabS, Option.some.injEq, Prod.mk.injEq] at h
    obtain ⟨rfl, rfl⟩ := h
    rfl

theorem resolve_exprs {tbl : List (String × Label)} : ∀ (s s' : Stmt), resolve tbl s = some s' → s'.exprs = s.exprs ∧ s'.open_ = [] := by
  intro s
  induction s with
  | skip => intro s' h; simp only [resolve, Option.some.injEq] at h; rw [← h]; exact ⟨rfl, rfl⟩
  | seq a b ia ib =>
    intro s' h
    simp only [resolve, bindSome, Option.some.injEq] at h
    obtain ⟨a', h1, b', h2, rfl⟩ := h
    simp [Stmt.exprs, Stmt.open_, ia _ h1, ib _ h2]
  | expr => intro s' h; simp only [resolve, Option.some.injEq] at h; rw [← h]; exact ⟨rfl, rfl⟩
  | ifs c a b ia ib =>
    intro s' h
    simp only [resolve, bindSome, Option.some.injEq] at h
    obtain ⟨a', h1, b', h2, rfl⟩ := h
    simp [Stmt.exprs, Stmt.open_, ia _ h1, ib _ h2]
  | loop i c inc b lb lk ib =>
    intro s' h
    simp only [resolve, bindSome, Option.some.injEq] at h
    obtain ⟨b', h2, rfl⟩ := h
    simp [Stmt.exprs, Stmt.open_, ib _ h2]
  | doW b c lb lk ib =>
    intro s' h
    simp only [resolve, bindSome, Option.some.injEq] at h
    obtain ⟨b', h2, rfl⟩ := h
    simp [Stmt.exprs, Stmt.open_, ib _ h2]
  | switch c cs d b lb ib =>
    intro s' h
    simp only [resolve, bindSome, Option.some.injEq] at h
    obtain ⟨b', h2, rfl⟩ := h
    simp [Stmt.exprs, Stmt.open_, ib _ h2]
  | label l' b ib =>
    intro s' h
    simp only [resolve, bindSome, Option.some.injEq] at h
    obtain ⟨b', h2, rfl⟩ := h
    simp [Stmt.exprs, Stmt.open_, ib _ h2]
  | goto t =>
    intro s' h
    cases t with
    | lab l' => simp only [resolve, Option.some.injEq] at h; rw [← h]; exact ⟨rfl, rfl⟩
    | name n =>
      simp only [resolve, bindSome, Option.some.injEq] at h
      obtain ⟨⟨_, l'⟩, _, rfl⟩ := h
      exact ⟨rfl, rfl⟩
  | ret => intro s' h; simp only [resolve, Option.some.injEq] at h; rw [← h]; exact ⟨rfl, rfl⟩

/-- Every covered body compiles, and leaves the compile-time depth as it was. -/
theorem compile_total {body : SStmt} (hb : Covered body) (fn : String) (uid : Nat) (gs : GS) :
    ∃ code uid' gs', compileBody fn uid body gs = some (code, uid', gs') ∧ gs'.depth = gs.depth := by
  have := (elabBody_iff uid body).mpr ⟨hb.placed, hb.gotos⟩
  obtain ⟨⟨st, uid'⟩, h1⟩ := Option.isSome_iff_exists.mp this
  have h2 := h1
  simp only [elabBody, bindSome] at h2
  obtain ⟨⟨st0, b⟩, e1, st', e2, e3⟩ := h2
  simp only [Option.some.injEq, Prod.mk.injEq] at e3
  obtain ⟨rfl, rfl⟩ := e3
  obtain ⟨x1, x2⟩ := resolve_exprs _ _ e2
  obtain ⟨c, gs', h3⟩ := genStmt_total (fn := fn) st' gs (by
    rw [x1, elab_exprs _ _ _ _ _ _ e1, List.all_map]
    refine List.all_eq_true.mpr fun p hp => ?_
    have := List.all_eq_true.mp hb.exprs p hp
    simp only [useSimple, Bool.and_eq_true] at this
    exact this.1.1) x2
  exact ⟨_, _, _, by simp only [compileBody, genBody, h1, h3, Option.bind_eq_bind, Option.bind_some]; rfl, (genStmt_depth _ _ _ _ h3).1⟩

/-! ### C40 -/

theorem StepN.split {P : Prog} {env : Env} : ∀ {j k : Nat} {a c : Nat × St}, StepN P env j a c → k ≤ j → ∃ b, StepN P env k a b ∧ StepN P env (j - k) b c := by
  intro j k a c h
  induction h generalizing k with
  | zero c => intro hk; obtain rfl : k = 0 := (by omega); exact ⟨c, .zero c, .zero c⟩
  | @succ n a a' b e h ih =>
    intro hk
    cases k with
    | zero => exact ⟨_, .zero _, .succ e h⟩
    | succ k =>
      obtain ⟨b, h1, h2⟩ := ih (k := k) (by omega)
      refine ⟨b, .succ e h1, ?_⟩
      rw [Nat.add_sub_add_right]
      exact h2

/-- What the returned register must hold: the returned value; in `main`, 0 if the closing brace is reached (C11 5.1.2.2.3). -/
def Returns (fn : String) (e : End) (a0 : W) : Prop :=
  match e with
  | .ret (some w) => a0 = BitVec.ofInt 64 w
  | .ret none => True
  | .fell => fn = "main" → a0 = 0

/-- **C40**, any surroundings. The code of a covered body, started in a state that agrees with the C memory `m`:
if the C body terminates, the machine gets past the return label with the memory C prescribes and the returned value in a0, with
sp and fp as before, and nothing else in memory changed but the free part of the stack;
if the C body runs forever, so does the machine. -/
theorem compiled_body_partial {E : CEnv} {B : W} {env : Env} {P : Prog} (hw : World E B env P) (ht : E.CallsTyped) {body : SStmt}
    (hb : Covered body) {fn : String} {uid uid' : Nat} {gs gs' : GS} {code : List Instr} (hr : Room E gs.depth body)
    (hc : compileBody fn uid body gs = some (code, uid', gs')) {pc : Nat} (hP : CodeAt P pc code) {m : Mem} {s : St} (hm : Match E B gs.depth m s) :
    (∀ n e m', run (evC E gs.depth) n none body m = .done e m' →
      ∃ s', Runs P env (pc, s) (pc + code.length, s') ∧ s'.r .sp = s.r .sp ∧ s'.r .fp = s.r .fp ∧
        (∀ b, E.valid b = true → s'.mem b = m' b) ∧
        (∀ b, E.valid b = false → ¬ (8 * gs.depth ≤ idx B b ∧ idx B b < 8 * E.room) → s'.mem b = s.mem b) ∧
        Returns fn e (s'.r .a0)) ∧
    ((∀ n, run (evC E gs.depth) n none body m = .timeout) → ∀ k, ∃ c, StepN P env k (pc, s) c) := by
  obtain ⟨st, c, h1, h2, rfl⟩ := compile_inv hc
  have hsub := simple_sub (d := gs.depth) ht hb.exprs hr
  generalize hz : (if fn = "main" then [Instr.li .a0 0] else []) = z at *
  have hret : P[pc + c.length + z.length]? = some (.label (.ret fn)) := by
    have := (hP.right).head
    rw [List.length_append, ← Nat.add_assoc] at this
    exact this
  have hcode : CodeAt P pc c := hP.left.left
  have hzc : CodeAt P (pc + c.length) z := hP.left.right
  have key := fun n => body_good (fn := fn) (evS_good hw gs.depth) hw.labels rfl h2 hcode hret n m none pc s hm rfl
  have hrun : ∀ n, run (evC E gs.depth) n none body m = .stuck ∨ runR (evS E gs.depth) n none st m = run (evC E gs.depth) n none body m := by
    intro n
    rcases run_agree body hsub n none m with h | h
    · exact .inl h
    · rcases run_sim (evS_typed E gs.depth) h1 hb.names hb.switches n m with h' | h'
      · exact .inl (h ▸ h')
      · exact .inr (h'.trans h)
  have hlen : pc + (c ++ z ++ [Instr.label (.ret fn)]).length = pc + c.length + z.length + 1 := by
    simp only [List.length_append, List.length_singleton]; omega
  rw [hlen]
  constructor
  · intro n e m' hd
    have hk := key n
    rcases hrun n with h | h
    · rw [h] at hd; cases hd
    rw [h, hd] at hk
    cases e with
    | ret v =>
      obtain ⟨s', r1, r2, r3, r4⟩ := hk
      refine ⟨s', r1.trans (runs_label hret), by rw [r2.sp, hm.sp], by rw [r2.fp, hm.fp], r2.mem, r3, ?_⟩
      cases v with
      | none => trivial
      | some w => exact r4 w rfl
    | fell =>
      obtain ⟨s', r1, r2, r3⟩ := hk
      by_cases hf : fn = "main"
      · rw [if_pos hf] at hz
        subst hz
        have hstep : Runs P env (pc + c.length, s') (pc + c.length + 1, s'.set .a0 0) := by
          have := runs_execL (env := env) (c := [Instr.li .a0 0]) hzc (s := s') (s' := s'.set .a0 0) rfl
          exact this
        refine ⟨s'.set .a0 0, (r1.trans hstep).trans (runs_label hret), ?_, ?_, r2.mem, r3, ?_⟩
        · rw [r_set_ne _ _ _ _ (by decide), r2.sp, hm.sp]
        · rw [r_set_ne _ _ _ _ (by decide), r2.fp, hm.fp]
        · intro _; rw [r_set_same _ _ _ (by decide)]
      · rw [if_neg hf] at hz
        subst hz
        exact ⟨s', r1.trans (runs_label hret), by rw [r2.sp, hm.sp], by rw [r2.fp, hm.fp], r2.mem, r3, fun h => absurd h hf⟩
  · intro hto k
    have hk := key k
    rcases hrun k with h | h
    · rw [hto k] at h; cases h
    rw [h, hto k] at hk
    obtain ⟨j, c', hj, hs⟩ := hk
    obtain ⟨b, hb, _⟩ := StepN.split hs hj
    exact ⟨b, hb⟩

/-- **C40**, a program that consists of this code (called functions are outside): if the C body has no undefined behaviour, the
machine reaches the end of the code exactly when the C body terminates. -/
theorem terminates_iff_partial {E : CEnv} {B : W} {env : Env} {fn : String} {uid uid' : Nat} {gs gs' : GS} {code : List Instr} {body : SStmt}
    (hc : compileBody fn uid body gs = some (code, uid', gs')) (hw : World E B env code) (ht : E.CallsTyped) (hb : Covered body)
    (hr : Room E gs.depth body) {m : Mem} {s : St} (hm : Match E B gs.depth m s) (hdef : ∀ n, run (evC E gs.depth) n none body m ≠ .stuck) :
    (∃ n e m', run (evC E gs.depth) n none body m = .done e m') ↔ ∃ s', Runs code env (0, s) (code.length, s') := by
  obtain ⟨h1, h2⟩ := compiled_body_partial hw ht hb hr hc (codeAt_self code) hm
  constructor
  · rintro ⟨n, e, m', h⟩
    obtain ⟨s', r, _⟩ := h1 n e m' h
    exact ⟨s', by rw [Nat.zero_add] at r; exact r⟩
  · rintro ⟨s', k, hk⟩
    by_cases h : ∃ n e m', run (evC E gs.depth) n none body m = .done e m'
    · exact h
    · have hto : ∀ n, run (evC E gs.depth) n none body m = .timeout := by
        intro n
        cases hn : run (evC E gs.depth) n none body m with
        | timeout => rfl
        | stuck => exact absurd hn (hdef n)
        | done e m' => exact absurd ⟨n, e, m', hn⟩ h
      obtain ⟨c, hc'⟩ := h2 hto (k + 1)
      obtain ⟨b, e1, e2⟩ := StepN.split hc' (Nat.le_succ k)
      have := StepN.det e1 hk
      subst this
      rw [show k + 1 - k = 1 by omega] at e2
      cases e2 with
      | succ e _ =>
        simp [step] at e

/-- The result of a C body does not depend on the fuel. -/
theorem result_unique {ev : Ev} {body : SStmt} {m : Mem} {n k : Nat} {r r' : End} {m1 m2 : Mem}
    (h1 : run ev n none body m = .done r m1) (h2 : run ev k none body m = .done r' m2) : r = r' ∧ m1 = m2 := by
  have mono : ∀ j n r m1, run ev n none body m = .done r m1 → run ev (n + j) none body m = .done r m1 := by
    intro j
    induction j with
    | zero => intro n r m1 h; exact h
    | succ j ih =>
      intro n r m1 h
      rcases run_more (ev := ev) body (n + j) none m with e | e
      · rw [ih n r m1 h] at e; cases e
      · rw [ih n r m1 h] at e; exact e
  have a := mono k n r m1 h1
  have b := mono n k r' m2 h2
  rw [Nat.add_comm k n, a] at b
  cases b
  exact ⟨rfl, rfl⟩

/-! #### A concrete program

```
while (x < y) { x = x + 1; switch (x) { case 6: continue; case 7 ... 9: goto out; default: break; } }
out: return x;
```
-/

def exInc : Expr := .assign lng exX (.bin .add lng exX (.num lng 1))
def exLt : Expr := .bin .lt (.int false) exX exY
def exSwitch : SStmt := .switch exX (.seq (.case 6 6 .cont) (.seq (.case 7 9 (.goto "out")) (.dflt .brk)))
def exBody : SStmt := .seq (.loop [] (some exLt) none (.seq (.expr exInc) exSwitch)) (.label "out" (.ret (some exX)))

theorem ex_covered : Covered exBody := ⟨by decide, by decide, by decide, by decide, by decide⟩

theorem ex_room : Room exE 0 exBody := by
  have : ∀ p ∈ exBody.uses, need p.2 ≤ 16 := by decide
  intro p hp
  rw [Nat.zero_add]
  exact this p hp

theorem ex_typed : exE.CallsTyped := by intro a k ty vs m v m' h; simp [exE] at h

/-- Covered programs that compile, in surroundings that meet the assumptions. -/
example : ∃ code uid' gs', compileBody "f" 0 exBody ⟨0, 0⟩ = some (code, uid', gs') ∧ World exE 1008 nullEnv code ∧
    Match exE 1008 0 exMem (exSt exMem) := by
  obtain ⟨code, uid', gs', h, _⟩ := compile_total ex_covered "f" 0 ⟨0, 0⟩
  exact ⟨code, uid', gs', h, world_closed (by decide) ex_stack (fun _ => rfl) (compile_labels h).1 (fun _ _ _ _ _ => rfl),
    by decide, rfl, fun _ _ => rfl⟩

/-- Value and memory after evaluating an expression. -/
def exVal (e : Expr) (m : Mem) : Option Int := (evalC exE false 0 e m).map (·.1)
def exAft (e : Expr) (m : Mem) : Mem := ((evalC exE false 0 e m).getD (0, m)).2

theorem ex_ev {u : Use} {e : Expr} {m : Mem} {v : Int} (h : exVal e m = some v) : evC exE 0 u e m = some (v, exAft e m) := by
  unfold exVal at h
  unfold evC exAft
  revert h
  generalize evalC exE false 0 e m = x
  intro h
  cases x with
  | none => simp at h
  | some p => simp only [Option.map_some, Option.some.injEq] at h; simp [← h]

def exEnd : Mem := exAft exX (exAft exX (exAft exInc (exAft exLt (exAft exX (exAft exInc (exAft exLt exMem))))))

/-- The C program terminates and returns 7. -/
theorem ex_run : run (evC exE 0) 5 none exBody exMem = .done (.ret (some 7)) exEnd := by
  have t0 := ex_ev (u := .test) (show exVal exLt exMem = some 1 by decide +kernel)
  have i0 := ex_ev (u := .value) (show exVal exInc (exAft exLt exMem) = some 6 by decide +kernel)
  have s0 := ex_ev (u := .switch) (show exVal exX (exAft exInc (exAft exLt exMem)) = some 6 by decide +kernel)
  have t1 := ex_ev (u := .test) (show exVal exLt (exAft exX (exAft exInc (exAft exLt exMem))) = some 1 by decide +kernel)
  have i1 := ex_ev (u := .value) (show exVal exInc (exAft exLt (exAft exX (exAft exInc (exAft exLt exMem)))) = some 7 by decide +kernel)
  have s1 := ex_ev (u := .switch) (show exVal exX (exAft exInc (exAft exLt (exAft exX (exAft exInc (exAft exLt exMem))))) = some 7 by decide +kernel)
  have r1 := ex_ev (u := .ret) (show exVal exX (exAft exX (exAft exInc (exAft exLt (exAft exX (exAft exInc (exAft exLt exMem)))))) = some 7 by decide +kernel)
  have c6 : caseHolds (promote exX.ty) 6 6 6 = true := by decide
  have c7 : caseHolds (promote exX.ty) 6 6 7 = false := by decide
  have c79 : caseHolds (promote exX.ty) 7 9 7 = true := by decide
  simp [run, exec, exBody, exSwitch, evList, evCond, t0, t1, i0, i1, s0, s1, r1, SStmt.has, Res.andThen, iterC, catchBrk, c6, c7, c79, exEnd]

/-- So does the code: it ends with 7 in a0. -/
example : ∃ code uid' gs' s', compileBody "f" 0 exBody ⟨0, 0⟩ = some (code, uid', gs') ∧
    Runs code nullEnv (0, exSt exMem) (code.length, s') ∧ s'.r .a0 = 7 := by
  obtain ⟨code, uid', gs', h, _⟩ := compile_total ex_covered "f" 0 ⟨0, 0⟩
  have hw : World exE 1008 nullEnv code :=
    world_closed (by decide) ex_stack (fun _ => rfl) (compile_labels h).1 (fun _ _ _ _ _ => rfl)
  obtain ⟨s', r, _, _, _, _, ha⟩ := (compiled_body_partial hw ex_typed ex_covered ex_room h (codeAt_self code)
    (⟨by decide, rfl, fun _ _ => rfl⟩ : Match exE 1008 0 exMem (exSt exMem))).1 _ _ _ ex_run
  exact ⟨code, uid', gs', s', h, by rw [Nat.zero_add] at r; exact r, ha⟩

/-- `for (;;) ;` runs forever in C, so the second half of the theorem is not vacuous either. -/
example (m : Mem) : ∀ n, run (evC exE 0) n none (.loop [] none none .skip) m = .timeout := by
  have key : ∀ n m, exec (evC exE 0) n .void none (.loop [] none none .skip) m = .timeout := by
    intro n
    induction n with
    | zero => intro m; rw [exec]
    | succ n ih => intro m; rw [exec]; simp [evList, evCond, exec, iterC, ih]
  intro n
  rw [run.eq_def, key]

/-! ### C41 -/

/-- What a switch on the value `v` does in C: continue at the case whose constant or range, converted to the promoted type of the
controlling expression, contains `v`; else at `default`; else after the switch. -/
def switchSpec (ev : Ev) (n : Nat) (c : Expr) (b : SStmt) (v : Int) (m : Mem) (r : Res Out) : Prop :=
  let t := promote c.ty
  ((∃ p ∈ b.cases, convC t p.1 ≤ v ∧ v ≤ convC t p.2) → r = catchBrk (exec ev n t (some (.case v)) b m)) ∧
  ((¬ ∃ p ∈ b.cases, convC t p.1 ≤ v ∧ v ≤ convC t p.2) → 0 < b.defaults → r = catchBrk (exec ev n t (some .dflt) b m)) ∧
  ((¬ ∃ p ∈ b.cases, convC t p.1 ≤ v ∧ v ≤ convC t p.2) → b.defaults = 0 → r = .done .normal m)

theorem switch_spec {ev : Ev} {n : Nat} {t' : Ty} {c : Expr} {b : SStmt} {m m1 : Mem} {v : Int} (h : ev .switch c m = some (v, m1)) :
    switchSpec ev n c b v m1 (exec ev n t' none (.switch c b) m) := by
  have hh : b.has (promote c.ty) (.case v) = true ↔ ∃ p ∈ b.cases, convC (promote c.ty) p.1 ≤ v ∧ v ≤ convC (promote c.ty) p.2 := by
    rw [has_case]; simp only [caseHolds, decide_eq_true_eq]
  have hd := has_dflt (t := promote c.ty) b
  rw [exec, h]
  dsimp only
  refine ⟨?_, ?_, ?_⟩
  · intro hx; rw [if_pos (hh.mpr hx)]
  · intro hx hy; rw [if_neg (fun e => hx (hh.mp e)), if_pos (hd.mpr hy)]
  · intro hx hy; rw [if_neg (fun e => hx (hh.mp e)), if_neg (fun e => by have := hd.mp e; omega)]

/-- **C41**. The code of a switch (as the body of a function) does what C prescribes for the value of the controlling expression.
Covered: case constants within int and, for unsigned types, not wrapped by the conversion (`caseOk`); disjoint cases, one default. -/
theorem compiled_switch_partial {E : CEnv} {B : W} {env : Env} {P : Prog} (hw : World E B env P) (ht : E.CallsTyped) {c : Expr} {b : SStmt}
    (hb : Covered (.switch c b)) {fn : String} {uid uid' : Nat} {gs gs' : GS} {code : List Instr} (hr : Room E gs.depth (.switch c b))
    (hc : compileBody fn uid (.switch c b) gs = some (code, uid', gs')) {pc : Nat} (hP : CodeAt P pc code) {m : Mem} {s : St}
    (hm : Match E B gs.depth m s) {v : Int} {m1 : Mem} (hv : evalC E false gs.depth c m = some (v, m1)) {n : Nat} {r : Res Out}
    (hsp : switchSpec (evC E gs.depth) n c b v m1 r) :
    (∀ m', r = .done .normal m' → ∃ s', Runs P env (pc, s) (pc + code.length, s') ∧ s'.r .sp = s.r .sp ∧ s'.r .fp = s.r .fp ∧
        (∀ b, E.valid b = true → s'.mem b = m' b)) ∧
    (∀ w m', r = .done (.ret (some w)) m' → ∃ s', Runs P env (pc, s) (pc + code.length, s') ∧ s'.r .sp = s.r .sp ∧ s'.r .fp = s.r .fp ∧
        (∀ b, E.valid b = true → s'.mem b = m' b) ∧ s'.r .a0 = BitVec.ofInt 64 w) := by
  have e : exec (evC E gs.depth) n .void none (.switch c b) m = r := by
    have h2 := switch_spec (n := n) (t' := .void) (b := b) (ev := evC E gs.depth) hv
    by_cases hx : ∃ p ∈ b.cases, convC (promote c.ty) p.1 ≤ v ∧ v ≤ convC (promote c.ty) p.2
    · rw [h2.1 hx, hsp.1 hx]
    · rcases Nat.eq_zero_or_pos b.defaults with hd | hd
      · rw [h2.2.2 hx hd, hsp.2.2 hx hd]
      · rw [h2.2.1 hx hd, hsp.2.1 hx hd]
  obtain ⟨key, _⟩ := compiled_body_partial hw ht hb hr hc hP hm
  constructor
  · intro m' hr'
    obtain ⟨s', h1, h2, h3, h4, _⟩ := key n .fell m' (by rw [run.eq_def, e, hr'])
    exact ⟨s', h1, h2, h3, h4⟩
  · intro w m' hr'
    obtain ⟨s', h1, h2, h3, h4, _, h5⟩ := key n (.ret (some w)) m' (by rw [run.eq_def, e, hr'])
    exact ⟨s', h1, h2, h3, h4, h5⟩

/-- **C41**, labels. The tests emitted for a switch transfer control to the label made for the matching case, else for `default`,
else to the end of the switch, and change no memory. -/
theorem switch_jumps_partial {E : CEnv} {B : W} {env : Env} {P : Prog} (hu : UniqueLabels P) {d : Nat} {m : Mem} {brk cont : Option Label} {c : Expr}
    {b : SStmt} {a a' : PS} {cs : List Case} {dl : Option Label} {b' : Stmt} {lb : Label}
    (he : elabS brk cont (.switch c b) a = some (.switch c cs dl b' lb, a')) (hw : (SStmt.switch c b).switchesOk = true)
    {pc : Nat} (hc : CodeAt P pc (cs.flatMap caseTest ++ dfltJump dl ++ [Instr.j lb])) {s : St} (hm : Match E B d m s) {v : Int}
    (ha : s.r .a0 = BitVec.ofInt 64 v) (hv : inRange (promote c.ty) v = true) :
    ∃ l, (∀ t, P[t]? = some (.label l) → ∃ s', Runs P env (pc, s) (t, s') ∧ s'.mem = s.mem ∧ Match E B d m s') ∧
      (∀ p ∈ b.cases, caseHolds (promote c.ty) p.1 p.2 v = true → ⟨convC (.int false) p.1, convC (.int false) p.2, l⟩ ∈ cs) ∧
      ((∀ p ∈ b.cases, caseHolds (promote c.ty) p.1 p.2 v = false) → 0 < b.defaults → dl = some l) ∧
      ((∀ p ∈ b.cases, caseHolds (promote c.ty) p.1 p.2 v = false) → b.defaults = 0 → l = lb) := by
  simp only [elabS, bindSome, PS.fresh] at he
  obtain ⟨⟨x1, s1⟩, h1, ⟨cs', d'⟩, h2, h3⟩ := he
  simp only [Option.some.injEq, Prod.mk.injEq, Stmt.switch.injEq] at h3
  obtain ⟨⟨_, rfl, rfl, rfl, rfl⟩, rfl⟩ := h3
  simp only [SStmt.switchesOk, Bool.and_eq_true, decide_eq_true_eq] at hw
  obtain ⟨⟨⟨_, hok⟩, hap⟩, hone⟩ := hw
  rw [List.all_eq_true] at hok
  obtain ⟨C, D, q1, q2, q3, q4⟩ := (elab_grow _ _ _ _ _ _ h1).sw
  dsimp only at h2
  rw [h2, List.append_nil, Option.some.injEq, Prod.mk.injEq] at q1
  obtain ⟨rfl, rfl⟩ := q1
  have src : ∀ cc ∈ cs', ∃ p ∈ b.cases, (cc.lo, cc.hi) = (convC (.int false) p.1, convC (.int false) p.2) ∧
      cc.holds v = caseHolds (promote c.ty) p.1 p.2 v := by
    intro cc hcc
    have : (cc.lo, cc.hi) ∈ b.cases.map fun p => (convC (.int false) p.1, convC (.int false) p.2) :=
      q2.mem_iff.mp (List.mem_map_of_mem (f := fun c : Case => (c.lo, c.hi)) hcc)
    obtain ⟨p, hp, e⟩ := List.mem_map.mp this
    refine ⟨p, hp, e.symm, ?_⟩
    rw [Prod.mk.injEq] at e
    have := caseOk_holds (l := cc.lbl) (hok p hp) hv
    rw [e.1, e.2] at this
    exact this.symm
  have uniq : ∀ p ∈ b.cases, ∀ q ∈ b.cases, caseHolds (promote c.ty) p.1 p.2 v = true → caseHolds (promote c.ty) q.1 q.2 v = true → p = q := by
    intro p hp q hq h3 h4
    by_cases e : p = q
    · exact e
    · have h3 := of_decide_eq_true h3
      have h4 := of_decide_eq_true h4
      have := List.Pairwise.forall_of_forall_of_flip (R := fun p q => p = q ∨ apart (promote c.ty) p q) (l := b.cases) (fun x _ => .inl rfl)
        (hap.imp fun h => .inr h) (hap.imp fun h => .inr (Or.symm h)) hp hq
      rcases this.resolve_left e with h | h
      · have := h3.2; have := h4.1; omega
      · have := h3.1; have := h4.2; omega
  obtain ⟨s', k1, k2, k3, k4⟩ := sim_cases (env := env) hu cs' pc s hc.left.left hm ha
  cases hf : cs'.find? (Case.holds v) with
  | some cc =>
    have hcc := List.mem_of_find?_eq_some hf
    have hh := List.find?_some hf
    obtain ⟨p, hp, e1, e2⟩ := src cc hcc
    refine ⟨cc.lbl, fun t ht => ⟨s', k3 cc hf t ht, k1, k2⟩, ?_, ?_, ?_⟩
    · intro q hq hqv
      have := uniq p hp q hq (e2 ▸ hh) hqv
      subst this
      rw [Prod.mk.injEq] at e1
      rw [← e1.1, ← e1.2]
      exact hcc
    · intro hn; rw [hn p hp] at e2; rw [e2] at hh; simp at hh
    · intro hn; rw [hn p hp] at e2; rw [e2] at hh; simp at hh
  | none =>
    have no : ∀ p ∈ b.cases, caseHolds (promote c.ty) p.1 p.2 v ≠ true := by
      intro p hp hh
      have : (convC (.int false) p.1, convC (.int false) p.2) ∈ cs'.map fun c => (c.lo, c.hi) :=
        q2.mem_iff.mpr (List.mem_map_of_mem (f := fun p : Int × Int => (convC (.int false) p.1, convC (.int false) p.2)) hp)
      obtain ⟨cc, hcc, e⟩ := List.mem_map.mp this
      rw [Prod.mk.injEq] at e
      have h5 := caseOk_holds (l := cc.lbl) (hok p hp) hv
      rw [← e.1, ← e.2, hh] at h5
      exact List.find?_eq_none.mp hf cc hcc h5.symm
    have k5 := k4 hf
    cases d' with
    | some l =>
      refine ⟨l, fun t ht => ⟨s', k5.trans (runs_j hu hc.left.right.head ht), k1, k2⟩, fun p hp hh => absurd hh (no p hp), fun _ _ => rfl, ?_⟩
      intro _ hz
      have := q3 hz
      simp at this
    | none =>
      refine ⟨_, fun t ht => ⟨s', k5.trans (runs_j hu (l := .uniq a.uid) ?_ ht), k1, k2⟩, fun p hp hh => absurd hh (no p hp), ?_, fun _ _ => rfl⟩
      · have := hc.right.head
        simpa [dfltJump] using this
      · intro _ hz
        exact absurd rfl (q4 hz)

end Toycc.Stm.Props
