import Verif.Stm.Names
import Verif.Stm.Props
/-! C39 (stack discipline), C41 (defects of switch) and C47 (labels of a file). -/
namespace Toycc.Stm.Props
open Toycc.Rv Toycc.Cg Toycc.Cg.Props

/-! ### C39 -/

/-- **C39**, expressions, compile time: the depth counter is restored. -/
theorem expression_depth {e : Expr} {ad : Bool} {gs gs' : GS} {c : List Instr} (h : gen ad e gs = some (c, gs')) : gs'.depth = gs.depth :=
  (gen_depth e _ _ _ _ h).1

/-- **C39**, statements, compile time. -/
theorem statement_depth {fn : String} {st : Stmt} {gs gs' : GS} {c : List Instr} (h : genStmt fn st gs = some (c, gs')) : gs'.depth = gs.depth :=
  (genStmt_depth st _ _ _ h).1

/-- **C39**, expressions, run time. Whatever the registers and memory hold (undefined behaviour included), whenever control leaves the
code of an expression, the stack pointer is the one on entry. -/
theorem expression_sp_partial {P : Prog} {env : Env} (hu : UniqueLabels P) (he : CallsKeepSp env) {e : Expr} {ad : Bool} {gs gs' : GS} {c : List Instr}
    (hg : gen ad e gs = some (c, gs')) {pc : Nat} (hP : CodeAt P pc c) {s : St} {x : Nat × St}
    (hr : Inside P env pc (pc + c.length) (pc, s) x) (hout : x.1 < pc ∨ pc + c.length ≤ x.1) : x.2.r .sp = s.r .sp := by
  have b := SBal.of (gen_bal e _ _ _ _ hg)
  obtain ⟨L, hL⟩ := b.heights
  exact chk_sound hu he hP hL b.closed hr hout

/-- **C39**, statements, run time, for the body of any function that compiles. -/
theorem body_sp_partial {P : Prog} {env : Env} (hu : UniqueLabels P) (he : CallsKeepSp env) {fn : String} {uid uid' : Nat} {body : SStmt} {gs gs' : GS}
    {c : List Instr} (hg : compileBody fn uid body gs = some (c, uid', gs')) {pc : Nat} (hP : CodeAt P pc c) {s : St} {x : Nat × St}
    (hr : Inside P env pc (pc + c.length) (pc, s) x) (hout : x.1 < pc ∨ pc + c.length ≤ x.1) : x.2.r .sp = s.r .sp := by
  have b := body_bal hg
  obtain ⟨L, hL⟩ := b.heights
  exact chk_sound hu he hP hL b.closed hr hout

theorem inside_of_runs {c : Prog} {env : Env} {x y : Nat × St} (h : Runs c env x y) : Inside c env 0 (0 + c.length) x y := by
  obtain ⟨n, h⟩ := h
  induction h with
  | zero => exact .refl _
  | @succ n c1 c2 c3 h1 _ ih =>
    refine .step (Nat.zero_le _) ?_ h1 ih
    rw [Nat.zero_add]
    rcases Nat.lt_or_ge c1.1 c.length with h | h
    · exact h
    · unfold step at h1
      rw [List.getElem?_eq_none h] at h1
      simp at h1

/-- A body on its own: every execution that ends, ends with the stack pointer it started with. -/
theorem body_sp_closed {env : Env} (he : CallsKeepSp env) {fn : String} {uid uid' : Nat} {body : SStmt} {gs gs' : GS} {c : List Instr}
    (hg : compileBody fn uid body gs = some (c, uid', gs')) {s s' : St} (hr : Runs c env (0, s) (c.length, s')) : s'.r .sp = s.r .sp :=
  body_sp_partial (unique_of_nodup (compile_labels hg).1) he hg (codeAt_self c) (inside_of_runs hr) (.inr (by simp))

example : CallsKeepSp nullEnv := ⟨by intro a s s' h; simp [nullEnv] at h, fun _ => rfl⟩

/-- The example program of C40 is such a body. -/
example : ∃ code uid' gs' s', compileBody "f" 0 exBody ⟨0, 0⟩ = some (code, uid', gs') ∧
    Runs code nullEnv (0, exSt exMem) (code.length, s') ∧ s'.r .sp = (exSt exMem).r .sp := by
  obtain ⟨code, uid', gs', h, _⟩ := compile_total ex_covered "f" 0 ⟨0, 0⟩
  have hw : World exE 1008 nullEnv code :=
    world_closed (by decide) ex_stack (fun _ => rfl) (compile_labels h).1 (fun _ _ _ _ _ => rfl)
  obtain ⟨s', r, _⟩ := (compiled_body_partial hw ex_typed ex_covered ex_room h (codeAt_self code)
    (⟨by decide, rfl, fun _ _ => rfl⟩ : Match exE 1008 0 exMem (exSt exMem))).1 _ _ _ ex_run
  rw [Nat.zero_add] at r
  exact ⟨code, uid', gs', s', h, r, body_sp_closed ⟨by intro a s s' h; simp [nullEnv] at h, fun _ => rfl⟩ h r⟩

/-! ### C41: defects -/

/-- The code of `body` ends with `r` in a0. -/
def Returns0 (body : SStmt) (m : Mem) (r : W) : Prop :=
  ∃ c uid' gs', compileBody "f" 0 body ⟨0, 0⟩ = some (c, uid', gs') ∧ ∃ s', Runs c nullEnv (0, exSt m) (c.length, s') ∧ s'.r .a0 = r

/-- Evaluation of `Returns0`. -/
def returns0 (body : SStmt) (m : Mem) (n : Nat) : Option W :=
  match compileBody "f" 0 body ⟨0, 0⟩ with
  | some (c, _, _) => match runN c nullEnv n (0, exSt m) with
    | some (pc, s) => if pc = c.length then some (s.r .a0) else none
    | none => none
  | none => none

theorem returns0_sound {body m n r} (h : returns0 body m n = some r) : Returns0 body m r := by
  unfold returns0 at h
  split at h
  case h_2 => simp at h
  rename_i c uid' gs' hg
  split at h
  case h_2 => simp at h
  rename_i pc s hr
  split at h
  case isFalse => simp at h
  rename_i hp
  simp only [Option.some.injEq] at h
  subst hp
  exact ⟨c, uid', gs', hg, s, runs_of_runN hr, h⟩

/-- `switch (x) { case k: return 1; } return 0;` -/
def swBody (c : Expr) (k : Int) : SStmt := .seq (.switch c (.case k k (.ret (some (.num (.int false) 1))))) (.ret (some (.num (.int false) 0)))

theorem swBody_run {c : Expr} {k v : Int} {m m1 : Mem} (hv : evalC exE false 0 c m = some (v, m1)) :
    run (evC exE 0) 1 none (swBody c k) m = .done (.ret (some (if convC (promote c.ty) k = v then 1 else 0))) m1 := by
  have e0 : ∀ m i, evalC exE false 0 (.num (.int false) i) m = some (i, m) := by intro m i; simp [evalC]
  by_cases h : convC (promote c.ty) k = v
  · have hc : caseHolds (promote c.ty) k k v = true := by simp only [caseHolds, decide_eq_true_eq]; omega
    simp [run, exec, swBody, evC, hv, SStmt.has, hc, catchBrk, Res.andThen, e0, h]
  · have hc : caseHolds (promote c.ty) k k v = false := by simp only [caseHolds, decide_eq_false_iff_not]; omega
    simp [run, exec, swBody, evC, hv, SStmt.has, hc, catchBrk, Res.andThen, e0, h]

/-- `unsigned x = 4000000000; switch (x) { case 4000000000: return 1; } return 0;` returns 1 in C; the code returns 0, because the case
constant is stored in an int and the value is not sign-extended. -/
theorem switch_unsigned_wrong :
    let m := writeN (fun _ => 0) 1016 4 4000000000
    (∃ m', run (evC exE 0) 1 none (swBody (varX u32) 4000000000) m = .done (.ret (some 1)) m') ∧ Returns0 (swBody (varX u32) 4000000000) m 0 := by
  refine ⟨?_, returns0_sound (n := 9) (by decide +kernel)⟩
  have h : (evalC exE false 0 (varX u32) (writeN (fun _ => 0) 1016 4 4000000000)).map (·.1) = some 4000000000 := by decide +kernel
  cases he : evalC exE false 0 (varX u32) (writeN (fun _ => 0) 1016 4 4000000000) with
  | none => rw [he] at h; cases h
  | some p =>
    obtain ⟨v, m'⟩ := p
    rw [he] at h
    simp only [Option.map_some, Option.some.injEq] at h
    subst h
    exact ⟨m', swBody_run he⟩

/-- `long x = 1; switch (x) { case 4294967297: return 1; } return 0;` returns 0 in C; the code returns 1: the constant is cut to 32
bits. -/
theorem switch_long_wrong :
    let m := writeN (fun _ => 0) 1016 8 1
    (∃ m', run (evC exE 0) 1 none (swBody (varX (.long false)) 4294967297) m = .done (.ret (some 0)) m') ∧
      Returns0 (swBody (varX (.long false)) 4294967297) m 1 := by
  refine ⟨?_, returns0_sound (n := 8) (by decide +kernel)⟩
  have h : (evalC exE false 0 (varX (.long false)) (writeN (fun _ => 0) 1016 8 1)).map (·.1) = some 1 := by decide +kernel
  cases he : evalC exE false 0 (varX (.long false)) (writeN (fun _ => 0) 1016 8 1) with
  | none => rw [he] at h; cases h
  | some p =>
    obtain ⟨v, m'⟩ := p
    rw [he] at h
    simp only [Option.map_some, Option.some.injEq] at h
    subst h
    exact ⟨m', swBody_run he⟩

/-! ### C47 -/

/-- No label of a file is defined twice. -/
theorem file_labels_nodup {fs : List (String × SStmt)} {uid uid' : Nat} {ps es : List (String × Stmt)} {gs gs' : GS} {code : List Instr}
    (hp : parseFile uid fs = some (ps, uid')) (hs : PartOf es ps) (he : emitFile es gs = some (code, gs'))
    (hn : (fs.map (·.1)).Nodup) : (labels code).Nodup := by
  obtain ⟨_, hu, hm, hun⟩ := parse_labs _ _ _ _ hp
  have hun' : ∀ p ∈ es, p.2.unnum = true := fun p h => hun p (hs.subset _ h)
  obtain ⟨_, hpf, G, hl, hg⟩ := emit_labels _ _ _ _ he hun'
  have hes : (es.map (·.1)).Nodup := by
    refine (hs.map _).nodup ?_
    rw [hm]
    exact hn
  have hlab : NewU uid uid' (es.flatMap fun p => p.2.labs) := by
    have h := hs.flatMap fun p => p.2.labs
    exact ⟨h.nodup hu.1, fun x hx => hu.2 x (h.subset x hx)⟩
  have hmap : ∀ f : String → Label, (∀ a b, f a = f b → a = b) → (es.map fun p => f p.1).Nodup := by
    intro f hf
    have := List.Pairwise.map (R := fun a b : String => a ≠ b) (S := fun a b : Label => a ≠ b) f (fun a b h e => h (hf a b e)) hes
    rw [List.map_map] at this
    exact this
  rw [hl.nodup_iff]
  rw [List.nodup_append, List.nodup_append, List.nodup_append]
  refine ⟨⟨⟨hg.1, hlab.1, ?_⟩, hmap .ret (by intro a b h; cases h; rfl), ?_⟩, hmap .sym (by intro a b h; cases h; rfl), ?_⟩
  · intro x hx y hy e
    subst e
    obtain ⟨_, _, rfl, _⟩ := hg.2 x hx
    obtain ⟨_, e, _⟩ := hlab.2 _ hy
    cases e
  · intro x hx y hy e
    subst e
    obtain ⟨q, _, rfl⟩ := List.mem_map.mp hy
    rcases List.mem_append.mp hx with h | h
    · obtain ⟨_, _, e, _⟩ := hg.2 _ h; cases e
    · obtain ⟨_, e, _⟩ := hlab.2 _ h; cases e
  · intro x hx y hy e
    subst e
    obtain ⟨q, _, rfl⟩ := List.mem_map.mp hy
    rcases List.mem_append.mp hx with h | h
    · rcases List.mem_append.mp h with h | h
      · obtain ⟨_, _, e, _⟩ := hg.2 _ h; cases e
      · obtain ⟨_, e, _⟩ := hlab.2 _ h; cases e
    · obtain ⟨_, _, e⟩ := List.mem_map.mp h; cases e

/-- **C47**, distinctness. In the assembly text of a file of functions with different names, no label is defined twice, not even as
text. `es` are the functions emitted, in the order of emission (the reverse of the order of their first declarations, without those not needed). -/
theorem file_labels_distinct_partial {fs : List (String × SStmt)} {uid uid' : Nat} {ps es : List (String × Stmt)} {gs gs' : GS} {code : List Instr}
    (hp : parseFile uid fs = some (ps, uid')) (hs : PartOf es ps) (he : emitFile es gs = some (code, gs'))
    (hn : (fs.map (·.1)).Nodup) (hok : ∀ f ∈ fs, okName f.1) : ((labels code).map spell).Nodup := by
  obtain ⟨_, hu, hm, hun⟩ := parse_labs _ _ _ _ hp
  have hun' : ∀ p ∈ es, p.2.unnum = true := fun p h => hun p (hs.subset _ h)
  obtain ⟨_, hpf, G, hl, hg⟩ := emit_labels _ _ _ _ he hun'
  have hlab : NewU uid uid' (es.flatMap fun p => p.2.labs) := by
    have h := hs.flatMap fun p => p.2.labs
    exact ⟨h.nodup hu.1, fun x hx => hu.2 x (h.subset x hx)⟩
  have nd := file_labels_nodup hp hs he hn
  have hfn : ∀ p ∈ es, okName p.1 := by
    intro p h
    have : p.1 ∈ fs.map (·.1) := by
      rw [← hm]
      exact List.mem_map_of_mem (f := fun q : String × Stmt => q.1) (hs.subset _ h)
    obtain ⟨f, hf, e⟩ := List.mem_map.mp this
    rw [← e]
    exact hok f hf
  have okl : ∀ l ∈ labels code, okLabel l := by
    intro l h
    rcases List.mem_append.mp (hl.mem_iff.mp h) with h' | h'
    · rcases List.mem_append.mp h' with h' | h'
      · rcases List.mem_append.mp h' with h' | h'
        · obtain ⟨p, n, rfl, _⟩ := hg.2 _ h'
          exact hpf p n (mem_labels.mp h)
        · obtain ⟨_, rfl, _⟩ := hlab.2 _ h'
          trivial
      · obtain ⟨p, hp', rfl⟩ := List.mem_map.mp h'
        exact hfn p hp'
    · obtain ⟨p, hp', rfl⟩ := List.mem_map.mp h'
      exact hfn p hp'
  exact List.Pairwise.map (R := fun a b => okLabel a ∧ okLabel b ∧ a ≠ b) _ (fun a b ⟨h1, h2, h3⟩ e => h3 (spell_inj h1 h2 e))
    ((List.Pairwise.and_mem.mp nd).imp fun ⟨h1, h2, h3⟩ => ⟨okl _ h1, okl _ h2, h3⟩)

/-- **C47**, no clash with C identifiers: the text of every generated label contains a dot. -/
theorem generated_has_dot {l : Label} (h : okLabel l) (hs : ∀ n, l ≠ .sym n) : '.' ∈ spell l := by
  cases l with
  | gen p n =>
    have hdot : ∀ p ∈ formats, '.' ∈ (p.toList ++ (if p = ".L.pcrel" then [] else ['.'])) := by decide +kernel
    exact List.mem_append_left _ (hdot p h)
  | uniq n => exact spell_uniq_dot
  | ret fn => exact spell_ret_dot
  | sym n => exact absurd rfl (hs n)

/-- ... and a dot cannot occur in an identifier (is_ident2, unicode.c). -/
theorem dot_not_ident : Unicode.isIdent2 46 = false := by decide +kernel

/-- **C47**, gotos. A body is accepted exactly when every goto names a label of the body (and break, continue, case and default are
where they may be). -/
theorem goto_diagnosed {uid : Nat} {body : SStmt} :
    (elabBody uid body).isSome = true ↔ body.placed false false false = true ∧ ∀ n ∈ body.gotos, n ∈ body.names := elabBody_iff _ _

example : okName "main" ∧ okName "f2" := by
  constructor <;> refine ⟨by decide +kernel, by decide +kernel, by decide +kernel⟩

/-- A file to which the theorem applies. -/
example : ∃ ps uid' code gs', parseFile 0 [("f", exBody), ("main", .ret (some exX))] = some (ps, uid') ∧
    emitFile ps.reverse ⟨0, 0⟩ = some (code, gs') ∧ (labels code).length = 12 := by
  refine ⟨_, _, _, _, rfl, rfl, ?_⟩
  decide +kernel

end Toycc.Stm.Props
