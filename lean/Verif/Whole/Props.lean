import Verif.Whole.Total
/-!
C66: a program of several functions, which may call each other and themselves, does on the machine what it does in C.

Vocabulary of the statements (definitions in Verif.Whole.Sem, which mentions neither instructions nor registers up to `Loaded`):
`call F X sym n sp valid room f vs m` is the result of calling `f` with the arguments `vs` in C, in a program that consists of the functions
`F` and of functions `X` defined elsewhere; `none` when the behaviour is undefined, when more than `n` nested calls, iterations or
gotos are needed, or when the `room` slots of stack below `sp` are not enough.
-/
namespace Toycc.Whole.Props
open Toycc.Rv Toycc.Cg Toycc.Fn Toycc.Whole
open Toycc.Stm hiding exec
open Toycc.Frame hiding St

/-- Functions with different names have different addresses. -/
theorem addr_inj {P : Prog} {env : Env} {sym : Label → W} {F : List Func} (hload : Loaded P env sym F) (hcode : ∀ f ∈ F, ∃ pos, CodeOf P f pos)
    (hu : UniqueLabels P) {f g : Func} (hf : f ∈ F) (hg : g ∈ F) (h : sym (.sym f.name) = sym (.sym g.name)) : f.name = g.name := by
  have h1 := hload.fns f hf
  rw [h, hload.fns g hg] at h1
  obtain ⟨p, _, _, _, _, _, _, _, _, _, _, _, c1⟩ := hcode f hf
  obtain ⟨q, _, _, _, _, _, _, _, _, _, _, _, c2⟩ := hcode g hg
  rw [find_eq hu c1.head, find_eq hu c2.head] at h1
  cases h1
  have := c1.head
  rw [c2.head, Option.some.injEq, Instr.label.injEq, Label.sym.injEq] at this
  exact this.symm

/-- **C66**. `Fs` are the function definitions of a file, in order; `es` are the functions that are emitted, `P` is the emitted text.
Functions may call each other and themselves to any depth. Suppose that C says that calling `f` with arguments `vs` when the live
objects hold `m` yields `v` and leaves `m'`. Then the machine, entering at the label of `f` with the arguments where the calling convention
puts them and a return address that leads to `t`, comes to `t`; the stack pointer and the frame pointer are as before, `v` is in a0, live
objects hold `m'`, and of the other bytes at most those of the free part of the stack have changed.

Missing: programs that run forever through calls (a body that itself runs forever is in C40), functions with more than 8
parameters, with parameters or results that are structures or floating-point numbers, variadic functions. -/
theorem C66_program_partial {Fs : List Func} {uid uid' : Nat} {ps es : List (Func × Stmt)} {gs gs' : GS} {P : Prog}
    (hp : parseFns uid Fs = some (ps, uid')) (hs : PartOf es ps) (he : emitFns es gs = some (P, gs')) (hd : gs.depth = 0)
    (hn : (Fs.map (·.name)).Nodup) (hw : ∀ f ∈ Fs, Wf f)
    {env : Env} {sym : Label → W} {X : Ext} (hload : Loaded P env sym (es.map (·.1))) (hext : ExtOk env X)
    {n room : Nat} {sp : W} {valid : W → Bool} (hroom : 8 * room < 2 ^ 64) (hst : ∀ b, idx sp b < 8 * room → valid b = false)
    {f : Func} (hf : f ∈ es.map (·.1)) {vs : List Int} {m m' : Mem} {v : Int} (hc : call (es.map (·.1)) X sym n sp valid room f vs m = some (v, m'))
    {s : St} (hsp : s.r .sp = sp) (hm : ∀ b, valid b = true → s.mem b = m b)
    (ha : ∀ (i : Nat) (t : Ty) (x : Int), f.params[i]? = some t → vs[i]? = some x → ArgRep t x (argAt s i)) {t : Nat} (hra : env.index (s.r .ra) = some t) :
    ∃ pos, find P (.sym f.name) = some pos ∧ ∃ s', Runs P env (pos, s) (t, s') ∧ s'.r .sp = s.r .sp ∧ s'.r .fp = s.r .fp ∧
      (∀ b, valid b = true → s'.mem b = m' b) ∧ RetRep f.ret v (s'.r .a0) ∧
      ∀ b, valid b = false → ¬ idx sp b < 8 * room → s'.mem b = s.mem b := by
  obtain ⟨hu, hes, hnd⟩ := emitted_code hp hs he hd hn hw
  have hwf : ∀ g ∈ es.map (·.1), Wf g := by
    intro g hg
    obtain ⟨p, h, rfl⟩ := List.mem_map.mp hg
    exact hw _ (hes p h).1
  have hcode : ∀ g ∈ es.map (·.1), ∃ pos, CodeOf P g pos := by
    intro g hg
    obtain ⟨p, h, rfl⟩ := List.mem_map.mp hg
    exact (hes p h).2
  have hname : ((es.map (·.1)).map (·.name)).Nodup := by rw [List.map_map]; exact hnd
  generalize es.map (·.1) = F at *
  unfold call at hc
  rcases envOf_call hc with ⟨h1, _⟩ | ⟨g, n', fr, h1, rfl, h3, h4, h5, h6, h7⟩
  · rw [List.find?_eq_none] at h1
    have := h1 f hf
    simp at this
  · obtain ⟨hg, hsym⟩ := find_fn h1
    have e := addr_inj hload hcode hu hg hf hsym
    have : g = f := by
      obtain ⟨i, hi⟩ := List.getElem?_of_mem hg
      obtain ⟨j, hj⟩ := List.getElem?_of_mem hf
      have hi' : (F.map (·.name))[i]? = some g.name := by rw [List.getElem?_map, hi]; rfl
      have hj' : (F.map (·.name))[j]? = some g.name := by rw [List.getElem?_map, hj, e]; rfl
      have : i = j := by
        have hl := (List.getElem?_eq_some_iff.mp hi').1
        exact (List.getElem?_inj hl hname).mp (hi'.trans hj'.symm)
      subst this
      rw [hi] at hj
      exact Option.some.inj hj
    subst this
    have hz : sp = sp - BitVec.ofNat 64 (8 * 0) := by simp
    obtain ⟨pos, p1, s', q1, q2, q3, q4, q5, q6⟩ := enter_runs hload hext hu hwf hcode n' (world hload hext hu hwf hcode n') hroom hst hg h3 h5 h6 h7
      (s := s) (by rw [hsp]; exact hz) hm (by
        intro i t x hi
        rw [List.getElem?_zip_eq_some] at hi
        exact ha i t x hi.1 hi.2) hra
    refine ⟨pos, p1, s', q1, q2, q3, q4, q5, fun b hb hn => q6 b hb ?_⟩
    intro h
    exact hn h.2

/-- **C66**, where the parameters are: in the frame, aligned for their types relative to the frame address (or in the area of the caller), apart from each other. -/
theorem C66_params_aligned {f : Func} (hw : Wf f) {fr : Frame} (hl : f.lay = some fr) {i : Nat} {t : Ty} {o : Int} (h : (f.slots fr)[i]? = some (t, o)) :
    ((t.size : Int) ∣ o ∧ -fr.size ≤ o ∧ o + t.size ≤ 0) ∨ InCaller o := by
  have hl' : layout f.frame = .ok fr := by
    unfold Func.lay at hl
    cases hx : layout f.frame with
    | error e => rw [hx] at hl; cases hl
    | ok x => rw [hx] at hl; cases hl; rfl
  obtain ⟨c1, _, _, _, c5, _⟩ := C48_frame f.frame fr hw.align hl'
  rw [Func.slots, List.getElem?_zip_eq_some, List.getElem?_drop] at h
  obtain ⟨h1, h2⟩ := h
  dsimp only at h1 h2
  obtain ⟨o', e1, e2⟩ := c5 i (intVar t) (by simp only [Func.frame, List.getElem?_map, h1, Option.map_some])
  have e : f.frame.params.length = f.params.length := by simp [Func.frame]
  rw [e, h2] at e1
  cases e1
  rcases e2 with ⟨q1, q2, q3⟩ | q
  · exact .inl ⟨q3, q1, q2⟩
  · exact .inr q

/-- **C66**, existence: every file of such functions is accepted, and text is emitted for any selection of them. -/
theorem C66_compiles (Fs : List Func) (hw : ∀ f ∈ Fs, Wf f) (uid : Nat) :
    ∃ ps uid', parseFns uid Fs = some (ps, uid') ∧ ps.map (·.1) = Fs ∧
      ∀ (es : List (Func × Stmt)) (gs : GS), PartOf es ps → ∃ P gs', emitFns es gs = some (P, gs') := by
  obtain ⟨⟨ps, uid'⟩, h⟩ := parseFns_total Fs uid hw
  obtain ⟨_, h2, h3⟩ := parse_split _ _ _ _ h
  refine ⟨ps, uid', h, h2, ?_⟩
  intro es gs hs
  obtain ⟨⟨P, gs'⟩, e⟩ := emitFns_total es gs (fun p hp => by
    have hm := hs.subset _ hp
    refine ⟨hw _ ?_, h3 p hm⟩
    rw [← h2]
    exact List.mem_map_of_mem hm)
  exact ⟨P, gs', e⟩

/-! ### An example: `long f(long n) { if (n < 1) return 0; return n + f(n - 1); }` -/

def long : Ty := .long false
def nX : Expr := .var long (.loc (-16))
def sumBody : SStmt :=
  .seq (.ifs (.bin .lt (.int false) nX (.num long 1)) (.ret (some (.num long 0))) .skip)
    (.ret (some (.bin .add long nX (.call long (.var .func (.glob "f")) (.cons (.bin .sub long nX (.num long 1)) .nil)))))
def sumF : Func := ⟨"f", long, [long], [⟨.int, 8, 8⟩], sumBody⟩
def sumFrame : Frame := ⟨[-8, -16], 16⟩

theorem sum_wf : Wf sumF where
  few := by decide
  scalar := by intro t h; simp only [sumF, List.mem_singleton] at h; subst h; rfl
  last := rfl
  aligned := by intro v h; simp only [sumF, List.mem_singleton] at h; subst h; decide
  body := ⟨by decide +kernel, by decide +kernel, by decide +kernel, by decide +kernel, by intro n h; simp [sumF, sumBody, SStmt.gotos] at h⟩

theorem sum_lay : sumF.lay = some sumFrame := by decide +kernel

theorem bmod_id {k : Nat} (hk : k < 2 ^ 63) : (k : Int).bmod (2 ^ (8 * 8)) = k := by
  have h1 := Int.bmod_eq_of_le (n := (k : Int)) (m := 2 ^ (8 * 8)) (by omega) (by omega)
  exact h1

theorem load_n {E : CEnv} {a : W} {m : Mem} {k : Nat} (hk : k < 2 ^ 63) (hv : E.ok a 8 = true) : loadC E long (writeN m a 8 (rep k)) a = some (k : Int) := by
  have e : readN (writeN m a 8 (rep k)) a 8 = k := by
    rw [readN_writeN _ _ _ _ (by decide) 8 (Nat.le_refl _)]
    simp only [rep, BitVec.ofInt_natCast, BitVec.toNat_ofNat]
    omega
  simp only [loadC, long, Ty.size, hv, if_true, e, Ty.unsigned, Bool.false_eq_true, if_false, Ty.bits]
  exact congrArg some (bmod_id hk)

theorem sum_objs (fp b : W) : inObjs fp (sumF.objs sumFrame) b = decide ((b - (fp + BitVec.ofInt 64 (-16))).toNat < 8) := by
  show (_ || false) = _
  rw [Bool.or_false]
  rfl

theorem tri (k : Nat) : ((k : Int) + 1) * (k + 1 + 1) / 2 = (k + 1) + k * (k + 1) / 2 := by
  have : ((k : Int) + 1) * (k + 1 + 1) = k * (k + 1) + (k + 1) * 2 := by
    simp only [Int.add_mul, Int.mul_add]; omega
  rw [this, Int.add_mul_ediv_right _ _ (by omega), Int.add_comm]

theorem arith_long {x : Int} (h : -(2 ^ 63) ≤ x ∧ x < 2 ^ 63) : arithC long x = some x := if_pos (decide_eq_true h)

theorem evalN {E : CEnv} {d : Nat} {m : Mem} {v : Int} (h : loadC E long m (E.fp + BitVec.ofInt 64 (-16)) = some v) : evalC E false d nX m = some (v, m) := by
  simp only [nX, evalC, varAddrC, Option.bind_eq_bind, Option.bind_some, Bool.false_eq_true, if_false, h]

theorem run_zero {E : CEnv} {m : Mem} {n : Nat} (h : loadC E long m (E.fp + BitVec.ofInt 64 (-16)) = some 0) :
    run (evC E 0) n none sumBody m = .done (.ret (some 0)) m := by
  have e : Stm.exec (evC E 0) n .void none sumBody m = .done (.ret (some 0)) m := by
    simp [sumBody, Stm.exec, evC, evalC, evalN h, binC, boolC, Res.andThen]
  unfold run
  rw [e]

theorem run_succ {E : CEnv} {m : Mem} {n k : Nat} {r : Int} (hk : k < 2 ^ 31) (hr : 0 ≤ r ∧ r < 2 ^ 62) (h : loadC E long m (E.fp + BitVec.ofInt 64 (-16)) = some ((k : Int) + 1))
    (hc : E.call (E.sym (.sym "f")) 0 long [(long, (k : Int))] m = some (r, m)) :
    run (evC E 0) n none sumBody m = .done (.ret (some (k + 1 + r))) m := by
  have e1 : binC .lt (.int false) ((k : Int) + 1) 1 = some 0 := by
    simp only [binC, boolC]
    rw [decide_eq_false (by omega)]; rfl
  have e2 : binC .sub long ((k : Int) + 1) 1 = some (k : Int) := by
    show arithC long ((k : Int) + 1 - 1) = _
    rw [arith_long (by omega), Int.add_sub_cancel]
  have e3 : binC .add long ((k : Int) + 1) r = some (k + 1 + r) := by
    show arithC long ((k : Int) + 1 + r) = _
    rw [arith_long (by omega)]
  have e4 : adr ((E.sym (.sym "f")).toNat : Int) = E.sym (.sym "f") := by
    simp [adr]
  have c : evalC E false 0 (.call long (.var .func (.glob "f")) (.cons (.bin .sub long nX (.num long 1)) .nil)) m = some (r, m) := by
    simp only [evalC, evalArgsC, evalN h, e2, varAddrC, loadC, Option.bind_eq_bind, Option.bind_some, Bool.false_eq_true, if_false, Exprs.length, e4]
    exact hc
  have e : Stm.exec (evC E 0) n .void none sumBody m = .done (.ret (some (k + 1 + r))) m := by
    have t : evalC E false 0 (.bin .lt (.int false) nX (.num long 1)) m = some (0, m) := by simp [evalC, evalN h, e1]
    have u : evalC E false 0 (.bin .add long nX (.call long (.var .func (.glob "f")) (.cons (.bin .sub long nX (.num long 1)) .nil))) m = some (k + 1 + r, m) := by
      rw [evalC]
      simp only [c, evalN h, e3, Option.bind_eq_bind, Option.bind_some, Bool.false_eq_true, if_false]
    simp [sumBody, Stm.exec, evC, t, u, Res.andThen]
  unfold run
  rw [e]

theorem indep_some {h : Mem → Option (Int × Mem)} {r : Int × Mem} (e : ∀ g, h g = some r) : indep h = some r := by
  unfold indep
  rw [if_pos ⟨r, e⟩, e]

/-- One call: if the body returns `r` and changes nothing, so does the call. -/
theorem call_step {X : Ext} {sym : Label → W} {n room : Nat} {fp B : W} {valid : W → Bool} {m : Mem} {k : Nat} {r : Int} (hr : 6 ≤ room) (hr2 : 0 ≤ r ∧ r < 2 ^ 62)
    (h : ∀ base : Mem,
      let E := envOf [sumF] X sym n (B - BitVec.ofNat 64 0 - 16) (B - BitVec.ofNat 64 32) (fun b => valid b || inObjs (B - BitVec.ofNat 64 0 - 16) (sumF.objs sumFrame) b) (room - 4)
      run (evC E 0) n none sumBody (writeN base (E.fp + BitVec.ofInt 64 (-16)) 8 (rep k)) =
        .done (.ret (some r)) (writeN base (E.fp + BitVec.ofInt 64 (-16)) 8 (rep k))) :
    (envOf [sumF] X sym (n + 1) fp B valid room).call (sym (.sym "f")) 0 long [(long, (k : Int))] m = some (r, m) := by
  have hfind : [sumF].find? (fun f => decide (sym (.sym f.name) = sym (.sym "f"))) = some sumF := by
    simp [List.find?, sumF]
  have ht : sumF.temps = 2 := by decide +kernel
  have hb : Func.bytes sumFrame = 32 := rfl
  show (match [sumF].find? (fun f => decide (sym (.sym f.name) = sym (.sym "f"))) with
      | none => _
      | some f => match f.lay with
        | none => none
        | some fr => _) = _
  rw [hfind]
  dsimp only
  rw [sum_lay]
  dsimp only
  rw [ht, hb, if_pos ⟨rfl, rfl, by omega⟩]
  refine indep_some fun g => ?_
  have h1 := h (fun b => if inObjs (B - BitVec.ofNat 64 0 - 16) (sumF.objs sumFrame) b then g b else m b)
  dsimp only at h1
  rw [envOf_fp] at h1
  simp only [envOf_fp]
  have hs : sumF.slots sumFrame = [(long, -16)] := by decide +kernel
  rw [hs]
  show (match run _ n none sumBody (writeN _ _ 8 (rep k)) with | .done e m' => _ | _ => none) = _
  rw [h1]
  dsimp only
  have hres : result sumF (.ret (some r)) = some r := by
    show (if (true && inRange long r) = true then some r else none) = some r
    rw [if_pos]
    rw [Bool.true_and]
    exact decide_eq_true (show -(2 ^ 63) ≤ r ∧ r < 2 ^ 63 by omega)
  rw [hres, Option.map_some]
  congr 2
  funext b
  by_cases hb : inObjs (B - BitVec.ofNat 64 0 - 16) (sumF.objs sumFrame) b = true
  · rw [if_pos hb]
  · rw [if_neg hb, writeN, if_neg, if_neg hb]
    rw [sum_objs, decide_eq_true_eq] at hb
    exact hb

theorem valid_n {X : Ext} {sym : Label → W} {n room : Nat} {fp B : W} {valid : W → Bool} :
    (envOf [sumF] X sym n fp B (fun b => valid b || inObjs fp (sumF.objs sumFrame) b) room).ok (fp + BitVec.ofInt 64 (-16)) 8 = true := by
  rw [CEnv.ok, List.all_eq_true]
  intro i hi
  rw [envOf_valid, sum_objs, Bool.or_eq_true, decide_eq_true_eq]
  right
  rw [BitVec.add_comm _ (BitVec.ofNat 64 i), BitVec.add_sub_cancel, BitVec.toNat_ofNat]
  have := List.mem_range.mp hi
  omega

/-- The C meaning, by induction: the sum of the numbers up to `k`. -/
theorem sum_call (X : Ext) (sym : Label → W) : ∀ (k n : Nat), k < n → ∀ (fp B : W) (valid : W → Bool) (room : Nat) (m : Mem), 4 * (k + 1) + 2 ≤ room → k < 2 ^ 30 →
    (envOf [sumF] X sym n fp B valid room).call (sym (.sym "f")) 0 long [(long, (k : Int))] m = some ((k : Int) * (k + 1) / 2, m) := by
  intro k
  induction k with
  | zero =>
    intro n hn fp B valid room m hr hk
    obtain ⟨n, rfl⟩ : ∃ n', n = n' + 1 := ⟨n - 1, by omega⟩
    refine call_step (k := 0) (by omega) (by decide) fun base => ?_
    dsimp only
    apply run_zero
    rw [envOf_fp]
    exact load_n (k := 0) (by decide) valid_n
  | succ k ih =>
    intro n hn fp B valid room m hr hk
    obtain ⟨n, rfl⟩ : ∃ n', n = n' + 1 := ⟨n - 1, by omega⟩
    have hb : 0 ≤ (k : Int) * (k + 1) / 2 ∧ (k : Int) * (k + 1) / 2 < 2 ^ 61 := by
      have h1 : (k : Int) * (k + 1) ≤ 2 ^ 30 * 2 ^ 30 := Int.mul_le_mul (by omega) (by omega) (by omega) (by decide)
      have h2 : 0 ≤ (k : Int) * (k + 1) := Int.mul_nonneg (by omega) (by omega)
      omega
    have e := tri k
    rw [Int.natCast_add, Int.natCast_one] at *
    rw [e]
    refine call_step (k := k + 1) (by omega) (by omega) fun base => ?_
    dsimp only
    refine run_succ (by omega) (by omega) ?_ ?_
    · rw [envOf_fp]
      exact load_n (k := k + 1) (by omega) valid_n
    · rw [envOf_sym]
      exact ih n (by omega) _ _ _ _ _ (by omega) (by omega)

/-! The machine: the code of `f` is loaded at address 4096; no other code is there. -/

/-- The statement tree and the text. -/
def sumSt : Stmt := ((elabBody 0 sumBody).map (·.1)).getD .skip
def sumP : Prog := ((emitFns [(sumF, sumSt)] ⟨0, 0⟩).map (·.1)).getD []

def sumEnv : Env where
  sym _ := 4096
  addr i := BitVec.ofNat 64 (4096 + i)
  index a := if 4096 ≤ a.toNat ∧ a.toNat ≤ 4096 + 100 then some (a.toNat - 4096) else none
  ext _ _ := none

theorem sum_parse : parseFns 0 [sumF] = some ([(sumF, sumSt)], 2) := by rfl
theorem sum_emit : ∃ gs', emitFns [(sumF, sumSt)] ⟨0, 0⟩ = some (sumP, gs') := ⟨_, rfl⟩

theorem sum_loaded : Loaded sumP sumEnv (fun _ => 4096) [sumF] where
  syms _ := rfl
  fns := by
    intro f h
    rw [List.mem_singleton.mp h]
    decide +kernel
  back := by
    intro i hi
    have : sumP.length ≤ 100 := by decide +kernel
    have e : (BitVec.ofNat 64 (4096 + i)).toNat = 4096 + i := by rw [BitVec.toNat_ofNat]; omega
    show (if _ ∧ _ then _ else _) = _
    simp only [sumEnv, e]
    rw [if_pos (by omega), Nat.add_sub_cancel_left]

/-- All hypotheses of `C66_program_partial` are met: for every `k` below a million the compiled function, called with `k`, returns with the sum of the numbers up to `k`. -/
theorem sum_runs (k : Nat) (hk : k < 1000000) (s : St) (ha : s.r .a0 = BitVec.ofNat 64 k) (hra : s.r .ra = BitVec.ofNat 64 (4096 + sumP.length)) :
    ∃ s', Runs sumP sumEnv (0, s) (sumP.length, s') ∧ s'.r .sp = s.r .sp ∧ s'.r .fp = s.r .fp ∧ s'.r .a0 = BitVec.ofInt 64 ((k : Int) * (k + 1) / 2) := by
  obtain ⟨gs', he⟩ := sum_emit
  have hlen : sumP.length ≤ 100 := by decide +kernel
  have hc := sum_call (fun _ _ _ _ _ _ => none) (fun _ => 4096) k (k + 1) (by omega) (s.r .sp) (s.r .sp) (fun _ => false) (4 * (k + 1) + 2) s.mem (Nat.le_refl _) (by omega)
  obtain ⟨pos, h1, s', h2, h3, h4, _, h5, _⟩ := C66_program_partial (P := sumP) (f := sumF) (vs := [(k : Int)]) (t := sumP.length) sum_parse (.rev (List.Sublist.refl _)) he rfl
    (by simp) (fun f hf => by rw [List.mem_singleton.mp hf]; exact sum_wf) (X := fun _ _ _ _ _ _ => none) sum_loaded (by intro _ _ _ _ _ _ _ _ h; cases h)
    (n := k + 1) (room := 4 * (k + 1) + 2) (sp := s.r .sp) (valid := fun _ => false) (by omega) (fun _ _ => rfl) (List.mem_singleton.mpr rfl) hc rfl
    (by intro b hb; cases hb) (by
      intro i t x h1 h2
      match i with
      | 0 =>
        cases h1; cases h2
        show ArgRep long (k : Int) (s.r .a0)
        rw [ha]
        simp [ArgRep, long, Ty.size]
      | i + 1 => simp [sumF] at h1) (by
      rw [hra]
      have e : (BitVec.ofNat 64 (4096 + sumP.length)).toNat = 4096 + sumP.length := by rw [BitVec.toNat_ofNat]; omega
      simp only [sumEnv, e]
      rw [if_pos (by omega), Nat.add_sub_cancel_left])
  have h0 : find sumP (.sym sumF.name) = some 0 := by decide +kernel
  rw [h0] at h1
  cases h1
  exact ⟨s', h2, h3, h4, h5.1⟩

end Toycc.Whole.Props
