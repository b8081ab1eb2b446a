import Verif.Ld.Spec
/-! C55: long double operators get their operands in the registers of the ABI, in the class `Chain`; and not outside. -/
namespace Toycc.Ld

theorem Same.append {cs cs' : List Call} {vs vs' : List VCall} (h : Same cs vs) (h' : Same cs' vs') : Same (cs ++ cs') (vs ++ vs') := by
  induction cs generalizing vs with
  | nil => cases vs with
    | nil => exact h'
    | cons v vs => exact absurd h (by simp [Same])
  | cons c cs ih => cases vs with
    | nil => exact absurd h (by simp [Same])
    | cons v vs => exact ⟨h.1, ih h.2⟩

theorem seq_ok {a : Gen} {f : Nat → Gen} {c c' : List Instr} {sp sp' : Nat} (h : a = .ok (c, sp)) (h' : f sp = .ok (c', sp')) : seq a f = .ok (c ++ c', sp') := by
  subst h; simp only [seq, h']

theorem exec_append (L : Lib) (s : State) (c c' : List Instr) : exec L s (c ++ c') = exec L (exec L s c) c' := List.foldl_append

/-- What compiled code for a long double does, started with the register stack at `sp`. -/
def DoesL (L : Lib) (O : Ops) (g : Nat → Gen) (sp : Nat) (s : State) (v : LD) (vs : List VCall) : Prop :=
  ∃ c, g sp = .ok (c, sp + 2) ∧ (exec L s c).fs sp = v.lo ∧ (exec L s c).fs (sp + 1) = v.hi ∧ (∀ j, j < sp → (exec L s c).fs j = s.fs j) ∧
    (exec L s c).mem = s.mem ∧ ∃ cs, (exec L s c).log = s.log ++ cs ∧ Same cs vs

/-- The same for an integer. -/
def DoesI (L : Lib) (O : Ops) (g : Nat → Gen) (sp : Nat) (s : State) (v : W) (vs : List VCall) : Prop :=
  ∃ c, g sp = .ok (c, sp) ∧ (exec L s c).a 0 = v ∧ (∀ j, j < sp → (exec L s c).fs j = s.fs j) ∧
    (exec L s c).mem = s.mem ∧ ∃ cs, (exec L s c).log = s.log ++ cs ∧ Same cs vs

theorem popA (L : Lib) (s : State) : popLd 4 = .ok ([.fmvXD 3 3, .fmvXD 2 2], 2) ∧ popLd 2 = .ok ([.fmvXD 1 1, .fmvXD 0 0], 0) := ⟨rfl, rfl⟩

/-- Both operands of an operator at the bottom of the stack, then the call. -/
theorem operands (L : Lib) (O : Ops) (l r : Nat → Gen) (s : State) (x y : LD) (vs ws : List VCall) (hl : DoesL L O l 0 s x vs)
    (hr : ∀ s', s'.mem = s.mem → DoesL L O r 2 s' y ws) (rt : Routine) (post : List Instr) (sp' : Nat)
    (k : Nat → Gen) (hk : k 0 = .ok (.call rt :: post, sp')) :
    ∃ c s2 cs, (seq (l 0) fun sp => seq (r sp) fun sp => seq (popLd sp) fun sp => seq (popLd sp) fun sp => k sp) = .ok (c, sp') ∧
      exec L s c = exec L (step L s2 (.call rt)) post ∧ s2.mem = s.mem ∧ s2.log = s.log ++ cs ∧ Same cs (vs ++ ws) ∧
      x = ⟨s2.a 0, s2.a 1⟩ ∧ y = ⟨s2.a 2, s2.a 3⟩ := by
  obtain ⟨c1, g1, l1, l2, -, l4, cs1, l5, l6⟩ := hl
  obtain ⟨c2, g2, r1, r2, r3, r4, cs2, r5, r6⟩ := hr (exec L s c1) l4
  obtain ⟨p1, p2⟩ := popA L s
  let pops : List Instr := [.fmvXD 3 3, .fmvXD 2 2] ++ [.fmvXD 1 1, .fmvXD 0 0]
  refine ⟨c1 ++ (c2 ++ ([.fmvXD 3 3, .fmvXD 2 2] ++ ([.fmvXD 1 1, .fmvXD 0 0] ++ (.call rt :: post)))), exec L (exec L (exec L s c1) c2) pops, cs1 ++ cs2, ?_, ?_, ?_, ?_, ?_, ?_, ?_⟩
  · exact seq_ok g1 (seq_ok g2 (seq_ok p1 (seq_ok p2 hk)))
  · simp only [exec_append, pops]; rfl
  · simp only [exec, step, pops, List.cons_append, List.nil_append, List.foldl_cons, List.foldl_nil]
    exact r4.trans l4
  · simp only [exec, step, pops, List.cons_append, List.nil_append, List.foldl_cons, List.foldl_nil]
    have : (exec L (exec L s c1) c2).log = _ := r5
    rw [l5, List.append_assoc] at this
    exact this
  · exact l6.append r6
  · simp only [exec, step, pops, List.cons_append, List.nil_append, List.foldl_cons, List.foldl_nil]
    have a0 := r3 0 (by omega)
    have a1 := r3 1 (by omega)
    simp only [exec] at a0 a1 l1 l2
    simp [a0, a1, l1, l2]
  · simp only [exec, step, pops, List.cons_append, List.nil_append, List.foldl_cons, List.foldl_nil]
    simp only [exec] at r1 r2
    simp [r1, r2]

theorem trunc_s (w : W) : (w <<< 32).sshiftRight 32 = (w.truncate 32).signExtend 64 := by
  apply BitVec.eq_of_getLsbD_eq
  intro i hi
  simp only [BitVec.getLsbD_sshiftRight, BitVec.getLsbD_shiftLeft, BitVec.getLsbD_signExtend, BitVec.truncate_eq_setWidth, BitVec.getLsbD_setWidth, BitVec.msb_eq_getLsbD_last, hi, decide_true, Bool.true_and]
  by_cases h : i < 32
  · have h1 : ¬ 64 ≤ i := by omega
    have h2 : 32 + i < 64 := by omega
    have h3 : ¬ 32 + i < 32 := by omega
    simp [h, h1, h2, h3]
  · have h2 : ¬ 32 + i < 64 := by omega
    simp [h, h2]
    omega

theorem trunc_u (w : W) : (w <<< 32) >>> 32 = (w.truncate 32).zeroExtend 64 := by
  apply BitVec.eq_of_getLsbD_eq
  intro i hi
  simp only [BitVec.getLsbD_ushiftRight, BitVec.getLsbD_shiftLeft, BitVec.zeroExtend_eq_setWidth, BitVec.truncate_eq_setWidth, BitVec.getLsbD_setWidth, hi, decide_true, Bool.true_and]
  by_cases h : i < 32
  · have h2 : 32 + i < 64 := by omega
    have h3 : ¬ 32 + i < 32 := by omega
    simp [h, h2, h3]
  · have h2 : ¬ 32 + i < 64 := by omega
    simp [h, h2]

mutual
theorem genL_ok (L : Lib) (O : Ops) (hL : L.Implements O) (e : LE) (top : Bool) (sp : Nat) (s : State) (hc : e.Chain top = true)
    (hs : sp = if top then 0 else 2) : DoesL L O (gen e) sp s (e.val O s.mem) (e.calls O s.mem) := by
  have hsp : sp + 2 < 12 := by cases top <;> simp_all
  have push : pushLd sp = .ok ([.fmvDX sp 0, .fmvDX (sp + 1) 1], sp + 2) := by unfold pushLd; rw [if_neg (by omega)]
  cases e with
  | lit v =>
    refine ⟨[.li 0 v.lo, .li 1 v.hi] ++ [.fmvDX sp 0, .fmvDX (sp + 1) 1], ?_, ?_, ?_, ?_, rfl, [], ?_, ?_⟩
    · rw [gen]; exact seq_ok rfl push
    · simp [exec, step, LE.val]
    · simp [exec, step, LE.val]
    · intro j hj
      have h1 : ¬ j = sp := by omega
      have h2 : ¬ j = sp + 1 := by omega
      simp [exec, step, h1, h2]
    · simp [exec, step]
    · simp [Same, LE.calls]
  | var a =>
    have load : loadLd sp = .ok ([.fld sp 0, .fld (sp + 1) 8], sp + 2) := by unfold loadLd; rw [if_neg (by omega)]
    refine ⟨[.la a] ++ [.fld sp 0, .fld (sp + 1) 8], ?_, ?_, ?_, ?_, rfl, [], ?_, ?_⟩
    · rw [gen]; exact seq_ok rfl load
    · simp [exec, step, LE.val]
    · simp [exec, step, LE.val]
    · intro j hj
      have h1 : ¬ j = sp := by omega
      have h2 : ¬ j = sp + 1 := by omega
      simp [exec, step, h1, h2]
    · simp [exec, step]
    · simp [Same, LE.calls]
  | neg e => simp [LE.Chain] at hc
  | ofInt t i =>
    obtain ⟨c, g, h1, h2, h3, cs, h4, h5⟩ := genI_ok L O hL i top sp s (by simpa [LE.Chain] using hc) hs
    have hp : Passes ⟨t.float, (exec L s c).a 0, (exec L s c).a 1, (exec L s c).a 2, (exec L s c).a 3⟩ (.ofInt t (i.val O s.mem)) := ⟨by cases t <;> rfl, h1.symm⟩
    have hret := hL _ _ hp
    simp only at hret
    refine ⟨c ++ ([.call t.float] ++ [.fmvDX sp 0, .fmvDX (sp + 1) 1]), ?_, ?_, ?_, ?_, ?_, cs ++ [⟨t.float, (exec L s c).a 0, (exec L s c).a 1, (exec L s c).a 2, (exec L s c).a 3⟩], ?_, ?_⟩
    · rw [gen]; exact seq_ok g (seq_ok rfl push)
    · rw [exec_append]
      generalize exec L s c = s1 at hret
      simp [exec, step, hret, LE.val]
    · rw [exec_append]
      generalize exec L s c = s1 at hret
      simp [exec, step, hret, LE.val]
    · intro j hj
      have e1 : ¬ j = sp := by omega
      have e2 : ¬ j = sp + 1 := by omega
      have := h2 j hj
      rw [exec_append]
      generalize exec L s c = s1 at this
      simp [exec, step, e1, e2, this]
    · rw [exec_append]
      generalize exec L s c = s1 at h3
      simp [exec, step, h3]
    · rw [exec_append]
      generalize exec L s c = s1 at h4
      simp [exec, step, h4]
    · rw [LE.calls]
      exact h5.append ⟨hp, trivial⟩
  | bin o l r =>
    simp only [LE.Chain, Bool.and_eq_true] at hc
    obtain ⟨⟨rfl, hcl⟩, hcr⟩ := hc
    simp only [if_true] at hs
    subst hs
    have il := genL_ok L O hL l true 0 s hcl rfl
    have ir : ∀ s', s'.mem = s.mem → DoesL L O (gen r) 2 s' (r.val O s.mem) (r.calls O s.mem) := by
      intro s' hm
      have := genL_ok L O hL r false 2 s' hcr rfl
      rw [hm] at this; exact this
    obtain ⟨c, s2, cs, k1, k2, k3, k4, k5, k6, k7⟩ := operands L O (gen l) (gen r) s _ _ _ _ il ir (.arith o) [.fmvDX 0 0, .fmvDX 1 1] 2
      (fun sp => seq (emit [.call (.arith o)] sp) pushLd) rfl
    have hp : Passes ⟨.arith o, s2.a 0, s2.a 1, s2.a 2, s2.a 3⟩ (.arith o (l.val O s.mem) (r.val O s.mem)) := ⟨rfl, k6, k7⟩
    have hret := hL _ _ hp
    simp only at hret
    refine ⟨c, by rw [gen]; exact k1, ?_, ?_, ?_, ?_, cs ++ [⟨.arith o, s2.a 0, s2.a 1, s2.a 2, s2.a 3⟩], ?_, ?_⟩
    · rw [k2]; simp [exec, step, hret, LE.val]
    · rw [k2]; simp [exec, step, hret, LE.val]
    · intro j hj; omega
    · rw [k2]; simp [exec, step, k3]
    · rw [k2]; simp [exec, step, k4]
    · rw [LE.calls]
      exact k5.append ⟨hp, trivial⟩
theorem genI_ok (L : Lib) (O : Ops) (hL : L.Implements O) (e : IE) (top : Bool) (sp : Nat) (s : State) (hc : e.Chain top = true)
    (hs : sp = if top then 0 else 2) : DoesI L O (genI e) sp s (e.val O s.mem) (e.calls O s.mem) := by
  cases e with
  | num v => exact ⟨[.li 0 v], rfl, by simp [exec, step, IE.val], fun _ _ => rfl, rfl, [], by simp [exec, step], by simp [Same, IE.calls]⟩
  | rel o l r =>
    simp only [IE.Chain, Bool.and_eq_true] at hc
    obtain ⟨⟨rfl, hcl⟩, hcr⟩ := hc
    simp only [if_true] at hs
    subst hs
    have il := genL_ok L O hL l true 0 s hcl rfl
    have ir : ∀ s', s'.mem = s.mem → DoesL L O (gen r) 2 s' (r.val O s.mem) (r.calls O s.mem) := by
      intro s' hm
      have := genL_ok L O hL r false 2 s' hcr rfl
      rw [hm] at this; exact this
    obtain ⟨c, s2, cs, k1, k2, k3, k4, k5, k6, k7⟩ := operands L O (gen l) (gen r) s _ _ _ _ il ir (.rel o) [o.post] 0
      (fun sp => emit [.call (.rel o), o.post] sp) rfl
    have hp : Passes ⟨.rel o, s2.a 0, s2.a 1, s2.a 2, s2.a 3⟩ (.rel o (l.val O s.mem) (r.val O s.mem)) := ⟨rfl, k6, k7⟩
    have hret := hL _ _ hp
    simp only at hret
    refine ⟨c, by rw [genI]; exact k1, ?_, ?_, ?_, cs ++ [⟨.rel o, s2.a 0, s2.a 1, s2.a 2, s2.a 3⟩], ?_, ?_⟩
    · rw [k2]
      cases o <;> simp [exec, step, hret, IE.val, Rel.post, Rel.holds]
      congr 1
      apply propext
      omega
    · intro j hj; omega
    · rw [k2]; cases o <;> simp [exec, step, Rel.post, k3]
    · rw [k2]; cases o <;> simp [exec, step, Rel.post, k4]
    · rw [IE.calls]
      exact k5.append ⟨hp, trivial⟩
  | toInt t e =>
    simp only [IE.Chain, Bool.and_eq_true] at hc
    obtain ⟨rfl, hc⟩ := hc
    simp only [if_true] at hs
    subst hs
    obtain ⟨c, g, h1, h2, -, h3, cs, h4, h5⟩ := genL_ok L O hL e true 0 s hc rfl
    generalize hx : exec L s c = s1 at h1 h2 h3 h4
    have hp : Passes ⟨t.fix, s1.fs 0, s1.fs 1, s1.a 2, s1.a 3⟩ (.toInt t (e.val O s.mem)) := ⟨by cases t <;> rfl, by rw [h1, show s1.fs 1 = _ from h2]⟩
    have hret := hL _ _ hp
    simp only at hret
    refine ⟨c ++ ([.fmvXD 1 1, .fmvXD 0 0] ++ (.call t.fix :: t.post)), ?_, ?_, ?_, ?_, cs ++ [⟨t.fix, s1.fs 0, s1.fs 1, s1.a 2, s1.a 3⟩], ?_, ?_⟩
    · rw [genI]; exact seq_ok g (seq_ok (popA L s).2 rfl)
    · rw [exec_append, hx]
      cases t <;> simp [exec, step, IntTy.post, hret, IE.val, IntTy.norm]
      · exact trunc_s _
      · exact trunc_u _
    · intro j hj; omega
    · rw [exec_append, hx]; cases t <;> simp [exec, step, IntTy.post, h3]
    · rw [exec_append, hx]; cases t <;> simp [exec, step, IntTy.post, h4]
    · rw [IE.calls]
      exact h5.append ⟨hp, trivial⟩
  | isZero e =>
    simp only [IE.Chain, Bool.and_eq_true] at hc
    obtain ⟨rfl, hc⟩ := hc
    simp only [if_true] at hs
    subst hs
    obtain ⟨c, g, h1, h2, -, h3, cs, h4, h5⟩ := genL_ok L O hL e true 0 s hc rfl
    generalize hx : exec L s c = s1 at h1 h2 h3 h4
    have hp : Passes ⟨.rel .ne, s1.fs 0, s1.fs 1, 0, 0⟩ (.rel .ne (e.val O s.mem) ⟨0, 0⟩) := ⟨rfl, by rw [h1, show s1.fs 1 = _ from h2], rfl⟩
    have hret := hL _ _ hp
    simp only at hret
    refine ⟨c ++ ([.fmvXD 1 1, .fmvXD 0 0] ++ [.li 2 0, .li 3 0, .call (.rel .ne), .seqz]), ?_, ?_, ?_, ?_, cs ++ [⟨.rel .ne, s1.fs 0, s1.fs 1, 0, 0⟩], ?_, ?_⟩
    · rw [genI]; exact seq_ok g (seq_ok (popA L s).2 rfl)
    · rw [exec_append, hx]
      have hret : (L.ret ⟨.rel .ne, s1.fs 0, s1.fs 1, 0#64, 0#64⟩).1 = O.rel .ne (e.val O s.mem) ⟨0#64, 0#64⟩ := hret
      simp [exec, step, hret, IE.val]
    · intro j hj; omega
    · rw [exec_append, hx]; simp [exec, step, h3]
    · rw [exec_append, hx]; simp [exec, step, h4]
    · rw [IE.calls]
      exact h5.append ⟨hp, trivial⟩
end

/-- **C55 (partial)** For every expression in which the right operand of a long double operator is a constant, a
variable or a converted integer (left operands nest without bound) and no operand is negated: the code compiles, makes
exactly the calls the operators ask for, in order, each with its operands in the argument registers of the ABI, and
leaves the value on top of the register stack. For every library, whatever its routines leave in other registers.

Missing from the full statement: operators as right operands and negation (`C55_violated_*`), and arguments and
results of C functions, which are not modelled. -/
theorem C55_operands_partial (L : Lib) (O : Ops) (hL : L.Implements O) (e : LE) (s : State) (hc : e.Chain true = true) :
    ∃ c cs, gen e 0 = .ok (c, 2) ∧ (exec L s c).log = s.log ++ cs ∧ Same cs (e.calls O s.mem) ∧
      (⟨(exec L s c).fs 0, (exec L s c).fs 1⟩ : LD) = e.val O s.mem ∧ (exec L s c).mem = s.mem := by
  obtain ⟨c, g, h1, h2, -, h3, cs, h4, h5⟩ := genL_ok L O hL e true 0 s hc rfl
  refine ⟨c, cs, g, h4, h5, ?_, h3⟩
  rw [h1, show (exec L s c).fs 1 = _ from h2]

/-- **C55 (partial)** The same for comparisons, conversions to integers and `!`: the result is in a0 and the register
stack is empty again. -/
theorem C55_integers_partial (L : Lib) (O : Ops) (hL : L.Implements O) (e : IE) (s : State) (hc : e.Chain true = true) :
    ∃ c cs, genI e 0 = .ok (c, 0) ∧ (exec L s c).log = s.log ++ cs ∧ Same cs (e.calls O s.mem) ∧
      (exec L s c).a 0 = e.val O s.mem ∧ (exec L s c).mem = s.mem := by
  obtain ⟨c, g, h1, -, h3, cs, h4, h5⟩ := genI_ok L O hL e true 0 s hc rfl
  exact ⟨c, cs, g, h4, h5, h1, h3⟩

/-- `((x + 1) * y - 2.5) < (long double)n` is in the class. -/
example : (IE.rel .lt (.bin .sub (.bin .mul (.bin .add (.var 64) (.ofInt .i32 (.num 1))) (.var 80)) (.lit ⟨0, 5⟩)) (.ofInt .i64 (.num 7))).Chain true = true := by
  decide

/-- A library that meets the hypothesis, with a counting result. -/
example : ∃ L O, Lib.Implements L O := by
  refine ⟨⟨fun c => (c.a0, 3), fun _ _ => 0⟩, ⟨fun _ x _ => ⟨x.lo, 3⟩, fun _ x _ => x.lo, fun _ n => ⟨n, 3⟩, fun _ x => x.lo, id⟩, ?_⟩
  intro c v h
  cases v <;> simp only [Passes] at h <;> obtain ⟨_, h⟩ := h
  · obtain ⟨rfl, _⟩ := h; rfl
  · obtain ⟨rfl, _⟩ := h; rfl
  · subst h; rfl
  · subst h; rfl

/-- **C55 is violated** by an operator as right operand: `x - (y - z)` with literals subtracts `y` from `z`, for all
values and every library. -/
theorem C55_violated_right (L : Lib) (x y z : LD) (s : State) :
    ∃ c c2, gen (.bin .sub (.lit x) (.bin .sub (.lit y) (.lit z))) 0 = .ok (c, 2) ∧
      (exec L s c).log = s.log ++ [⟨.arith .sub, z.lo, z.hi, y.lo, y.hi⟩, c2] :=
  ⟨_, _, rfl, by simp [exec, step]; rfl⟩

/-- **C55 is violated**: with variables, the routine gets the address of the last operand as half of its first one. -/
theorem C55_violated_variables (L : Lib) (x y z : W) (s : State) :
    ∃ c c1 c2, gen (.bin .mul (.var x) (.bin .mul (.var y) (.var z))) 0 = .ok (c, 2) ∧
      (exec L s c).log = s.log ++ [c1, c2] ∧ c1.a0 = z ∧ c1.a2 = s.mem y :=
  ⟨_, _, _, rfl, by simp [exec, step]; exact ⟨rfl, rfl⟩, by simp, by simp⟩

/-- **C55 is violated** by unary minus: the value is not changed, for any operand in the class. -/
theorem C55_violated_negation (L : Lib) (O : Ops) (hL : L.Implements O) (e : LE) (s : State) (hc : e.Chain true = true) :
    ∃ c, gen (.neg e) 0 = .ok (c, 2) ∧ (⟨(exec L s c).fs 0, (exec L s c).fs 1⟩ : LD) = e.val O s.mem := by
  obtain ⟨c, cs, h1, -, -, h4, -⟩ := C55_operands_partial L O hL e s hc
  refine ⟨c ++ [.shl63, .xorT0 3], ?_, ?_⟩
  · rw [gen]; exact seq_ok h1 rfl
  · rw [exec_append]
    rw [← h4]
    rfl

/-- **C55 is violated** by six nested operands: the register stack is full and the program is rejected. -/
theorem C55_violated_depth (v : LD) (o : Arith) :
    gen (.bin o (.lit v) (.bin o (.lit v) (.bin o (.lit v) (.bin o (.lit v) (.bin o (.lit v) (.lit v)))))) 0 = .error .tooDeep := rfl

end Toycc.Ld
