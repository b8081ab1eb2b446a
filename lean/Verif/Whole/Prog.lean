import Verif.Whole.Call
import Verif.Whole.Up
/-! All calls of a program, by induction over the depth of calls. -/
namespace Toycc.Whole
open Toycc.Rv Toycc.Cg Toycc.Fn
open Toycc.Stm hiding exec
open Toycc.Frame hiding St

/-- The code of function `f` is at `pos`. -/
def CodeOf (P : Prog) (f : Func) (pos : Nat) : Prop :=
  ∃ fr pro c uid uid' gs gs', layout f.frame = .ok fr ∧ prologue f.frame fr = some pro ∧ compileBody f.name uid f.body gs = some (c, uid', gs') ∧
    gs.depth = 0 ∧ CodeAt P pos (.label (.sym f.name) :: (intOnly pro ++ c ++ intOnly (epilogue f.frame)))

variable {F : List Func} {X : Ext} {sym : Label → W} {P : Prog} {env : Env}

theorem lay_of {f : Func} {fr : Frame} (h : layout f.frame = .ok fr) : f.lay = some fr := by rw [Func.lay, h]; rfl

theorem callFn_typed {E : CEnv} {n : Nat} {f : Func} {fr : Frame} {vs : List Int} {m m' : Mem} {v : Int} (h : callFn E n f fr vs m = some (v, m'))
    (hs : f.ret.scalar = true) : inRange f.ret v = true := by
  have := indep_all h (fun _ => 0)
  split at this
  · rw [Option.map_eq_some_iff] at this
    obtain ⟨w, h1, h2⟩ := this
    cases h2
    exact result_range h1 hs
  · cases this

theorem envOf_fp (n : Nat) (fp B : W) (valid : W → Bool) (room : Nat) : (envOf F X sym n fp B valid room).fp = fp := by cases n <;> rfl
theorem envOf_sym (n : Nat) (fp B : W) (valid : W → Bool) (room : Nat) : (envOf F X sym n fp B valid room).sym = sym := by cases n <;> rfl
theorem envOf_valid (n : Nat) (fp B : W) (valid : W → Bool) (room : Nat) : (envOf F X sym n fp B valid room).valid = valid := by cases n <;> rfl
theorem envOf_room (n : Nat) (fp B : W) (valid : W → Bool) (room : Nat) : (envOf F X sym n fp B valid room).room = room := by cases n <;> rfl

/-- The two kinds of calls. -/
theorem envOf_call {n : Nat} {fp B : W} {valid : W → Bool} {room : Nat} {fa : W} {k : Nat} {ty : Ty} {vs : List (Ty × Int)} {m : Mem} {r : Int × Mem}
    (h : (envOf F X sym n fp B valid room).call fa k ty vs m = some r) :
    (F.find? (fun f => decide (sym (.sym f.name) = fa)) = none ∧ X valid (room - k) fa ty vs m = some r) ∨
    ∃ f n' fr, F.find? (fun f => decide (sym (.sym f.name) = fa)) = some f ∧ n = n' + 1 ∧ f.lay = some fr ∧ ty = f.ret ∧ vs.map (·.1) = f.params ∧
      k + Func.bytes fr / 8 + f.temps ≤ room ∧
      callFn (envOf F X sym n' (B - BitVec.ofNat 64 (8 * k) - 8 - 8) (B - BitVec.ofNat 64 (8 * (k + Func.bytes fr / 8)))
        (fun b => valid b || inObjs (B - BitVec.ofNat 64 (8 * k) - 8 - 8) (f.objs fr) b) (room - (k + Func.bytes fr / 8))) n' f fr (vs.map (·.2)) m = some r := by
  have key : ∀ body, (within F X sym body fp B valid room).call fa k ty vs m = some r →
      (F.find? (fun f => decide (sym (.sym f.name) = fa)) = none ∧ X valid (room - k) fa ty vs m = some r) ∨
      ∃ f fr, F.find? (fun f => decide (sym (.sym f.name) = fa)) = some f ∧ f.lay = some fr ∧ ty = f.ret ∧ vs.map (·.1) = f.params ∧
        k + Func.bytes fr / 8 + f.temps ≤ room ∧
        body f fr (B - BitVec.ofNat 64 (8 * k) - 8 - 8) (B - BitVec.ofNat 64 (8 * (k + Func.bytes fr / 8)))
          (fun b => valid b || inObjs (B - BitVec.ofNat 64 (8 * k) - 8 - 8) (f.objs fr) b) (room - (k + Func.bytes fr / 8)) (vs.map (·.2)) m = some r := by
    intro body h
    simp only [within] at h
    cases hf : F.find? (fun f => decide (sym (.sym f.name) = fa)) with
    | none => rw [hf] at h; exact .inl ⟨rfl, h⟩
    | some f =>
      rw [hf] at h
      dsimp only at h
      cases hfr : f.lay with
      | none => rw [hfr] at h; cases h
      | some fr =>
        rw [hfr] at h
        dsimp only at h
        split at h
        · rename_i hc
          refine .inr ⟨f, fr, rfl, hfr, hc.1, hc.2.1, hc.2.2, ?_⟩
          have e : B - BitVec.ofNat 64 (8 * k) - 16 = B - BitVec.ofNat 64 (8 * k) - 8 - 8 := (sub_sixteen _).symm
          rw [e] at h
          exact h
        · cases h
  cases n with
  | zero =>
    rcases key _ h with h | ⟨_, _, _, _, _, _, _, h⟩
    · exact .inl h
    · cases h
  | succ n =>
    rcases key _ h with h | ⟨f, fr, h1, h2, h3, h4, h5, h6⟩
    · exact .inl h
    · exact .inr ⟨f, n, fr, h1, rfl, h2, h3, h4, h5, h6⟩

theorem argAt_reg {s : St} {i : Nat} {r : Reg} (h : argRegs[i]? = some r) : argAt s i = s.r r := by
  unfold argAt; rw [h]

theorem argAt_ra (s : St) (x : W) (i : Nat) : argAt (s.set .ra x) i = argAt s i := by
  unfold argAt
  cases h : argRegs[i]? with
  | none => dsimp only; rw [r_set_ne _ _ _ _ (by decide), mem_set]
  | some r => dsimp only; rw [r_set_ne _ _ _ _ (argReg_ne h).2.2.2.2]

theorem argReg_lt {i : Nat} (h : i < 8) : ∃ r, argRegs[i]? = some r :=
  ⟨argRegs[i]'(by simpa [argRegs] using h), List.getElem?_eq_getElem _⟩

theorem find_fn {fa : W} {f : Func} (h : F.find? (fun f => decide (sym (.sym f.name) = fa)) = some f) : f ∈ F ∧ sym (.sym f.name) = fa :=
  ⟨List.mem_of_find?_eq_some h, by simpa using List.find?_some h⟩

/-- Calling a function of the program with the machine already at its first instruction. -/
theorem enter_runs (hload : Loaded P env sym F) (hext : ExtOk env X) (hu : UniqueLabels P) (hwf : ∀ f ∈ F, Wf f) (hcode : ∀ f ∈ F, ∃ pos, CodeOf P f pos)
    (n' : Nat) (ih : ∀ fp B valid room, 8 * room < 2 ^ 64 → (∀ b, idx B b < 8 * room → valid b = false) →
      World (envOf F X sym n' fp B valid room) B env P ∧ (envOf F X sym n' fp B valid room).CallsTyped)
    {B : W} {valid : W → Bool} {room k : Nat} (hroom : 8 * room < 2 ^ 64) (hst : ∀ b, idx B b < 8 * room → valid b = false)
    {f : Func} (hf : f ∈ F) {fr : Frame} (hlay : f.lay = some fr) {vs : List (Ty × Int)} (hty : vs.map (·.1) = f.params)
    (hfit : k + Func.bytes fr / 8 + f.temps ≤ room) {m m' : Mem} {v : Int}
    (hcall : callFn (envOf F X sym n' (B - BitVec.ofNat 64 (8 * k) - 8 - 8) (B - BitVec.ofNat 64 (8 * (k + Func.bytes fr / 8)))
        (fun b => valid b || inObjs (B - BitVec.ofNat 64 (8 * k) - 8 - 8) (f.objs fr) b) (room - (k + Func.bytes fr / 8))) n' f fr (vs.map (·.2)) m = some (v, m'))
    {s : St} (hsp : s.r .sp = B - BitVec.ofNat 64 (8 * k)) (hm : ∀ b, valid b = true → s.mem b = m b)
    (ha : ∀ (i : Nat) (t : Ty) (x : Int), vs[i]? = some (t, x) → ArgRep t x (argAt s i)) {t : Nat} (hra : env.index (s.r .ra) = some t) :
    ∃ pos, find P (.sym f.name) = some pos ∧ ∃ s', Runs P env (pos, s) (t, s') ∧ s'.r .sp = s.r .sp ∧ s'.r .fp = s.r .fp ∧ (∀ b, valid b = true → s'.mem b = m' b) ∧
      RetRep f.ret v (s'.r .a0) ∧
      (∀ b, valid b = false → ¬ (8 * k ≤ idx B b ∧ idx B b < 8 * room) → s'.mem b = s.mem b) := by
  obtain ⟨pos, fr', pro, c, uid, uid', gs, gs', h1, h2, h3, h4, h5⟩ := hcode f hf
  have hw := hwf f hf
  rw [lay_of h1] at hlay
  cases hlay
  have hby := (bytes_eq hw h1).1
  obtain ⟨w1, w2⟩ := ih (B - BitVec.ofNat 64 (8 * k) - 8 - 8) (B - BitVec.ofNat 64 (8 * (k + Func.bytes fr / 8)))
        (fun b => valid b || inObjs (B - BitVec.ofNat 64 (8 * k) - 8 - 8) (f.objs fr) b) (room - (k + Func.bytes fr / 8)) (by omega) (by
      intro b hb
      have e := idx_down (B := B) (b := b) (K := 8 * (k + Func.bytes fr / 8)) (by omega)
      have hv := hst b (by omega)
      have hneg : ∀ p ∈ f.slots fr, p.2 ≤ 0 := (enter (env := env) hw.few hw.scalar h2 (vs := vs.map (·.2)) (s := s)
        (by rw [List.length_map, ← hty, List.length_map]) (by
          intro i t x e1 e2
          have hi : i < 8 := by
            have := (List.getElem?_eq_some_iff.mp e1).1
            have := hw.few
            omega
          obtain ⟨r, hr⟩ := argReg_lt hi
          refine ⟨r, hr, ?_⟩
          rw [← argAt_reg hr]
          apply ha
          rw [← hty, List.getElem?_map, Option.map_eq_some_iff] at e1
          rw [List.getElem?_map, Option.map_eq_some_iff] at e2
          obtain ⟨p, p1, p2⟩ := e1
          obtain ⟨q, q1, q2⟩ := e2
          rw [p1] at q1; cases q1
          rw [p1, ← p2, ← q2])).1
      have ho : inObjs (B - BitVec.ofNat 64 (8 * k) - 8 - 8) (f.objs fr) b = false := by
        cases h : inObjs (B - BitVec.ofNat 64 (8 * k) - 8 - 8) (f.objs fr) b with
        | false => rfl
        | true =>
          have := (objs_idx hw h1 hneg (by omega) h).2.1
          have := idx_down (B := B) (b := b) (K := 8 * k) (by omega)
          omega
      show (valid b || _) = false
      rw [hv, ho]; rfl)
  refine ⟨pos, find_eq hu h5.head, ?_⟩
  refine fn_runs hw h1 h2 h3 h4 h5 hroom hst hfit w1 w2 (envOf_fp ..) (envOf_valid ..) (envOf_room ..) hcall hsp hm
    (by rw [List.length_map, ← hty, List.length_map]) ?_ hra
  intro i t x e1 e2
  have hi : i < 8 := by
    have := (List.getElem?_eq_some_iff.mp e1).1
    have := hw.few
    omega
  obtain ⟨r, hr⟩ := argReg_lt hi
  refine ⟨r, hr, ?_⟩
  rw [← argAt_reg hr]
  apply ha
  rw [← hty, List.getElem?_map, Option.map_eq_some_iff] at e1
  rw [List.getElem?_map, Option.map_eq_some_iff] at e2
  obtain ⟨p, p1, p2⟩ := e1
  obtain ⟨q, q1, q2⟩ := e2
  rw [p1] at q1; cases q1
  rw [p1, ← p2, ← q2]

/-- A call of a function outside. -/
theorem ext_runs (hload : Loaded P env sym F) (hext : ExtOk env X) {B : W} {valid : W → Bool} {room k : Nat} (hroom : 8 * room < 2 ^ 64)
    {fa : W} {ty : Ty} {vs : List (Ty × Int)} {m m' : Mem} {v : Int} (hX : X valid (room - k) fa ty vs m = some (v, m'))
    {pc : Nat} {s : St} (hpc : P[pc]? = some (Instr.jalr .t0)) (ht0 : s.r .t0 = fa) (hsp : s.r .sp = B - BitVec.ofNat 64 (8 * k))
    (hm : ∀ b, valid b = true → s.mem b = m b)
    (ha : ∀ (i : Nat) (t : Ty) (x : Int), vs[i]? = some (t, x) → ArgRep t x (argAt s i)) :
    ∃ s', Runs P env (pc, s) (pc + 1, s') ∧ s'.r .sp = s.r .sp ∧ s'.r .fp = s.r .fp ∧ (∀ b, valid b = true → s'.mem b = m' b) ∧
      RetRep ty v (s'.r .a0) ∧ (∀ b, valid b = false → ¬ (8 * k ≤ idx B b ∧ idx B b < 8 * room) → s'.mem b = s.mem b) := by
  obtain ⟨h1, _, h2⟩ := hext _ _ _ _ _ _ _ _ hX
  obtain ⟨s', e1, e2, e3, e4, e5, e6⟩ := h2 (s.set .ra (env.addr (pc + 1))) hm (by
    intro i t x h
    rw [argAt_ra]
    exact ha i t x h)
  rw [r_set_ne _ _ _ _ (by decide)] at e2 e3 e6
  refine ⟨s', Runs.one ?_, e2, e3, e4, e5, ?_⟩
  · unfold step
    rw [hpc]
    simp only [ht0, h1, e1, Option.map_some]
  · intro b hb hn
    refine e6 b hb ?_
    intro hlt
    rw [hsp] at hlt
    have := idx_down (B := B) (b := b) (K := 8 * k) (by omega)
    omega

theorem world_step (hload : Loaded P env sym F) (hext : ExtOk env X) (hu : UniqueLabels P) (hwf : ∀ f ∈ F, Wf f) (hcode : ∀ f ∈ F, ∃ pos, CodeOf P f pos)
    (n : Nat) (ih : ∀ n', n = n' + 1 → ∀ fp B valid room, 8 * room < 2 ^ 64 → (∀ b, idx B b < 8 * room → valid b = false) →
      World (envOf F X sym n' fp B valid room) B env P ∧ (envOf F X sym n' fp B valid room).CallsTyped)
    (fp B : W) (valid : W → Bool) (room : Nat) (hroom : 8 * room < 2 ^ 64) (hst : ∀ b, idx B b < 8 * room → valid b = false) :
    World (envOf F X sym n fp B valid room) B env P ∧ (envOf F X sym n fp B valid room).CallsTyped := by
  refine ⟨⟨by rwa [envOf_room], by rwa [envOf_room, envOf_valid], by rw [envOf_sym]; exact hload.syms, hu, ?_⟩, ?_⟩
  · intro fa k ty vs m v m' hcall pc s hpc ht0 hm ha
    have hval : ∀ b, valid b = true → s.mem b = m b := by
      intro b hb
      exact hm.mem b (by rwa [envOf_valid])
    have fin : (∃ s', Runs P env (pc, s) (pc + 1, s') ∧ s'.r .sp = s.r .sp ∧ s'.r .fp = s.r .fp ∧ (∀ b, valid b = true → s'.mem b = m' b) ∧
      RetRep ty v (s'.r .a0) ∧ (∀ b, valid b = false → ¬ (8 * k ≤ idx B b ∧ idx B b < 8 * room) → s'.mem b = s.mem b)) →
      ∃ s', Runs P env (pc, s) (pc + 1, s') ∧ Match (envOf F X sym n fp B valid room) B k m' s' ∧ RetRep ty v (s'.r .a0) ∧
        Keeps (envOf F X sym n fp B valid room) B k s.mem s'.mem := by
      rintro ⟨s', r1, r2, r3, r4, r5, r6⟩
      refine ⟨s', r1, ⟨by rw [r2, hm.sp], by rw [r3, hm.fp], by rwa [envOf_valid]⟩, r5, ?_⟩
      intro b h1 h2
      rw [envOf_valid] at h1
      rw [envOf_room] at h2
      exact r6 b h1 h2
    apply fin
    rcases envOf_call hcall with ⟨_, hX⟩ | ⟨f, n', fr, hf, hn, hlay, rfl, hty, hfit, hc⟩
    · exact ext_runs hload hext hroom hX hpc ht0 hm.sp hval ha
    · obtain ⟨hfF, hsym⟩ := find_fn hf
      have hpl : pc < P.length := (List.getElem?_eq_some_iff.mp hpc).1
      obtain ⟨pos, hpos, s', r1, r2, r3, r4, r5, r6⟩ := enter_runs hload hext hu hwf hcode n' (ih n' hn) hroom hst hfF hlay hty hfit hc
        (s := s.set .ra (env.addr (pc + 1))) (t := pc + 1) (by rw [r_set_ne _ _ _ _ (by decide), hm.sp]) hval (by
          intro i t x h
          rw [argAt_ra]
          exact ha i t x h) (by
          rw [r_set_same _ _ _ (by decide)]
          exact hload.back _ (by omega))
      rw [r_set_ne _ _ _ _ (by decide)] at r2 r3
      refine ⟨s', (Runs.one ?_).trans r1, r2, r3, r4, r5, r6⟩
      unfold step
      rw [hpc]
      simp only [ht0, ← hsym, hload.fns f hfF, hpos]
  · intro a k ty vs m v m' hcall hs
    rcases envOf_call hcall with ⟨_, hX⟩ | ⟨f, n', fr, _, _, _, rfl, _, _, hc⟩
    · exact (hext _ _ _ _ _ _ _ _ hX).2.1 hs
    · exact callFn_typed hc hs

/-- Calls between functions meet the assumptions under which expressions and statements are compiled right. -/
theorem world (hload : Loaded P env sym F) (hext : ExtOk env X) (hu : UniqueLabels P) (hwf : ∀ f ∈ F, Wf f) (hcode : ∀ f ∈ F, ∃ pos, CodeOf P f pos) :
    ∀ (n : Nat) (fp B : W) (valid : W → Bool) (room : Nat), 8 * room < 2 ^ 64 → (∀ b, idx B b < 8 * room → valid b = false) →
      World (envOf F X sym n fp B valid room) B env P ∧ (envOf F X sym n fp B valid room).CallsTyped := by
  intro n
  induction n with
  | zero => exact world_step hload hext hu hwf hcode 0 (fun n' h => by cases h)
  | succ n ih => exact world_step hload hext hu hwf hcode (n + 1) (fun n' h => by cases h; exact ih)

end Toycc.Whole
