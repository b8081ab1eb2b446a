import Verif.Fp.Spec
import Verif.Cg.ExprCall
import Verif.Cg.SimpleProof
/-! The integer machine inside the machine with floating-point registers. -/
namespace Toycc.Fp
open Toycc.Rv
open Toycc.Cg (GS Var BinOp CEnv boolC World Match Keeps Rep Same slot idx)

def CodeAt (P : Prog) (pc : Nat) (c : List Instr) : Prop := ∀ i, i < c.length → P[pc + i]? = c[i]?

theorem CodeAt.left {P pc a b} (h : CodeAt P pc (a ++ b)) : CodeAt P pc a := by
  intro i hi
  rw [h i (by simp; omega), List.getElem?_append_left hi]

theorem CodeAt.right {P pc a b} (h : CodeAt P pc (a ++ b)) : CodeAt P (pc + a.length) b := by
  intro i hi
  have := h (a.length + i) (by simp; omega)
  rw [List.getElem?_append_right (by omega)] at this
  rw [Nat.add_assoc, this]
  congr 1; omega

theorem CodeAt.head {P pc x b} (h : CodeAt P pc (x :: b)) : P[pc]? = some x := by
  have := h 0 (by simp)
  simpa using this

theorem CodeAt.tail {P pc x b} (h : CodeAt P pc (x :: b)) : CodeAt P (pc + 1) b := by
  have := CodeAt.right (a := [x]) h
  simpa using this

theorem codeAt_self (c : List Instr) : CodeAt c 0 c := by
  intro i _; rw [Nat.zero_add]

theorem getElem?_proj (P : Prog) (i : Nat) : (proj P)[i]? = P[i]?.map Instr.rv := by
  unfold proj; rw [List.getElem?_map]

theorem CodeAt.proj {P pc c} (h : CodeAt P pc (lift c)) : Rv.CodeAt (proj P) pc c := by
  intro i hi
  rw [getElem?_proj, h i (by simpa [lift] using hi), lift, List.getElem?_map, Option.map_map]
  cases c[i]? <;> rfl

theorem length_lift (c : List Rv.Instr) : (lift c).length = c.length := by simp [lift]

variable {F : Fpu} {P : Prog} {env : Env}

theorem Runs.refl {c} : Runs F P env c c := ⟨0, .zero c⟩

theorem StepN.trans {a b c m n} (h1 : StepN F P env m a b) (h2 : StepN F P env n b c) : StepN F P env (m + n) a c := by
  induction h1 with
  | zero => simpa using h2
  | succ hs _ ih =>
    have := StepN.succ hs (ih h2)
    rw [show ∀ k : Nat, k + 1 + n = k + n + 1 from fun k => by omega]
    exact this

theorem Runs.trans {a b c} (h1 : Runs F P env a b) (h2 : Runs F P env b c) : Runs F P env a c :=
  let ⟨_, h1⟩ := h1
  let ⟨_, h2⟩ := h2
  ⟨_, h1.trans h2⟩

theorem Runs.one {a b} (h : step F P env a = some b) : Runs F P env a b := ⟨1, .succ h (.zero b)⟩

/-- One step of the integer machine. -/
theorem step_rv (hn : find (proj P) nowhere = none) {pc pc' : Nat} {x x' : Rv.St} (f : FReg → W)
    (h : Rv.step (proj P) env.rv (pc, x) = some (pc', x')) :
    ∃ i, P[pc]? = some (.int i) ∧ step F P env (pc, ⟨x, f⟩) = some (pc', ⟨x', after env i ⟨x, f⟩⟩) := by
  cases hi : P[pc]? with
  | none => simp [Rv.step, getElem?_proj, hi] at h
  | some i =>
    cases i with
    | int i => exact ⟨i, rfl, by simp [step, hi, h]⟩
    | _ => simp [Rv.step, getElem?_proj, hi, Instr.rv, branch, hn] at h

/-- A run of the integer machine. -/
theorem runs_rv (hn : find (proj P) nowhere = none) {c c' : Nat × Rv.St} (h : Rv.Runs (proj P) env.rv c c') (f : FReg → W) :
    ∃ f', Runs F P env (c.1, ⟨c.2, f⟩) (c'.1, ⟨c'.2, f'⟩) := by
  obtain ⟨n, h⟩ := h
  induction h generalizing f with
  | zero c => exact ⟨f, .refl⟩
  | succ hs _ ih =>
    rename_i c c1 c2 _
    obtain ⟨i, _, h2⟩ := step_rv (F := F) hn f (show Rv.step (proj P) env.rv (c.1, c.2) = some (c1.1, c1.2) from hs)
    obtain ⟨f', h3⟩ := ih (after env i ⟨c.2, f⟩)
    exact ⟨f', (Runs.one h2).trans h3⟩

/-- An instruction of the integer part that does not transfer control keeps the floating-point registers. -/
theorem step_int {pc i s x'} (hi : P[pc]? = some (.int i)) (h : Rv.exec env.rv i s.x = some x') :
    step F P env (pc, s) = some (pc + 1, ⟨x', s.f⟩) := by
  have h1 : Rv.step (proj P) env.rv (pc, s.x) = some (pc + 1, x') :=
    Rv.step_exec (by rw [getElem?_proj, hi]; rfl) h
  simp only [step, hi, h1, Option.map_some, after]
  cases i <;> first | rfl | simp [Rv.exec] at h

theorem runs_execL {c pc s x'} (hc : CodeAt P pc (lift c)) (h : Rv.execL env.rv c s.x = some x') :
    Runs F P env (pc, s) (pc + c.length, ⟨x', s.f⟩) := by
  induction c generalizing pc s with
  | nil => simp only [execL, Option.some.injEq] at h; subst h; exact .refl
  | cons i r ih =>
    simp only [execL, Option.bind_eq_some_iff] at h
    obtain ⟨t, h1, h2⟩ := h
    have h3 : CodeAt P pc (.int i :: lift r) := hc
    have := ih (s := ⟨t, s.f⟩) h3.tail h2
    rw [List.length_cons, show pc + (r.length + 1) = pc + 1 + r.length by omega]
    exact (Runs.one (step_int h3.head h1)).trans this

/-- A floating-point instruction. -/
theorem step_fp {pc i s s'} (hi : P[pc]? = some i) (h : execF F i s = some s') : step F P env (pc, s) = some (pc + 1, s') := by
  cases i <;> simp only [step, hi, h, Option.map_some] <;> simp [execF] at h

theorem step_j {pc s l t} (hi : P[pc]? = some (.int (.j l))) (ht : find (proj P) l = some t) :
    step F P env (pc, s) = some (t, s) := by
  have h1 : Rv.step (proj P) env.rv (pc, s.x) = some (t, s.x) := Rv.step_j (by rw [getElem?_proj, hi]; rfl) ht
  simp only [step, hi, h1, Option.map_some, after]

theorem step_bnez {pc s l t r} (hi : P[pc]? = some (.int (.bnez r l))) (ht : find (proj P) l = some t) :
    step F P env (pc, s) = some (if s.x.r r = 0 then pc + 1 else t, s) := by
  have h1 : Rv.step (proj P) env.rv (pc, s.x) = _ := Rv.step_bnez (by rw [getElem?_proj, hi]; rfl) ht
  simp only [step, hi, h1, Option.map_some, after]

theorem step_beqz {pc s l t r} (hi : P[pc]? = some (.int (.beqz r l))) (ht : find (proj P) l = some t) :
    step F P env (pc, s) = some (if s.x.r r = 0 then t else pc + 1, s) := by
  have h1 : Rv.step (proj P) env.rv (pc, s.x) = _ := Rv.step_beqz (by rw [getElem?_proj, hi]; rfl) ht
  simp only [step, hi, h1, Option.map_some, after]

/-- Assumptions about the surroundings: those of the integer code, for the program without its floating-point instructions. -/
structure Surr (E : CEnv) (B : W) (env : Env) (P : Prog) : Prop where
  world : World E B env.rv (proj P)
  stuck : find (proj P) nowhere = none

/-- fa0 or a0 holds the value. -/
def Holds (v : Val) (s : St) : Prop :=
  match v with
  | .int v => Rep .full v (s.x.r .a0)
  | .flt p b => s.f .fa0 = box p b

/-- A value of the type. -/
def Typed (t : Ty) (v : Val) : Prop :=
  match t, v with
  | .int t, .int v => Cg.inV t v
  | .flt .s, .flt .s _ => True
  | .flt .d, .flt .d _ => True
  | _, _ => False

/-- A successful evaluation. -/
def Res (F : Fpu) (E : CEnv) (B : W) (env : Env) (P : Prog) (d pc len : Nat) (s : St) (v : Val) (m' : Mem) : Prop :=
  ∃ s', Runs F P env (pc, s) (pc + len, s') ∧ Match E B d m' s'.x ∧ Holds v s' ∧ Keeps E B d s.x.mem s'.x.mem

variable {E : CEnv} {B : W}

theorem unbox_box (p : Prec) (b : Bits p) : unbox p (box p b) = b := by
  cases p with
  | s =>
    have hb := b.isLt
    have hb' : b.toNat < 2 ^ 32 := hb
    have e : (box .s b).toNat = 0xFFFFFFFF * 2 ^ 32 + b.toNat := by
      rw [box, BitVec.toNat_ofNat]; omega
    rw [unbox, if_pos (by rw [e]; omega)]
    apply BitVec.eq_of_toNat_eq
    rw [BitVec.toNat_setWidth, e]
    show _ = b.toNat
    omega
  | d => rfl

theorem Res.bind {d pc l1 l2 s v m v' m'} (h : Res F E B env P d pc l1 s v m)
    (H : ∀ s1, Match E B d m s1.x → Holds v s1 → Res F E B env P d (pc + l1) l2 s1 v' m') :
    Res F E B env P d pc (l1 + l2) s v' m' := by
  obtain ⟨s1, h1, h2, h3, h4⟩ := h
  obtain ⟨s2, g1, g2, g3, g4⟩ := H s1 h2 h3
  rw [Nat.add_assoc] at g1
  exact ⟨s2, h1.trans g1, g2, g3, h4.trans g4⟩

/-- Integer instructions that change only scratch registers. -/
theorem Res.piece {d pc s v m v'} {c1 : List Instr} {c2 : List Rv.Instr} (h : Res F E B env P d pc c1.length s v m)
    (hc : CodeAt P (pc + c1.length) (lift c2)) {L : List Reg} (hL : Reg.sp ∉ L ∧ Reg.fp ∉ L)
    (H : ∀ s1, Match E B d m s1.x → Holds v s1 →
      ∃ x2, execL env.rv c2 s1.x = some x2 ∧ Same L s1.x x2 ∧ x2.mem = s1.x.mem ∧ Holds v' ⟨x2, s1.f⟩) :
    Res F E B env P d pc (c1 ++ lift c2).length s v' m := by
  rw [List.length_append, length_lift]
  apply h.bind
  intro s1 h1 h2
  obtain ⟨x2, g1, g2, g3, g4⟩ := H s1 h1 h2
  refine ⟨⟨x2, s1.f⟩, runs_execL hc g1, ⟨by rw [g2 _ hL.1, h1.sp], by rw [g2 _ hL.2, h1.fp], fun b hb => by rw [g3, h1.mem b hb]⟩,
    g4, ?_⟩
  show Keeps E B d s1.x.mem x2.mem
  rw [g3]; exact Keeps.refl

/-- A floating-point instruction that leaves memory, sp and fp alone. -/
theorem Res.fp {d pc s v m v'} {c1 : List Instr} {i : Instr} (h : Res F E B env P d pc c1.length s v m)
    (hc : CodeAt P (pc + c1.length) [i])
    (H : ∀ s1, Match E B d m s1.x → Holds v s1 →
      ∃ s2, execF F i s1 = some s2 ∧ Same [.a0] s1.x s2.x ∧ s2.x.mem = s1.x.mem ∧ Holds v' s2) :
    Res F E B env P d pc (c1 ++ [i]).length s v' m := by
  rw [List.length_append]
  apply h.bind
  intro s1 h1 h2
  obtain ⟨s2, g1, g2, g3, g4⟩ := H s1 h1 h2
  refine ⟨s2, Runs.one (step_fp hc.head g1), ⟨by rw [g2 _ (by decide), h1.sp], by rw [g2 _ (by decide), h1.fp],
    fun b hb => by rw [g3, h1.mem b hb]⟩, g4, ?_⟩
  rw [g3]; exact Keeps.refl

theorem exec_fstore (p : Prec) (r : FReg) (base : Reg) (s : St) : execF F (.fstore p r 0 base) s =
    some ⟨{ s.x with mem := writeN s.x.mem (s.x.r base) p.bytes (s.f r).toNat }, s.f⟩ := by
  simp only [execF, BitVec.ofInt_ofNat, BitVec.add_zero]

theorem exec_fload (p : Prec) (r : FReg) (base : Reg) (s : St) : execF F (.fload p r 0 base) s =
    some (s.setF r (box p (low p (BitVec.ofNat 64 (readN s.x.mem (s.x.r base) p.bytes))))) := by
  simp only [execF, BitVec.ofInt_ofNat, BitVec.add_zero]

theorem exec_addi (env : Rv.Env) (x : Rv.St) (k : Int) : Rv.exec env (.addi .sp .sp k) x = some (x.set .sp (x.r .sp + BitVec.ofInt 64 k)) := rfl

/-- Pushing fa0. -/
theorem sim_pushF (hw : Surr E B env P) {d m s pc} (hm : Match E B d m s.x) (hd : d < E.room) (hc : CodeAt P pc pushF) :
    ∃ s', Runs F P env (pc, s) (pc + 2, s') ∧ Match E B (d + 1) m s'.x ∧ Keeps E B d s.x.mem s'.x.mem ∧
      slot B s'.x.mem d = s.f .fa0 := by
  have hroom := hw.world.room
  have s1 := Runs.one (F := F) (step_int (s := s) hc.head (exec_addi env.rv s.x (-8)))
  have hsp : (s.x.set .sp (s.x.r .sp + BitVec.ofInt 64 (-8))).r .sp = B - BitVec.ofNat 64 (8 * (d + 1)) := by
    rw [r_set_same _ _ _ (by decide), Cg.ofInt_neg8, hm.sp, Cg.sub_8]
  have hfp : (s.x.set .sp (s.x.r .sp + BitVec.ofInt 64 (-8))).r .fp = E.fp := by
    rw [r_set_ne _ _ _ _ (by decide), hm.fp]
  have hmem : (s.x.set .sp (s.x.r .sp + BitVec.ofInt 64 (-8))).mem = s.x.mem := rfl
  generalize s.x.set .sp (s.x.r .sp + BitVec.ofInt 64 (-8)) = X at *
  have hwr : ∀ b, (b - (B - BitVec.ofNat 64 (8 * (d + 1)))).toNat < 8 → 8 * d ≤ idx B b ∧ idx B b < 8 * (d + 1) := by
    intro b hb
    have h5 := Cg.idx_slot (B := B) (k := d) hb (by omega)
    rw [← Cg.eq_add_of_sub] at h5
    omega
  have s2 := Runs.one (F := F) (env := env) (step_fp (s := ⟨X, s.f⟩) hc.tail.head (exec_fstore .d .fa0 .sp ⟨X, s.f⟩))
  simp only [hsp, hmem] at s2
  refine ⟨_, s1.trans s2, ⟨hsp, hfp, ?_⟩, ?_, ?_⟩
  · intro b hv
    simp only [writeN]
    rw [if_neg]
    · exact hm.mem b hv
    · intro hb
      have := hwr b hb
      have := hw.world.stack b (by omega)
      simp_all
  · intro b hv hn
    simp only [writeN]
    rw [if_neg]
    intro hb
    have := hwr b hb
    omega
  · simp only [slot, Prec.bytes]
    rw [Cg.readN_writeN _ _ _ _ (by omega) 8 (by omega), Nat.mod_eq_of_lt]
    · simp
    · have := (s.f .fa0).isLt; omega

/-- Popping to fa1. -/
theorem sim_popF {d m s pc} (hm : Match E B (d + 1) m s.x) (hc : CodeAt P pc popF) :
    ∃ s', Runs F P env (pc, s) (pc + 2, s') ∧ Match E B d m s'.x ∧ s'.x.mem = s.x.mem ∧ s'.f .fa1 = slot B s.x.mem d ∧
      s'.f .fa0 = s.f .fa0 := by
  have s1 := Runs.one (F := F) (env := env) (step_fp (s := s) hc.head (exec_fload .d .fa1 .sp s))
  have h1 : (s.setF .fa1 (box .d (low .d (BitVec.ofNat 64 (readN s.x.mem (s.x.r .sp) 8))))).f .fa1 = slot B s.x.mem d := by
    simp only [St.setF, if_true, box, low, slot, hm.sp]
  have h2 : (s.setF .fa1 (box .d (low .d (BitVec.ofNat 64 (readN s.x.mem (s.x.r .sp) 8))))).f .fa0 = s.f .fa0 := rfl
  have h3 : (s.setF .fa1 (box .d (low .d (BitVec.ofNat 64 (readN s.x.mem (s.x.r .sp) 8))))).x = s.x := rfl
  have e : Prec.d.bytes = 8 := rfl
  rw [e] at s1
  generalize s.setF .fa1 (box .d (low .d (BitVec.ofNat 64 (readN s.x.mem (s.x.r .sp) 8)))) = Y at *
  have s2 := Runs.one (F := F) (step_int (s := Y) hc.tail.head (exec_addi env.rv Y.x 8))
  refine ⟨_, s1.trans s2, ⟨?_, ?_, ?_⟩, ?_, h1, h2⟩
  · simp only [h3]
    rw [r_set_same _ _ _ (by decide), hm.sp]; exact Cg.add_8 d
  · simp only [h3]
    rw [r_set_ne _ _ _ _ (by decide), hm.fp]
  · simp only [h3, mem_set]; exact hm.mem
  · simp only [h3, mem_set]

/-- Pushing a0. -/
theorem sim_push (hw : Surr E B env P) {d m s pc} (hm : Match E B d m s.x) (hd : d < E.room) (hc : CodeAt P pc (lift (Cg.pushI .a0))) :
    ∃ s', Runs F P env (pc, s) (pc + 2, s') ∧ Match E B (d + 1) m s'.x ∧ Keeps E B d s.x.mem s'.x.mem ∧
      slot B s'.x.mem d = s.x.r .a0 := by
  obtain ⟨x2, g1, g2, g3, g4, _⟩ := Cg.sim_push hw.world (r := .a0) (s := s.x) (by decide) hm hd hc.proj
  obtain ⟨f', h⟩ := runs_rv (F := F) hw.stuck g1 s.f
  exact ⟨_, h, g2, g3, g4⟩

end Toycc.Fp
