import Verif.Init.LocalCode
/-!
C52: after `T x = {...}` every sub-object with an initialiser has its value and everything else is zero, for every type built from integers, pointers, arrays, structures, unions and bit-fields and every initialiser of
it by expressions of integer or pointer type, in any order of nesting. Not covered: floating-point leaves, and structures initialised by an expression of structure type.
-/
namespace Toycc.Init.Props
open Toycc.Cg Toycc.Low Toycc.Rv Toycc.Init

theorem memzero_doing {E : CEnv} {n : Nat} {off : Int} (hn : n < 2 ^ 63) (hok : E.ok (E.fp + BitVec.ofInt 64 off) n = true) {d : Nat} {m : Mem} :
    ∃ m', evalC E false d (.memzero off n) m = some (0, m') ∧ AgreeOut (E.fp + BitVec.ofInt 64 off) n m' m ∧ ∀ i, i < 8 * n → mbit m' (E.fp + BitVec.ofInt 64 off) i = false := by
  have e0 : E.fp + BitVec.ofInt 64 off = E.fp + BitVec.ofInt 64 off + BitVec.ofNat 64 0 := by simp
  refine ⟨writeN m (E.fp + BitVec.ofInt 64 off) n 0, by rw [evalC, if_neg (by decide), if_pos hok], ?_, fun i hi => ?_⟩
  · have := writeN_out (m := m) (a := E.fp + BitVec.ofInt 64 off) (o := 0) (sz := n) (n := n) (x := 0) (by omega)
    rw [← e0] at this; exact this
  · have := writeN_bits (m := m) (a := E.fp + BitVec.ofInt 64 off) (o := 0) (sz := n) (n := n) (x := 0) (by omega) (by omega) hi
    rw [← e0] at this
    rw [this, if_pos (by omega), Nat.zero_testBit]

/-- **C52**, at the level of C: the tree that a local initialiser is turned into, evaluated in any memory, evaluates every initialising expression once and in order (from `M` to `M'`, which say what happens outside the
object), and leaves the object initialised. -/
theorem C52_values_partial {E : CEnv} {M M' : Mem} (ty : Ty) (ini : Ini Leaf) (off : Int) (hw : ty.Wf) (hf : Fits ty ini) (hl : Listed ty ini) (hc : ty.cty ≠ none) (hn : ty.size < 2 ^ 63)
    (hok : E.ok (E.fp + BitVec.ofInt 64 off) ty.size = true) (he : Evaluate E (E.fp + BitVec.ofInt 64 off) ty.size (leaves ty ini) M M') :
    ∃ x, lvarInit Prod.fst ty ini off = some x ∧ ∀ d m, AgreeOut (E.fp + BitVec.ofInt 64 off) ty.size m M →
      ∃ v m', evalC E false d x m = some (v, m') ∧ AgreeOut (E.fp + BitVec.ofInt 64 off) ty.size m' M' ∧
        Initialised valueMeaning ty ini (objBit m' (E.fp + BitVec.ofInt 64 off) ty.size) := by
  cases hct : ty.cty with
  | none => exact absurd hct hc
  | some c =>
    obtain ⟨M1, h1, x, hx, hdo⟩ := create_ok (rest := []) hn hok ini ty 0 (.var c off) M M' hw hf hl (by omega) (fun c' hc' => by rw [hct] at hc'; cases hc'; exact desg_var rfl c) (by simpa using he)
    cases h1
    refine ⟨.comma (.memzero off ty.size) x, by simp [lvarInit, hct, hx], fun d m hm => ?_⟩
    obtain ⟨m0, e0, o0, z0⟩ := memzero_doing hn hok (d := d) (m := m)
    obtain ⟨v, m', e1, o1, b1⟩ := hdo d m0 (fun b hb => (o0 b hb).trans (hm b hb))
    refine ⟨v, m', by rw [evalC, e0]; simp only [Option.bind_eq_bind, Option.bind_some, e1], o1, ?_⟩
    refine initialised_over hw (mbit m0 (E.fp + BitVec.ofInt 64 off)) (fun j hj => ?_) z0 (fun j hj => ?_)
    · rw [objBit, decide_eq_true hj, Bool.true_and]; exact b1 j hj
    · rw [objBit, decide_eq_false (by omega), Bool.false_and]

/-- **C52**, for the code that is run: it reaches its end, the object in the memory of the machine is initialised, and the rest of the program's memory is as after the evaluation of the initialising expressions. -/
theorem C52_code_partial {E : CEnv} {B : W} {env : Env} {P : Prog} (hW : World E B env P) (ht : E.CallsTyped) {M M' : Mem} (ty : Ty) (ini : Ini Leaf) (off : Int)
    (hw : ty.Wf) (hf : Fits ty ini) (hl : Listed ty ini) (hr : Ready ty ini) (hc : ty.cty ≠ none) (hn : ty.size < 2 ^ 31)
    (hok : E.ok (E.fp + BitVec.ofInt 64 off) ty.size = true) (he : Evaluate E (E.fp + BitVec.ofInt 64 off) ty.size (leaves ty ini) M M') :
    ∃ x, lvarInit Prod.fst ty ini off = some x ∧ ∀ gs : GS, gs.depth + need x ≤ E.room → ∃ c gs', gen false x gs = some (c, gs') ∧
      ∀ pc s, CodeAt P pc c → Match E B gs.depth M s →
        ∃ s', Runs P env (pc, s) (pc + c.length, s') ∧ s'.r .sp = s.r .sp ∧ s'.r .fp = s.r .fp ∧
          Initialised valueMeaning ty ini (objBit s'.mem (E.fp + BitVec.ofInt 64 off) ty.size) ∧
          ∀ b, E.valid b = true → ty.size ≤ (b - (E.fp + BitVec.ofInt 64 off)).toNat → s'.mem b = M' b := by
  obtain ⟨x, hx, hv⟩ := C52_values_partial ty ini off hw hf hl hc (by omega) hok he
  have hs : simple false x = true := by
    cases hct : ty.cty with
    | none => exact absurd hct hc
    | some c =>
      simp only [lvarInit, hct, Option.bind_eq_bind, Option.bind_some, Option.bind_eq_some_iff] at hx
      obtain ⟨y, hy, hx⟩ := hx
      cases hx
      have := create_simple ini ty _ y hw hl hr (fun c' hc' => by rw [hct] at hc'; cases hc'; exact desgS_var c off) hy
      simp [simple, this, hn]
  refine ⟨x, hx, fun gs hroom => ?_⟩
  obtain ⟨c, gs', hg, -, hrun⟩ := compiled_effect hW ht x hs gs hroom
  refine ⟨c, gs', hg, fun pc s hcode hm => ?_⟩
  obtain ⟨v, m', e1, o1, i1⟩ := hv gs.depth M (fun _ _ => rfl)
  obtain ⟨s', r1, mt⟩ := hrun M v m' pc s e1 hcode hm
  refine ⟨s', r1, by rw [mt.sp, hm.sp], by rw [mt.fp, hm.fp], ?_, fun b hb ho => by rw [mt.mem b hb, o1 b ho]⟩
  have e : objBit s'.mem (E.fp + BitVec.ofInt 64 off) ty.size = objBit m' (E.fp + BitVec.ofInt 64 off) ty.size := by
    funext i
    unfold objBit
    by_cases hi : i < 8 * ty.size
    · rw [mt.mem _ (ok_iff.mp hok _ (by omega))]
    · rw [decide_eq_false hi, Bool.false_and, Bool.false_and]
  rw [e]
  exact i1

/-! ### An instance: `struct { char c; int b : 3, d : 5; short v[3]; } x = { 'A', .d = 7, .v = {1, [2] = y} };` with `long y` -/

def exLTy : Ty := .struc 12 (.cons 0 none (.scalar (.char false)) (.cons 0 (some (8, 3)) (.scalar (.int false)) (.cons 0 (some (11, 5)) (.scalar (.int false))
  (.cons 4 none (.arr (.scalar (.short false)) 3) .nil))))

def lnum (v : Int) : Ini Leaf := .mk (some (⟨.num (.int false) v, .int false⟩, v)) none .nil
def lnone : Ini Leaf := .mk none none .nil
def lvar (v : Int) : Ini Leaf := .mk (some (⟨.var (.long false) (.loc (-8)), .long false⟩, v)) none .nil

def exLIni (y : Int) : Ini Leaf := .mk none none (.cons (lnum 65) (.cons lnone (.cons (lnum 7) (.cons (.mk none none (.cons (lnum 1) (.cons lnone (.cons (lvar y) .nil)))) .nil))))

def exLE : CEnv := { fp := 1024, sym := fun _ => 0, valid := fun b => decide (1000 ≤ b.toNat ∧ b.toNat < 1024), call := fun _ _ _ _ _ => none, room := 16 }

/-- `y` is 70000 at 1016; the object is at 1004, full of ones. -/
def exLMem : Mem := writeN (fun _ => 255) 1016 8 70000

theorem exL_ok : exLTy.Wf ∧ Fits exLTy (exLIni 70000) ∧ Listed exLTy (exLIni 70000) ∧ Ready exLTy (exLIni 70000) ∧ exLTy.cty ≠ none ∧ exLE.ok (exLE.fp + BitVec.ofInt 64 (-20)) exLTy.size = true := by
  refine ⟨?_, ?_, ?_, ?_, by simp [exLTy, Ty.cty], by decide⟩
  · simp [exLTy, Ty.Wf, Mems.Wf, Ty.size, CTy.size, CTy.scalar, CTy.isInt]
  · simp [exLTy, exLIni, Fits, FitsMems, FitsArr, lnum, lnone, lvar]
  · simp [exLTy, exLIni, Listed, ListedMems, ListedArr, lnum, lnone, lvar]
  · simp only [exLTy, exLIni, Ready, ReadyMems, ReadyArr, lnum, lnone, lvar]
    have h0 : ∀ bo bw : Nat, (none : Option (Nat × Nat)) = some (bo, bw) → bw < 64 := by simp
    refine ⟨h0, by decide, ?_, trivial, ?_, by decide, h0, ⟨by decide, by decide, by decide, trivial, by decide, trivial⟩, trivial⟩
    all_goals
      intro bo bw h
      cases h
      decide

theorem exL_eval : Evaluate exLE (exLE.fp + BitVec.ofInt 64 (-20)) exLTy.size (leaves exLTy (exLIni 70000)) exLMem exLMem := by
  refine .cons (fun d m h => ⟨m, rfl, h, fun _ _ => rfl⟩) (.cons (fun d m h => ⟨m, rfl, h, fun _ _ => rfl⟩) (.cons (fun d m h => ⟨m, rfl, h, fun _ _ => rfl⟩) (.cons (fun d m h => ⟨m, ?_, h, fun _ _ => rfl⟩) (.nil _))))
  have e : readN m 1016 8 = readN exLMem 1016 8 := by
    apply readN_congr
    intro i hi
    apply h
    have : (8 : Nat) = 8 := rfl
    simp only [exLE, exLTy, Ty.size]
    rcases (by omega : i = 0 ∨ i = 1 ∨ i = 2 ∨ i = 3 ∨ i = 4 ∨ i = 5 ∨ i = 6 ∨ i = 7) with rfl | rfl | rfl | rfl | rfl | rfl | rfl | rfl <;> decide
  have ev : evalC exLE false d (.var (.long false) (.loc (-8))) m = (loadC exLE (.long false) m 1016).map (·, m) := by
    simp only [evalC, varAddrC, Option.bind_eq_bind, Option.bind_some, Bool.false_eq_true, if_false]
    have : exLE.fp + BitVec.ofInt 64 (-8) = 1016 := by decide
    rw [this]
    cases loadC exLE (.long false) m 1016 <;> rfl
  rw [ev]
  have el : loadC exLE (.long false) m 1016 = loadC exLE (.long false) exLMem 1016 := by
    simp only [loadC]
    have e' : readN m 1016 (Cg.Ty.long false).size = readN exLMem 1016 (Cg.Ty.long false).size := e
    simp only [e']
  rw [el]
  have : loadC exLE (.long false) exLMem 1016 = some 70000 := by decide +kernel
  rw [this]
  rfl

example : ∃ x, lvarInit Prod.fst exLTy (exLIni 70000) (-20) = some x ∧ (∃ v m', evalC exLE false 0 x exLMem = some (v, m') ∧ readN m' 1004 12 = 0x1170_0000_0001_0000_3841) := by
  refine ⟨_, rfl, ?_⟩
  have h : (evalC exLE false 0 ((lvarInit Prod.fst exLTy (exLIni 70000) (-20)).getD .null) exLMem).map (fun p => readN p.2 1004 12) = some 0x1170_0000_0001_0000_3841 := by decide +kernel
  cases hx : evalC exLE false 0 ((lvarInit Prod.fst exLTy (exLIni 70000) (-20)).getD .null) exLMem with
  | none => rw [hx] at h; cases h
  | some p => rw [hx] at h; exact ⟨p.1, p.2, hx, by simpa using h⟩

example : ∃ x, lvarInit Prod.fst exLTy (exLIni 70000) (-20) = some x ∧ ∀ d m, AgreeOut (exLE.fp + BitVec.ofInt 64 (-20)) exLTy.size m exLMem → ∃ v m', evalC exLE false d x m = some (v, m') ∧
    AgreeOut (exLE.fp + BitVec.ofInt 64 (-20)) exLTy.size m' exLMem ∧
    Initialised valueMeaning exLTy (exLIni 70000) (objBit m' (exLE.fp + BitVec.ofInt 64 (-20)) exLTy.size) :=
  C52_values_partial exLTy (exLIni 70000) (-20) exL_ok.1 exL_ok.2.1 exL_ok.2.2.1 exL_ok.2.2.2.2.1 (by decide) exL_ok.2.2.2.2.2 exL_eval

theorem exL_stack : ∀ b, idx 1000 b < 8 * exLE.room → exLE.valid b = false := by
  intro b h
  simp only [idx, exLE, BitVec.toNat_sub, BitVec.toNat_ofNat, BitVec.ofNat_eq_ofNat] at h
  simp only [exLE, decide_eq_false_iff_not]
  have := b.isLt
  omega

/-- The surroundings of the second theorem exist. -/
example : ∃ x c gs', lvarInit Prod.fst exLTy (exLIni 70000) (-20) = some x ∧ gen false x ⟨0, 0⟩ = some (c, gs') ∧ need x ≤ exLE.room ∧ World exLE 1000 Cg.Props.nullEnv c ∧ exLE.CallsTyped ∧
    Match exLE 1000 0 exLMem ⟨fun r => match r with | .sp => 1000 | .fp => 1024 | _ => 0, exLMem⟩ := by
  obtain ⟨c, gs', hg⟩ := gen_total ((lvarInit Prod.fst exLTy (exLIni 70000) (-20)).getD .null) false ⟨0, 0⟩ (by decide)
  exact ⟨_, c, gs', rfl, hg, by decide, Cg.Props.world_of_expr hg (by decide) exL_stack (fun _ => rfl) (fun _ _ _ _ _ => rfl), fun _ _ _ _ _ _ _ h => by simp [exLE] at h, ⟨by decide, rfl, fun _ _ => rfl⟩⟩

end Toycc.Init.Props
