import Verif.Fp.Proof3
import Verif.Fp.Ieee
import Verif.Cg.Props
/-! C80: values of expressions with floating point. -/
namespace Toycc.Fp
open Toycc.Rv
open Toycc.Cg (GS Var BinOp CEnv boolC World Match Keeps Rep Same slot idx)
open Toycc.Cg.Props (nullEnv exE exSt ex_stack)

/-- The value in the registers: a floating value in fa0 (a float NaN-boxed), an integer in a0. -/
def InRegs (v : Val) (s : St) : Prop :=
  match v with
  | .int v => s.x.r .a0 = BitVec.ofInt 64 v
  | .flt p b => s.f .fa0 = box p b

/-- **C80** for the class `simple`: every expression of the class compiles with balanced pushes and pops, and whenever C prescribes
a value (no undefined behaviour) and the stack is large enough, the code leaves exactly that value in fa0 or a0, of the kind its
type says, restores sp and fp, and touches no byte other than the objects C changes and the free part of the stack. `F`: any
floating-point arithmetic. -/
theorem C80_compiled_value_partial {F : Fpu} {E : CEnv} {B : W} {env : Env} {P : Prog} (hw : Surr E B env P) (ht : E.CallsTyped)
    (e : Expr) (hs : simple false e = true) (gs : GS) (hr : gs.depth + need e ≤ E.room) :
    ∃ c gs', gen false e gs = some (c, gs') ∧ gs'.depth = gs.depth ∧
      ∀ m v m' pc s, eval F E false gs.depth e m = some (v, m') → CodeAt P pc c → Match E B gs.depth m s.x →
        Typed e.ty v ∧
        ∃ s', Runs F P env (pc, s) (pc + c.length, s') ∧ InRegs v s' ∧ s'.x.r .sp = s.x.r .sp ∧ s'.x.r .fp = s.x.r .fp ∧
          (∀ b, E.valid b = true → s'.x.mem b = m' b) ∧
          (∀ b, E.valid b = false → ¬ (8 * gs.depth ≤ idx B b ∧ idx B b < 8 * E.room) → s'.x.mem b = s.x.mem b) := by
  obtain ⟨c, gs', hg⟩ := gen_total e false gs hs
  refine ⟨c, gs', hg, (gen_depth e _ _ _ _ hg).1, ?_⟩
  intro m v m' pc s hev hc hm
  obtain ⟨⟨s', h1, h2, h3, h4⟩, h5⟩ := gen_good hw ht e false gs c gs' m v m' pc s hs hr hg hev hc hm
  refine ⟨h5, s', h1, ?_, by rw [h2.sp, hm.sp], by rw [h2.fp, hm.fp], h2.mem, h4⟩
  cases v with
  | int v => exact h3.1
  | flt p b => exact h3

/-! #### Concrete programs, with IEEE arithmetic: `double x` at fp-8, `float f`, `int n` at fp-16 and fp-12 -/

def dbl : Ty := .flt .d
def sgl : Ty := .flt .s
def int32 : Cg.Ty := .int false
def vX : Expr := .var dbl (.loc (-8))
def vF : Expr := .var sgl (.loc (-16))
def vN : Expr := .int (.var int32 (.loc (-12)))
/-- `x = (n < 4 ? -f : x) * 2.5 + (double)n` -/
def exExpr : Expr :=
  .assign dbl vX (.bin .add dbl
    (.bin .mul dbl (.cond dbl (.int (.bin .lt int32 (.var int32 (.loc (-12))) (.num int32 4))) (.cast dbl (.neg sgl vF)) vX) (.lit .d 0x4004000000000000))
    (.cast dbl vN))
/-- f = 1.5, n = 3 -/
def fpMem : Mem := writeN (writeN (fun _ => 0) 1008 4 0x3FC00000) 1012 4 3
def fpEnv : Env := ⟨nullEnv, fun _ _ _ => 0⟩
def fpSt (m : Mem) : St := ⟨exSt m, fun _ => 0⟩

/-- A value as a pair, for comparison. -/
def Val.code : Val → Option (Prec × Nat) × Int
  | .int v => (none, v)
  | .flt p b => (some (p, b.toNat), 0)

/-- -1.5 * 2.5 + 3 = -0.75 -/
example : simple false exExpr = true ∧ need exExpr ≤ exE.room ∧ exE.CallsTyped ∧
    (eval ieee exE false 0 exExpr fpMem).map (·.1.code) = some (some (.d, 0xBFE8000000000000), 0) ∧
    (∃ c gs', gen false exExpr ⟨0, 0⟩ = some (c, gs') ∧ Surr exE 1008 fpEnv c) ∧ Match exE 1008 0 fpMem (fpSt fpMem).x := by
  refine ⟨by decide, by decide, ?_, by decide +kernel, ?_, ?_⟩
  · intro a k ty vs m v m' h; simp [exE] at h
  · obtain ⟨c, gs', hg⟩ := gen_total exExpr false ⟨0, 0⟩ (by decide)
    exact ⟨c, gs', hg, surr_of_expr hg (by decide) ex_stack (fun _ => rfl) (fun _ _ _ _ _ => rfl)⟩
  · exact ⟨by decide, rfl, fun _ _ => rfl⟩

/-- `f != x && (short)(x / f) <= n`, `!(f - 0.5f)`, `(unsigned char)x || f` are in the class. -/
example : simple false (.logand (.bin .ne (.int int32) (.cast dbl vF) vX)
      (.bin .le (.int int32) (.cast (.int int32) (.cast (.int (.short false)) (.bin .div dbl vX (.cast dbl vF)))) vN)) = true ∧
    simple false (.not (.bin .sub sgl vF (.lit .s 0x3F000000))) = true ∧
    simple false (.logor (.cast (.int (.char true)) vX) vF) = true := by decide

/-! #### Violations: for each exclusion of the class, a program whose code does not compute the C value -/

/-- `n` instructions. -/
def runN (F : Fpu) (P : Prog) (env : Env) : Nat → Nat × St → Option (Nat × St)
  | 0, c => some c
  | n + 1, c => match step F P env c with
    | some c' => runN F P env n c'
    | none => none

theorem runs_of_runN {F : Fpu} {P : Prog} {env : Env} {n : Nat} {c c' : Nat × St} (h : runN F P env n c = some c') : Runs F P env c c' := by
  induction n generalizing c with
  | zero => simp only [runN, Option.some.injEq] at h; subst h; exact .refl
  | succ n ih =>
    simp only [runN] at h
    split at h
    · rename_i c1 h1; exact (Runs.one h1).trans (ih h)
    · simp at h

/-- The generated code of a program without calls, run from the start, ends with `a` in a0 and `f` in fa0. -/
def Computes (e : Expr) (m : Mem) (a f : W) : Prop :=
  ∃ c gs', gen false e ⟨0, 0⟩ = some (c, gs') ∧ ∃ s', Runs ieee c fpEnv (0, fpSt m) (c.length, s') ∧ s'.x.r .a0 = a ∧ s'.f .fa0 = f

/-- Evaluation of `Computes`. -/
def computes (e : Expr) (m : Mem) (n : Nat) : Option (W × W) :=
  match gen false e ⟨0, 0⟩ with
  | some (c, _) => match runN ieee c fpEnv n (0, fpSt m) with
    | some (pc, s) => if pc = c.length then some (s.x.r .a0, s.f .fa0) else none
    | none => none
  | none => none

theorem computes_sound {e m n a f} (h : computes e m n = some (a, f)) : Computes e m a f := by
  unfold computes at h
  split at h
  case h_2 => simp at h
  rename_i c gs' hg
  split at h
  case h_2 => simp at h
  rename_i pc s hr
  split at h
  case isFalse => simp at h
  rename_i hp
  simp only [Option.some.injEq, Prod.mk.injEq] at h
  subst hp
  exact ⟨c, gs', hg, s, runs_of_runN hr, h⟩

/-- The value of a program in C. -/
def InC (e : Expr) (m : Mem) (v : Option (Prec × Nat) × Int) : Prop := (eval ieee exE false 0 e m).map (·.1.code) = some v

/-- The machine and the specification agree on the example above. -/
example : Computes exExpr fpMem 1008 0xBFE8000000000000 := computes_sound (n := 37) (by decide +kernel)

def zeroMem : Mem := fun _ => 0
/-- x = 3000000000.0 -/
def bigMem : Mem := writeN zeroMem 1016 8 0x41E65A0BC0000000
/-- The 4 bytes at fp-12 hold -1. -/
def minusMem : Mem := writeN zeroMem 1012 4 0xFFFFFFFF
/-- `1 && x` -/
def andX : Expr := .logand (.int (.num int32 1)) vX
/-- `f && 0` -/
def andF : Expr := .logand vF (.int (.num int32 0))
/-- `(_Bool)x` -/
def boolX : Expr := .cast (.int .bool) vX
/-- `(unsigned long)(unsigned)x` -/
def wuX : Expr := .cast (.int (.long true)) (.cast (.int (.int true)) vX)
/-- `(double)e`, `e` of an enumerated type at fp-12 -/
def enumN : Expr := .cast dbl (.int (.var .enum (.loc (-12))))

/-- `1 && x` with `x = 0.0` is 0 in C; the code computes 1: the right operand is compared with zero as if it had the type of the
left one, here the address that was in a0 when x was loaded. -/
theorem C80_logand_int_float_violation : InC andX zeroMem (none, 0) ∧ Computes andX zeroMem 1 0 :=
  ⟨by unfold InC; decide +kernel, computes_sound (n := 10) (by decide +kernel)⟩

/-- `f && 0` with `f = 1.5` is 0 in C; the code tests f twice and computes 1. -/
theorem C80_logand_float_int_violation : InC andF fpMem (none, 0) ∧ Computes andF fpMem 1 0xFFFFFFFF3FC00000 :=
  ⟨by unfold InC; decide +kernel, computes_sound (n := 12) (by decide +kernel)⟩

/-- `(_Bool)x` with `x = 0.0` is 0 in C; the code tests a0, the address of x. -/
theorem C80_bool_violation : InC boolX zeroMem (none, 0) ∧ Computes boolX zeroMem 1 0 :=
  ⟨by unfold InC; decide +kernel, computes_sound (n := 3) (by decide +kernel)⟩

/-- `(unsigned long)(unsigned)x` with `x = 3000000000.0` is 3000000000 in C; fcvt.wu.d sign-extends its result to 64 bits, and the
conversion from unsigned to unsigned long is no instruction. -/
theorem C80_unsigned_violation : InC wuX bigMem (none, 3000000000) ∧ Computes wuX bigMem 0xFFFFFFFFB2D05E00 0x41E65A0BC0000000 :=
  ⟨by unfold InC; decide +kernel, computes_sound (n := 3) (by decide +kernel)⟩

/-- `(double)e` with the enumeration constant -1 is -1.0 in C; the code converts the unsigned number 2^64-1, giving 2^64. -/
theorem C80_enum_violation : InC enumN minusMem (some (.d, 0xBFF0000000000000), 0) ∧ Computes enumN minusMem (-1) 0x43F0000000000000 :=
  ⟨by unfold InC; decide +kernel, computes_sound (n := 3) (by decide +kernel)⟩

end Toycc.Fp
