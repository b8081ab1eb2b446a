import Verif.Rv.Lemmas
/-!
The machine of Verif.Rv with the floating-point registers fa0 and fa1 and the instructions of the F and D extensions that
codegen.c emits for `float` and `double`. Trusted reading of the ISA manual, chapters "F" and "D": registers are 64 bits wide, a
single-precision value is NaN-boxed (upper half all ones), a register that is not boxed reads as the canonical NaN in
single-precision instructions; `fcvt.w` and `fcvt.wu` sign-extend their 32-bit result.
The arithmetic itself (rounding, comparison, conversion) is a parameter, shared with the specification.
-/
namespace Toycc.Fp
open Toycc.Rv

/-- `float` and `double`. -/
inductive Prec where
  | s | d
  deriving DecidableEq, Repr

abbrev Prec.width : Prec → Nat
  | .s => 32
  | .d => 64

/-- Object representation of a value. -/
abbrev Bits (p : Prec) := BitVec p.width

inductive Arith where
  | add | sub | mul | div
  deriving DecidableEq, Repr

inductive Rel where
  | eq | lt | le
  deriving DecidableEq, Repr

/-- The integer formats of the fcvt instructions. -/
inductive IK where
  | w | wu | l | lu
  deriving DecidableEq, Repr

/-- IEEE 754 arithmetic: results of the operations, comparisons (false on NaN), the nearest value to an integer, truncation
to an integer (`none`: infinity or NaN), conversion between the formats. `out` is what fcvt gives for a value outside the range of
the integer format. -/
structure Fpu where
  arith : (p : Prec) → Arith → Bits p → Bits p → Bits p
  rel : (p : Prec) → Rel → Bits p → Bits p → Bool
  ofInt : (p : Prec) → Int → Bits p
  trunc : (p : Prec) → Bits p → Option Int
  widen : BitVec 32 → BitVec 64
  narrow : BitVec 64 → BitVec 32
  out : (p : Prec) → IK → Bits p → W

inductive FReg where
  | fa0 | fa1
  deriving DecidableEq, Repr

inductive Instr where
  /-- an instruction of the integer part -/
  | int (i : Rv.Instr)
  /-- fmv.s.x, fmv.d.x -/
  | fmvX (p : Prec) (rd : FReg) (rs : Reg)
  /-- flw, fld -/
  | fload (p : Prec) (rd : FReg) (off : Int) (base : Reg)
  /-- fsw, fsd -/
  | fstore (p : Prec) (rs : FReg) (off : Int) (base : Reg)
  | farith (p : Prec) (o : Arith) (rd a b : FReg)
  /-- feq, flt, fle -/
  | frel (p : Prec) (o : Rel) (rd : Reg) (a b : FReg)
  | fneg (p : Prec) (rd rs : FReg)
  /-- fcvt.s.w ... fcvt.d.lu -/
  | ofInt (p : Prec) (k : IK) (rd : FReg) (rs : Reg)
  /-- fcvt.w.s ... fcvt.lu.d, rounding towards zero -/
  | toInt (p : Prec) (k : IK) (rd : Reg) (rs : FReg)
  /-- fcvt.d.s (to `d`), fcvt.s.d (to `s`) -/
  | fcvt (to : Prec) (rd rs : FReg)
  deriving DecidableEq, Repr

structure St where
  x : Rv.St
  f : FReg → W

def St.setF (s : St) (r : FReg) (v : W) : St := { s with f := fun y => if y = r then v else s.f y }
def St.setX (s : St) (r : Reg) (v : W) : St := { s with x := s.x.set r v }

/-- NaN boxing. -/
def box : (p : Prec) → Bits p → W
  | .s, b => BitVec.ofNat 64 (0xFFFFFFFF * 2 ^ 32 + b.toNat)
  | .d, b => b

/-- The value a register has for an instruction of precision `p`. -/
def unbox : (p : Prec) → W → Bits p
  | .s, x => if x.toNat / 2 ^ 32 = 0xFFFFFFFF then x.setWidth 32 else 0x7FC00000
  | .d, x => x

/-- The low bits of an integer register (fmv.s.x, fmv.d.x), or of what was read from memory. -/
def low : (p : Prec) → W → Bits p
  | .s, x => x.setWidth 32
  | .d, x => x

def Prec.bytes : Prec → Nat
  | .s => 4
  | .d => 8

/-- Flipping the sign bit. -/
def negBits : (p : Prec) → Bits p → Bits p
  | .s, b => b ^^^ 0x80000000
  | .d, b => b ^^^ 0x8000000000000000

/-- The integer an integer register denotes for fcvt. -/
def IK.read : IK → W → Int
  | .w, x => (lo x).toInt
  | .wu, x => (lo x).toNat
  | .l, x => x.toInt
  | .lu, x => x.toNat

/-- The range of an integer format. -/
def IK.fits : IK → Int → Bool
  | .w, v => decide (-(2 ^ 31) ≤ v ∧ v < 2 ^ 31)
  | .wu, v => decide (0 ≤ v ∧ v < 2 ^ 32)
  | .l, v => decide (-(2 ^ 63) ≤ v ∧ v < 2 ^ 63)
  | .lu, v => decide (0 ≤ v ∧ v < 2 ^ 64)

/-- The register after fcvt to an integer format. -/
def IK.write : IK → Int → W
  | .w, v => sext32 (BitVec.ofInt 32 v)
  | .wu, v => sext32 (BitVec.ofInt 32 v)
  | .l, v => BitVec.ofInt 64 v
  | .lu, v => BitVec.ofInt 64 v

/-- Result of fcvt.{w,wu,l,lu}.{s,d} with rounding mode rtz. -/
def Fpu.cvt (F : Fpu) (p : Prec) (k : IK) (b : Bits p) : W :=
  match F.trunc p b with
  | some v => if k.fits v then k.write v else F.out p k b
  | none => F.out p k b

/-- fcvt.d.s and fcvt.s.d. -/
def Fpu.convert (F : Fpu) : Prec → W → W
  | .d, x => box .d (F.widen (unbox .s x))
  | .s, x => box .s (F.narrow (unbox .d x))

/-- Effect of a floating-point instruction. -/
def execF (F : Fpu) (i : Instr) (s : St) : Option St :=
  match i with
  | .int _ => none
  | .fmvX p rd rs => some (s.setF rd (box p (low p (s.x.r rs))))
  | .fload p rd off base =>
    some (s.setF rd (box p (low p (BitVec.ofNat 64 (readN s.x.mem (s.x.r base + BitVec.ofInt 64 off) p.bytes)))))
  | .fstore p rs off base =>
    some { s with x := { s.x with mem := writeN s.x.mem (s.x.r base + BitVec.ofInt 64 off) p.bytes (s.f rs).toNat } }
  | .farith p o rd a b => some (s.setF rd (box p (F.arith p o (unbox p (s.f a)) (unbox p (s.f b)))))
  | .frel p o rd a b => some (s.setX rd (ofBool (F.rel p o (unbox p (s.f a)) (unbox p (s.f b)))))
  | .fneg p rd rs => some (s.setF rd (box p (negBits p (unbox p (s.f rs)))))
  | .ofInt p k rd rs => some (s.setF rd (box p (F.ofInt p (k.read (s.x.r rs)))))
  | .toInt p k rd rs => some (s.setX rd (F.cvt p k (unbox p (s.f rs))))
  | .fcvt to rd rs => some (s.setF rd (F.convert to (s.f rs)))

abbrev Prog := List Instr

/-- A label no program defines. -/
def nowhere : Label := .sym "<floating point>"

/-- The integer part of an instruction; a floating-point instruction stops the integer machine. -/
def Instr.rv : Instr → Rv.Instr
  | .int i => i
  | _ => .j nowhere

def proj (P : Prog) : Rv.Prog := P.map Instr.rv

/-- The surroundings: those of the integer machine, and what a function defined elsewhere leaves in the floating-point
registers. -/
structure Env where
  rv : Rv.Env
  clobber : W → St → FReg → W

/-- The floating-point registers after an integer instruction. -/
def after (env : Env) (i : Rv.Instr) (s : St) : FReg → W :=
  match i with
  | .jalr rs => if (env.rv.index (s.x.r rs)).isNone then env.clobber (s.x.r rs) s else s.f
  | _ => s.f

/-- One instruction. -/
def step (F : Fpu) (P : Prog) (env : Env) (c : Nat × St) : Option (Nat × St) :=
  match P[c.1]? with
  | none => none
  | some (.int i) => (Rv.step (proj P) env.rv (c.1, c.2.x)).map fun r => (r.1, ⟨r.2, after env i c.2⟩)
  | some i => (execF F i c.2).map (c.1 + 1, ·)

inductive StepN (F : Fpu) (P : Prog) (env : Env) : Nat → Nat × St → Nat × St → Prop
  | zero (c) : StepN F P env 0 c c
  | succ {n c c' c''} : step F P env c = some c' → StepN F P env n c' c'' → StepN F P env (n + 1) c c''

def Runs (F : Fpu) (P : Prog) (env : Env) (c c' : Nat × St) : Prop := ∃ n, StepN F P env n c c'

end Toycc.Fp
