import Verif.Fp.Machine
/-!
IEEE 754 binary32 and binary64 arithmetic as an instance of `Fpu`, from the model of floating-point numbers in Lean's core library
(round to nearest, ties to even; one NaN). The theorems hold for every `Fpu`; this one is for concrete cases.
-/
namespace Toycc.Fp
open Toycc.Rv
open Float.Model (Format UnpackedFloat)

def Prec.format : Prec → Format
  | .s => .binary32
  | .d => .binary64

/-- The number a bit pattern stands for. -/
def unpackBits : (p : Prec) → Bits p → UnpackedFloat
  | .s, b => UnpackedFloat.unpack .binary32 b
  | .d, b => UnpackedFloat.unpack .binary64 b

def packBits : (p : Prec) → UnpackedFloat → Bits p
  | .s, x => UnpackedFloat.pack .binary32 x
  | .d, x => UnpackedFloat.pack .binary64 x

/-- Rounding to a format. -/
def roundTo (f : Format) : UnpackedFloat → UnpackedFloat
  | .finite s m e _ => UnpackedFloat.normalize f (s.apply m) e .positive
  | x => x

def truncU : UnpackedFloat → Option Int
  | .finite s m e _ => some (UnpackedFloat.roundToInt s m e)
  | .zero _ => some 0
  | _ => none

def IK.max : IK → Int
  | .w => 2 ^ 31 - 1
  | .wu => 2 ^ 32 - 1
  | .l => 2 ^ 63 - 1
  | .lu => 2 ^ 64 - 1

def IK.min : IK → Int
  | .w => -(2 ^ 31)
  | .wu => 0
  | .l => -(2 ^ 63)
  | .lu => 0

/-- Out of range: the nearest value of the integer format, the largest one for NaN (RISC-V, 11.7). -/
def saturate (k : IK) : UnpackedFloat → W
  | .finite .negative .. | .infinity .negative => k.write k.min
  | _ => k.write k.max

def ieee : Fpu where
  arith p o a b := packBits p (match o with
    | .add => UnpackedFloat.add p.format (unpackBits p a) (unpackBits p b)
    | .sub => UnpackedFloat.sub p.format (unpackBits p a) (unpackBits p b)
    | .mul => UnpackedFloat.mul p.format (unpackBits p a) (unpackBits p b)
    | .div => UnpackedFloat.div p.format (unpackBits p a) (unpackBits p b))
  rel p o a b := match o with
    | .eq => (unpackBits p a).beq (unpackBits p b)
    | .lt => (unpackBits p a).lt (unpackBits p b)
    | .le => (unpackBits p a).le (unpackBits p b)
  ofInt p n := packBits p (UnpackedFloat.ofInt p.format n)
  trunc p b := truncU (unpackBits p b)
  widen b := packBits .d (roundTo .binary64 (unpackBits .s b))
  narrow b := packBits .s (roundTo .binary32 (unpackBits .d b))
  out p k b := saturate k (unpackBits p b)

-- 1.5 * 2.5 + 0.25 = 4.0, 0.1 + 0.2 > 0.3, 1/3 in float, truncation of -2.75
example : ieee.arith .d .add (ieee.arith .d .mul 0x3FF8000000000000 0x4004000000000000) 0x3FD0000000000000 = 0x4010000000000000 := by decide +kernel
example : ieee.rel .d .lt 0x3FD3333333333333 (ieee.arith .d .add 0x3FB999999999999A 0x3FC999999999999A) = true := by decide +kernel
example : ieee.arith .s .div (ieee.ofInt .s 1) (ieee.ofInt .s 3) = 0x3EAAAAAB := by decide +kernel
example : ieee.trunc .d 0xC006000000000000 = some (-2) := by decide +kernel
example : ieee.narrow (ieee.widen 0x3EAAAAAB) = 0x3EAAAAAB := by decide +kernel

end Toycc.Fp
