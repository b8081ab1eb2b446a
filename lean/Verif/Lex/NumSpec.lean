import Verif.Lex.NumModel
import Verif.Lex.LitSpec
/-! Specification of integer constants: C11 6.4.4.1 with binary constants (GNU), LP64. -/
namespace Toycc.Lex

/-- The four notations. -/
inductive Notation where
  | decimal | octal | hexadecimal | binary
  deriving DecidableEq, Repr

def Notation.radix : Notation → Nat
  | .decimal => 10 | .octal => 8 | .hexadecimal => 16 | .binary => 2

/-- The possible prefixes. -/
def Notation.prefixes : Notation → List (List UInt8)
  | .decimal => [[]] | .octal => [[]] | .hexadecimal => [asc "0x", asc "0X"] | .binary => [asc "0b", asc "0B"]

/-- The digits of a constant: digits of the radix, at least one, a decimal constant not starting with `0`, an octal
one starting with `0`. -/
def Notation.Digits (nt : Notation) (ds : List UInt8) : Prop :=
  ds ≠ [] ∧ (∀ d ∈ ds, isDigitOf nt.radix d = true) ∧
  (nt = .decimal → ds.head? ≠ some 0x30) ∧ (nt = .octal → ds.head? = some 0x30)

/-- The suffixes with their meaning (unsigned, long or long long). -/
def suffixes : List (List UInt8 × Bool × Bool) :=
  [("", false, false), ("u", true, false), ("U", true, false), ("l", false, true), ("L", false, true),
   ("ll", false, true), ("LL", false, true),
   ("ul", true, true), ("uL", true, true), ("Ul", true, true), ("UL", true, true),
   ("ull", true, true), ("uLL", true, true), ("Ull", true, true), ("ULL", true, true),
   ("lu", true, true), ("lU", true, true), ("Lu", true, true), ("LU", true, true),
   ("llu", true, true), ("llU", true, true), ("LLu", true, true), ("LLU", true, true)].map fun (s, x) => (asc s, x)

/-- The list of candidate types (C11 6.4.4.1p5; long long has the size of long). -/
def candidates (nt : Notation) (unsigned long : Bool) : List IntTy :=
  match nt, unsigned, long with
  | .decimal, false, false => [.int, .long]
  | _, false, false => [.int, .uint, .long, .ulong]
  | _, true, false => [.uint, .ulong]
  | .decimal, false, true => [.long]
  | _, false, true => [.long, .ulong]
  | _, true, true => [.ulong]

def IntTy.max : IntTy → Nat
  | .int => 2 ^ 31 - 1 | .uint => 2 ^ 32 - 1 | .long => 2 ^ 63 - 1 | .ulong => 2 ^ 64 - 1

/-- The first candidate that can represent the value. -/
def typeOfConstant (nt : Notation) (unsigned long : Bool) (v : Nat) : Option IntTy :=
  (candidates nt unsigned long).find? (fun t => decide (v ≤ t.max))

/-- `IntConst w v t`: the text `w` is an integer constant of value `v` and type `t`. -/
def IntConst (w : List UInt8) (v : Nat) (t : IntTy) : Prop :=
  ∃ (nt : Notation) (pre ds s : List UInt8) (u l : Bool), w = pre ++ ds ++ s ∧ pre ∈ nt.prefixes ∧ nt.Digits ds ∧
    (s, u, l) ∈ suffixes ∧ v = numberOf nt.radix ds ∧ typeOfConstant nt u l v = some t

/-- Where a token ends: the next byte, if any, is no letter or digit. -/
def Boundary (rest : List UInt8) : Prop := ∀ b r, rest = b :: r → isAlnum b = false

end Toycc.Lex
