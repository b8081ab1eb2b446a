/-! Specification of identifier characters: C11 (N1570) Annex D, transcribed from the standard, plus the
basic letters, digits, `_`, and `$` (an extension). -/
namespace Toycc.Unicode

/-- C11 Annex D.1: ranges of characters allowed in identifiers. -/
def annexD1 : List (Nat × Nat) := [
  (0x00A8,0x00A8), (0x00AA,0x00AA), (0x00AD,0x00AD), (0x00AF,0x00AF), (0x00B2,0x00B5), (0x00B7,0x00BA),
  (0x00BC,0x00BE), (0x00C0,0x00D6), (0x00D8,0x00F6), (0x00F8,0x00FF),
  (0x0100,0x167F), (0x1681,0x180D), (0x180F,0x1FFF),
  (0x200B,0x200D), (0x202A,0x202E), (0x203F,0x2040), (0x2054,0x2054), (0x2060,0x206F),
  (0x2070,0x218F), (0x2460,0x24FF), (0x2776,0x2793), (0x2C00,0x2DFF), (0x2E80,0x2FFF),
  (0x3004,0x3007), (0x3021,0x302F), (0x3031,0x303F), (0x3040,0xD7FF),
  (0xF900,0xFD3D), (0xFD40,0xFDCF), (0xFDF0,0xFE44), (0xFE47,0xFFFD),
  (0x10000,0x1FFFD), (0x20000,0x2FFFD), (0x30000,0x3FFFD), (0x40000,0x4FFFD), (0x50000,0x5FFFD),
  (0x60000,0x6FFFD), (0x70000,0x7FFFD), (0x80000,0x8FFFD), (0x90000,0x9FFFD), (0xA0000,0xAFFFD),
  (0xB0000,0xBFFFD), (0xC0000,0xCFFFD), (0xD0000,0xDFFFD), (0xE0000,0xEFFFD)]

/-- C11 Annex D.2: ranges of characters disallowed initially. -/
def annexD2 : List (Nat × Nat) := [(0x0300,0x036F), (0x1DC0,0x1DFF), (0x20D0,0x20FF), (0xFE20,0xFE2F)]

/-- `c` lies in one of the ranges. -/
def Within (ranges : List (Nat × Nat)) (c : Nat) : Prop := ∃ r ∈ ranges, r.1 ≤ c ∧ c ≤ r.2

def isDigit (c : Nat) : Prop := 0x30 ≤ c ∧ c ≤ 0x39
def isLetter (c : Nat) : Prop := (0x41 ≤ c ∧ c ≤ 0x5A) ∨ (0x61 ≤ c ∧ c ≤ 0x7A)

/-- May `c` continue an identifier? -/
def SpecContinue (c : Nat) : Prop :=
  isLetter c ∨ isDigit c ∨ c = 0x5F ∨ c = 0x24 ∨ Within annexD1 c

/-- May `c` start an identifier? -/
def SpecStart (c : Nat) : Prop := SpecContinue c ∧ ¬ isDigit c ∧ ¬ Within annexD2 c

end Toycc.Unicode
