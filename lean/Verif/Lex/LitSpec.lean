import Verif.Lex.Model
/-! Specification of escape sequences and string literal bodies (C11 6.4.4.4, 6.4.5, plus the GNU escape `\e`). -/
namespace Toycc.Lex

/-- Value of a digit string in a base; `none` if some byte is not a digit of the base. -/
def digitOf (b : UInt8) : Option Nat :=
  if 0x30 ≤ b ∧ b ≤ 0x39 then some (b.toNat - 0x30)
  else if 0x61 ≤ b ∧ b ≤ 0x7A then some (b.toNat - 0x61 + 10)
  else if 0x41 ≤ b ∧ b ≤ 0x5A then some (b.toNat - 0x41 + 10)
  else none

def isDigitOf (base : Nat) (b : UInt8) : Bool :=
  match digitOf b with
  | some v => v < base
  | none => false

/-- The number denoted by digits, most significant first. -/
def numberOf (base : Nat) (ds : List UInt8) : Nat :=
  ds.foldl (fun acc b => acc * base + (digitOf b).getD 0) 0

/-- The simple escapes and their values. -/
def simpleEscapes : List (UInt8 × Nat) :=
  [(0x61, 7), (0x62, 8), (0x74, 9), (0x6E, 10), (0x76, 11), (0x66, 12), (0x72, 13), (0x65, 27)]

/-- `Escape h e r v`: when the text `e ++ r` follows a backslash, `e` is the escape sequence and `v` its value. -/
inductive Escape (h : Host) : List UInt8 → List UInt8 → Int → Prop
  | simple (c : UInt8) (v : Nat) (r : List UInt8) : (c, v) ∈ simpleEscapes → Escape h [c] r v
  | oct (ds r : List UInt8) : ds ≠ [] → ds.length ≤ 3 → (∀ d ∈ ds, isDigitOf 8 d = true) →
      (ds.length = 3 ∨ ∀ d r', r = d :: r' → isDigitOf 8 d = false) → Escape h ds r (numberOf 8 ds)
  | hex (ds r : List UInt8) : ds ≠ [] → (∀ d ∈ ds, isDigitOf 16 d = true) →
      (∀ d r', r = d :: r' → isDigitOf 16 d = false) → numberOf 16 ds < 2 ^ 31 →
      Escape h (0x78 :: ds) r (numberOf 16 ds)
  | other (c : UInt8) (r : List UInt8) : isDigitOf 8 c = false → c ≠ 0x78 → (∀ v, (c, v) ∉ simpleEscapes) →
      Escape h [c] r (charVal h c)

/-- The text between the quotes of a string literal: ordinary characters, and backslashes with the character after
them. -/
inductive Body : List UInt8 → Prop
  | nil : Body []
  | plain (c : UInt8) (r : List UInt8) : c ≠ 0x22 → c ≠ 10 → c ≠ 92 → Body r → Body (c :: r)
  | esc (c : UInt8) (r : List UInt8) : Body r → Body (92 :: c :: r)

/-- The elements a narrow literal body denotes: each ordinary byte itself, each escape its value modulo 256. -/
inductive Narrow (h : Host) : List UInt8 → List Nat → Prop
  | nil : Narrow h [] []
  | plain (c : UInt8) (r : List UInt8) (us : List Nat) : c ≠ 92 → Narrow h r us → Narrow h (c :: r) (c.toNat :: us)
  | esc (e r : List UInt8) (v : Int) (us : List Nat) : Escape h e r v → Narrow h r us →
      Narrow h (92 :: (e ++ r)) ((v % 256).toNat :: us)

/-- The elements of a wide literal: each UTF-8 character its code units under `f`, each escape its value modulo 2^w. -/
inductive Wide (h : Host) (w : Nat) (f : Nat → List Nat) : List UInt8 → List Nat → Prop
  | nil : Wide h w f [] []
  | plain (c n : Nat) (p : List UInt8) (us : List Nat) : p ≠ [] → p.head? ≠ some 92 →
      Unicode.decode p = some (c, n) → Wide h w f (p.drop n) us → Wide h w f p (f c ++ us)
  | esc (e r : List UInt8) (v : Int) (us : List Nat) : Escape h e r v → Wide h w f r us →
      Wide h w f (92 :: (e ++ r)) ((v % 2 ^ w).toNat :: us)

/-- Decoding of UTF-16. -/
def utf16Decode : List Nat → Option (List Nat)
  | [] => some []
  | u :: us =>
    if u < 0xD800 ∨ 0xE000 ≤ u then (utf16Decode us).map (u :: ·)
    else if u < 0xDC00 then
      match us with
      | [] => none
      | v :: us' =>
        if 0xDC00 ≤ v ∧ v < 0xE000 then
          (utf16Decode us').map ((0x10000 + (u - 0xD800) * 0x400 + (v - 0xDC00)) :: ·)
        else none
    else none

end Toycc.Lex
