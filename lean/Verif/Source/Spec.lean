import Verif.Unicode.Model
/-! What the source-text phases should do, as functions from text to text (no buffers, no indices). -/
namespace Toycc.Source.Spec
open Toycc.Unicode

/-- Every CR LF pair and every lone CR becomes LF. -/
def newlines : List UInt8 → List UInt8
  | 13 :: 10 :: r => 10 :: newlines r
  | 13 :: r => 10 :: newlines r
  | c :: r => c :: newlines r
  | [] => []

/-- Delete every backslash-newline pair. -/
def dropSplices : List UInt8 → List UInt8
  | 92 :: 10 :: r => dropSplices r
  | c :: r => c :: dropSplices r
  | [] => []

/-- Delete every backslash-newline pair and put the deleted newlines back after the end of the logical line;
`n` newlines are still owed. -/
def splice (n : Nat) : List UInt8 → List UInt8
  | 92 :: 10 :: r => splice (n + 1) r
  | 10 :: r => 10 :: (List.replicate n 10 ++ splice 0 r)
  | c :: r => c :: splice n r
  | [] => List.replicate n 10

/-- Value of a hexadecimal digit. -/
def hexVal (b : UInt8) : Option Nat :=
  if 0x30 ≤ b ∧ b ≤ 0x39 then some (b.toNat - 0x30)
  else if 0x61 ≤ b ∧ b ≤ 0x66 then some (b.toNat - 0x61 + 10)
  else if 0x41 ≤ b ∧ b ≤ 0x46 then some (b.toNat - 0x41 + 10)
  else none

/-- Value of a string of hexadecimal digits (most significant first). -/
def hexNum (acc : Nat) : List UInt8 → Option Nat
  | [] => some acc
  | b :: r =>
    match hexVal b with
    | none => none
    | some v => hexNum (acc * 16 + v) r

/-- The code point named by exactly `n` hexadecimal digits at the start of the text, if there are that many
and it is not zero. -/
def ucnValue (n : Nat) (text : List UInt8) : Option Nat :=
  if text.length < n then none
  else
    match hexNum 0 (text.take n) with
    | some (v + 1) => some (v + 1)
    | _ => none

/-- Replace universal character names. -/
def ucn (text : List UInt8) : List UInt8 :=
  match text with
  | [] => []
  | 92 :: 0x75 :: r =>
    match ucnValue 4 r with
    | some v => encode v ++ ucn (r.drop 4)
    | none => 92 :: ucn (0x75 :: r)
  | 92 :: 0x55 :: r =>
    match ucnValue 8 r with
    | some v => encode v ++ ucn (r.drop 8)
    | none => 92 :: ucn (0x55 :: r)
  | 92 :: c :: r => 92 :: c :: ucn r
  | c :: r => c :: ucn r
termination_by text.length
decreasing_by all_goals simp <;> omega

end Toycc.Source.Spec
