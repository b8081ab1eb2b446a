import Verif.Driver.QuoteSpec
/-!
How GNU make reads a makefile that consists of rules without recipes (specification; names as in QuoteSpec).
-/
namespace Toycc.Driver

/-- A backslash before the end of a line joins the lines; pairs of backslashes are none. -/
def joined : List UInt8 → List UInt8
  | 92 :: 10 :: r => 32 :: joined r
  | 92 :: 92 :: r => 92 :: 92 :: joined r
  | c :: r => c :: joined r
  | [] => []

/-- The lines of a text. -/
def linesOf : List UInt8 → List (List UInt8)
  | [] => []
  | 10 :: r => [] :: linesOf r
  | c :: r => match linesOf r with
    | [] => [[c]]
    | l :: ls => (c :: l) :: ls

/-- `Names l ns r`: the line `l` begins with the names `ns`, with blanks between them, and goes on with `r`: a colon or the end of the line. -/
inductive Names : List UInt8 → List (List UInt8) → List UInt8 → Prop where
  | nil : Names [] [] []
  | colon {r} : Names (58 :: r) [] (58 :: r)
  | blank {c l ns r} : c = 32 ∨ c = 9 → Names l ns r → Names (c :: l) ns r
  | name {l n l' ns r} : (∀ c ∈ l.head?, special c = false) → makeName 0 false l = some (n, l') → n ≠ [] → Names l' ns r → Names l (n :: ns) r

/-- Targets and prerequisites. -/
structure Rule where
  targets : List (List UInt8)
  prereqs : List (List UInt8)

/-- The rules of a list of lines. -/
inductive Rules : List (List UInt8) → List Rule → Prop where
  | nil : Rules [] []
  | empty {ls rs} : Rules ls rs → Rules ([] :: ls) rs
  | rule {l ts l' ps ls rs} : (∀ c ∈ l.head?, c ≠ 9) → Names l ts (58 :: l') → Names l' ps [] → Rules ls rs → Rules (l :: ls) (⟨ts, ps⟩ :: rs)

/-- make reads the text as these rules. -/
def IsMakefile (text : List UInt8) (rs : List Rule) : Prop := Rules (linesOf (joined text)) rs

end Toycc.Driver
