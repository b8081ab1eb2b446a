import Verif.Lex.Model
/-! Specification of the tokenizer's output: how a text is divided into gaps and tokens. -/
namespace Toycc.Lex

/-- The things that may lie between tokens. -/
inductive GapItem where
  | nl
  | ws (b : UInt8)
  | line (body : List UInt8)
  | block (body : List UInt8)

/-- How each is spelled. -/
def GapItem.bytes : GapItem → List UInt8
  | .nl => [10]
  | .ws b => [b]
  | .line body => 0x2F :: 0x2F :: body
  | .block body => 0x2F :: 0x2A :: (body ++ [0x2A, 0x2F])

/-- Blanks are space, tab, VT, FF, CR; a line comment contains no newline; a block comment ends at the first `*/`
(no earlier one starts inside it). -/
def GapItem.Ok : GapItem → Prop
  | .nl => True
  | .ws b => b = 32 ∨ b = 9 ∨ b = 11 ∨ b = 12 ∨ b = 13
  | .line body => 10 ∉ body
  | .block body => ∀ i, i < body.length → (body ++ [0x2A, 0x2F])[i]? = some 0x2A → (body ++ [0x2A, 0x2F])[i+1]? ≠ some 0x2F

def gapBytes (g : List GapItem) : List UInt8 := g.flatMap GapItem.bytes

/-- A gap: well-formed items, and a line comment is always ended by a newline. -/
def ValidGap (g : List GapItem) : Prop :=
  (∀ i ∈ g, i.Ok) ∧ ∀ a body b, g = a ++ .line body :: b → b.head? = some .nl

/-- Is there a newline outside comments? -/
def hasNl (g : List GapItem) : Bool := g.any fun | .nl => true | _ => false

/-- Is there anything after the last newline outside comments? -/
def hasBlank : List GapItem → Bool
  | [] => false
  | .nl :: g => hasBlank g
  | _ :: g => if hasNl g then hasBlank g else true

/-- The flags a token must have, given the gap before it and whether it is the first token. -/
def Flags (first : Bool) (g : List GapItem) (t : Tok) : Prop :=
  t.atBol = (first || hasNl g) ∧ t.hasSpace = hasBlank g

/-- `Layout first pos text ts`: `text`, which starts at offset `pos`, is a gap, a token, a gap, a token, ...,
a gap, and `ts` are exactly those tokens and a final end-of-file token of length 0 at the end of the text. -/
inductive Layout : Bool → Nat → List UInt8 → List Tok → Prop
  | eof (first : Bool) (pos : Nat) (g : List GapItem) (t : Tok) :
      ValidGap g → t.kind = .eof → t.len = 0 → t.loc = pos + (gapBytes g).length → Flags first g t →
      Layout first pos (gapBytes g) [t]
  | tok (first : Bool) (pos : Nat) (g : List GapItem) (w rest : List UInt8) (t : Tok) (ts : List Tok) :
      ValidGap g → t.kind ≠ .eof → w ≠ [] → t.len = w.length → t.loc = pos + (gapBytes g).length → Flags first g t →
      Layout false (t.loc + t.len) rest ts →
      Layout first pos (gapBytes g ++ (w ++ rest)) (t :: ts)

end Toycc.Lex
