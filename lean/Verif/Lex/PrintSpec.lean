import Verif.Lex.Print
/-! When the byte after a token would become part of it: the maximal-munch rules of C, token class by token class. -/
namespace Toycc.Lex

/-- The beginnings that turn what looks like a punctuator or an identifier into a comment or a literal. -/
def openers : List (List UInt8) := ["//", "/*", "u8\"", "u\"", "U\"", "L\"", "u'", "U'", "L'"].map asc

/-- A byte that continues an identifier (any byte of a multi-byte character is counted). -/
def identByte (c : UInt8) : Bool := isAlnum c || c == 0x5F || c == 0x24 || 128 ≤ c

def expChar (c : UInt8) : Bool := c == 0x65 || c == 0x45 || c == 0x70 || c == 0x50

/-- The text `rest` written right after the token `s` of kind `k` might change how the token is read: the two
together begin with a longer comment opener, literal opener or punctuator, or the first byte of `rest` continues the
identifier or the number. -/
def glues (k : Kind) (s rest : List UInt8) : Bool :=
  openers.any (fun q => s.length < q.length && startsWith (s ++ rest) q) ||
  match k with
  | .ident => rest.head?.any identByte
  | .ppNum => rest.head?.any fun c => isAlnum c || c == 0x2E || ((c == 0x2B || c == 0x2D) && s.getLast?.any expChar)
  | .punct => punctTable.any (fun q => s.length < q.length && startsWith (s ++ rest) q) || (s == [0x2E] && rest.head?.any isDig)
  | _ => false

/-- The same, looking at one byte only. -/
def mayGlue (k : Kind) (s : List UInt8) (c : UInt8) : Bool :=
  openers.any (fun q => startsWith q (s ++ [c])) ||
  match k with
  | .ident => identByte c
  | .ppNum => isAlnum c || c == 0x2E || ((c == 0x2B || c == 0x2D) && s.getLast?.any expChar)
  | .punct => punctTable.any (fun q => startsWith q (s ++ [c])) || (s == [0x2E] && isDig c)
  | _ => false

/-- `s` is the spelling of a token of kind `k` with value `pl`, in some text. -/
def IsToken (h : Host) (k : Kind) (s : List UInt8) (pl : Payload) : Prop :=
  ∃ r, lexOne h (s ++ r) = .ok (.tok k s.length pl)

end Toycc.Lex
