import Verif.Lex.Model
/-! Printing a token list, the output of -E. -/
namespace Toycc.Lex

/-- A token of the list print_tokens is given: its spelling (`tok->loc`, `tok->len`), its kind and value, and the two
flags. -/
structure PrTok where
  spell : List UInt8
  kind : Kind
  payload : Payload
  atBol : Bool
  hasSpace : Bool
  deriving DecidableEq, Repr

/-- The separator printed before a token, main.c:472-476; `first` is `first_line`. -/
def sepOf (first : Bool) (t : PrTok) : List UInt8 :=
  (if !first && t.atBol then [10] else []) ++ (if t.hasSpace && !t.atBol then [32] else [])

/-- The loop of print_tokens, main.c:471-482 (up to the TK_EOF token). -/
def printLoop (first : Bool) : List PrTok → List UInt8
  | [] => [10]
  | t :: ts => sepOf first t ++ t.spell ++ printLoop false ts

/-- print_tokens, main.c:467-483. -/
def print (ts : List PrTok) : List UInt8 := printLoop true ts

end Toycc.Lex
