import Verif.Lex.Bounds
/-! The main loop of the tokenizer and the line-number pass. -/
namespace Toycc.Lex

/-- The main loop of tokenize, tokenize.c:563-723: `pos` is the offset of `p`; `bol` and `sp` are the statics
at_bol and has_space, which new_token (tokenize.c:45-62) copies and clears. -/
def scan (h : Host) (pos : Nat) (p : List UInt8) (bol sp : Bool) : Except TErr (List Tok) :=
  if p = [] then .ok [{ kind := .eof, loc := pos, len := 0, atBol := bol, hasSpace := sp, payload := .none }]
  else
    match hp : lexOne h p with
    | .error e => .error e
    | .ok (.line n) => scan h (pos + n) (p.drop n) bol true
    | .ok (.block n) => scan h (pos + n) (p.drop n) bol true
    | .ok .newline => scan h (pos + 1) (p.drop 1) true false
    | .ok .space => scan h (pos + 1) (p.drop 1) bol true
    | .ok (.tok k n pl) =>
      match scan h (pos + n) (p.drop n) false false with
      | .error e => .error e
      | .ok ts => .ok ({ kind := k, loc := pos, len := n, atBol := bol, hasSpace := sp, payload := pl } :: ts)
termination_by p.length
decreasing_by
  all_goals
    have := lexOne_len h p _ hp
    simp only [Piece.len] at this
    simp only [List.length_drop]
    omega

/-- add_line_number, tokenize.c:377-391: `p` is the text from offset `pos` on, `n` the current line, `ts` the
tokens still to be numbered. Running out of tokens before the NUL would dereference a null pointer. -/
def addLines (pos n : Nat) (p : List UInt8) (ts : List Tok) : Except TErr (List Tok) :=
  match ts with
  | [] => .error .nullToken
  | t :: ts' =>
    match p with
    | [] => if pos = t.loc then .ok ({ t with line := n } :: ts') else .ok (t :: ts')
    | c :: r =>
      let n' := if c = 10 then n + 1 else n
      if pos = t.loc then
        match addLines (pos + 1) n' r ts' with
        | .error e => .error e
        | .ok us => .ok ({ t with line := n } :: us)
      else addLines (pos + 1) n' r (t :: ts')

/-- tokenize, tokenize.c:553-727. -/
def tokenize (h : Host) (text : List UInt8) : Except TErr (List Tok) :=
  match scan h 0 text true false with
  | .error e => .error e
  | .ok ts => addLines 0 1 text ts

end Toycc.Lex
