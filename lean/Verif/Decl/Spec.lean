import Verif.Decl.Model
/-!
Specification: the syntax of declarators, abstract declarators and parameter lists (C11 6.7.6, 6.7.7) as trees, their text, and the type and
the name they denote (6.7.6.1 - 6.7.6.3). A length or a specifier list is represented by its tokens together with its meaning.
-/
namespace Toycc.Decl
open Toycc.Parse (Tok P)

mutual
/-- `pointer? direct-declarator`; the qualifiers are those after one `*`. -/
inductive Dcl (B L : Type) where
  | ptr (quals : List Tok) (d : Dcl B L)
  | dir (d : Dir B L)
/-- Direct declarators: an identifier, nothing (in abstract declarators), `( D )`, `D [ quals length ]`, `D ( parameters )`. -/
inductive Dir (B L : Type) where
  | name (x : String)
  | empty
  | paren (d : Dcl B L)
  | arr (d : Dir B L) (quals : List Tok) (len : Option (List Tok × L))
  | fn (d : Dir B L) (ps : Plist B L)
/-- `void`, or parameters and perhaps `...`. -/
inductive Plist (B L : Type) where
  | void
  | list (ps : Ps B L) (variadic : Bool)
/-- Parameters: specifiers and a declarator, perhaps abstract. -/
inductive Ps (B L : Type) where
  | nil
  | cons (spec : List Tok) (b : B) (d : Dcl B L) (r : Ps B L)
end

variable {B L : Type}

/-- The text of a length. -/
def lenText : Option (List Tok × L) → List Tok
  | none => []
  | some p => p.1

mutual
/-- The text of a declarator. -/
def Dcl.text : Dcl B L → List Tok
  | .ptr q d => .p .star :: (q ++ d.text)
  | .dir d => d.text
def Dir.text : Dir B L → List Tok
  | .name x => [.ident x]
  | .empty => []
  | .paren d => .p .lpar :: (d.text ++ [.p .rpar])
  | .arr d q len => d.text ++ (.p .lbrk :: (q ++ lenText len ++ [.p .rbrk]))
  | .fn d ps => d.text ++ (.p .lpar :: (ps.text ++ [.p .rpar]))
def Plist.text : Plist B L → List Tok
  | .void => [.kw "void"]
  | .list ps v => ps.text v true
/-- `first`: no comma before the next parameter. -/
def Ps.text (v first : Bool) : Ps B L → List Tok
  | .nil => if v then (if first then [.p .dots] else [.p .comma, .p .dots]) else []
  | .cons s _ d r => (if first then [] else [.p .comma]) ++ (s ++ (d.text ++ r.text v false))
end

/-- C11 6.7.6.2p4: an array of unknown size, an array of constant length, or a variable-length array: when the length is not constant or
the elements have no constant size. -/
def arrTy (const : L → Option Int) (elem : DTy B L) : Option L → DTy B L
  | none => .arr elem (-1)
  | some e =>
    match elem with
    | .vla _ _ => .vla elem e
    | _ => match const e with
      | some n => .arr elem n
      | none => .vla elem e

/-- C11 6.7.6.3p7, p8: the type of a parameter. -/
def paramTy : DTy B L → DTy B L
  | .arr t _ => .ptr t
  | .vla t _ => .ptr t
  | .func r ps v => .ptr (.func r ps v)
  | t => t

mutual
/-- C11 6.7.6p4-6, 6.7.6.1p1, 6.7.6.2p3, 6.7.6.3p5: in a declaration `T D` the type and name that `D` specifies. -/
def Dcl.den (const : L → Option Int) : Dcl B L → DTy B L → DTy B L × Option String
  | .ptr _ d, T => d.den const (.ptr T)
  | .dir d, T => d.den const T
def Dir.den (const : L → Option Int) : Dir B L → DTy B L → DTy B L × Option String
  | .name x, T => (T, some x)
  | .empty, T => (T, none)
  | .paren d, T => d.den const T
  | .arr d _ len, T => d.den const (arrTy const T (len.map (·.2)))
  | .fn d ps, T => d.den const (.func T (ps.den const) ps.variadic)
def Plist.den (const : L → Option Int) : Plist B L → DTys B L
  | .void => .nil
  | .list ps _ => ps.den const
def Ps.den (const : L → Option Int) : Ps B L → DTys B L
  | .nil => .nil
  | .cons _ b d r => .cons (paramTy (d.den const (.base b)).1) (d.den const (.base b)).2 (r.den const)
def Plist.variadic : Plist B L → Bool
  | .void => false
  | .list _ v => v
end

/-- Function and array types. -/
def DTy.funcOrArray : DTy B L → Bool
  | .func _ _ _ | .arr _ _ | .vla _ _ => true
  | _ => false

/-- What can follow a declarator: not a token that would continue it. -/
def Stop : List Tok → Prop
  | [] => True
  | t :: _ => t ≠ .p .star ∧ t ≠ .p .lpar ∧ t ≠ .p .lbrk ∧ (∀ x, t ≠ .ident x) ∧ isQual t = false

/-- How the tokens of lengths and specifiers are read: `len ts e`, the tokens are a length `e`; `spec ts b d`, the tokens are specifiers `b`,
when followed by the declarator `d`. -/
structure Words (B L : Type) where
  len : List Tok → L → Prop
  spec : List Tok → B → Dcl B L → Prop

mutual
/-- The conditions of the grammar: qualifiers are qualifiers, lengths are lengths, identifiers are not in abstract declarators (`abs`). -/
def Dcl.Syn (W : Words B L) (abs : Bool) : Dcl B L → Prop
  | .ptr q d => q.all isQual = true ∧ d.Syn W abs
  | .dir d => d.Syn W abs
def Dir.Syn (W : Words B L) (abs : Bool) : Dir B L → Prop
  | .name _ => abs = false
  | .empty => True
  | .paren d => d.Syn W abs
  | .arr d q len => d.Syn W abs ∧ q.all isDimQual = true ∧ (∀ p, len = some p → W.len p.1 p.2)
  | .fn d ps => d.Syn W abs ∧ ps.Syn W
def Plist.Syn (W : Words B L) : Plist B L → Prop
  | .void => True
  | .list ps _ => ps.Syn W
def Ps.Syn (W : Words B L) : Ps B L → Prop
  | .nil => True
  | .cons s b d r => W.spec s b d ∧ d.Syn W false ∧ r.Syn W
end

/-- A list of parameters that is not written `void`. -/
def Plist.NotVoid : Plist B L → Prop
  | .void => True
  | .list ps v => ∀ r, ps.text v true ++ [.p .rpar] ≠ .kw "void" :: .p .rpar :: r

mutual
/-- The constraints on a declarator for the type `T`: no function returns a function or an array (C11 6.7.6.3p1), parentheses are not
empty and a single `void` is the empty list. Two restrictions of the theorem are marked. -/
def Dcl.Fits (const : L → Option Int) : Dcl B L → DTy B L → Prop
  | .ptr _ d, T => d.Fits const (.ptr T)
  | .dir d, T => d.Fits const T
def Dir.Fits (const : L → Option Int) : Dir B L → DTy B L → Prop
  | .name _, _ => True
  | .empty, _ => True
  | .paren d, T => d.text ≠ [] ∧ d.Fits const T
  | .arr d _ len, T => d.Fits const (arrTy const T (len.map (·.2)))
  -- restriction: a function declarator does not begin with its parenthesis
  | .fn d ps, T => T.funcOrArray = false ∧ d.text ≠ [] ∧ ps.NotVoid ∧ ps.Fits const ∧ d.Fits const (.func T (ps.den const) ps.variadic)
def Plist.Fits (const : L → Option Int) : Plist B L → Prop
  | .void => True
  | .list ps _ => ps.Fits const
def Ps.Fits (const : L → Option Int) : Ps B L → Prop
  | .nil => True
  -- restriction: no parameter is declared as a variable-length array
  | .cons _ b d r => d.Fits const (.base b) ∧ (d.den const (.base b)).1.isVla = false ∧ r.Fits const
end

/-- The tokens are read as a length before every `]`, and as specifiers before the declarator and whatever ends it. They do not begin like
something else that may be there. -/
def reads (O : Oracle B L) : Words B L where
  len ts e := (∀ r, O.cond (ts ++ .p .rbrk :: r) = .ok (e, .p .rbrk :: r)) ∧ ∃ t r, ts = t :: r ∧ isDimQual t = false ∧ t ≠ .p .rbrk
  spec ts b d := (∀ r, Stop r → O.declspec (ts ++ (d.text ++ r)) = .ok (b, d.text ++ r)) ∧ ∃ t r, ts = t :: r ∧ t ≠ .p .rpar ∧ t ≠ .p .dots

/-- The tokens are read as a length, or as specifiers, before some tokens. -/
def read (O : Oracle B L) : Words B L where
  len ts e := ∃ r, O.cond (ts ++ r) = .ok (e, r)
  spec ts b _ := ∃ r, O.declspec (ts ++ r) = .ok (b, r)

end Toycc.Decl
