import Verif.Lex.Model
/-!
Specification: the operators # and ## in the replacement list of a function-like macro, C11 6.10.3.1 to 6.10.3.3, on spellings of tokens. The empty list is a
placemarker (6.10.3.3p2).
-/
namespace Toycc.Pp.Glue
open Toycc.Lex (asc)

abbrev Bytes := List UInt8

/-- Operands: a token that is no parameter, a parameter, `# parameter`. -/
inductive El where
  | tok (s : Bytes)
  | par (p : Bytes)
  | str (p : Bytes)
  deriving DecidableEq

/-- Parts of a replacement list: operands with ## between them (most often just one), and `, ## parameter` for the variable arguments, a GNU extension. -/
inductive Item where
  | chain (e : El) (es : List El)
  | gnu (p : Bytes)
  deriving DecidableEq

/-- The tokens of an operand. -/
def El.spell : El → List Bytes
  | .tok s => [s]
  | .par p => [p]
  | .str p => [asc "#", p]

/-- The tokens of a part. -/
def Item.spell : Item → List Bytes
  | .chain e es => e.spell ++ es.flatMap fun e => asc "##" :: e.spell
  | .gnu p => [asc ",", asc "##", p]

/-- An argument: its tokens, its tokens after complete macro replacement, and its text with single blanks for white space between tokens (6.10.3.2p2). -/
structure Actual where
  raw : List Bytes
  full : List Bytes
  text : Bytes

/-- The spelling of the string literal with this text: a backslash before each " and \. -/
def quoted (s : Bytes) : Bytes := asc "\"" ++ (s.flatMap fun b => if b = 34 ∨ b = 92 then [92, b] else [b]) ++ asc "\""

/-- An operand that stands alone: a parameter is replaced by the completely replaced argument (6.10.3.1). -/
def El.alone (σ : Bytes → Actual) : El → List Bytes
  | .tok s => [s]
  | .par p => (σ p).full
  | .str p => [quoted (σ p).text]

/-- An operand of ##: a parameter is replaced by the argument as it is written. -/
def El.operand (σ : Bytes → Actual) : El → List Bytes
  | .tok s => [s]
  | .par p => (σ p).raw
  | .str p => [quoted (σ p).text]

/-- The bytes spell one token. -/
def OneToken (h : Lex.Host) (s : Bytes) : Prop := ∃ k pl, Lex.lexOne h s = .ok (.tok k s.length pl)

/-- `a ## b`: the last token of `a` and the first of `b` become one; a placemarker leaves the other operand alone (6.10.3.3p3). -/
inductive Join (h : Lex.Host) : List Bytes → List Bytes → List Bytes → Prop where
  | left (b) : Join h [] b b
  | right (a) : Join h a [] a
  | join (a x f b) : OneToken h (x ++ f) → Join h (a ++ [x]) (f :: b) (a ++ (x ++ f) :: b)

/-- `v ## e1 ## e2 ...`, from the left. -/
inductive Chain (h : Lex.Host) (σ : Bytes → Actual) : List Bytes → List El → List Bytes → Prop where
  | nil (v) : Chain h σ v [] v
  | cons {v e es w r} : Join h v (e.operand σ) w → Chain h σ w es r → Chain h σ v (e :: es) r

/-- What becomes of a part. `, ## parameter` vanishes if there are no variable arguments. -/
inductive ItemVal (h : Lex.Host) (σ : Bytes → Actual) : Item → List Bytes → Prop where
  | alone (e) : ItemVal h σ (.chain e []) (e.alone σ)
  | chain {e e2 es r} : Chain h σ (e.operand σ) (e2 :: es) r → ItemVal h σ (.chain e (e2 :: es)) r
  | gnu (p) : ItemVal h σ (.gnu p) (if (σ p).raw = [] then [] else asc "," :: (σ p).full)

/-- What becomes of the replacement list. -/
inductive BodyVal (h : Lex.Host) (σ : Bytes → Actual) : List Item → List Bytes → Prop where
  | nil : BodyVal h σ [] []
  | cons {i is v w} : ItemVal h σ i v → BodyVal h σ is w → BodyVal h σ (i :: is) (v ++ w)

/-! ### Where toycc agrees -/

/-- Parameters and other tokens are what they should be; `va` is the parameter for the variable arguments. -/
def El.Ok (ps : List Bytes) : El → Prop
  | .tok s => s ∉ ps ∧ s ≠ asc "#" ∧ s ≠ asc "##" ∧ s ≠ asc "__VA_OPT__" ∧ s ≠ []
  | .par p => p ∈ ps
  | .str p => p ∈ ps

/-- Not covered: `x ## # p`, and chains that begin with two empty arguments and go on; a comma before ## and the variable arguments is `gnu`. -/
def Item.Ok (ps : List Bytes) (va : Bytes → Prop) (σ : Bytes → Actual) : Item → Prop
  | .chain e es => e.Ok ps ∧ (∀ x ∈ es, x.Ok ps ∧ ∀ p, x ≠ .str p) ∧ (∀ e2 e3 r, es = e2 :: e3 :: r → e.operand σ = [] → e2.operand σ ≠ []) ∧
    ∀ p r, es = .par p :: r → va p → e ≠ .tok (asc ",")
  | .gnu p => p ∈ ps ∧ va p

/-- The parameters of which a part looks at the argument as it is written. -/
def Item.looks : Item → List Bytes
  | .chain (.par _) [] => []
  | .chain e es => (e :: es).filterMap fun | .par p => some p | .str p => some p | .tok _ => none
  | .gnu p => [p]

/-- The parameters of which a part uses the replaced argument. -/
def Item.uses : Item → List Bytes
  | .chain (.par p) [] => [p]
  | .gnu p => [p]
  | .chain _ _ => []

/-- No argument is looked at as it is written after it has been replaced, except for arguments (`calm`) which macro replacement leaves alone. -/
def Ordered (calm : Bytes → Prop) : List Item → Prop
  | [] => True
  | i :: is => (∀ p ∈ i.uses, calm p ∨ ∀ j ∈ is, p ∉ j.looks) ∧ Ordered calm is

end Toycc.Pp.Glue
