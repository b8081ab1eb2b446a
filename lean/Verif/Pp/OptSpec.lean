import Verif.Pp.GlueSpec
/-!
Specification: `__VA_OPT__ ( … )` in the replacement list of a variadic macro, C23 6.10.5.2, on spellings of tokens, with # and ## around and inside (GlueSpec). It cannot be nested.
-/
namespace Toycc.Pp.Glue
open Toycc.Lex (asc)

/-- Parts of a replacement list. -/
inductive Part where
  | plain (i : Item)
  | opt (is : List Item)     -- __VA_OPT__ ( is )

/-- The tokens of a part. -/
def Part.spell : Part → List Bytes
  | .plain i => i.spell
  | .opt is => [asc "__VA_OPT__", asc "("] ++ is.flatMap Item.spell ++ [asc ")"]

/-- What becomes of a part: if replacing `__VA_ARGS__` gives no tokens, `__VA_OPT__` gives none; otherwise it is as if what is in its parentheses stood there. -/
inductive PartVal (h : Lex.Host) (σ : Bytes → Actual) : Part → List Bytes → Prop where
  | plain {i v} : ItemVal h σ i v → PartVal h σ (.plain i) v
  | present {is v} : (σ (asc "__VA_ARGS__")).full ≠ [] → BodyVal h σ is v → PartVal h σ (.opt is) v
  | absent (is) : (σ (asc "__VA_ARGS__")).full = [] → PartVal h σ (.opt is) []

/-- What becomes of the replacement list. -/
inductive PartsVal (h : Lex.Host) (σ : Bytes → Actual) : List Part → List Bytes → Prop where
  | nil : PartsVal h σ [] []
  | cons {p ps v w} : PartVal h σ p v → PartsVal h σ ps w → PartsVal h σ (p :: ps) (v ++ w)

/-- Parentheses in pairs, after `n` open ones. -/
def Balanced : Nat → List Bytes → Prop
  | n, [] => n = 0
  | n, s :: r => if s = asc "(" then Balanced (n + 1) r else if s = asc ")" then n ≠ 0 ∧ Balanced (n - 1) r else Balanced n r

/-! ### Where toycc agrees -/

/-- Not covered: parameters, # and ## in the parentheses of `__VA_OPT__`; variable arguments that consist of macros which become nothing. -/
def Part.Ok (ps : List Bytes) (va : Bytes → Prop) (σ : Bytes → Actual) : Part → Prop
  | .plain i => i.Ok ps va σ
  | .opt is => asc "__VA_ARGS__" ∈ ps ∧ ((σ (asc "__VA_ARGS__")).raw = [] ↔ (σ (asc "__VA_ARGS__")).full = []) ∧ (∀ i ∈ is, ∃ s, i = .chain (.tok s) [] ∧ (El.tok s).Ok ps) ∧
    Balanced 0 (is.flatMap Item.spell)

/-- The parameters of which a part looks at the argument as it is written, and at the replaced argument. -/
def Part.looks : Part → List Bytes
  | .plain i => i.looks
  | .opt _ => [asc "__VA_ARGS__"]
def Part.uses : Part → List Bytes
  | .plain i => i.uses
  | .opt _ => []

/-- As `Ordered`. -/
def PartsOrdered (calm : Bytes → Prop) : List Part → Prop
  | [] => True
  | i :: is => (∀ p ∈ i.uses, calm p ∨ ∀ j ∈ is, p ∉ j.looks) ∧ PartsOrdered calm is

end Toycc.Pp.Glue
