import Verif.Parse.Spec
import Verif.Types.Compat
/-! Specification of _Generic, C11 6.5.1.1 (C77). -/
namespace Toycc.Generic
open Toycc.Parse (Tok P Tree Oracle Derives)
open Toycc.Types (Ty CType erase)

variable {T : Type}

/-- An association: a type name (none: `default`) and an expression. `den t` is the type that the type name `t` denotes. -/
structure Assoc (T : Type) where
  type : Option T
  expr : Tree T

/-- `type-name : assignment-expression` or `default : assignment-expression`. `tn` spells type names. -/
inductive Assoc.Text (O : Oracle T) (tn : T → List Tok) : Assoc T → List Tok → Prop where
  | type {t e s} : Derives O tn false 1 e s → Text O tn ⟨some t, e⟩ (tn t ++ .p .colon :: s)
  | dflt {e s} : Derives O tn false 1 e s → Text O tn ⟨none, e⟩ (.kw "default" :: .p .colon :: s)

/-- Each preceded by a comma. -/
inductive Assocs (O : Oracle T) (tn : T → List Tok) : List (Assoc T) → List Tok → Prop where
  | nil : Assocs O tn [] []
  | cons {a s as u} : a.Text O tn s → Assocs O tn as u → Assocs O tn (a :: as) (.p .comma :: (s ++ u))

/-- What comes after `_Generic`: `( assignment-expression , association , ... )`. -/
inductive Text (O : Oracle T) (tn : T → List Tok) : Tree T → List (Assoc T) → List Tok → Prop where
  | mk {c s as u} : Derives O tn false 1 c s → Assocs O tn as u → Text O tn c as (.p .lpar :: (s ++ (u ++ [.p .rpar])))

/-- The type of an expression after the conversions of arrays and functions to pointers (6.3.2.1p3-4, 6.5.1.1p2 with its defect report 481). -/
def converted : Ty → CType
  | .func i r p v => .ptr (erase (.func i r p v))
  | .array _ b _ => .ptr (erase b)
  | .vla _ b => .ptr (erase b)
  | .copy _ o => converted o
  | t => erase t

/-- The constraints of 6.5.1.1p2: no two associations have the same type, at most one is `default`. -/
def Distinct (den : T → Ty) (as : List (Assoc T)) : Prop := as.Pairwise fun a b => a.type.map (fun t => erase (den t)) ≠ b.type.map (fun t => erase (den t))

/-- The expression that is selected for a controlling expression of type `c`: that of the association with this type, or else that of `default`. -/
inductive Selected (den : T → Ty) (c : CType) (as : List (Assoc T)) : Tree T → Prop where
  | type {t e} : ⟨some t, e⟩ ∈ as → erase (den t) = c → Selected den c as e
  | dflt {e} : (∀ a ∈ as, ∀ t, a.type = some t → erase (den t) ≠ c) → ⟨none, e⟩ ∈ as → Selected den c as e

/-- Is the type that of a variable-length array? -/
def isVla : Ty → Bool
  | .vla _ _ => true
  | .copy _ o => isVla o
  | _ => false

end Toycc.Generic
