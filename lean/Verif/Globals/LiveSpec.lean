import Verif.Globals.Model
/-! Which functions are needed. -/
namespace Toycc.Globals

/-- A function declared like this need not be emitted: `static inline`, or `inline` without `extern` (which toycc takes to be static). -/
def Attr.lazy (a : Attr) : Bool := a.inl && (a.static || !a.extern)

/-- The first declaration of a function at file scope. -/
def firstDecl : List Ext → String → Option Attr
  | [], _ => none
  | .decl f a :: r, x => if f = x then some a else firstDecl r x
  | .defn f a _ :: r, x => if f = x then some a else firstDecl r x
  | .init _ :: r, x => firstDecl r x

/-- An ordinary function: its code is emitted in any case. -/
def Plain (p : List Ext) (f : String) : Prop := ∃ a, firstDecl p f = some a ∧ a.lazy = false

def Defined (p : List Ext) (f : String) : Prop := ∃ a b, .defn f a b ∈ p

/-- The body of `g` refers to `f`. -/
def Refers (p : List Ext) (g f : String) : Prop := ∃ a b, .defn g a b ∈ p ∧ .ref f ∈ b

/-- Something outside of functions refers to `f`. -/
def InitRef (p : List Ext) (f : String) : Prop := ∃ rs, .init rs ∈ p ∧ f ∈ rs

/-- A function is needed if it is an ordinary function, or referred to outside of functions or by a function that is needed. -/
inductive Needed (p : List Ext) : String → Prop
  | plain {f} : Plain p f → Needed p f
  | init {f} : InitRef p f → Needed p f
  | ref {g f} : Needed p g → Refers p g f → Needed p f

/-- The latest function defined. -/
def lastDef : List Ext → Option String
  | [] => none
  | .defn f _ _ :: r => (lastDef r).or (some f)
  | _ :: r => lastDef r

/-- Does an external declaration declare `f` (also inside of a function)? -/
def Ext.declares (f : String) : Ext → Bool
  | .decl g _ => g == f
  | .defn g _ b => g == f || b.any fun | .decl h _ => h == f | .ref _ => false
  | .init _ => false

/-- What toycc handles rightly of references outside of functions: the function is an ordinary one; or the function defined before is an ordinary one; or
no function is defined before and the function is not declared again after. -/
def InitsFine (p : List Ext) : Prop :=
  ∀ pre rs post f, p = pre ++ .init rs :: post → f ∈ rs →
    Plain p f ∨ (∃ g, lastDef pre = some g ∧ Plain p g) ∨ (lastDef pre = none ∧ ∀ e ∈ post, e.declares f = false)

end Toycc.Globals
