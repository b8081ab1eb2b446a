import Verif.Sdecl.Model
import Verif.Decl.Spec
/-!
Specification: the syntax of structure and union definitions (C11 6.7.2.1, with the attributes of GNU C) as trees, their text, and the members they declare. A list
of specifiers, a width or an alignment is represented by its tokens together with its meaning.
-/
namespace Toycc.Sdecl
open Toycc.Parse (Tok P)
open Toycc.Decl

variable {B L : Type}

/-- struct-declarator: a declarator, perhaps a width; the declarator may be empty before a width. -/
structure MDcl (B L : Type) where
  d : Dcl B L
  width : Option (List Tok × L) := none

/-- struct-declaration: an anonymous structure or union, or specifiers (with the alignment given by `_Alignas`, 0 if there is none) and declarators. -/
inductive MDecl (B L : Type) where
  | anon (s : List Tok) (b : B) (al : Int)
  | decl (s : List Tok) (b : B) (al : Int) (ds : List (MDcl B L))

def widthText : Option (List Tok × L) → List Tok
  | none => []
  | some p => .p .colon :: p.1

def MDcl.text (x : MDcl B L) : List Tok := x.d.text ++ widthText x.width

/-- `first`: no comma before the next declarator. -/
def dclsText : Bool → List (MDcl B L) → List Tok
  | _, [] => []
  | first, x :: r => (if first then [] else [.p .comma]) ++ (x.text ++ dclsText false r)

def MDecl.text : MDecl B L → List Tok
  | .anon s _ _ => s ++ [.p .semi]
  | .decl s _ _ ds => s ++ (dclsText true ds ++ [.p .semi])

/-- The member a declarator declares. -/
def MDcl.den (const : L → Option Int) (b : B) (al : Int) (x : MDcl B L) : Memb B L :=
  ⟨(x.d.den const (.base b)).1, (x.d.den const (.base b)).2, al, x.width.bind fun p => const p.2⟩

def MDecl.den (const : L → Option Int) : MDecl B L → List (Memb B L)
  | .anon _ b al => [⟨.base b, none, al, none⟩]
  | .decl _ b al ds => ds.map (MDcl.den const b al)

/-- What follows a struct-declarator. -/
def Ends (r : List Tok) : Prop := ∃ q, r = .p .comma :: q ∨ r = .p .semi :: q

/-- A struct-declarator of the grammar: something is written; a constant that is read up to the comma or semicolon. -/
def MDcl.Valid (M : Orc B L) (b : B) (x : MDcl B L) : Prop :=
  x.text ≠ [] ∧ x.d.Syn (reads M.toOracle) false ∧ x.d.Fits M.const (.base b) ∧
    ∀ p, x.width = some p → (∃ w, M.const p.2 = some w) ∧ ∀ r, Ends r → M.cond (p.1 ++ r) = .ok (p.2, r)

/-- A struct-declaration of the grammar: the specifiers are read by declspec. -/
def MDecl.Valid (M : Orc B L) : MDecl B L → Prop
  | .anon s b al => M.agg b = true ∧ (∃ t q, s = t :: q ∧ t ≠ .p .rbrace) ∧ ∀ r, M.spec (s ++ .p .semi :: r) = .ok ((b, al), .p .semi :: r)
  | .decl s b al ds => ds ≠ [] ∧ (∃ t q, s = t :: q ∧ t ≠ .p .rbrace) ∧ (∀ r, M.spec (s ++ (dclsText true ds ++ .p .semi :: r)) = .ok ((b, al), dclsText true ds ++ .p .semi :: r)) ∧
    ∀ x ∈ ds, x.Valid M b

/-- C11 6.7.2.1p18: an array of unknown length at the end is a flexible array member, which takes no space. -/
def lastFlexible (ms : List (Memb B L)) : Option (List (Memb B L)) :=
  match ms.getLast? with
  | none => none
  | some m => match m.ty with
    | .arr t n => if n < 0 then some (ms.dropLast ++ [{ m with ty := .arr t 0 }]) else none
    | _ => none

/-! ### Sizes and alignments -/

/-- C11 6.5.3.4 and the RISC-V calling convention: pointers have 8 bytes; an array is as large as its elements together. GNU C gives functions the size 1. -/
def tySize (lay : B → Int × Int) : DTy B L → Int
  | .base b => (lay b).1
  | .dummy => 0
  | .ptr _ | .vla _ _ => 8
  | .arr t n => n * tySize lay t
  | .func _ _ _ => 1

/-- The alignment of an array is that of its elements. -/
def tyAlign (lay : B → Int × Int) : DTy B L → Int
  | .base b => (lay b).2
  | .dummy => 0
  | .ptr _ | .vla _ _ => 8
  | .arr t _ => tyAlign lay t
  | .func _ _ _ => 1

/-- A member: its size, its alignment by `_Alignas` or its type, its width. -/
def memOf (lay : B → Int × Int) (m : Memb B L) : Layout.Mem where
  size := tySize lay m.ty
  align := if m.align = 0 then tyAlign lay m.ty else m.align
  width := m.width

/-! ### Attributes -/

inductive Item (L : Type) where
  | packed
  | aligned (ts : List Tok) (e : L)

def Item.text : Item L → List Tok
  | .packed => [.ident "packed"]
  | .aligned ts _ => .ident "aligned" :: .p .lpar :: (ts ++ [.p .rpar])

def itemsText : Bool → List (Item L) → List Tok
  | _, [] => []
  | first, x :: r => (if first then [] else [.p .comma]) ++ (x.text ++ itemsText false r)

/-- `__attribute__((...))`. -/
def attrText (as : List (Item L)) : List Tok := .kw "__attribute__" :: .p .lpar :: .p .lpar :: (itemsText true as ++ [.p .rpar, .p .rpar])

/-- Some attribute packs the type. -/
def isPacked (as : List (Item L)) : Bool := as.any fun
  | .packed => true
  | _ => false

/-- The alignment asked for: that of the last attribute that gives one. -/
def lastAligned (const : L → Option Int) (a : Int) : List (Item L) → Int
  | [] => a
  | .packed :: r => lastAligned const a r
  | .aligned _ e :: r => lastAligned const ((const e).getD a) r

def Item.Valid (M : Orc B L) : Item L → Prop
  | .packed => True
  | .aligned ts e => (∃ a, M.const e = some a) ∧ ∀ r, M.cond (ts ++ .p .rpar :: r) = .ok (e, .p .rpar :: r)

end Toycc.Sdecl
