import Verif.Decl.Model
import Verif.Layout.Model
/-!
Definitions of structures and unions, from tokens to the layout: struct_members, attribute_list, struct_union_decl for a type with braces
(parser/declarator.c:22-171). Declarators are those of Verif.Decl; declspec, conditional and the folding of constants are oracles. Tags are the subject of C44.
-/
namespace Toycc.Sdecl
open Toycc.Parse (Tok P)
open Toycc.Decl

/-- declspec as called by struct_members, declarator.c:30-31: the type and `attr.align` (0 without `_Alignas`); `agg`: a structure or union;
`lay`: size and alignment. -/
structure Orc (B L : Type) extends Oracle B L where
  spec : List Tok → Except DErr ((B × Int) × List Tok)
  agg : B → Bool
  lay : B → Int × Int

/-- struct Member, toycc.h, as far as struct_members fills it in. `align` is `attr.align`. -/
structure Memb (B L : Type) where
  ty : DTy B L
  name : Option String
  align : Int
  width : Option Int

variable {B L : Type}

/-- declarator.c:60-63. const_expr, parser.c:1010-1014. -/
def bitWidth (M : Orc B L) (ts : List Tok) : Except DErr (Option Int × List Tok) :=
  match ts with
  | .p .colon :: r => do
    let (e, r) ← M.cond r
    match M.const e with
    | some w => .ok (some w, r)
    | none => .error .other
  | ts => .ok (none, ts)

/-- The inner loop of struct_members, declarator.c:46-67. -/
def dcls (M : Orc B L) (b : B) (al : Int) : Nat → Bool → List Tok → Except DErr (List (Memb B L) × List Tok)
  | 0, _, _ => .error .fuel
  | n + 1, first, ts =>
    match ts with
    | .p .semi :: r => .ok ([], r)
    | ts => do
      let ts ← sep first ts
      let (ty, name, ts) ← declarator M.toOracle false n ts (.base b)
      let (w, ts) ← bitWidth M ts
      let (ms, rest) ← dcls M b al n false ts
      .ok (⟨ty, name, al, w⟩ :: ms, rest)

/-- `consume(&tok, tok, ";")`. -/
def semi : List Tok → Option (List Tok)
  | .p .semi :: r => some r
  | _ => none

/-- The outer loop of struct_members, declarator.c:29-68, and the skipped brace, 79-80. -/
def members (M : Orc B L) : Nat → List Tok → Except DErr (List (Memb B L) × List Tok)
  | 0, _ => .error .fuel
  | n + 1, ts =>
    match ts with
    | .p .rbrace :: r => .ok ([], r)
    | ts => do
      let ((b, al), ts) ← M.spec ts
      match M.agg b, semi ts with
      | true, some ts => do
        let (ms, rest) ← members M n ts
        .ok (⟨.base b, none, al, none⟩ :: ms, rest)
      | _, _ => do
        let (ds, ts) ← dcls M b al n true ts
        let (ms, rest) ← members M n ts
        .ok (ds ++ ms, rest)

/-- An array of unknown length, `array_len < 0`. -/
def unknown : DTy B L → Option (DTy B L)
  | .arr t n => if n < 0 then some t else none
  | _ => none

/-- declarator.c:70-77: the last member, and `is_flexible`. -/
def flexible : List (Memb B L) → List (Memb B L) × Bool
  | [] => ([], false)
  | [m] => match unknown m.ty with
    | some t => ([{ m with ty := .arr t 0 }], true)
    | none => ([m], false)
  | m :: r => let q := flexible r; (m :: q.1, q.2)

/-- The list inside the double parentheses, declarator.c:90-110: `is_packed` and `align` of the type. -/
def items (M : Orc B L) : Nat → Bool → List Tok → Bool × Int → Except DErr ((Bool × Int) × List Tok)
  | 0, _, _, _ => .error .fuel
  | n + 1, first, ts, v =>
    match ts with
    | .p .rpar :: r => .ok (v, r)
    | ts => do
      let ts ← sep first ts
      match ts with
      | .ident "packed" :: r => items M n false r (true, v.2)
      | .ident "aligned" :: r => do
        let r ← skip r .lpar
        let (e, r) ← M.cond r
        match M.const e with
        | some a => do
          let r ← skip r .rpar
          items M n false r (v.1, a)
        | none => .error .other
      | _ => .error .other

/-- attribute_list, declarator.c:84-115. -/
def attributes (M : Orc B L) : Nat → List Tok → Bool × Int → Except DErr ((Bool × Int) × List Tok)
  | 0, _, _ => .error .fuel
  | n + 1, ts, v =>
    match ts with
    | .kw "__attribute__" :: r => do
      let r ← skip r .lpar
      let r ← skip r .lpar
      let (v, r) ← items M n true r v
      let r ← skip r .rpar
      attributes M n r v
    | ts => .ok (v, ts)

/-- What struct_union_decl knows of a type when it returns. -/
structure Body (B L : Type) where
  packed : Bool
  align : Int
  members : List (Memb B L)
  isFlexible : Bool

def tagOf : List Tok → Option String × List Tok
  | .ident x :: r => (some x, r)
  | ts => (none, ts)

/-- struct_union_decl, declarator.c:118-158, for a type with braces; struct_type (type.c:286-289) gives alignment 1. -/
def structUnion (M : Orc B L) (n : Nat) (ts : List Tok) : Except DErr (Option String × Body B L × List Tok) := do
  let (v, ts) ← attributes M n ts (false, 1)
  let q := tagOf ts
  let ts ← skip q.2 .lbrace
  let (ms, ts) ← members M n ts
  let f := flexible ms
  let (v, rest) ← attributes M n ts v
  .ok (q.1, ⟨v.1, v.2, f.1, f.2⟩, rest)

/-- Size and alignment of a type: type.c:249-291. -/
def sizeAlign (M : Orc B L) : DTy B L → Int × Int
  | .base b => M.lay b
  | .dummy => (0, 0)
  | .ptr _ => (8, 8)
  | .arr t n => ((sizeAlign M t).1 * n, (sizeAlign M t).2)
  | .vla _ _ => (8, 8)
  | .func _ _ _ => (1, 1)

/-- A member for struct_decl and union_decl: declarator.c:41, 58. -/
def toMem (M : Orc B L) (m : Memb B L) : Layout.Mem :=
  ⟨(sizeAlign M m.ty).1, if m.align ≠ 0 then m.align else (sizeAlign M m.ty).2, m.width⟩

def toAgg (M : Orc B L) (t : Body B L) : Layout.Agg := { align := t.align, packed := t.packed, members := t.members.map fun m => (toMem M m, {}) }

end Toycc.Sdecl
