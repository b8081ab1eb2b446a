import Verif.Src.Text
/-!
Specification: the texts of function bodies. The grammar of statements is that of Verif.Stx.Spec (C11 6.8), that of expressions is that of Verif.Parse.Spec (6.5);
here are the declarations (6.7) of integers, pointers, arrays and typedef names.
-/
namespace Toycc.Src
open Toycc.Cg Toycc.Low
open Toycc.Parse (Tok P Tree Trees BOp Derives)

def starsText (n : Nat) : List Tok := List.replicate n (.p .star)

/-- The text of a type name. -/
def TN.text (t : TN) : List Tok := t.base.words.map .kw ++ starsText t.stars

/-- A declarator with its initialiser: `* ... * name [ l ] ... [ l ] = e`, where `init` is the text of `e`. -/
structure Dr where
  stars : Nat
  name : String
  lens : List Nat
  init : Option (List Tok)

def lensText : List Nat → List Tok
  | [] => []
  | l :: r => .p .lbrk :: .num l :: .p .rbrk :: lensText r

def initText : Option (List Tok) → List Tok
  | none => []
  | some s => .p .eq :: s

def Dr.text (d : Dr) : List Tok := starsText d.stars ++ .ident d.name :: (lensText d.lens ++ initText d.init)

/-- C11 6.7.6.2: `T x[l][m]` is an array of `l` arrays of `m` elements. -/
def arrays : List Nat → CTy → CTy
  | [], t => t
  | l :: r, t => .arr (arrays r t) l

/-- The type a declarator gives to its name. -/
def Dr.ty (d : Dr) (t : CTy) : CTy := arrays d.lens (ptrs d.stars t)

/-- Binary operators with the same meaning for the values of their operands; C11 6.5.8: `l > r` and `r < l` have the same value, as have `l >= r` and `r <= l`
(the order of evaluation of the operands is unspecified, 6.5p3). -/
inductive Op2 : BOp → SExpr → SExpr → SExpr → Prop where
  | mul (l r) : Op2 .mul l r (.bin .mul l r)
  | div (l r) : Op2 .div l r (.bin .div l r)
  | mod (l r) : Op2 .mod l r (.bin .mod l r)
  | add (l r) : Op2 .add l r (.bin .add l r)
  | sub (l r) : Op2 .sub l r (.bin .sub l r)
  | shl (l r) : Op2 .shl l r (.bin .shl l r)
  | shr (l r) : Op2 .shr l r (.bin .shr l r)
  | lt (l r) : Op2 .lt l r (.bin .lt l r)
  | le (l r) : Op2 .le l r (.bin .le l r)
  | gt (l r) : Op2 .gt l r (.bin .lt r l)
  | ge (l r) : Op2 .ge l r (.bin .le r l)
  | eq (l r) : Op2 .eq l r (.bin .eq l r)
  | ne (l r) : Op2 .ne l r (.bin .ne l r)
  | band (l r) : Op2 .band l r (.bin .and l r)
  | bxor (l r) : Op2 .bxor l r (.bin .xor l r)
  | bor (l r) : Op2 .bor l r (.bin .or l r)
  | land (l r) : Op2 .land l r (.logand l r)
  | lor (l r) : Op2 .lor l r (.logor l r)

/-- Compound assignments (C11 6.5.16). -/
inductive OpA : BOp → BinOp → Prop where
  | mul : OpA .mul .mul
  | div : OpA .div .div
  | mod : OpA .mod .mod
  | add : OpA .add .add
  | sub : OpA .sub .sub
  | shl : OpA .shl .shl
  | shr : OpA .shr .shr
  | band : OpA .band .and
  | bxor : OpA .bxor .xor
  | bor : OpA .bor .or

mutual
/-- What an expression written in the scopes `a` is: names stand for what the innermost declaration says (C11 6.2.1), a constant has its
type (6.4.4.1, C17), `b[i]` is `*(b + i)` (6.5.2.1). -/
inductive Means (a : Sc) : Tree TN → SExpr → Prop where
  | var {x t v} : a.find x = some (.var t v) → Means a (.ident x) (.var t v)
  | enum {x v} : a.find x = some (.val v) → Means a (.ident x) (.num (.int false) v)
  | int {v} : -(2 ^ 31) ≤ v → v < 2 ^ 31 → Means a (.num v) (.num (.int false) v)
  | uint {v} : 0 ≤ v → v < 2 ^ 32 → Means a (.tnum .uint v) (.num (.int true) v)
  | long {v} : 0 ≤ v → v < 2 ^ 63 → Means a (.tnum .long v) (.num (.long false) v)
  | ulong {v} : 0 ≤ v → v < 2 ^ 64 → Means a (.tnum .ulong v) (.num (.long true) v)
  | bin {o l r l' r' x} : Means a l l' → Means a r r' → Op2 o l' r' x → Means a (.bin o l r) x
  | assign {l r l' r'} : Means a l l' → Means a r r' → Means a (.assign none l r) (.assign l' r')
  | opAssign {o o' l r l' r'} : OpA o o' → Means a l l' → Means a r r' → Means a (.assign (some o) l r) (.opAssign o' l' r')
  | cond {c t e c' t' e'} : Means a c c' → Means a t t' → Means a e e' → Means a (.cond c t e) (.cond c' t' e')
  | elvis {c e c' e'} : Means a c c' → Means a e e' → Means a (.elvis c e) (.elvis c' e')
  | comma {l r l' r'} : Means a l l' → Means a r r' → Means a (.comma l r) (.comma l' r')
  | neg {e e'} : Means a e e' → Means a (.un .neg e) (.neg e')
  | addr {e e'} : Means a e e' → Means a (.un .addr e) (.addr e')
  | deref {e e'} : Means a e e' → Means a (.un .deref e) (.deref e')
  | not {e e'} : Means a e e' → Means a (.un .not e) (.not e')
  | bitnot {e e'} : Means a e e' → Means a (.un .bitnot e) (.bitnot e')
  | preinc {e e'} : Means a e e' → Means a (.un .preinc e) (.pre true e')
  | predec {e e'} : Means a e e' → Means a (.un .predec e) (.pre false e')
  | postinc {e e'} : Means a e e' → Means a (.postinc e) (.post true e')
  | postdec {e e'} : Means a e e' → Means a (.postdec e) (.post false e')
  | cast {t e e'} : Means a e e' → Means a (.cast t e) (.cast t.ty e')
  | sizeof (t : TN) : Means a (.sizeofT t) (.num (.long true) t.ty.size)
  | index {b i b' i'} : Means a b b' → Means a i i' → Means a (.index b i) (.deref (.bin .add b' i'))
  | call {f r ps as as'} : a.find f = some (.func r ps) → MeansArgs a ps as as' → Means a (.call (.ident f) as) (.call (.var (.func r) (.glob f)) as')
/-- As many arguments as parameters. -/
inductive MeansArgs (a : Sc) : List CTy → Trees TN → SArgs → Prop where
  | nil : MeansArgs a [] .nil .nil
  | cons {t ps e r e' r'} : Means a e e' → MeansArgs a ps r r' → MeansArgs a (t :: ps) (.cons e r) (.cons t e' r')
end

/-- What is done when the declaration is reached; `a` are the scopes with the name, which is visible in its initialiser (C11 6.2.1p7). -/
inductive Inits (off : Int) (a : Sc) (u : CTy) : Option (List Tok) → XI → Prop where
  | none : Inits off a u none (.var u)
  | some {e s x} : Derives (PO a) TN.text false 1 e s → Means a e x → u.scalar = true → Inits off a u (some s) (.ini u off x)

/-- Declarators of variables from the type `t`: the scopes before, the declarators, what they do, the scopes after. -/
inductive Vars (off : Nat → Int) (t : CTy) : Sc → List Dr → List XI → Sc → Prop where
  | nil (a) : Vars off t a [] [] a
  | cons {a d i ds is b} : d.ty t ≠ .void → (∀ l ∈ d.lens, l < 2 ^ 31) → Inits (off a.next) (a.newVar off d.name (d.ty t)) (d.ty t) d.init i →
      Vars off t (a.newVar off d.name (d.ty t)) ds is b → Vars off t a (d :: ds) (i :: is) b

/-- Declarators of typedef names. -/
inductive Typedefs (t : CTy) : Sc → List Dr → Sc → Prop where
  | nil (a) : Typedefs t a [] a
  | cons {a d ds b} : d.init = none → (∀ l ∈ d.lens, l < 2 ^ 31) → Typedefs t (a.push d.name (.typ (d.ty t))) ds b → Typedefs t a (d :: ds) b

/-- Specifiers: keywords, a typedef name, or `enum` and the tag of an enumeration. -/
inductive Spec (a : Sc) : List Tok → CTy → Prop where
  | base (b : Base) : Spec a (b.words.map .kw) b.ty
  | name {x t} : a.find x = some (.typ t) → Spec a [.ident x] t
  | tag {x} : a.isTag x = true → Spec a [.kw "enum", .ident x] .enum

/-- An enumerator: `name` or `name = e`, where `value` is the text of `e`. -/
structure Er where
  name : String
  value : Option (List Tok)

def Er.text (d : Er) : List Tok := .ident d.name :: initText d.value

def erSep : List Er → List Tok
  | [] => []
  | d :: r => .p .comma :: (d.text ++ erSep r)

def erList : List Er → List Tok
  | [] => []
  | d :: r => d.text ++ erSep r

/-- C11 6.7.2.2p3: the value of an enumerator is that of its constant expression, without one it is 0 for the first and one more than the last value for the others;
`n` is the value without an expression. -/
inductive ErVal (val : Sc → Tree TN → Option Int) (a : Sc) (n : Int) : Option (List Tok) → Int → Prop where
  | next : ErVal val a n none n
  | const {e s v} : Derives (PO a) TN.text false 2 e s → val a e = some v → ErVal val a n (some s) v

/-- Enumerators: each is a constant of type int from the end of its text on (6.2.1p7), also in the expressions of the enumerators after it. The values are those of int
(6.7.2.2p2) except for its greatest (C78_max_wrong). -/
inductive Enumerators (val : Sc → Tree TN → Option Int) : Sc → Int → List Er → Sc → Prop where
  | nil (a n) : Enumerators val a n [] a
  | cons {a n d v ds b} : ErVal val a n d.value v → -(2 ^ 31) ≤ v → v < 2 ^ 31 - 1 → Enumerators val (a.push d.name (.val v)) (v + 1) ds b → Enumerators val a n (d :: ds) b

def tagText : Option String → List Tok
  | none => []
  | some x => [.ident x]

/-- Specifiers with definitions of enumerations; `xs` are the names of the enumerators. -/
inductive Specs (val : Sc → Tree TN → Option Int) (a : Sc) : List Tok → CTy → List String → Sc → Prop where
  | spec {ts t} : Spec a ts t → Specs val a ts t [] a
  | enum {x ds b} (comma : Bool) : Enumerators val a 0 ds b →
      Specs val a (.kw "enum" :: (tagText x ++ .p .lbrace :: (erList ds ++ ((if comma then [.p .comma] else []) ++ [.p .rbrace])))) .enum
        (ds.map (·.name)) (b.tag x)

def sep : List Dr → List Tok
  | [] => []
  | d :: r => .p .comma :: (d.text ++ sep r)

/-- Declarators separated by commas. -/
def list : List Dr → List Tok
  | [] => []
  | d :: r => d.text ++ sep r

/-- A declaration with its semicolon. -/
inductive VarDecl (off : Nat → Int) (val : Sc → Tree TN → Option Int) (a : Sc) : List Tok → List XI → Sc → Prop where
  | vars {ts t xs a' ds is b} : Specs val a ts t xs a' → Vars off t a' ds is b → VarDecl off val a (ts ++ list ds ++ [.p .semi]) is b

inductive BlockDecl (off : Nat → Int) (val : Sc → Tree TN → Option Int) (a : Sc) : List Tok → List XI → Sc → Prop where
  | vars {ts is b} : VarDecl off val a ts is b → BlockDecl off val a ts is b
  | typedef {ts t xs a' ds b} : Specs val a ts t xs a' → Typedefs t a' ds b → BlockDecl off val a (.kw "typedef" :: (ts ++ list ds ++ [.p .semi])) [] b

/-- The texts of expressions, constants and declarations. -/
def words (off : Nat → Int) (val : Sc → Tree TN → Option Int) : Stx.Words Sc SExpr (List XI) where
  expr a ts x b := ∃ e : Tree TN, Derives (PO a) TN.text false 0 e ts ∧ Means a e x ∧ b = a
  const a ts v b := ∃ e : Tree TN, Derives (PO a) TN.text false 2 e ts ∧ val a e = some v ∧ b = a
  decl := BlockDecl off val
  forDecl := VarDecl off val

mutual
/-- The statement `x` of Verif.Src.Spec that a statement of the grammar is. C11 6.8.5: `while (c) s` is `for (; c; ) s`. -/
inductive IsBody : Stx.S SExpr (List XI) → XStmt → Prop where
  | null : IsBody .null .skip
  | expr (e) : IsBody (.expr e) (.items [.expr e])
  | ret (e) : IsBody (.ret e) (.ret e)
  | ifs {c s x} : IsBody s x → IsBody (.ifs c s) (.ifs c x .skip)
  | ifElse {c s t x y} : IsBody s x → IsBody t y → IsBody (.ifElse c s t) (.ifs c x y)
  | switch {c s x} : IsBody s x → IsBody (.switch c s) (.switch c x)
  | case {lo hi s x} : IsBody s x → IsBody (.case lo hi s) (.case lo hi x)
  | dflt {s x} : IsBody s x → IsBody (.dflt s) (.dflt x)
  | forDecl {d c i s x} : IsBody s x → IsBody (.forS (.inl d) c i s) (.loop d c i x)
  | forExpr {e c i s x} : IsBody s x → IsBody (.forS (.inr (some e)) c i s) (.loop [.expr e] c i x)
  | forNone {c i s x} : IsBody s x → IsBody (.forS (.inr none) c i s) (.loop [] c i x)
  | while {c s x} : IsBody s x → IsBody (.whileS c s) (.loop [] (some c) none x)
  | doW {c s x} : IsBody s x → IsBody (.doW s c) (.doW x c)
  | goto (l) : IsBody (.goto l) (.goto l)
  | brk : IsBody .brk .brk
  | cont : IsBody .cont .cont
  | label {l s x} : IsBody s x → IsBody (.label l s) (.label l x)
  | block {b x} : IsBlock b x → IsBody (.block b) x
/-- The same for the contents of a block. -/
inductive IsBlock : Stx.B SExpr (List XI) → XStmt → Prop where
  | nil : IsBlock .nil .skip
  | decl {d r y} : IsBlock r y → IsBlock (.decl d r) (.seq (.items d) y)
  | stmt {s r x y} : IsBody s x → IsBlock r y → IsBlock (.stmt s r) (.seq x y)
end

/-- The body `x` is written `ts` in the scopes `a`, and `b` are the scopes after it. -/
def Written (off : Nat → Int) (val : Sc → Tree TN → Option Int) (a : Sc) (ts : List Tok) (x : XStmt) (b : Sc) : Prop :=
  ∃ s : Stx.B SExpr (List XI), Stx.Stmt (words off val) ⟨Sc.enter, Sc.leave⟩ a (.block s) ts b ∧ IsBlock s x

end Toycc.Src
