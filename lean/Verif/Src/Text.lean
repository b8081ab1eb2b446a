import Verif.Src.Model
import Verif.Low.Spec
import Verif.Stx.Expr
/-!
Function bodies from their tokens: the parsers of statements (Verif.Stx.Model) and expressions (Verif.Parse.Model) with scopes of variables, functions,
enumeration constants and typedef names, and with declarations of integers, pointers and arrays of them. Left out (the outcome is an error): other declarators,
storage classes other than typedef, qualifiers, structures and unions, initialisers of arrays, string literals, members, sizeof with an expression, _Alignof, unary plus on
nothing but numbers, type names with a typedef name inside expressions, functions that are not called, unprototyped and variadic calls.
-/
namespace Toycc.Src
open Toycc.Cg Toycc.Low
open Toycc.Parse (Tok P Tree Trees BOp UOp)
open Toycc.Stx (SErr limit)

/-- What a name stands for (struct VarScope, parser/scope.c:6-12). A function is known by its name, result and parameters. -/
inductive Bind where
  | var (t : CTy) (v : Var)
  | val (v : Int)
  | typ (t : CTy)
  | func (r : CTy) (ps : List CTy)
  deriving DecidableEq

/-- The scopes, innermost first, and the number of local variables so far (the list `locals`, parser/scope.c:4). `tags` are the tags of enumerations (`tags` of struct
Scope, parser/scope.c:14-22). -/
structure Sc where
  scopes : List (List (String × Bind))
  next : Nat
  tags : List (List String)
  deriving DecidableEq

/-- find_var, parser/scope.c:48-57. -/
def Sc.find (a : Sc) (x : String) : Option Bind := a.scopes.findSome? (·.lookup x)

/-- push_scope, parser/scope.c:98-104: the name is added to the innermost scope. -/
def Sc.push (a : Sc) (x : String) (b : Bind) : Sc :=
  { a with scopes := match a.scopes with
    | s :: r => ((x, b) :: s) :: r
    | [] => [[(x, b)]] }

/-- enter_scope and leave_scope, parser/scope.c:35-46. -/
def Sc.enter (a : Sc) : Sc := { a with scopes := [] :: a.scopes, tags := [] :: a.tags }
def Sc.leave (a : Sc) : Sc := { a with scopes := a.scopes.tail, tags := a.tags.tail }

/-- push_tag_scope, parser/scope.c, for an enumeration; nothing without a tag (declarator.c:294-295). -/
def Sc.tag (a : Sc) : Option String → Sc
  | none => a
  | some x => { a with tags := match a.tags with
    | s :: r => (x :: s) :: r
    | [] => [[x]] }

/-- find_tag, parser/scope.c:59-67, where all tags are those of enumerations. -/
def Sc.isTag (a : Sc) (x : String) : Bool := a.tags.any (·.contains x)

/-- new_lvar, parser/scope.c:119-127; the offset is given to the variable when the body has been read (assign_lvar_offsets, codegen.c:1799-1889). -/
def Sc.newVar (off : Nat → Int) (a : Sc) (x : String) (t : CTy) : Sc :=
  { a.push x (.var t (.loc (off a.next))) with next := a.next + 1 }

/-! ### Type names -/

/-- Types named by keywords. -/
inductive Base where
  | void | bool | char | schar | uchar | short | ushort | int | uint | long | ulong
  deriving DecidableEq, Repr

/-- Their keywords, in the usual order; C32 is about the others. -/
def Base.words : Base → List String
  | .void => ["void"] | .bool => ["_Bool"] | .char => ["char"] | .schar => ["signed", "char"] | .uchar => ["unsigned", "char"] | .short => ["short"]
  | .ushort => ["unsigned", "short"] | .int => ["int"] | .uint => ["unsigned", "int"] | .long => ["long"] | .ulong => ["unsigned", "long"]

/-- declspec, declarator.c:574-647. -/
def Base.ty : Base → CTy
  | .void => .void | .bool => .bool | .char => .char false | .schar => .char false | .uchar => .char true | .short => .short false | .ushort => .short true
  | .int => .int false | .uint => .int true | .long => .long false | .ulong => .long true

def bases : List Base := [.void, .bool, .char, .schar, .uchar, .short, .ushort, .int, .uint, .long, .ulong]

/-- The list of is_typename, declarator.c:365-396. -/
def typeWords : List String :=
  ["void", "_Bool", "char", "short", "int", "long", "struct", "union", "typedef", "enum", "static", "extern", "_Alignas", "signed", "unsigned", "const",
   "volatile", "auto", "register", "restrict", "__restrict", "__restrict__", "_Noreturn", "float", "double", "typeof", "inline", "_Thread_local", "__thread", "_Atomic"]

/-- is_typename, declarator.c:362-404; `inline` is in its list but is not a keyword (tokenize.c:123-180). -/
def isType (a : Sc) : Tok → Bool
  | .kw s => typeWords.contains s
  | .ident x => typeWords.contains x || match a.find x with
    | some (.typ _) => true
    | _ => false
  | _ => false

/-- The keywords at the beginning. -/
def kws : List Tok → List String
  | .kw s :: r => s :: kws r
  | _ => []

/-- The loop of pointers, declarator.c:299-319, without qualifiers. -/
def stars : List Tok → Nat × List Tok
  | .p .star :: r => ((stars r).1 + 1, (stars r).2)
  | ts => (0, ts)

/-- pointer_to, type.c:250-256, `n` times. -/
def ptrs : Nat → CTy → CTy
  | 0, t => t
  | n + 1, t => ptrs n (.ptr t)

/-- A type name. -/
structure TN where
  base : Base
  stars : Nat
  deriving DecidableEq

def TN.ty (t : TN) : CTy := ptrs t.stars t.base.ty

/-- typename, declarator.c:343-349. -/
def typename (ts : List Tok) : Except Parse.PErr (TN × List Tok) :=
  match bases.find? (fun b => b.words == kws ts) with
  | some b => .ok (⟨b, (stars (ts.drop (kws ts).length)).1⟩, (stars (ts.drop (kws ts).length)).2)
  | none => .error .unmodelled

def PO (a : Sc) : Parse.Oracle TN := ⟨isType a, typename⟩

/-! ### The semantic actions of expressions -/

/-- Binary operators other than `&&` and `||`; `a > b` is `b < a` (parser.c:864-872). -/
def binX : BOp → SExpr → SExpr → SExpr
  | .mul, l, r => .bin .mul l r
  | .div, l, r => .bin .div l r
  | .mod, l, r => .bin .mod l r
  | .add, l, r => .bin .add l r
  | .sub, l, r => .bin .sub l r
  | .shl, l, r => .bin .shl l r
  | .shr, l, r => .bin .shr l r
  | .lt, l, r => .bin .lt l r
  | .le, l, r => .bin .le l r
  | .gt, l, r => .bin .lt r l
  | .ge, l, r => .bin .le r l
  | .eq, l, r => .bin .eq l r
  | .ne, l, r => .bin .ne l r
  | .band, l, r => .bin .and l r
  | .bxor, l, r => .bin .xor l r
  | .bor, l, r => .bin .or l r
  | .land, l, r => .logand l r
  | .lor, l, r => .logor l r

/-- The operators of compound assignments, parser.c:1025-1053. -/
def opX : BOp → Option BinOp
  | .mul => some .mul | .div => some .div | .mod => some .mod | .add => some .add | .sub => some .sub | .shl => some .shl | .shr => some .shr
  | .band => some .and | .bxor => some .xor | .bor => some .or
  | _ => none

/-- The types of constants. -/
def numTy : Parse.NTy → CTy
  | .uint => .int true | .long => .long false | .ulong => .long true

/-- Constants are below this. -/
def numLimit : Parse.NTy → Int
  | .uint => 2 ^ 32 | .long => 2 ^ 63 | .ulong => 2 ^ 64

mutual
/-- What the semantic actions of parser.c:524-1070 and primary (148-302) make of an expression, as an expression with resolved names: `a[i]` is `*(a + i)`
(parser.c:558-564). Constants have the types of their tokens (tokenize.c:418-501). -/
def resolve (a : Sc) : Tree TN → Option SExpr
  | .ident x =>
    match a.find x with
    | some (.var t v) => some (.var t v)
    | some (.val v) => some (.num (.int false) v)
    | _ => none
  | .num v => if -(2 ^ 31) ≤ v ∧ v < 2 ^ 31 then some (.num (.int false) v) else none
  | .tnum t v => if 0 ≤ v ∧ v < numLimit t then some (.num (numTy t) v) else none
  | .bin op l r => do
    let l ← resolve a l
    let r ← resolve a r
    some (binX op l r)
  | .assign none l r => do
    let l ← resolve a l
    let r ← resolve a r
    some (.assign l r)
  | .assign (some op) l r => do
    let op ← opX op
    let l ← resolve a l
    let r ← resolve a r
    some (.opAssign op l r)
  | .cond c t e => do
    let c ← resolve a c
    let t ← resolve a t
    let e ← resolve a e
    some (.cond c t e)
  | .elvis c e => do
    let c ← resolve a c
    let e ← resolve a e
    some (.elvis c e)
  | .comma l r => do
    let l ← resolve a l
    let r ← resolve a r
    some (.comma l r)
  | .un .neg e => do
    let e ← resolve a e
    some (.neg e)
  | .un .addr e => do
    let e ← resolve a e
    some (.addr e)
  | .un .deref e => do
    let e ← resolve a e
    some (.deref e)
  | .un .not e => do
    let e ← resolve a e
    some (.not e)
  | .un .bitnot e => do
    let e ← resolve a e
    some (.bitnot e)
  | .un .preinc e => do
    let e ← resolve a e
    some (.pre true e)
  | .un .predec e => do
    let e ← resolve a e
    some (.pre false e)
  | .cast t e => do
    let e ← resolve a e
    some (.cast t.ty e)
  | .sizeofT t => some (.num (.long true) t.ty.size)
  | .index b i => do
    let b ← resolve a b
    let i ← resolve a i
    some (.deref (.bin .add b i))
  | .call (.ident f) as =>
    match a.find f with
    | some (.func r ps) => do
      let as ← resolveArgs a ps as
      some (.call (.var (.func r) (.glob f)) as)
    | _ => none
  | .postinc e => do
    let e ← resolve a e
    some (.post true e)
  | .postdec e => do
    let e ← resolve a e
    some (.post false e)
  | _ => none
/-- The arguments, as many as parameters (funcall, parser.c:38-66). -/
def resolveArgs (a : Sc) : List CTy → Trees TN → Option SArgs
  | [], .nil => some .nil
  | t :: ps, .cons e r => do
    let e ← resolve a e
    let r ← resolveArgs a ps r
    some (.cons t e r)
  | _, _ => none
end

/-! ### Declarations -/

/-- `enum x`, declarator.c:262-271, and the end of the loop of declspec, declarator.c:446-663: no keyword follows. -/
def enumRef (a : Sc) : List Tok → Except SErr (CTy × List Tok)
  | .ident _ :: .kw _ :: _ => .error .other
  | .ident x :: r => if a.isTag x then .ok (.enum, r) else .error .other
  | _ => .error .other

/-- declspec, declarator.c:446-663, restricted to keywords in the usual order, one typedef name, or `enum` and a tag. -/
def declspec (a : Sc) (ts : List Tok) : Except SErr (CTy × List Tok) :=
  match ts with
  | .ident x :: r => match a.find x with
    | some (.typ t) => .ok (t, r)
    | _ => .error .other
  | ts =>
    if kws ts = ["enum"] then enumRef a ts.tail
    else match bases.find? (fun b => b.words == kws ts) with
    | some b => .ok (b.ty, ts.drop (kws ts).length)
    | none => .error .other

/-! ### Enumerations -/

/-- The value of an enumerator, declarator.c:284-286: `val` is an int, const_expr returns an int64_t. -/
noncomputable def enumVal (val : Sc → Tree TN → Option Int) (a : Sc) (v : Int) (ts : List Tok) : Except SErr (Int × List Tok) :=
  match ts with
  | .p .eq :: r => do
    let (e, r) ← limit fun n => Parse.conditional (PO a) n r
    match val a e with
    | some w => .ok (Int.bmod w (2 ^ 32), r)
    | none => .error .other
  | ts => .ok (v, ts)

/-- The list of enumerators with the closing brace, declarator.c:276-291; consume_end, parser/common.c:4-17. The last `val++` overflows if the value is INT_MAX. -/
noncomputable def enumLoop (val : Sc → Tree TN → Option Int) : Nat → Bool → Int → Sc → List Tok → Except SErr (Sc × List Tok)
  | 0, _, _, _, _ => .error .fuel
  | n + 1, first, v, a, ts =>
    match ts with
    | .p .rbrace :: r => .ok (a, r)
    | .p .comma :: .p .rbrace :: r => .ok (a, r)
    | ts => do
      let ts ← if first then .ok ts else Stx.skip ts (.p .comma)
      match ts with
      | .ident x :: r => do
        let (v, r) ← enumVal val a v r
        if v = 2 ^ 31 - 1 then .error .undefined else enumLoop val n false (v + 1) (a.push x (.val v)) r
      | _ => .error .ident

/-- The beginning of the definition of an enumeration, declarator.c:255-274: its tag and the tokens after the brace. -/
def enumDef : List Tok → Option (Option String × List Tok)
  | .kw s :: .p .lbrace :: r => if s = "enum" then some (none, r) else none
  | .kw s :: .ident x :: .p .lbrace :: r => if s = "enum" then some (some x, r) else none
  | _ => none

/-- declspec with definitions of enumerations (enum_specifier, declarator.c:251-297). -/
noncomputable def specT (val : Sc → Tree TN → Option Int) (a : Sc) (ts : List Tok) : Except SErr (CTy × Sc × List Tok) :=
  match enumDef ts with
  | some (x, r) => do
    let (b, r) ← enumLoop val (r.length + 1) true 0 a r
    match r with
    | .kw _ :: _ => .error .other
    | r => .ok (.enum, b.tag x, r)
  | none => do
    let (t, r) ← declspec a ts
    .ok (t, a, r)

/-- type_suffix, declarator.c:792-808, restricted to lengths that are numbers. -/
def dims (t : CTy) : List Tok → Except SErr (CTy × List Tok)
  | .p .lbrk :: .num n :: .p .rbrk :: r => do
    let (t, r) ← dims t r
    if 0 ≤ n ∧ n < 2 ^ 31 then .ok (.arr t n.toNat, r) else .error .other
  | .p .lbrk :: _ => .error .other
  | .p .lpar :: _ => .error .other
  | ts => .ok (t, ts)

/-- declarator, declarator.c:811-844, restricted to `*`, a name and lengths. -/
def declr (t : CTy) (ts : List Tok) : Except SErr (String × CTy × List Tok) :=
  match (stars ts).2 with
  | .ident x :: r => do
    let (t, r) ← dims (ptrs (stars ts).1 t) r
    .ok (x, t, r)
  | _ => .error .other

/-- The initialiser of a local variable, declarator.c:944-949, restricted to scalars: initializer and lvar_initializer, initializer.c:474-481, 604-620. The scope `a` is
that with the variable. -/
noncomputable def initT (off : Int) (a : Sc) (t : CTy) (ts : List Tok) : Except SErr (XI × List Tok) :=
  match ts with
  | .p .eq :: r => do
    let (e, r) ← limit fun n => Parse.assign (PO a) n r
    match resolve a e with
    | some e => if t.scalar then .ok (.ini t off e, r) else .error .other
    | none => .error .other
  | ts => .ok (.var t, ts)

/-- The loop of declaration, declarator.c:893-970, after the specifiers. -/
noncomputable def declLoop (off : Nat → Int) (t : CTy) : Nat → Bool → Sc → List Tok → Except SErr (List XI × Sc × List Tok)
  | 0, _, _, _ => .error .fuel
  | n + 1, first, a, ts =>
    match ts with
    | .p .semi :: r => .ok ([], a, r)
    | ts => do
      let ts ← if first then .ok ts else Stx.skip ts (.p .comma)
      let (x, u, ts) ← declr t ts
      if u = .void then .error .other
      else do
        let (i, ts) ← initT (off a.next) (a.newVar off x u) u ts
        let (is, a, ts) ← declLoop off t n false (a.newVar off x u) ts
        .ok (i :: is, a, ts)

/-- parse_typedef, declarator.c:972-990. -/
def typedefLoop (t : CTy) : Nat → Bool → Sc → List Tok → Except SErr (List XI × Sc × List Tok)
  | 0, _, _, _ => .error .fuel
  | n + 1, first, a, ts =>
    match ts with
    | .p .semi :: r => .ok ([], a, r)
    | ts => do
      let ts ← if first then .ok ts else Stx.skip ts (.p .comma)
      let (x, u, ts) ← declr t ts
      typedefLoop t n false (a.push x (.typ u)) ts

/-- A declaration in `for`, parser.c:1243-1245. -/
noncomputable def forDeclT (off : Nat → Int) (val : Sc → Tree TN → Option Int) (a : Sc) (ts : List Tok) : Except SErr (List XI × Sc × List Tok) := do
  let (t, a, r) ← specT val a ts
  declLoop off t (r.length + 1) true a r

/-- A declaration in a block, parser.c:1557-1577. -/
noncomputable def declT (off : Nat → Int) (val : Sc → Tree TN → Option Int) (a : Sc) (ts : List Tok) : Except SErr (List XI × Sc × List Tok) :=
  match ts with
  | .kw s :: r =>
    if s = "typedef" then do
      let (t, a, r) ← specT val a r
      typedefLoop t (r.length + 1) true a r
    else forDeclT off val a ts
  | ts => forDeclT off val a ts

/-! ### Statements -/

/-- The parser of statements with all this; `val` is the value of a constant expression (const_expr, parser.c:1010-1014; C42). -/
noncomputable def parser (off : Nat → Int) (val : Sc → Tree TN → Option Int) : Stx.Oracle Sc SExpr (List XI) where
  expr a ts := do
    let (e, r) ← limit fun n => Parse.expr (PO a) n ts
    match resolve a e with
    | some e => .ok (e, a, r)
    | none => .error .other
  const a ts := do
    let (e, r) ← limit fun n => Parse.conditional (PO a) n ts
    match val a e with
    | some v => .ok (v, a, r)
    | none => .error .other
  decl := declT off val
  forDecl := forDeclT off val
  isType := isType
  enter := Sc.enter
  leave := Sc.leave

mutual
/-- The node of a statement (stmt, parser.c:1139-1377): `while` is `for` without the first and last part (1262-1281), a missing `else` is nothing. -/
def body : Stx.S SExpr (List XI) → Option XStmt
  | .null => some .skip
  | .expr e => some (.items [.expr e])
  | .ret e => some (.ret e)
  | .ifs c a => do
    let a ← body a
    some (.ifs c a .skip)
  | .ifElse c a b => do
    let a ← body a
    let b ← body b
    some (.ifs c a b)
  | .switch c s => do
    let s ← body s
    some (.switch c s)
  | .case lo hi s => do
    let s ← body s
    some (.case lo hi s)
  | .dflt s => do
    let s ← body s
    some (.dflt s)
  | .forS (.inl d) c inc s => do
    let s ← body s
    some (.loop d c inc s)
  | .forS (.inr e) c inc s => do
    let s ← body s
    some (.loop (e.toList.map .expr) c inc s)
  | .whileS c s => do
    let s ← body s
    some (.loop [] (some c) none s)
  | .doW s c => do
    let s ← body s
    some (.doW s c)
  | .asm _ => none
  | .goto x => some (.goto x)
  | .gotoE _ => none
  | .brk => some .brk
  | .cont => some .cont
  | .label x s => do
    let s ← body s
    some (.label x s)
  | .block b => bodyB b
/-- compound_stmt, parser.c:1547-1589. -/
def bodyB : Stx.B SExpr (List XI) → Option XStmt
  | .nil => some .skip
  | .decl d r => do
    let r ← bodyB r
    some (.seq (.items d) r)
  | .stmt s r => do
    let s ← body s
    let r ← bodyB r
    some (.seq s r)
end

end Toycc.Src
