import Verif.Low.Syntax
/-!
What the parser makes of an expression: new_add, new_sub, to_assign, new_inc_dec, new_cast and add_type (parser/parser.c, parser/declarator.c, type.c). A node
is a tree for the code generator with the type add_type gives it; add_type is applied bottom up (parser.c applies it at latest when the enclosing statement is
finished, which gives the same tree).
-/
namespace Toycc.Low
open Toycc.Cg

structure Node where
  e : Expr
  ty : CTy

/-- get_common_type, type.c:293-323, without floating-point types. -/
def common (t1 t2 : CTy) : CTy :=
  match t1.base with
  | some b => .ptr b
  | none =>
    match t1, t2 with
    | .func r, _ => .ptr (.func r)
    | _, .func r => .ptr (.func r)
    | t1, t2 =>
      let t1 := if t1.size < 4 then .int false else t1
      let t2 := if t2.size < 4 then .int false else t2
      if t1.size ≠ t2.size then (if t1.size < t2.size then t2 else t1)
      else if t2.low.unsigned then t2
      else t1

/-- new_cast, declarator.c:8-20. -/
def castN (n : Node) (t : CTy) : Node := ⟨.cast t.low n.e, t⟩

/-- add_type on a binary node, type.c:367-375, 395-401, 413-417. -/
def binN (op : BinOp) (l r : Node) : Node :=
  match op with
  | .shl | .shr => ⟨.bin op l.ty.low l.e r.e, l.ty⟩
  | .eq | .ne | .lt | .le => let t := common l.ty r.ty; ⟨.bin op (.int false) (castN l t).e (castN r t).e, .int false⟩
  | op => let t := common l.ty r.ty; ⟨.bin op t.low (castN l t).e (castN r t).e, t⟩

/-- A binary node before add_type: kind, lhs, rhs. -/
structure Bin where
  op : BinOp
  l : Node
  r : Node

/-- new_add, parser.c:662-693 (`none`: a diagnostic, or NULL dereferenced when neither operand is a number or has a base). -/
def newAdd (l r : Node) : Option Bin :=
  if l.ty.isInt && r.ty.isInt then some ⟨.add, l, r⟩
  else if l.ty.base.isSome && r.ty.base.isSome then none
  else
    let (l, r) := if l.ty.base.isNone && r.ty.base.isSome then (r, l) else (l, r)
    match l.ty.base with
    | none => none
    | some b => some ⟨.add, l, binN .mul r ⟨.num (.long false) b.size, .long false⟩⟩

/-- new_sub, parser.c:695-730. The difference of pointers has its type before add_type, so that its operands are not converted. -/
def newSub (l r : Node) : Option Bin :=
  if l.ty.isInt && l.ty.isInt then some ⟨.sub, l, r⟩
  else match l.ty.base, r.ty.base with
    | some b, some _ => some ⟨.div, ⟨.bin .sub (.long false) l.e r.e, .long false⟩, ⟨.num (.int false) b.size, .int false⟩⟩
    | some b, none => if r.ty.isInt then some ⟨.sub, l, binN .mul r ⟨.num (.long false) b.size, .long false⟩⟩ else none
    | none, _ => none

/-- The node the parser makes for a binary operator. -/
def mkBin (op : BinOp) (l r : Node) : Option Bin :=
  match op with
  | .add => newAdd l r
  | .sub => newSub l r
  | op => some ⟨op, l, r⟩

def Bin.node (b : Bin) : Node := binN b.op b.l b.r

/-- add_type on ND_ASSIGN, type.c:388-394. -/
def assignN (l r : Node) : Option Node :=
  match l.ty with
  | .arr _ _ => none
  | .struc n => some ⟨.assign (.struc n) l.e r.e, l.ty⟩
  | t => some ⟨.assign t.low l.e (castN r t).e, t⟩

/-- to_assign, parser.c:369-500, with the hidden variable at `off` from fp. Atomic objects are left out. -/
def toAssign (off : Int) (b : Bin) : Option Node :=
  let v : Expr := .var .ptr (.loc off)
  match b.l.e with
  | .member f a =>
    let x : Node := ⟨.member f (.deref a.ty v), b.l.ty⟩
    (assignN x (binN b.op x b.r)).map fun n => ⟨.comma (.assign .ptr v (.cast .ptr (.addr a))) n.e, n.ty⟩
  | _ =>
    if b.l.ty = .void then none
    else
      let x : Node := ⟨.deref b.l.ty.low v, b.l.ty⟩
      (assignN x (binN b.op x b.r)).map fun n => ⟨.comma (.assign .ptr v (.cast .ptr (.addr b.l.e))) n.e, n.ty⟩

/-- new_num: a constant of type int. -/
def numN (v : Int) : Node := ⟨.num (.int false) v, .int false⟩

/-- new_inc_dec, parser.c:503-512. -/
def incDec (off : Int) (n : Node) (addend : Int) : Option Node := do
  let b ← newAdd n (numN addend)
  let a ← toAssign off b
  let c ← newAdd a (numN (-addend))
  some (castN c.node n.ty)

/-- add_type on ND_COND, type.c:424-431. -/
def condN (c t e : Node) : Node :=
  if t.ty = .void ∨ e.ty = .void then ⟨.cond .void c.e t.e e.e, .void⟩
  else let ty := common t.ty e.ty; ⟨.cond ty.low c.e (castN t ty).e (castN e ty).e, ty⟩

mutual
/-- The parser on an expression; `tmp k` is the offset of the `k`th hidden variable, `k` the number of those already in use. `none` is a diagnostic. -/
def tr (tmp : Nat → Int) : SExpr → Nat → Option (Node × Nat)
  | .num t v, k => some (⟨.num t.low v, t⟩, k)
  | .var t v, k => some (⟨.var t.low v, t⟩, k)
  | .member e t o b, k => do
    let (n, k) ← tr tmp e k
    match n.ty with
    | .struc _ => some (⟨.member ⟨t.low, o, b⟩ n.e, t⟩, k)
    | _ => none
  | .deref e, k => do
    let (n, k) ← tr tmp e k
    match n.ty with
    | .func _ => some (n, k)
    | t =>
      let b ← t.base
      if b = .void then none else some (⟨.deref b.low n.e, b⟩, k)
  | .addr e, k => do
    let (n, k) ← tr tmp e k
    match n.e with
    | .member ⟨_, _, some _⟩ _ => none
    | _ =>
      match n.ty with
      | .arr b _ => some (⟨.addr n.e, .ptr b⟩, k)
      | t => some (⟨.addr n.e, .ptr t⟩, k)
  | .bin op l r, k => do
    let (l, k) ← tr tmp l k
    let (r, k) ← tr tmp r k
    let b ← mkBin op l r
    some (b.node, k)
  | .neg e, k => do
    let (n, k) ← tr tmp e k
    let t := common (.int false) n.ty
    some (⟨.neg t.low (castN n t).e, t⟩, k)
  | .not e, k => do
    let (n, k) ← tr tmp e k
    some (⟨.not n.e, .int false⟩, k)
  | .bitnot e, k => do
    let (n, k) ← tr tmp e k
    some (⟨.bitnot n.e, n.ty⟩, k)
  | .assign l r, k => do
    let (l, k) ← tr tmp l k
    let (r, k) ← tr tmp r k
    let n ← assignN l r
    some (n, k)
  | .opAssign op l r, k => do
    let (l, k) ← tr tmp l k
    let (r, k) ← tr tmp r k
    let b ← mkBin op l r
    let n ← toAssign (tmp k) b
    some (n, k + 1)
  | .pre up l, k => do
    let (l, k) ← tr tmp l k
    let b ← if up then newAdd l (numN 1) else newSub l (numN 1)
    let n ← toAssign (tmp k) b
    some (n, k + 1)
  | .post up l, k => do
    let (l, k) ← tr tmp l k
    let n ← incDec (tmp k) l (if up then 1 else -1)
    some (n, k + 1)
  | .comma l r, k => do
    let (l, k) ← tr tmp l k
    let (r, k) ← tr tmp r k
    some (⟨.comma l.e r.e, r.ty⟩, k)
  | .cast t e, k => do
    let (n, k) ← tr tmp e k
    some (castN n t, k)
  | .cond c t e, k => do
    let (c, k) ← tr tmp c k
    let (t, k) ← tr tmp t k
    let (e, k) ← tr tmp e k
    some (condN c t e, k)
  | .elvis a b, k => do
    let (a, k) ← tr tmp a k
    let off := tmp k
    let v : Node := ⟨.var a.ty.low (.loc off), a.ty⟩
    let s ← assignN v a
    let (b, k) ← tr tmp b (k + 1)
    let c := condN v v b
    some (⟨.comma s.e c.e, c.ty⟩, k)
  | .logand l r, k => do
    let (l, k) ← tr tmp l k
    let (r, k) ← tr tmp r k
    some (⟨.logand l.e r.e, .int false⟩, k)
  | .logor l r, k => do
    let (l, k) ← tr tmp l k
    let (r, k) ← tr tmp r k
    some (⟨.logor l.e r.e, .int false⟩, k)
  | .call f as, k => do
    let (n, k) ← tr tmp f k
    let r ← match n.ty with
      | .func r => some r
      | .ptr (.func r) => some r
      | _ => none
    let (xs, k) ← trArgs tmp as k
    some (⟨.call r.low n.e xs, r⟩, k)
/-- The arguments of a call, converted to the types of the parameters: funcall, parser.c:38-62. -/
def trArgs (tmp : Nat → Int) : SArgs → Nat → Option (Exprs × Nat)
  | .nil, k => some (.nil, k)
  | .cons t e r, k => do
    let (n, k) ← tr tmp e k
    let (xs, k) ← trArgs tmp r k
    some (.cons (castN n t).e xs, k)
end

end Toycc.Low
