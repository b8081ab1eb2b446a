import Verif.Low.Model
import Verif.Stm.Model
/-!
Function bodies as they are written (after parsing, C69, and the resolution of names, C44), and what the parser makes of them: the statements of
Verif.Stm.Model with the trees of Verif.Low.Model. Left out: asm, computed goto, static and variable-length arrays as local variables, initialisers of
arrays, structures and unions (C52), returning a structure.
-/
namespace Toycc.Src
open Toycc.Cg Toycc.Stm Toycc.Low

/-- What is evaluated when a declaration or an expression statement is reached. -/
inductive XI where
  | expr (e : SExpr)
  /-- `t x;` -/
  | var (t : CTy)
  /-- `t x = e;` with `x` a scalar at `off` from the frame address -/
  | ini (t : CTy) (off : Int) (e : SExpr)

/-- Statements. `loop` is `for`, and `while` with no `init` and `inc` (parser.c:1262-1281); an absent `else` is `skip`. -/
inductive XStmt where
  | skip
  | seq (a b : XStmt)
  | items (is : List XI)
  | ifs (c : SExpr) (t e : XStmt)
  | loop (init : List XI) (cond : Option SExpr) (inc : Option SExpr) (body : XStmt)
  | doW (body : XStmt) (cond : SExpr)
  | switch (c : SExpr) (body : XStmt)
  | case (lo hi : Int) (s : XStmt)
  | dflt (s : XStmt)
  | label (name : String) (s : XStmt)
  | goto (name : String)
  | brk
  | cont
  | ret (e : Option SExpr)

variable (tmp : Nat → Int)

/-- The expression statements of an item: expr_stmt, parser.c:1073-1086; declaration, declarator.c:893-970, where compute_vla_size yields
ND_NULL_EXPR (declarator.c:848-872) and the initialiser an assignment after ND_MEMZERO (lvar_initializer, initializer.c:604-620). -/
def trI : XI → Nat → Option (List Expr × Nat)
  | .expr e, k => do
    let (n, k) ← tr tmp e k
    some ([n.e], k)
  | .var _, k => some ([.null], k)
  | .ini t off e, k => do
    let (n, k) ← tr tmp (.assign (.var t (.loc off)) e) k
    some ([.null, .comma (.memzero off t.size) n.e], k)

def trIs : List XI → Nat → Option (List Expr × Nat)
  | [], k => some ([], k)
  | i :: r, k => do
    let (a, k) ← trI tmp i k
    let (b, k) ← trIs r k
    some (a ++ b, k)

def trO : Option SExpr → Nat → Option (Option Expr × Nat)
  | none, k => some (none, k)
  | some e, k => do
    let (n, k) ← tr tmp e k
    some (some n.e, k)

/-- A chain of expression statements. -/
def chain : List Expr → SStmt
  | [] => .skip
  | e :: r => .seq (.expr e) (chain r)

/-- stmt, parser.c:1139-1377, and compound_stmt, parser.c:1547-1589, as far as expressions are concerned; `rt` is the return type of the function: a
returned value is converted to it (parser.c:1149-1152). -/
def trS (rt : CTy) : XStmt → Nat → Option (SStmt × Nat)
  | .skip, k => some (.skip, k)
  | .seq a b, k => do
    let (a, k) ← trS rt a k
    let (b, k) ← trS rt b k
    some (.seq a b, k)
  | .items is, k => do
    let (es, k) ← trIs tmp is k
    some (chain es, k)
  | .ifs c t e, k => do
    let (c, k) ← tr tmp c k
    let (t, k) ← trS rt t k
    let (e, k) ← trS rt e k
    some (.ifs c.e t e, k)
  | .loop init c inc body, k => do
    let (init, k) ← trIs tmp init k
    let (c, k) ← trO tmp c k
    let (inc, k) ← trO tmp inc k
    let (body, k) ← trS rt body k
    some (.loop init c inc body, k)
  | .doW body c, k => do
    let (body, k) ← trS rt body k
    let (c, k) ← tr tmp c k
    some (.doW body c.e, k)
  | .switch c body, k => do
    let (c, k) ← tr tmp c k
    let (body, k) ← trS rt body k
    some (.switch c.e body, k)
  | .case lo hi s, k => do
    let (s, k) ← trS rt s k
    some (.case lo hi s, k)
  | .dflt s, k => do
    let (s, k) ← trS rt s k
    some (.dflt s, k)
  | .label n s, k => do
    let (s, k) ← trS rt s k
    some (.label n s, k)
  | .goto n, k => some (.goto n, k)
  | .brk, k => some (.brk, k)
  | .cont, k => some (.cont, k)
  | .ret none, k => some (.ret none, k)
  | .ret (some e), k => do
    let (n, k) ← tr tmp e k
    some (.ret (some (castN n rt).e), k)

end Toycc.Src
