import Verif.Src.Chars
import Verif.Fold.Model
/-!
The constant expression of #if and #elif: convert_pp_tokens and const_expr as called by eval_const_expr, preprocess.c:196-201. The replacement of `defined`, the expansion of macros and
the replacement of identifiers by 0 (preprocess.c:136-194) are in Verif.Pp.Model.
-/
namespace Toycc.Src
open Toycc.Pp (Bytes PTok)
open Toycc.Parse (Tok P Tree)
open Toycc.Low (SExpr tr)

/-- is_typename and typename when no identifiers and keywords are left: declarator.c:362-404. -/
def ifO : Parse.Oracle Empty := ⟨fun _ => false, fun _ => .error .expected⟩

/-- What the semantic actions of parser.c:524-1008 make of an expression of constants. Other operators (assignments, calls, `?:` without a middle operand) are not constant; the outcome is
`none` (the code diagnoses them, in the parser or in eval). -/
def ifExpr : Tree Empty → Option SExpr
  | .num v => some (.num (.int false) v)
  | .tnum t v => some (.num (numTy t) v)
  | .bin op l r => do
    let l ← ifExpr l
    let r ← ifExpr r
    some (binX op l r)
  | .cond c a b => do
    let c ← ifExpr c
    let a ← ifExpr a
    let b ← ifExpr b
    some (.cond c a b)
  | .comma l r => do
    let l ← ifExpr l
    let r ← ifExpr r
    some (.comma l r)
  | .un .neg e => do
    let e ← ifExpr e
    some (.neg e)
  | .un .not e => do
    let e ← ifExpr e
    some (.not e)
  | .un .bitnot e => do
    let e ← ifExpr e
    some (.bitnot e)
  | _ => none

/-- add_type (type.c:341-498) and eval (common.c:189-192) on the expression. -/
def ifEval (t : Tree Empty) : Option Int := do
  let x ← ifExpr t
  let (n, _) ← tr (fun _ => 0) x 0
  let (v, _) ← (Fold.fold false n.e).toOption
  some v.toInt

/-- convert_pp_tokens, const_expr (parser.c:1010-1014): the value and the tokens that are left. `n` bounds the recursion of the parser. -/
def constExpr (n : Nat) (l : List PTok) : Option (Int × List PTok) := do
  let ts ← convertToks l
  let (t, rest) ← (Parse.conditional ifO n ts).toOption
  let v ← ifEval t
  some (v, l.drop (ts.length - rest.length))

end Toycc.Src
