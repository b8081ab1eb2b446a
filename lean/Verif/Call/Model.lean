import Verif.Decl.Model
/-!
Calls from tokens: funcall, parser/parser.c:23-80, after the opening parenthesis. Types are those of Verif.Decl; assign with add_type is an oracle.
-/
namespace Toycc.Call
open Toycc.Parse (Tok P)
open Toycc.Decl (DTy DTys)

/-- `notFunction`, `tooMany`, `tooFew`: the diagnostics of parser.c:30, 46, 67. `skip`: a missing punctuator. `other`: an error of the oracle. -/
inductive CErr where
  | notFunction | tooMany | tooFew | skip | other | fuel
  deriving DecidableEq, Repr

/-- assign: an expression of type `α` and the tokens left; its type after add_type. `agg`: a structure or union. `flt`: TY_FLOAT. -/
structure Orc (B L α : Type) where
  assign : List Tok → Except CErr (α × List Tok)
  ty : α → DTy B L
  agg : B → Bool
  flt : B → Bool
  double : B

/-- An element of `node->args`: an expression, or an expression under the cast made by new_cast (declarator.c:8-20). -/
inductive Arg (B L α : Type) where
  | plain (e : α)
  | cast (e : α) (t : DTy B L)

/-- A call: `node->args`, `node->ty`, and whether there is a `ret_buffer`. -/
structure Node (B L α : Type) where
  args : List (Arg B L α)
  ty : DTy B L
  buffer : Bool

variable {B L α : Type}

def onBase (p : B → Bool) : DTy B L → Bool
  | .base b => p b
  | _ => false

/-- parser.c:48-60. -/
def toParam (O : Orc B L α) (t : DTy B L) (e : α) : Arg B L α := if onBase O.agg t then .plain e else .cast e t

def toDots (O : Orc B L α) (e : α) : Arg B L α := if onBase O.flt (O.ty e) then .cast e (.base O.double) else .plain e

/-- `skip`, utils.c:92-97, for a comma, unless it is the first argument. -/
def comma (first : Bool) (ts : List Tok) : Except CErr (List Tok) :=
  if first then .ok ts else
  match ts with
  | .p .comma :: r => .ok r
  | _ => .error .skip

/-- The loop, parser.c:38-69. `ps` is `param_ty`, `v` is `is_variadic`. -/
def args (O : Orc B L α) (v : Bool) : Nat → Bool → DTys B L → List Tok → Except CErr (List (Arg B L α) × List Tok)
  | 0, _, _, _ => .error .fuel
  | n + 1, first, ps, ts =>
    match ts with
    | .p .rpar :: r =>
      match ps with
      | .nil => .ok ([], r)
      | .cons _ _ _ => .error .tooFew
    | ts => do
      let ts ← comma first ts
      let (e, ts) ← O.assign ts
      match ps with
      | .nil =>
        if v then do
          let (as, r) ← args O v n false .nil ts
          .ok (toDots O e :: as, r)
        else .error .tooMany
      | .cons t _ ps => do
        let (as, r) ← args O v n false ps ts
        .ok (toParam O t e :: as, r)

/-- funcall, parser.c:24-80, for a callee of type `f`. -/
def funcall (O : Orc B L α) (n : Nat) (f : DTy B L) (ts : List Tok) : Except CErr (Node B L α × List Tok) :=
  match f with
  | .func ret ps v | .ptr (.func ret ps v) => do
    let (as, r) ← args O v n true ps ts
    .ok (⟨as, ret, onBase O.agg ret⟩, r)
  | _ => .error .notFunction

end Toycc.Call
