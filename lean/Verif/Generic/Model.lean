import Verif.Parse.Model
import Verif.Types.Compat
/-!
_Generic: generic_selection, parser.c:86-126 (C77). Type names are read by an oracle (see Verif.Parse.Model), the type of the controlling expression (add_type, type.c:341-498) is a parameter; `den` gives the type objects of type names.
-/
namespace Toycc.Generic
open Toycc.Parse (Tok P Tree Oracle PErr skip assign)
open Toycc.Types (Ty compat)

/-- `kind` and `base` of a type object: those of its origin, copy_type (type.c:242-248) copies them. -/
def strip : Ty → Ty
  | .copy _ o => strip o
  | t => t

/-- parser.c:94-99; `fresh` is the address of the object pointer_to makes (type.c:250-256). -/
def decayed (fresh : Nat) (t : Ty) : Ty :=
  match strip t with
  | .func _ _ _ _ => .ptr fresh t
  | .array _ b _ => .ptr fresh b
  | _ => t

variable {T : Type}

/-- The loop of parser.c:103-120: `t1` is the type of the controlling expression, `ret` the result so far. -/
def assocs (O : Oracle T) (den : T → Ty) (t1 : Ty) : Nat → Option (Tree T) → List Tok → Except PErr (Option (Tree T) × List Tok)
  | 0, _, _ => .error .fuel
  | n + 1, ret, ts =>
    if ts.head? = some (.p .rpar) then .ok (ret, ts.tail)
    else do
      let ts ← skip ts .comma
      if ts.head? = some (.kw "default") then
        let ts ← skip ts.tail .colon
        let (e, ts) ← assign O n ts
        assocs O den t1 n (if ret.isNone then some e else ret) ts
      else
        let (t2, ts) ← O.typename ts
        let ts ← skip ts .colon
        let (e, ts) ← assign O n ts
        assocs O den t1 n (if compat t1 (den t2) then some e else ret) ts

/-- generic_selection, parser.c:86-126, from the token after `_Generic`. `n` bounds the recursion of the parser. -/
def selection (O : Oracle T) (den : T → Ty) (typeOf : Tree T → Ty) (fresh : Nat) (n : Nat) (ts : List Tok) : Except PErr (Tree T × List Tok) := do
  let ts ← skip ts .lpar
  let (c, ts) ← assign O n ts
  let (ret, ts) ← assocs O den (decayed fresh (typeOf c)) n none ts
  match ret with
  | none => .error .expected
  | some e => .ok (e, ts)

end Toycc.Generic
