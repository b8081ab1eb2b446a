import Verif.Common
/-!
How GNU make reads one target name of a rule line (specification). Backslashes are literal except before a blank, `#` or `:`: there, pairs of them stand for
one, and an odd one makes the character part of the name. An unquoted blank or colon ends the name, an unquoted `#` starts a comment. `$$` is a dollar sign, any other `$` a
variable reference (not a plain name: `none`). (In make these are done in successive passes over the line.)
-/
namespace Toycc.Driver

/-- Characters that backslashes can quote. -/
def special (c : UInt8) : Bool := c == 32 || c == 9 || c == 35 || c == 58

/-- Put `p` in front of the name. -/
def before (p : List UInt8) (r : Option (List UInt8 × List UInt8)) : Option (List UInt8 × List UInt8) := r.map fun x => (p ++ x.1, x.2)

/-- Read a name after `k` backslashes (`d`: after a dollar sign): the name and what follows it. -/
def makeName (k : Nat) (d : Bool) : List UInt8 → Option (List UInt8 × List UInt8)
  | [] => if d then none else some (List.replicate k 92, [])
  | c :: r =>
    if d then (if c = 36 then before [36] (makeName 0 false r) else none)
    else if c = 92 then makeName (k + 1) false r
    else if c = 10 then none
    else if special c then
      if k % 2 = 0 then some (List.replicate (k / 2) 92, c :: r) else before (List.replicate (k / 2) 92 ++ [c]) (makeName 0 false r)
    else if c = 36 then before (List.replicate k 92) (makeName 0 true r)
    else before (List.replicate k 92 ++ [c]) (makeName 0 false r)

end Toycc.Driver
