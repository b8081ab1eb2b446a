import Verif.Frame.Model
/-! Which calls are right, and where their arguments are. -/
namespace Toycc.Frame

/-- Variable arguments go where integers go. -/
def Arg.icls (a : Arg) : Cls := if a.vararg then .int else a.cls

/-- An aggregate above 16 bytes. -/
def Arg.big (a : Arg) : Bool := a.icls = .agg ∧ 2 < words a.size

/-- The integer registers an argument takes (an aggregate above 16 bytes: for its address). -/
def Arg.gUse (a : Arg) (g f : Nat) : Nat :=
  match a.icls with
  | .int => if g < maxRegs then 1 else 0
  | .flt => if f < maxRegs then 0 else if g < maxRegs then 1 else 0
  | .ld => 2
  | .agg => if words a.size ≤ 2 then words a.size else 1

/-- The floating-point registers an argument takes. -/
def Arg.fUse (a : Arg) (f : Nat) : Nat := if a.icls = .flt ∧ f < maxRegs then 1 else 0

/-- A scalar for which there is no register left. -/
def Arg.stk (a : Arg) (g f : Nat) : Bool :=
  match a.icls with
  | .int => !(g < maxRegs)
  | .flt => !(f < maxRegs) && !(g < maxRegs)
  | _ => false

/-- The sizes of the types: scalars up to 8 bytes, long double 16; no empty aggregates. -/
def Arg.sized (a : Arg) : Prop :=
  match a.cls with
  | .int => 0 < a.size ∧ a.size ≤ 8
  | .flt => 0 < a.size ∧ a.size ≤ 8
  | .ld => a.size = 16 ∧ a.vararg = false
  | .agg => 0 < a.size ∧ a.vararg = false

/-- From the `g`th integer and the `f`th floating-point register on: the arguments are of the sizes above, variable arguments are scalars other than long
double, and there are enough registers left for every long double and every aggregate (for its address, if it is above 16 bytes). -/
def Tame : List Arg → Nat → Nat → Prop
  | [], _, _ => True
  | a :: r, g, f =>
    a.sized ∧ (a.icls = .ld ∨ a.icls = .agg → g + a.gUse g f ≤ maxRegs) ∧ Tame r (g + a.gUse g f) (f + a.fUse f)

/-- Is any scalar passed on the stack? -/
def anyStk : List Arg → Nat → Nat → Bool
  | [], _, _ => false
  | a :: r, g, f => a.stk g f || anyStk r (g + a.gUse g f) (f + a.fUse f)

/-- The words of the stack an argument takes. -/
def Arg.stkWords (a : Arg) (g f : Nat) : Nat := if a.big then words a.size else if a.stk g f then 1 else 0

/-- Where the words of an argument are, if the stack from the `w`th word on is free. -/
def Arg.srcs (a : Arg) (g f w : Nat) : List Src :=
  if a.big then (List.range (words a.size)).map fun (j : Nat) => .mem (8 * ((w + j : Nat) : Int))
  else if a.stk g f then [.mem (8 * (w : Int))]
  else
    match a.icls with
    | .int => [.g g]
    | .flt => if f < maxRegs then [.f f] else [.g g]
    | .ld => [.g g, .g (g + 1)]
    | .agg => (List.range (words a.size)).map fun j => .g (g + j)

/-- The places of all arguments: registers as long as there are, then the stack. -/
def locs : List Arg → Nat → Nat → Nat → List (List Src)
  | [], _, _, _ => []
  | a :: r, g, f, w => a.srcs g f w :: locs r (g + a.gUse g f) (f + a.fUse f) (w + a.stkWords g f)

/-- What is at a place at the time of a call. -/
def St.at (s : St) : Src → Word
  | .g r => s.g r
  | .f r => s.f r
  | .mem o => s.mem (s.sp + o / 8)

end Toycc.Frame
