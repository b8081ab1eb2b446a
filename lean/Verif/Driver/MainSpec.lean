import Verif.Driver.Main
/-!
What the driver is asked to do (specification of C57 and C58).
-/
namespace Toycc.Driver

/-- How far to go. -/
inductive Mode where
  | pre | asm | obj | link
  deriving DecidableEq, Repr

def modeOf (o : Opts) : Mode := if o.E || o.M then .pre else if o.S then .asm else if o.c then .obj else .link

/-- What an element of the input list is. -/
inductive Kind where
  | c | asm
  /-- for the linker, as these words -/
  | link (words : List Str)
  deriving DecidableEq, Repr

/-- By extension, or by -x. -/
def kindOf (x : FileType) (f : Str) : Option Kind :=
  if ([45, 108] /- -l -/).isPrefixOf f then some (.link [f])
  else if ([45, 87, 108, 44] /- -Wl, -/).isPrefixOf f then some (.link (((f.drop 4).splitOnP (· == 44)).filter (· ≠ [])))
  else
    match x with
    | .c => some .c
    | .asm => some .asm
    | .none =>
      if ([46, 99] /- .c -/).isSuffixOf f then some .c
      else if ([46, 115] /- .s -/).isSuffixOf f then some .asm
      else if ([46, 111] /- .o -/).isSuffixOf f || ([46, 97] /- .a -/).isSuffixOf f || ([46, 115, 111] /- .so -/).isSuffixOf f then some (.link [f])
      else none
    | _ => some (.link [f])

/-- The commands for one input and what it contributes to the link; `t` are the names of the temporary files it may use. `dest ext`: the final output file. -/
def phases (m : Mode) (k : Kind) (input : Str) (dest : Str → Str) (t : Nat → Str) : List Cmd × List Str :=
  match m, k with
  | .pre, .c => ([.cc1 input none], [])
  | .asm, .c => ([.cc1 input (some (dest [46, 115] /- .s -/))], [])
  | .obj, .c => ([.cc1 input (some (t 0)), .as (t 0) (dest [46, 111] /- .o -/)], [])
  | .link, .c => ([.cc1 input (some (t 0)), .as (t 0) (t 1)], [t 1])
  | .obj, .asm => ([.as input (dest [46, 111] /- .o -/)], [])
  | .link, .asm => ([.as input (t 0)], [t 0])
  | .link, .link ws => ([], ws)
  | _, _ => ([], [])

/-- How many temporary files that takes. -/
def temps (m : Mode) (k : Kind) : Nat :=
  match m, k with
  | .obj, .c => 1
  | .link, .c => 2
  | .link, .asm => 1
  | _, _ => 0

/-- All inputs in order. -/
def plan (m : Mode) (dest : Str → Str → Str) (t : Nat → Str) : List (Str × Kind) → List Cmd × List Str
  | [] => ([], [])
  | (f, k) :: r =>
    let a := phases m k f (dest f) t
    let b := plan m dest (fun n => t (n + temps m k)) r
    (a.1 ++ b.1, a.2 ++ b.2)

/-- `-o file`, or the name of the input with another extension in the current directory. -/
def destOf (o : Opts) (f ext : Str) : Str := o.o.getD (replaceExtn f ext)

/-- The whole job: all inputs, and one link at the end in link mode. -/
def job (o : Opts) (t : Nat → Str) (ks : List (Str × Kind)) : List Cmd :=
  let p := plan (modeOf o) (destOf o) t ks
  p.1 ++ (if modeOf o = .link ∧ p.2 ≠ [] then [.ld p.2 (o.o.getD [97, 46, 111, 117, 116] /- a.out -/)] else [])

def Event.cmd : Event → Option Cmd
  | .run c => some c
  | _ => none

/-- The commands of a run. -/
def commands (evs : List Event) : List Cmd := evs.filterMap Event.cmd

/-- The inputs the driver handles as asked (see the `violated` theorems for the others). -/
def Handled (m : Mode) (k : Kind) : Prop :=
  match m, k with
  | _, .c => True
  | .link, .link _ => True
  | .obj, .asm => True
  | .asm, .asm => True
  | _, _ => False

/-- The files that exist because of mkstemp and have not been removed. -/
def left : List Event → List Str → List Str
  | [], l => l
  | .tmp p :: r, l => left r (p :: l)
  | .unlink p :: r, l => left r (l.filter (· ≠ p))
  | .run _ :: r, l => left r l

end Toycc.Driver
