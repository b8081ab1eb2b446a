import Verif.Driver.Main
import Verif.Driver.Quote
/-! print_dependencies and the list of input files, main.c:508-562 and tokenize.c:770-786, 898-919. -/
namespace Toycc.Driver

/-- The array `input_files` with its allocated length; `file_no` is static in tokenize_file. A write outside is `none`. -/
structure Inputs where
  cap : Nat := 0
  data : List (Option Str) := []
  fileNo : Nat := 0
  deriving DecidableEq

/-- `input_files[i] = x`. -/
def Inputs.put (a : Inputs) (i : Nat) (x : Option Str) : Option Inputs :=
  if i < a.cap then some { a with data := a.data.take i ++ x :: a.data.drop (i + 1) } else none

/-- tokenize_file, tokenize.c:909-916: the file is added to the list (realloc keeps the contents). -/
def Inputs.add (a : Inputs) (path : Str) : Option Inputs := do
  let a := { a with cap := a.fileNo + 2 }
  let a ← a.put a.fileNo (some path)
  let a ← a.put (a.fileNo + 1) none
  return { a with fileNo := a.fileNo + 1 }

/-- The loop `for (i = 0; files[i]; i++)`, main.c:551: the names up to the null pointer; `none`: there is none inside of the array. -/
def Inputs.upTo : List (Option Str) → Option (List Str)
  | [] => none
  | none :: _ => some []
  | some f :: r => (Inputs.upTo r).map (f :: ·)

/-- in_std_include_path, main.c:518-527. -/
def inStd (std : List Str) (path : Str) : Bool := std.any fun d => d.isPrefixOf path && path[d.length]? == some 47

/-- The file written, main.c:535-543; `-` is the standard output (open_file, main.c:403-414). -/
def depsPath (o : Opts) (base : Str) : Str :=
  match o.MF with
  | some p => p
  | none =>
    if o.MD then replaceExtn (o.o.getD base) [46, 100] /- .d -/
    else match o.o with
      | some p => p
      | none => [45]

/-- What is written before the first colon, main.c:546-549. -/
def depsTarget (o : Opts) (base : Str) : Option Str :=
  match o.MT with
  | some t => some t
  | none => quoteMakefile (replaceExtn base [46, 111] /- .o -/)

/-- The loop over the files from the second on, main.c:559-561: `files[1]` is inside of the array as there is at least one file. -/
def depsPhony (o : Opts) (files : List Str) : Option (List Str) := if o.MP then (files.drop 1).mapM quoteMakefile else some []

/-- What print_dependencies writes, main.c:546-561; `files` are the names of the input files. -/
def depsText (o : Opts) (base : Str) (std files : List Str) : Option Str :=
  match depsTarget o base, depsPhony o files with
  | some target, some phony =>
    some (target ++ [58] ++ (files.filter fun f => !(o.MMD && inStd std f)).flatMap (fun f => [32, 92, 10, 9] ++ f) ++ [10] ++ phony.flatMap (fun q => q ++ [58, 10, 10]))
  | _, _ => none

end Toycc.Driver
