import Verif.Driver.Quote
/-!
parse_args, main.c:69-401, on lists of byte strings (without the program name). Strings in the code are written as lists of bytes.
-/
namespace Toycc.Driver

abbrev Str := List UInt8

/-- enum FileType, main.c:36-43. -/
inductive FileType where
  | none | c | asm | obj | ar | dso
  deriving DecidableEq, Repr

/-- Calls of define_macro and undef_macro on behalf of -D and -U. -/
inductive MacroOp where
  | define (name value : Str)
  | undef (name : Str)
  deriving DecidableEq, Repr

/-- The static variables of main.c:9-35 and the macros given on the command line. -/
structure Opts where
  E : Bool := false
  M : Bool := false
  MD : Bool := false
  MMD : Bool := false
  MP : Bool := false
  S : Bool := false
  c : Bool := false
  cc1 : Bool := false
  hashes : Bool := false
  static : Bool := false
  shared : Bool := false
  MF : Option Str := none
  MT : Option Str := none
  o : Option Str := none
  outputFile : Option Str := none
  baseFile : Option Str := none
  inputs : List Str := []
  includePaths : List Str := []
  optInclude : List Str := []
  ldExtra : List Str := []
  fcommon : Bool := true
  fpic : Bool := false
  x : FileType := .none
  macros : List MacroOp := []
  /-- local to parse_args -/
  idirafter : List Str := []
  deriving DecidableEq, Repr

/-- How parse_args ends without returning. `null`: the NULL after the last argument is used as a string (undefined behaviour). -/
inductive AErr where
  | usage | help | unknownX | unknown | noInput | test | null
  deriving DecidableEq, Repr

/-- take_arg, main.c:75-93. -/
def takeArg (a : Str) : Bool :=
  a == [45, 111] /- -o -/ || a == [45, 73] /- -I -/ || a == [45, 105, 100, 105, 114, 97, 102, 116, 101, 114] /- -idirafter -/ || a == [45, 105, 110, 99, 108, 117, 100, 101] /- -include -/ || a == [45, 120] /- -x -/ || a == [45, 77, 70] /- -MF -/ || a == [45, 77, 84] /- -MT -/ || a == [45, 88, 108, 105, 110, 107, 101, 114] /- -Xlinker -/

/-- The first loop, main.c:157-162. -/
def checkArgs : List Str → Except AErr Unit
  | [] => .ok ()
  | a :: r =>
    if takeArg a then
      match r with
      | [] => .error .usage
      | _ :: r => checkArgs r
    else checkArgs r

/-- `strchr(str, '=')`: the parts before and after. -/
def splitEq : Str → Option (Str × Str)
  | [] => none
  | c :: r => if c = 61 then some ([], r) else (splitEq r).map fun x => (c :: x.1, x.2)

/-- define, main.c:95-103. -/
def defineOp (s : Str) : MacroOp :=
  match splitEq s with
  | some (n, v) => .define n v
  | none => .define s [49] /- 1 -/

/-- parse_opt_x, main.c:105-117. -/
def parseX (s : Str) : Except AErr FileType :=
  if s = [99] /- c -/ then .ok .c else if s = [97, 115, 115, 101, 109, 98, 108, 101, 114] /- assembler -/ then .ok .asm else if s = [110, 111, 110, 101] /- none -/ then .ok .none else .error .unknownX

/-- The options without argument, in the order of the second loop (main.c:167-398); those between them that take an argument start differently. -/
def flagOpt (a : Str) : Option (Opts → Opts) :=
  if a = [45, 35, 35, 35] /- -### -/ then some fun o => { o with hashes := true }
  else if a = [45, 99, 99, 49] /- -cc1 -/ then some fun o => { o with cc1 := true }
  else if a = [45, 83] /- -S -/ then some fun o => { o with S := true }
  else if a = [45, 102, 99, 111, 109, 109, 111, 110] /- -fcommon -/ then some fun o => { o with fcommon := true }
  else if a = [45, 102, 110, 111, 45, 99, 111, 109, 109, 111, 110] /- -fno-common -/ then some fun o => { o with fcommon := false }
  else if a = [45, 99] /- -c -/ then some fun o => { o with c := true }
  else if a = [45, 69] /- -E -/ then some fun o => { o with E := true }
  else if a = [45, 115] /- -s -/ then some fun o => { o with ldExtra := o.ldExtra ++ [[45, 115] /- -s -/] }
  else if a = [45, 77] /- -M -/ then some fun o => { o with M := true }
  else if a = [45, 77, 80] /- -MP -/ then some fun o => { o with MP := true }
  else if a = [45, 77, 68] /- -MD -/ then some fun o => { o with MD := true }
  else if a = [45, 77, 77, 68] /- -MMD -/ then some fun o => { o with MD := true, MMD := true }
  else if a = [45, 102, 112, 105, 99] /- -fpic -/ ∨ a = [45, 102, 80, 73, 67] /- -fPIC -/ then some fun o => { o with fpic := true }
  else if a = [45, 115, 116, 97, 116, 105, 99] /- -static -/ then some fun o => { o with static := true, ldExtra := o.ldExtra ++ [[45, 115, 116, 97, 116, 105, 99] /- -static -/] }
  else if a = [45, 115, 104, 97, 114, 101, 100] /- -shared -/ then some fun o => { o with shared := true, ldExtra := o.ldExtra ++ [[45, 115, 104, 97, 114, 101, 100] /- -shared -/] }
  else none

/-- `opt_MT` after one more target: main.c:283-288, 301-307. -/
def addTarget (old : Option Str) (t : Str) : Option Str :=
  match old with
  | none => some t
  | some u => some (u ++ [32] /-   -/ ++ t)

/-- The options that are ignored, main.c:373-386. -/
def ignored (a : Str) : Bool :=
  ([45, 79] /- -O -/).isPrefixOf a || ([45, 87] /- -W -/).isPrefixOf a || ([45, 115, 116, 100, 61] /- -std= -/).isPrefixOf a || a == [45, 103] /- -g -/ || a == [45, 102, 102, 114, 101, 101, 115, 116, 97, 110, 100, 105, 110, 103] /- -ffreestanding -/ || a == [45, 102, 110, 111, 45, 98, 117, 105, 108, 116, 105, 110] /- -fno-builtin -/ || a == [45, 102, 110, 111, 45, 111, 109, 105, 116, 45, 102, 114, 97, 109, 101, 45, 112, 111, 105, 110, 116, 101, 114] /- -fno-omit-frame-pointer -/ ||
  a == [45, 102, 110, 111, 45, 115, 116, 97, 99, 107, 45, 112, 114, 111, 116, 101, 99, 116, 111, 114] /- -fno-stack-protector -/ || a == [45, 102, 110, 111, 45, 115, 116, 114, 105, 99, 116, 45, 97, 108, 105, 97, 115, 105, 110, 103] /- -fno-strict-aliasing -/ || a == [45, 109, 54, 52] /- -m64 -/ || a == [45, 109, 110, 111, 45, 114, 101, 100, 45, 122, 111, 110, 101] /- -mno-red-zone -/ || a == [45, 119] /- -w -/ || a == [45, 109, 97, 114, 99, 104, 61, 110, 97, 116, 105, 118, 101] /- -march=native -/

/-- Options whose argument is the next word (`argv[++i]`): what is done with it. `none` as argument: the NULL after the last word. -/
def wordOpt (a : Str) : Option (Option Str → Opts → Except AErr Opts) :=
  if a = [45, 111] /- -o -/ then some fun v o => .ok { o with o := v }
  else if a = [45, 68] /- -D -/ then some fun v o => match v with | some v => .ok { o with macros := o.macros ++ [defineOp v] } | none => .error .null
  else if a = [45, 85] /- -U -/ then some fun v o => match v with | some v => .ok { o with macros := o.macros ++ [.undef v] } | none => .error .null
  else if a = [45, 105, 110, 99, 108, 117, 100, 101] /- -include -/ then some fun v o => match v with | some v => .ok { o with optInclude := o.optInclude ++ [v] } | none => .error .null
  else if a = [45, 120] /- -x -/ then some fun v o => match v with | some v => (parseX v).map fun t => { o with x := t } | none => .error .null
  else if a = [45, 88, 108, 105, 110, 107, 101, 114] /- -Xlinker -/ then some fun v o => match v with | some v => .ok { o with ldExtra := o.ldExtra ++ [v] } | none => .error .null
  else if a = [45, 77, 70] /- -MF -/ then some fun v o => .ok { o with MF := v }
  else if a = [45, 77, 84] /- -MT -/ then some fun v o => match v with | some v => .ok { o with MT := addTarget o.MT v } | none => .error .null
  else if a = [45, 77, 81] /- -MQ -/ then some fun v o => match v.bind quoteMakefile with | some v => .ok { o with MT := addTarget o.MT v } | none => .error .null
  else if a = [45, 99, 99, 49, 45, 105, 110, 112, 117, 116] /- -cc1-input -/ then some fun v o => .ok { o with baseFile := v }
  else if a = [45, 99, 99, 49, 45, 111, 117, 116, 112, 117, 116] /- -cc1-output -/ then some fun v o => .ok { o with outputFile := v }
  -- strarray_push(&idirafter, argv[i++]): the option itself is pushed and the next word is dropped (main.c:332-335)
  else if a = [45, 105, 100, 105, 114, 97, 102, 116, 101, 114] /- -idirafter -/ then some fun _ o => .ok { o with idirafter := o.idirafter ++ [a] }
  else if a = [45, 76] /- -L -/ then some fun v o => match v with | some v => .ok { o with ldExtra := o.ldExtra ++ [[45, 76] /- -L -/, v] } | none => .error .null
  else none

/-- Options joined with their argument (the tests with strncmp) and everything else, in the order of the source. -/
def joinedOpt (a : Str) (o : Opts) : Except AErr Opts :=
  if ([45, 111] /- -o -/).isPrefixOf a then .ok { o with o := some (a.drop 2) }
  else if ([45, 73] /- -I -/).isPrefixOf a then .ok { o with includePaths := o.includePaths ++ [a.drop 2] }
  else if ([45, 68] /- -D -/).isPrefixOf a then .ok { o with macros := o.macros ++ [defineOp (a.drop 2)] }
  else if ([45, 85] /- -U -/).isPrefixOf a then .ok { o with macros := o.macros ++ [.undef (a.drop 2)] }
  else if ([45, 120] /- -x -/).isPrefixOf a then (parseX (a.drop 2)).map fun t => { o with x := t }
  else if ([45, 108] /- -l -/).isPrefixOf a || ([45, 87, 108, 44] /- -Wl, -/).isPrefixOf a then .ok { o with inputs := o.inputs ++ [a] }
  else if ([45, 76] /- -L -/).isPrefixOf a then .ok { o with ldExtra := o.ldExtra ++ [[45, 76] /- -L -/, a.drop 2] }
  else if a = [45, 104, 97, 115, 104, 109, 97, 112, 45, 116, 101, 115, 116] /- -hashmap-test -/ then .error .test
  else if ignored a then .ok o
  else if a.head? = some 45 ∧ a.length ≠ 1 then .error .unknown
  else .ok { o with inputs := o.inputs ++ [a] }

/-- The second loop, main.c:166-391. The tests of the source are regrouped as: words with an argument, flags, the rest. The groups are disjoint except that the prefix tests
would also match the words `-o`, `-D`, ... which the source tests first, as here. -/
def parseLoop : List Str → Opts → Except AErr Opts
  | [], o => .ok o
  | a :: r, o =>
    if a = [45, 45, 104, 101, 108, 112] /- --help -/ then .error .help
    else
      match wordOpt a, flagOpt a with
      | some f, _ =>
        match r with
        | [] => f none o
        | v :: r =>
          match f (some v) o with
          | .ok o => parseLoop r o
          | .error e => .error e
      | none, some g => parseLoop r (g o)
      | none, none =>
        match joinedOpt a o with
        | .ok o => parseLoop r o
        | .error e => .error e

/-- add_default_include_paths, main.c:781-797; `dir` is `dirname(argv[0])`. -/
def stdPaths (dir : Str) : List Str :=
  [dir ++ [47, 105, 110, 99, 108, 117, 100, 101] /- /include -/, [47, 117, 115, 114, 47, 108, 111, 99, 97, 108, 47, 105, 110, 99, 108, 117, 100, 101] /- /usr/local/include -/, [47, 117, 115, 114, 47, 114, 105, 115, 99, 118, 54, 52, 45, 108, 105, 110, 117, 120, 45, 103, 110, 117, 47, 105, 110, 99, 108, 117, 100, 101] /- /usr/riscv64-linux-gnu/include -/, [47, 117, 115, 114, 47, 105, 110, 99, 108, 117, 100, 101, 47, 114, 105, 115, 99, 118, 54, 52, 45, 108, 105, 110, 117, 120, 45, 103, 110, 117] /- /usr/include/riscv64-linux-gnu -/, [47, 117, 115, 114, 47, 105, 110, 99, 108, 117, 100, 101] /- /usr/include -/]

/-- main.c:391-392. -/
def Opts.addAfter (o : Opts) : Opts := { o with includePaths := o.includePaths ++ o.idirafter }

/-- -E implies that the input is C, main.c:397-399. -/
def Opts.implyC (o : Opts) : Opts := if o.E then { o with x := .c } else o

/-- The end of parse_args, main.c:394-400. -/
def finish (o : Opts) : Except AErr Opts := if o.inputs = [] then .error .noInput else .ok o.implyC

/-- parse_args, main.c:153-401, after add_default_include_paths. -/
def parseArgs (dir : Str) (argv : List Str) : Except AErr Opts :=
  match checkArgs argv with
  | .error e => .error e
  | .ok () =>
    match parseLoop argv { includePaths := stdPaths dir } with
    | .error e => .error e
    | .ok o => finish o.addAfter

end Toycc.Driver
