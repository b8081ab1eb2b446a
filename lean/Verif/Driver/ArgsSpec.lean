import Verif.Driver.Args
/-!
The command line as a list of options with their meaning (specification of C59). `render` gives the spellings, `apply` what each option asks for.
-/
namespace Toycc.Driver

/-- An option with its argument; `sep`: the argument is a word of its own. -/
inductive Opt where
  | flag (name : Str) (meaning : Opts → Opts)
  | output (sep : Bool) (path : Str)
  | incdir (dir : Str)
  | define (sep : Bool) (name : Str) (value : Option Str)
  | undef (sep : Bool) (name : Str)
  | incfile (file : Str)
  | lang (sep : Bool) (t : FileType)
  | lib (name : Str)
  | wl (args : Str)
  | xlinker (arg : Str)
  | depfile (file : Str)
  | target (t : Str)
  | qtarget (t : Str)
  | libdir (sep : Bool) (dir : Str)
  | ignore (word : Str)
  | input (file : Str)

/-- The flags and what they set. -/
def flags : List (Str × (Opts → Opts)) := [
  ([45, 35, 35, 35] /- -### -/, fun o => { o with hashes := true }),
  ([45, 83] /- -S -/, fun o => { o with S := true }),
  ([45, 99] /- -c -/, fun o => { o with c := true }),
  ([45, 69] /- -E -/, fun o => { o with E := true }),
  ([45, 77] /- -M -/, fun o => { o with M := true }),
  ([45, 77, 68] /- -MD -/, fun o => { o with MD := true }),
  ([45, 77, 77, 68] /- -MMD -/, fun o => { o with MD := true, MMD := true }),
  ([45, 77, 80] /- -MP -/, fun o => { o with MP := true }),
  ([45, 102, 99, 111, 109, 109, 111, 110] /- -fcommon -/, fun o => { o with fcommon := true }),
  ([45, 102, 110, 111, 45, 99, 111, 109, 109, 111, 110] /- -fno-common -/, fun o => { o with fcommon := false }),
  ([45, 102, 112, 105, 99] /- -fpic -/, fun o => { o with fpic := true }),
  ([45, 102, 80, 73, 67] /- -fPIC -/, fun o => { o with fpic := true }),
  ([45, 115] /- -s -/, fun o => { o with ldExtra := o.ldExtra ++ [[45, 115] /- -s -/] }),
  ([45, 115, 116, 97, 116, 105, 99] /- -static -/, fun o => { o with static := true, ldExtra := o.ldExtra ++ [[45, 115, 116, 97, 116, 105, 99] /- -static -/] }),
  ([45, 115, 104, 97, 114, 101, 100] /- -shared -/, fun o => { o with shared := true, ldExtra := o.ldExtra ++ [[45, 115, 104, 97, 114, 101, 100] /- -shared -/] })]

/-- `-D` argument. -/
def defText (name : Str) : Option Str → Str
  | some v => name ++ 61 :: v
  | none => name

def langName : FileType → Str
  | .c => [99] /- c -/
  | .asm => [97, 115, 115, 101, 109, 98, 108, 101, 114] /- assembler -/
  | _ => [110, 111, 110, 101] /- none -/

/-- Joined or as two words. -/
def spell (sep : Bool) (opt arg : Str) : List Str := if sep then [opt, arg] else [opt ++ arg]

def Opt.render : Opt → List Str
  | .flag n _ => [n]
  | .output sep p => spell sep [45, 111] /- -o -/ p
  | .incdir d => [[45, 73] /- -I -/ ++ d]
  | .define sep n v => spell sep [45, 68] /- -D -/ (defText n v)
  | .undef sep n => spell sep [45, 85] /- -U -/ n
  | .incfile f => [[45, 105, 110, 99, 108, 117, 100, 101] /- -include -/, f]
  | .lang sep t => spell sep [45, 120] /- -x -/ (langName t)
  | .lib n => [[45, 108] /- -l -/ ++ n]
  | .wl a => [[45, 87, 108, 44] /- -Wl, -/ ++ a]
  | .xlinker a => [[45, 88, 108, 105, 110, 107, 101, 114] /- -Xlinker -/, a]
  | .depfile f => [[45, 77, 70] /- -MF -/, f]
  | .target t => [[45, 77, 84] /- -MT -/, t]
  | .qtarget t => [[45, 77, 81] /- -MQ -/, t]
  | .libdir sep d => spell sep [45, 76] /- -L -/ d
  | .ignore w => [w]
  | .input f => [f]

/-- What make will read for a -MQ target (C56). -/
def quotedTarget (t : Str) : Str := (quoteMakefile t).getD []

/-- `-MT`/`-MQ` accumulate, separated by a space. -/
def moreTargets (old : Option Str) (t : Str) : Option Str := some (match old with | none => t | some u => u ++ 32 :: t)

def Opt.apply (o : Opts) : Opt → Opts
  | .flag _ f => f o
  | .output _ p => { o with o := some p }
  | .incdir d => { o with includePaths := o.includePaths ++ [d] }
  | .define _ n v => { o with macros := o.macros ++ [.define n (v.getD [49] /- 1 -/)] }
  | .undef _ n => { o with macros := o.macros ++ [.undef n] }
  | .incfile f => { o with optInclude := o.optInclude ++ [f] }
  | .lang _ t => { o with x := t }
  | .lib n => { o with inputs := o.inputs ++ [[45, 108] /- -l -/ ++ n] }
  | .wl a => { o with inputs := o.inputs ++ [[45, 87, 108, 44] /- -Wl, -/ ++ a] }
  | .xlinker a => { o with ldExtra := o.ldExtra ++ [a] }
  | .depfile f => { o with MF := some f }
  | .target t => { o with MT := moreTargets o.MT t }
  | .qtarget t => { o with MT := moreTargets o.MT (quotedTarget t) }
  | .libdir _ d => { o with ldExtra := o.ldExtra ++ [[45, 76] /- -L -/, d] }
  | .ignore _ => o
  | .input f => { o with inputs := o.inputs ++ [f] }

/-- An argument as a word of its own, where the first check does not know that it is an argument, must not look like an option with an argument. -/
def freeWord (sep : Bool) (a : Str) : Prop := if sep then takeArg a = false else a ≠ []

/-- The well-formed options. -/
def Opt.Ok : Opt → Prop
  | .flag n f => (n, f) ∈ flags
  | .output sep p => sep = false → p ≠ []
  | .incdir d => d ≠ []
  | .define sep n v => 61 ∉ n ∧ freeWord sep (defText n v)
  | .undef sep n => freeWord sep n
  | .lang _ t => t = .c ∨ t = .asm ∨ t = .none
  | .qtarget t => takeArg t = false
  | .libdir sep d => freeWord sep d
  | .ignore w => ignored w = true ∧ ([45, 87, 108, 44] /- -Wl, -/).isPrefixOf w = false
  | .input f => f.head? ≠ some 45 ∨ f = [45] /- - -/
  | _ => True

/-- The directories given with -I. -/
def incdirs (os : List Opt) : List Str := os.filterMap fun | .incdir d => some d | _ => none

end Toycc.Driver
