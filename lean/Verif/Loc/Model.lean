/-!
The numbers of files in the assembly text: `.file` and `.loc`. What happens while a program is read is any list of the operations that make or change a `struct File`.
-/
namespace Toycc.Loc

abbrev Str := List Char

/-- struct File, toycc.h:69-77, without the contents. -/
structure File where
  name : Str
  no : Nat
  delta : Int := 0
  deriving DecidableEq

/-- All `struct File`s there are, and input_files (tokenize.c:913-915) as places in the first list. The counter file_no is the length of the second list. -/
structure St where
  objs : List File := []
  inputs : List Nat := []

inductive Op where
  | read (path : Str)                     -- tokenize_file
  | builtin                               -- define_macro: tokenize(new_file("<built-in>", 1, buf))
  | derive (k : Nat)                      -- stringizing, pasting, numbers made by the preprocessor: a file with the name and the number of file k
  | line (k : Nat) (start n : Int)        -- #line n, on line start of file k

/-- tokenize_file (tokenize.c:909-916); predefined_macro.c:8; preprocess.c:132, 495, 518; read_line_marker (preprocess.c:999). An operation on a file that does not exist cannot happen and changes nothing. -/
def op (s : St) : Op → St
  | .read p => { objs := s.objs ++ [{ name := p, no := s.inputs.length + 1 }], inputs := s.inputs ++ [s.objs.length] }
  | .builtin => { s with objs := s.objs ++ [{ name := "<built-in>".toList, no := 1 }] }
  | .derive k => match s.objs[k]? with
    | some f => { s with objs := s.objs ++ [{ name := f.name, no := f.no }] }
    | none => s
  | .line k start n => match s.objs[k]? with
    | some f => { s with objs := s.objs.set k { f with delta := n - start } }
    | none => s

def run (l : List Op) : St := l.foldl op {}

/-- codegen, codegen.c:2200-2203: the numbers and names of the `.file` lines. -/
def fileLines (s : St) : List (Nat × Str) := s.inputs.filterMap fun i => (s.objs[i]?).map fun f => (f.no, f.name)

/-- The line `.file no "name"`, codegen.c:2202: the name as it is. -/
def fileText (no : Nat) (name : Str) : Str := ".file ".toList ++ (toString no).toList ++ [' ', '"'] ++ name ++ ['"']

/-- `.loc` for a token on line `line` of file k, codegen.c:982-984 and 1646-1648, with the delta of the token, preprocess.c:1025 and 1313. `s` is the state when the token passes
preprocess2; `line` counts in the text of file k, so for text made by pasting it is 1. -/
def loc (s : St) (k : Nat) (line : Int) : Option (Nat × Int) := (s.objs[k]?).map fun f => (f.no, line + f.delta)

end Toycc.Loc
