/-!
What cc1 (main.c:564-624) writes: the file of dependencies, the preprocessed text, the assembly text. Preprocessing, parsing and code generation are parameters: what they give, or that they end with a
message (`none`). Simplified: the file of dependencies, which is never closed, is written when the process ends (main.c:544 and exit); the library may write parts of it earlier. Standard output (main.c:405-406) counts as a file that was empty
before.
-/
namespace Toycc.Driver.Out

abbrev Bytes := List UInt8
abbrev Path := List UInt8

/-- The options cc1 looks at, and the names of the files, main.c:467-469, 532-544, 621. -/
structure Job where
  m : Bool := false       -- -M
  md : Bool := false      -- -MD
  e : Bool := false       -- -E
  dep : Path
  pre : Path
  out : Path

/-- One write(2): how much of the rest is taken, or an error. After the last one all of the rest is taken. -/
inductive Wr where
  | took (n : Nat)
  | fail

/-- Results of the compiler: `front` is the list of dependencies and the preprocessed text, `asm` the assembly text; `can` says which files can be opened, `wr` how they can be written. -/
structure Env where
  front : Option (Bytes × Bytes)
  asm : Option Bytes
  can : Path → Bool
  wr : Path → List Wr

/-- Effects on the file system, in order. -/
inductive Act where
  | open (p : Path)                   -- fopen(p, "w"), main.c:403-414
  | put (p : Path) (b : Bytes)

/-- fwrite and fclose, or the end of the process, C11 7.21.5.1: the pieces that are written. After an error the rest is dropped. -/
def pieces : List Wr → Bytes → List Bytes
  | [], b => [b]
  | .took n :: ws, b => b.take n :: pieces ws (b.drop n)
  | .fail :: _, _ => []

/-- open_file (main.c:403-414) and writing; nobody looks at the results of fwrite, fprintf and fclose. The second component is the exit status. -/
def emit (v : Env) (p : Path) (b : Bytes) : List Act × Nat :=
  if v.can p then (.open p :: (pieces (v.wr p) b).map (.put p), 0) else ([], 1)

/-- cc1 after print_dependencies, main.c:602-623. -/
def back (j : Job) (v : Env) (t : Bytes) : List Act × Nat :=
  if j.e then emit v j.pre t
  else match v.asm with
    | none => ([], 1)
    | some a => emit v j.out a

/-- cc1, main.c:564-624. -/
def cc1 (j : Job) (v : Env) : List Act × Nat :=
  match v.front with
  | none => ([], 1)
  | some (d, t) =>
    if j.m || j.md then
      if v.can j.dep then
        if j.m then (.open j.dep :: (pieces (v.wr j.dep) d).map (.put j.dep), 0)
        else (.open j.dep :: ((back j v t).1 ++ (pieces (v.wr j.dep) d).map (.put j.dep)), (back j v t).2)
      else ([], 1)
    else back j v t

/-! ### Files -/

abbrev Fs := Path → Option Bytes

def act (fs : Fs) : Act → Fs
  | .open p => fun q => if q = p then some [] else fs q
  | .put p b => fun q => if q = p then (fs q).map (· ++ b) else fs q

def acts (fs : Fs) (l : List Act) : Fs := l.foldl act fs

end Toycc.Driver.Out
