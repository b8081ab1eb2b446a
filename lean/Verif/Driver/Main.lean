import Verif.Driver.Args
/-!
The driver: main of main.c:822-922 with the functions it calls, as a program over the operating system. A run is a list of events and an exit code.
-/
namespace Toycc.Driver

/-- A sub-process: the words of its command line are given by `Cmd.argv`. -/
inductive Cmd where
  | cc1 (input : Str) (output : Option Str)
  | as (input output : Str)
  | ld (objs : List Str) (output : Str)
  deriving DecidableEq, Repr

/-- What the driver does to the outside world. -/
inductive Event where
  | tmp (path : Str)
  | run (c : Cmd)
  | unlink (path : Str)
  deriving DecidableEq, Repr

/-- What the outside world answers: the name made by the nth mkstemp (`none`: it fails), whether the status after the nth run_subprocess is 0, the directories with crt1.o and
crtbegin.o. When fork fails the source tests an uninitialised status (main.c:434-438); `ok` covers both outcomes. -/
structure World where
  mkstemp : Nat → Option Str
  ok : Nat → Bool
  lib : Option Str
  gcc : Option Str

structure St where
  evs : List Event := []
  /-- `tmpfiles` -/
  tmps : List Str := []
  /-- number of sub-processes so far -/
  runs : Nat := 0

/-- `none`: exit(1) was called, by error or run_subprocess. -/
def M (α : Type) := St → Option α × St

def M.pure {α : Type} (x : α) : M α := fun s => (some x, s)

def M.bind {α β : Type} (x : M α) (f : α → M β) : M β := fun s =>
  match x s with
  | (some a, s) => f a s
  | (none, s) => (none, s)

instance : Monad M where
  pure := M.pure
  bind := M.bind

/-- error, utils.c:19-29. -/
def fail {α : Type} : M α := fun s => (none, s)

/-- run_subprocess, main.c:416-439. -/
def runSub (w : World) (c : Cmd) : M Unit := fun s => (if w.ok s.runs then some () else none, { s with evs := s.evs ++ [.run c], runs := s.runs + 1 })

/-- create_tmpfile, main.c:633-645. -/
def createTmp (w : World) : M Str := fun s =>
  match w.mkstemp s.tmps.length with
  | none => (none, s)
  | some p => (some p, { s with evs := s.evs ++ [.tmp p], tmps := s.tmps ++ [p] })

/-- basename of libgen.h (POSIX). -/
def basename (s : Str) : Str :=
  if s = [] then [46] /- . -/
  else
    let t := (s.reverse.dropWhile (· == 47)).reverse
    if t = [] then [47] /- / -/ else (t.reverse.takeWhile (· != 47)).reverse

/-- The part before the last dot, or everything: `strrchr(filename, '.')` and `*dot = 0`. -/
def beforeDot (s : Str) : Str :=
  if 46 ∈ s then ((s.reverse.dropWhile (· != 46)).drop 1).reverse else s

/-- replace_extn, main.c:508-516. -/
def replaceExtn (tmpl extn : Str) : Str := beforeDot (basename tmpl) ++ extn

/-- endswith, main.c:663-668. -/
def endswith (p q : Str) : Bool := q.length ≤ p.length && p.drop (p.length - q.length) == q

/-- get_file_type, main.c:799-820; `none`: error. -/
def getFileType (x : FileType) (f : Str) : Option FileType :=
  if x ≠ .none then some x
  else if endswith f [46, 97] /- .a -/ then some .ar
  else if endswith f [46, 115, 111] /- .so -/ then some .dso
  else if endswith f [46, 111] /- .o -/ then some .obj
  else if endswith f [46, 99] /- .c -/ then some .c
  else if endswith f [46, 115] /- .s -/ then some .asm
  else none

/-- The words strtok(s, ",") gives: the non-empty parts. `cur` is the part being read. -/
def strtok : Str → Str → List Str
  | [], cur => if cur = [] then [] else [cur]
  | c :: r, cur => if c = 44 then (if cur = [] then strtok r [] else cur :: strtok r []) else strtok r (cur ++ [c])

/-- The file the result for this input goes to, main.c:861-866. -/
def outputOf (o : Opts) (input : Str) : Str :=
  match o.o with
  | some p => p
  | none => if o.S then replaceExtn input [46, 115] /- .s -/ else replaceExtn input [46, 111] /- .o -/

/-- The body of the loop over the inputs, main.c:841-915: the arguments for the linker after it. -/
def oneInput (w : World) (o : Opts) (ld : List Str) (input : Str) : M (List Str) :=
  if ([45, 108] /- -l -/).isPrefixOf input then pure (ld ++ [input])
  else if ([45, 87, 108, 44] /- -Wl, -/).isPrefixOf input then pure (ld ++ strtok (input.drop 4) [])
  else
    let output := outputOf o input
    match getFileType o.x input with
    | none => fail
    | some .obj => pure (ld ++ [input])
    | some .ar => pure (ld ++ [input])
    | some .dso => pure (ld ++ [input])
    | some .asm => do
      if !o.S then runSub w (.as input output)
      pure ld
    | some .none => fail  -- assert(type == FILE_C) fails: never happens, see getFileType_ne_none
    | some .c =>
      if o.E || o.M then do
        runSub w (.cc1 input none)
        pure ld
      else if o.S then do
        runSub w (.cc1 input (some output))
        pure ld
      else if o.c then do
        let t ← createTmp w
        runSub w (.cc1 input (some t))
        runSub w (.as t output)
        pure ld
      else do
        let t1 ← createTmp w
        let t2 ← createTmp w
        runSub w (.cc1 input (some t1))
        runSub w (.as t1 t2)
        pure (ld ++ [t2])

/-- The loop, main.c:840-916. -/
def allInputs (w : World) (o : Opts) : List Str → List Str → M (List Str)
  | ld, [] => pure ld
  | ld, i :: r => do
    let ld ← oneInput w o ld i
    allInputs w o ld r

/-- run_linker, main.c:716-779; the words are in `Cmd.argv`. -/
def runLinker (w : World) (objs : List Str) (output : Str) : M Unit :=
  match w.lib, w.gcc with
  | some _, some _ => runSub w (.ld objs output)
  | _, _ => fail

/-- main after parse_args, without -cc1, main.c:836-921. -/
def driver (w : World) (o : Opts) : M Unit := do
  if 1 < o.inputs.length && o.o.isSome && (o.c || o.S || o.E) then fail
  else
    let ld ← allInputs w o [] o.inputs
    if ld ≠ [] then runLinker w ld (o.o.getD [97, 46, 111, 117, 116] /- a.out -/)

/-- cleanup, main.c:626-631, run by exit and by the return from main (atexit, main.c:827). -/
def cleanup (s : St) : List Event := s.tmps.map .unlink

/-- The whole run: exit code and events. -/
def runDriver (w : World) (o : Opts) : Nat × List Event :=
  match driver w o {} with
  | (some (), s) => (0, s.evs ++ cleanup s)
  | (none, s) => (1, s.evs ++ cleanup s)

/-- The words run_linker puts before the inputs, after the output file: main.c:725-753. -/
def ldBefore (o : Opts) (lib gcc : Str) : List Str :=
  [[45, 109] /- -m -/, [101, 108, 102, 54, 52, 108, 114, 105, 115, 99, 118] /- elf64lriscv -/] ++
  (if o.shared then [lib ++ [47, 99, 114, 116, 105, 46, 111] /- /crti.o -/, gcc ++ [47, 99, 114, 116, 98, 101, 103, 105, 110, 83, 46, 111] /- /crtbeginS.o -/] else [lib ++ [47, 99, 114, 116, 49, 46, 111] /- /crt1.o -/, lib ++ [47, 99, 114, 116, 105, 46, 111] /- /crti.o -/, gcc ++ [47, 99, 114, 116, 98, 101, 103, 105, 110, 84, 46, 111] /- /crtbeginT.o -/]) ++
  [[45, 76] /- -L -/ ++ gcc, [45, 76] /- -L -/ ++ lib] ++
  (if o.static then [] else [[45, 100, 121, 110, 97, 109, 105, 99, 45, 108, 105, 110, 107, 101, 114] /- -dynamic-linker -/, lib ++ [47, 108, 100, 45, 108, 105, 110, 117, 120, 45, 114, 105, 115, 99, 118, 54, 52, 45, 108, 112, 54, 52, 100, 46, 115, 111, 46, 49] /- /ld-linux-riscv64-lp64d.so.1 -/])

/-- The words after the inputs: main.c:758-776. -/
def ldAfter (o : Opts) (lib gcc : Str) : List Str :=
  (if o.static then [[45, 45, 115, 116, 97, 114, 116, 45, 103, 114, 111, 117, 112] /- --start-group -/, [45, 108, 103, 99, 99] /- -lgcc -/, [45, 108, 103, 99, 99, 95, 101, 104] /- -lgcc_eh -/, [45, 108, 99] /- -lc -/, [45, 45, 101, 110, 100, 45, 103, 114, 111, 117, 112] /- --end-group -/] else [[45, 108, 99] /- -lc -/, [45, 108, 103, 99, 99] /- -lgcc -/, [45, 45, 97, 115, 45, 110, 101, 101, 100, 101, 100] /- --as-needed -/, [45, 108, 103, 99, 99, 95, 115] /- -lgcc_s -/, [45, 45, 110, 111, 45, 97, 115, 45, 110, 101, 101, 100, 101, 100] /- --no-as-needed -/]) ++
  [if o.shared then gcc ++ [47, 99, 114, 116, 101, 110, 100, 83, 46, 111] /- /crtendS.o -/ else gcc ++ [47, 99, 114, 116, 101, 110, 100, 46, 111] /- /crtend.o -/, lib ++ [47, 99, 114, 116, 110, 46, 111] /- /crtn.o -/]

/-- The words of a command: run_cc1 (main.c:441-464; `argv` without the name of the compiler), assemble (647-661), run_linker (716-779). -/
def Cmd.argv (argv : List Str) (o : Opts) (lib gcc : Str) : Cmd → List Str
  | .cc1 i none => argv ++ [[45, 99, 99, 49] /- -cc1 -/, [45, 99, 99, 49, 45, 105, 110, 112, 117, 116] /- -cc1-input -/, i]
  | .cc1 i (some p) => argv ++ [[45, 99, 99, 49] /- -cc1 -/, [45, 99, 99, 49, 45, 105, 110, 112, 117, 116] /- -cc1-input -/, i, [45, 99, 99, 49, 45, 111, 117, 116, 112, 117, 116] /- -cc1-output -/, p]
  | .as i p => [[114, 105, 115, 99, 118, 54, 52, 45, 108, 105, 110, 117, 120, 45, 103, 110, 117, 45, 97, 115] /- riscv64-linux-gnu-as -/, [45, 99] /- -c -/, i, [45, 111] /- -o -/, p]
  | .ld objs p => [[114, 105, 115, 99, 118, 54, 52, 45, 108, 105, 110, 117, 120, 45, 103, 110, 117, 45, 108, 100] /- riscv64-linux-gnu-ld -/, [45, 111] /- -o -/, p] ++ ldBefore o lib gcc ++ o.ldExtra ++ objs ++ ldAfter o lib gcc

end Toycc.Driver
