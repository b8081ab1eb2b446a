import Verif.Util.Model
/-!
Frames and argument passing: assign_lvar_offsets (codegen.c:1799-1889), push_args, push_args2 and push_struct (codegen.c:647-892), the calling sequence of
gen_expr (codegen.c:1209-1306) and the prologue of emit_text (codegen.c:2030-2150).

Types are reduced to what these functions look at: the class of the type, its size and the alignment of the variable. `int` arithmetic on offsets is not
bounded here. What evaluating an argument does is left out: it leaves its value in a0, fa0 or on the long double stack.
-/
namespace Toycc.Frame
open Toycc.Util

/-- The distinctions that codegen.c makes: is_struct_union, is_float_arg (float and double), TY_LDOUBLE, and all others. -/
inductive Cls
  | int | flt | ld | agg
  deriving DecidableEq, Repr

structure Var where
  cls : Cls
  size : Nat
  align : Nat
  deriving DecidableEq, Repr

/-- Failures: the two diagnostics of assign_lvar_offsets; `align_to` by 0. -/
inductive FErr
  | halfStruct | halfLd | divZero
  deriving DecidableEq, Repr

/-- `align_to(size, sizeof(long)) / sizeof(long)`. -/
def words (size : Nat) : Nat := (size + 7) / 8

/-- MAX_ARG_REGS, codegen.c. -/
def maxRegs : Nat := 8

/-- Where a parameter is passed, and the counters after it. -/
inductive Place
  | reg (g f : Nat)
  | stack (g f : Nat)
  deriving DecidableEq, Repr

/-- assign_lvar_offsets, codegen.c:1823-1862: the choice between `continue` and falling through to the stack. -/
def place (v : Var) (g f : Nat) : Except FErr Place :=
  match v.cls with
  | .agg =>
    let n := words v.size
    if n ≤ 2 then
      if g + n ≤ maxRegs then .ok (.reg (g + n) f)
      else if g + 1 = maxRegs then .error .halfStruct
      else .ok (.stack g f)
    else .ok (.stack (if g < maxRegs then g + 1 else g) f)
  | .flt =>
    if f < maxRegs then .ok (.reg g (f + 1))
    else if g < maxRegs then .ok (.reg (g + 1) f)
    else .ok (.stack g f)
  | .ld =>
    if g + 2 ≤ maxRegs then .ok (.reg (g + 2) f)
    else if g + 1 = maxRegs then .error .halfLd
    else .ok (.stack g f)
  | .int => if g < maxRegs then .ok (.reg (g + 1) f) else .ok (.stack g f)

def alignE (n a : Int) : Except FErr Int :=
  match alignTo n a with
  | some r => .ok r
  | none => .error .divZero

/-- The first loop of assign_lvar_offsets, codegen.c:1822-1868: the offset of each parameter passed by stack, `none` for the others; and `top`. -/
def paramOffsets : List Var → Nat → Nat → Int → Except FErr (List (Option Int) × Int)
  | [], _, _, top => .ok ([], top)
  | v :: r, g, f, top => do
    match ← place v g f with
    | .reg g f =>
      let (os, t) ← paramOffsets r g f top
      .ok (none :: os, t)
    | .stack g f =>
      let top ← alignE top 8
      let (os, t) ← paramOffsets r g f (top + v.size)
      .ok (some top :: os, t)

/-- The second loop, codegen.c:1875-1886, over the variables and the offsets that they have already. -/
def localOffsets : List (Var × Option Int) → Int → Except FErr (List Int × Int)
  | [], bottom => .ok ([], bottom)
  | (v, o) :: r, bottom =>
    match o with
    | some o => do
      let (os, b) ← localOffsets r bottom
      .ok (o :: os, b)
    | none => do
      let bottom ← alignE (bottom + v.size) v.align
      let (os, b) ← localOffsets r bottom
      .ok (-bottom :: os, b)

/-- A function: its variables other than parameters (the latest first, as in fn->locals; the first declared one is __alloca_size__), whether it is variadic
(fn->va_area, a `char[0]`), and its parameters, the hidden one included. function, parser.c:1480-1494: fn->locals is `others`, then the va_area, then the
parameters. -/
structure Fn where
  others : List Var
  variadic : Bool
  params : List Var
  deriving DecidableEq, Repr

def vaArea : Var := ⟨.int, 0, 1⟩

/-- fn->locals. -/
def Fn.locals (fn : Fn) : List Var := fn.others ++ (if fn.variadic then [vaArea] else []) ++ fn.params

structure Frame where
  /-- The offset from fp of each variable of `Fn.locals`. -/
  offs : List Int
  /-- fn->stack_size. -/
  size : Int
  deriving DecidableEq, Repr

/-- assign_lvar_offsets. The test `if (var->offset)` of the second loop is the `some` of the option, since the offsets of the first loop are at least 16. -/
def layout (fn : Fn) : Except FErr Frame := do
  let (ps, top) ← paramOffsets fn.params 0 0 16
  let va ← alignE top 8
  let pre : List (Option Int) := fn.others.map (fun _ => none) ++ (if fn.variadic then [some va] else []) ++ ps
  let (os, b) ← localOffsets (fn.locals.zip pre) 0
  let sz ← alignE b 8
  .ok ⟨os, sz⟩

/-! ### The caller -/

/-- What is in a register or a word of the stack: the `j`th word of the `i`th argument; the address of the copy of the `i`th argument; the address of the
buffer for the result; anything else. -/
inductive Word
  | arg (i j : Nat)
  | ptr (i : Nat)
  | buf
  | junk
  deriving DecidableEq, Repr

/-- An argument; `vararg`: the parameter list is exhausted (`is_variadic && cur_params == NULL`). -/
structure Arg where
  cls : Cls
  size : Nat
  vararg : Bool
  deriving DecidableEq, Repr

/-- The counters of push_args. -/
structure Cnt where
  g : Nat
  f : Nat
  stack : Nat
  structStack : Nat
  deriving DecidableEq, Repr

/-- `if (g_arg < MAX_ARG_REGS) g_arg++; else stack++;`, `n` times. -/
def Cnt.some (c : Cnt) : Nat → Cnt
  | 0 => c
  | n + 1 => (if c.g < maxRegs then { c with g := c.g + 1 } else { c with stack := c.stack + 1 } : Cnt).some n

/-- One round of the loop of push_args, codegen.c:810-868: the counters, and pass_by_stack. check_struct_contain_float (which only reports errors) is left
out. -/
def countArg (a : Arg) (c : Cnt) : Cnt × Bool :=
  if a.vararg then
    if c.g < maxRegs then ({ c with g := c.g + 1 }, false) else ({ c with stack := c.stack + 1 }, true)
  else if a.cls = .agg then
    let n := words a.size
    if n ≤ 2 then (c.some n, false)
    else (({ c with structStack := c.structStack + n, stack := c.stack + n } : Cnt).some 1, false)
  else if a.cls = .flt ∧ c.f < maxRegs then ({ c with f := c.f + 1 }, false)
  else if a.cls = .ld then (c.some 2, false)
  else if c.g < maxRegs then ({ c with g := c.g + 1 }, false)
  else ({ c with stack := c.stack + 1 }, true)

def countArgs : List Arg → Cnt → Cnt × List Bool
  | [], c => (c, [])
  | a :: r, c =>
    let (c, b) := countArg a c
    let (c, bs) := countArgs r c
    (c, b :: bs)

/-- The state of the caller while it pushes and pops arguments. Addresses count words (of 8 bytes). `evals` records, for each argument, the depth counter of
the compiler and sp when it is evaluated. -/
structure St where
  mem : Int → Word
  sp : Int
  t1 : Int
  depth : Int
  g : Nat → Word
  f : Nat → Word
  evals : List (Nat × Int × Int)

def set (m : Int → Word) (a : Int) (w : Word) : Int → Word := fun x => if x = a then w else m x

/-- __push, codegen.c:74-87. -/
def St.push (s : St) (w : Word) : St := { s with sp := s.sp - 1, mem := set s.mem (s.sp - 1) w, depth := s.depth + 1 }

/-- `while (n--)` of push_struct, codegen.c:655-659. -/
def St.pushWords (s : St) (i : Nat) : Nat → St
  | 0 => s
  | n + 1 => (s.push (.arg i n)).pushWords i n

/-- The loop that copies a struct, codegen.c:665-669. -/
def copyWords (m : Int → Word) (t1 : Int) (i : Nat) : Nat → Int → Word
  | 0 => m
  | n + 1 => set (copyWords m t1 i n) (t1 + n) (.arg i n)

/-- push_args2, codegen.c:685-713: an argument is evaluated and pushed. -/
def pushArg (i : Nat) (a : Arg) (s : St) : St :=
  let s := { s with evals := s.evals ++ [(i, s.depth, s.sp)] }
  match a.cls with
  | .agg =>
    let n := words a.size
    if n ≤ 2 then s.pushWords i n
    else
      let t1 : Int := s.t1 - (n : Int)
      { s with t1 := t1, mem := copyWords s.mem t1 i n, depth := s.depth + n }.push (.ptr i)
  | .ld =>
    let s := { s with sp := s.sp - 2, depth := s.depth + 2 }
    { s with mem := set (set s.mem (s.sp + 1) (.arg i 1)) s.sp (.arg i 0) }
  | _ => s.push (.arg i 0)

/-- push_args2, codegen.c:675-714: from right to left, those with the given pass_by_stack. -/
def pushArgs2 : List (Arg × Bool) → Nat → Bool → St → St
  | [], _, _, s => s
  | (a, b) :: r, i, first, s =>
    let s := pushArgs2 r (i + 1) first s
    if b = first then pushArg i a s else s

/-- push_args, codegen.c:797-892; `hidden`: `node->ret_buffer && node->ty->size > 16`. Returns `stack`. -/
def pushArgs (hidden : Bool) (as : List Arg) (s : St) : St × Nat :=
  let (c, bs) := countArgs as ⟨if hidden then 1 else 0, 0, 0, 0⟩
  let odd : Bool := (s.depth + c.stack) % 2 = 1
  let s := if odd then { s with sp := s.sp - 1, depth := s.depth + 1 } else s
  let stack := if odd then c.stack + 1 else c.stack
  let s := { s with t1 := s.sp, sp := s.sp - c.structStack }
  let s := pushArgs2 (as.zip bs) 0 true s
  let s := pushArgs2 (as.zip bs) 0 false s
  let s := if hidden then s.push .buf else s
  (s, stack)

/-- __pop into an integer register, codegen.c:90-101. -/
def St.popG (s : St) (r : Nat) : St :=
  { s with g := (fun x => if x = r then s.mem s.sp else s.g x), sp := s.sp + 1, depth := s.depth - 1 }

def St.popF (s : St) (r : Nat) : St :=
  { s with f := (fun x => if x = r then s.mem s.sp else s.f x), sp := s.sp + 1, depth := s.depth - 1 }

/-- `if (g_arg < MAX_ARG_REGS) pop(argreg[g_arg++]);`, `n` times (also the `break` of codegen.c:1273-1277). -/
def popSome : Nat → Nat → St → Nat × St
  | 0, g, s => (g, s)
  | n + 1, g, s => if g < maxRegs then popSome n (g + 1) (s.popG g) else popSome n g s

/-- One round of the loop of ND_FUNCALL that pops arguments, codegen.c:1239-1293. -/
def popArg (a : Arg) (g f : Nat) (s : St) : Nat × Nat × St :=
  if a.vararg then
    if g < maxRegs then
      if a.cls = .ld then
        let g := if g % 2 = 1 then g + 1 else g
        let (g, s) := popSome 2 g s
        (g, f, s)
      else (g + 1, f, s.popG g)
    else (g, f, s)
  else if a.cls = .agg ∧ words a.size ≤ 2 then
    let (g, s) := popSome (words a.size) g s
    (g, f, s)
  else if a.cls = .flt ∧ f < maxRegs then (g, f + 1, s.popF f)
  else if a.cls = .ld then
    let (g, s) := popSome 2 g s
    (g, f, s)
  else if g < maxRegs then (g + 1, f, s.popG g)
  else (g, f, s)

def popArgs : List Arg → Nat → Nat → St → St
  | [], _, _, s => s
  | a :: r, g, f, s =>
    let (g, f, s) := popArg a g f s
    popArgs r g f s

/-- ND_FUNCALL up to `jalr`, codegen.c:1219-1296 (the address of the function is evaluated in between and kept in t0); the state at the call, and
`stack_args`. -/
def call (hidden : Bool) (as : List Arg) (s : St) : St × Nat :=
  let (s, n) := pushArgs hidden as s
  let (g, s) := if hidden then (1, s.popG 0) else (0, s)
  (popArgs as g 0 s, n)

/-- After the call, codegen.c:1301-1304: `addi sp, sp, stack_args * 8`. -/
def afterCall (s : St) (n : Nat) : St := { s with sp := s.sp + n, depth := s.depth - n }

/-! ### The callee -/

/-- Where the callee takes a word of a parameter from: an argument register, or the memory at a number of bytes from sp at its entry. -/
inductive Src
  | g (r : Nat)
  | f (r : Nat)
  | mem (off : Int)
  deriving DecidableEq, Repr

/-- The space that emit_text reserves for registers, codegen.c:2031-2066 (struct parameters of variadic functions are diagnosed there). -/
def vaGp : List Var → Nat → Nat → Nat
  | [], g, _ => g
  | v :: r, g, f => if v.cls = .flt then (if f < maxRegs then vaGp r g (f + 1) else vaGp r (g + 1) f) else vaGp r (g + 1) f

def vaSize (fn : Fn) : Int := if fn.variadic ∧ vaGp fn.params 0 0 < maxRegs then ((maxRegs - vaGp fn.params 0 0 : Nat) : Int) * 8 else 0

/-- emit_text, codegen.c:2082-2118: for each parameter and each of its words, where its value comes from; and the next free register. `base` is the number of
bytes from sp at entry to fp. A parameter with an offset above 0 stays where it is; `none` is the failing assertion of codegen.c:2090. -/
def paramSrcs : List (Var × Int) → Int → Nat → Nat → Option (List (List Src) × Nat)
  | [], _, g, _ => some ([], g)
  | (v, o) :: r, base, g, f =>
    if 0 < o then
      let here := (List.range (words v.size)).map fun (j : Nat) => Src.mem (base + o + 8 * (j : Int))
      if g < maxRegs then
        if v.cls = .agg then (paramSrcs r base (g + 1) f).map fun p => (here :: p.1, p.2) else none
      else (paramSrcs r base g f).map fun p => (here :: p.1, p.2)
    else match v.cls with
      | .agg =>
        if 8 < v.size then (paramSrcs r base (g + 2) f).map fun p => ([.g g, .g (g + 1)] :: p.1, p.2)
        else (paramSrcs r base (g + 1) f).map fun p => ([.g g] :: p.1, p.2)
      | .flt =>
        if f < maxRegs then (paramSrcs r base g (f + 1)).map fun p => ([.f f] :: p.1, p.2)
        else if g < maxRegs then (paramSrcs r base (g + 1) f).map fun p => ([.g g] :: p.1, p.2)
        else (paramSrcs r base g f).map fun p => ([] :: p.1, p.2)
      | .ld =>
        if g + 1 < maxRegs then (paramSrcs r base (g + 2) f).map fun p => ([.g g, .g (g + 1)] :: p.1, p.2)
        else (paramSrcs r base g f).map fun p => ([] :: p.1, p.2)
      | .int =>
        if g < maxRegs then (paramSrcs r base (g + 1) f).map fun p => ([.g g] :: p.1, p.2)
        else (paramSrcs r base g f).map fun p => ([] :: p.1, p.2)

/-- fp minus sp at entry: the space for registers, ra and fp. -/
def fpOff (fn : Fn) : Int := -(vaSize fn) - 16

/-- The sources of all parameters of a function. -/
def sources (fn : Fn) (fr : Frame) : Option (List (List Src) × Nat) :=
  paramSrcs (fn.params.zip (fr.offs.drop (fr.offs.length - fn.params.length))) (fpOff fn) 0 0

/-- The offset of the va_area. -/
def vaOff (fn : Fn) (fr : Frame) : Option Int := if fn.variadic then fr.offs[fn.others.length]? else none

/-- What is found `8 * k` bytes after the start of the va_area once the registers from the `g`th on are saved there, codegen.c:2121-2137. -/
def vaSrc (off base : Int) (g k : Nat) : Src := if g + k < maxRegs then .g (g + k) else .mem (base + off + 8 * k)

end Toycc.Frame
