import Verif.Whole.Model
import Verif.Stm.Sem
import Verif.Cg.Sim
/-!
Specification: what a C program consisting of several functions does (C11 6.5.2.2, 6.2.4, 6.9.1). C leaves open at which addresses the local
objects of a call are; here they are at the offsets of the frame, and the frame is below the part of the stack that the caller uses. Apart
from that nothing of the compiler occurs: a call creates the objects of the function, with indeterminate contents, stores the arguments in
the parameters, executes the body, and ends the lifetime of the objects.
-/
namespace Toycc.Whole
open Toycc.Rv Toycc.Cg Toycc.Stm Toycc.Frame Toycc.Fn

/-- The objects of a call with their offsets: all variables but `__alloca_size__`, which no C program can name. -/
def Func.objs (f : Func) (fr : Frame) : List (Int × Frame.Var) :=
  (fr.offs.zip f.frame.locals).eraseIdx (f.others.length - 1)

/-- The parameters with their offsets. -/
def Func.slots (f : Func) (fr : Frame) : List (Ty × Int) := f.params.zip (fr.offs.drop (fr.offs.length - f.params.length))

/-- Whether byte `b` belongs to one of the objects. -/
def inObjs (fp : W) (l : List (Int × Frame.Var)) (b : W) : Bool :=
  l.any fun p => decide ((b - (fp + BitVec.ofInt 64 p.1)).toNat < p.2.size)

/-- Storing the arguments in the parameters. -/
def bindArgs (fp : W) : List (Ty × Int) → List Int → Mem → Mem
  | (t, o) :: ps, v :: vs, m => bindArgs fp ps vs (writeN m (fp + BitVec.ofInt 64 o) t.size (rep v))
  | _, _, m => m

open Classical in
/-- A result that does not depend on the indeterminate contents `g` of new objects. If it does depend on them, the behaviour is
undefined or unspecified, and there is no result. -/
noncomputable def indep (h : Mem → Option (Int × Mem)) : Option (Int × Mem) :=
  if ∃ r, ∀ g, h g = some r then h (fun _ => 0) else none

/-- The value a call yields when the body has ended. Only `main` may reach its closing brace and yield a value (C11 6.9.1p12,
5.1.2.2.3). -/
def result (f : Func) : End → Option Int
  | .ret (some w) => if f.ret.scalar && inRange f.ret w then some w else none
  | .ret none => if f.ret = .void then some 0 else none
  | .fell => if f.ret = .void then some 0 else if f.name = "main" ∧ f.ret = .int false then some 0 else none

/-- The frame of a function. -/
def Func.lay (f : Func) : Option Frame := (layout f.frame).toOption

/-- Bytes of the stack a call needs beyond what the caller uses: return address, frame pointer, frame. -/
def Func.bytes (fr : Frame) : Nat := 16 + fr.size.toNat

/-- The slots needed for the temporaries of all expressions of the body. -/
def Func.temps (f : Func) : Nat := (f.body.uses.map fun p => need p.2).foldr max 0

/-- Functions defined elsewhere: for the live bytes, the free slots of the stack, an address, a type, arguments and a memory: value and
memory. -/
abbrev Ext := (W → Bool) → Nat → W → Ty → List (Ty × Int) → Mem → Option (Int × Mem)

/-- One call of `f` with arguments `vs`; `E` is the environment of its body, `n` bounds the iterations and gotos of the body. -/
noncomputable def callFn (E : CEnv) (n : Nat) (f : Func) (fr : Frame) (vs : List Int) (m : Mem) : Option (Int × Mem) :=
  indep fun g =>
    match run (evC E 0) n none f.body (bindArgs E.fp (f.slots fr) vs fun b => if inObjs E.fp (f.objs fr) b then g b else m b) with
    | .done e m' => (result f e).map (·, fun b => if inObjs E.fp (f.objs fr) b then m b else m' b)
    | _ => none

/-- The environment of expressions in a function whose frame address is `fp`, whose temporaries start below `B`, when the bytes `valid` are
live and `room` slots of stack are left below `B`. A call, when `k` slots are in use, must have the type of the function (C11 6.5.2.2p9) and
find enough room; `body` is what executing a function does. -/
def within (F : List Func) (X : Ext) (sym : Label → W) (body : Func → Frame → (fp B : W) → (W → Bool) → Nat → List Int → Mem → Option (Int × Mem))
    (fp B : W) (valid : W → Bool) (room : Nat) : CEnv :=
  { fp := fp, sym := sym, valid := valid, room := room,
    call := fun fa k ty vs m =>
      match F.find? (fun f => decide (sym (.sym f.name) = fa)) with
      | none => X valid (room - k) fa ty vs m
      | some f =>
        match f.lay with
        | none => none
        | some fr =>
          let used := k + Func.bytes fr / 8
          let fp' := B - BitVec.ofNat 64 (8 * k) - 16
          if ty = f.ret ∧ vs.map (·.1) = f.params ∧ used + f.temps ≤ room then
            body f fr fp' (B - BitVec.ofNat 64 (8 * used)) (fun b => valid b || inObjs fp' (f.objs fr) b) (room - used) (vs.map (·.2)) m
          else none }

/-- The same, where `n` bounds the depth of calls and the iterations and gotos in each of them. -/
noncomputable def envOf (F : List Func) (X : Ext) (sym : Label → W) : Nat → (fp B : W) → (valid : W → Bool) → (room : Nat) → CEnv
  | 0 => within F X sym fun _ _ _ _ _ _ _ _ => none
  | n + 1 => within F X sym fun f fr fp B valid room vs m => callFn (envOf F X sym n fp B valid room) n f fr vs m

/-- A call of `f` by somebody outside the program: `room` slots of stack are free below the stack pointer `sp`. -/
noncomputable def call (F : List Func) (X : Ext) (sym : Label → W) (n : Nat) (sp : W) (valid : W → Bool) (room : Nat) (f : Func) (vs : List Int)
    (m : Mem) : Option (Int × Mem) :=
  (envOf F X sym n sp sp valid room).call (sym (.sym f.name)) 0 f.ret (f.params.zip vs) m

/-! ### The machine -/

/-- How the code is loaded: the symbol of a function is the address of its label; return addresses lead back. -/
structure Loaded (P : Prog) (env : Env) (sym : Label → W) (F : List Func) : Prop where
  syms : ∀ l, env.sym l = sym l
  fns : ∀ f ∈ F, env.index (sym (.sym f.name)) = find P (.sym f.name)
  back : ∀ i, i ≤ P.length → env.index (env.addr i) = some i

/-- Functions outside obey the calling convention (RISC-V psABI) and do what `X` says. -/
def ExtOk (env : Env) (X : Ext) : Prop :=
  ∀ valid room fa ty vs m v m', X valid room fa ty vs m = some (v, m') → env.index fa = none ∧ (ty.scalar = true → inRange ty v = true) ∧
    ∀ s : Rv.St, (∀ b, valid b = true → s.mem b = m b) → (∀ (i : Nat) (t : Ty) (x : Int), vs[i]? = some (t, x) → ArgRep t x (argAt s i)) →
      ∃ s', env.ext fa s = some s' ∧ s'.r .sp = s.r .sp ∧ s'.r .fp = s.r .fp ∧ (∀ b, valid b = true → s'.mem b = m' b) ∧ RetRep ty v (s'.r .a0) ∧
        ∀ b, valid b = false → ¬ idx (s.r .sp) b < 8 * room → s'.mem b = s.mem b

end Toycc.Whole
