import Verif.Src.Spec
import Verif.Whole.Sem
/-!
Whole programs as they are written: functions whose bodies are those of Verif.Src.Spec, calling each other. First the program and what the compiler makes of a
function, then the specification of calls (C11 6.5.2.2, 6.2.4, 6.9.1). Unlike in Verif.Whole.Sem the hidden variables of the compiler do not occur in the
specification, and the objects of a call are at addresses about which nothing is known but that they are in the stack area and apart from all other objects.
-/
namespace Toycc.Src
open Toycc.Rv Toycc.Cg Toycc.Low
open Toycc.Stm (Out Res Tgt End)
open Toycc.Frame hiding St
open Toycc.Whole (Func intVar inObjs bindArgs)

/-- A function definition (struct Obj, toycc.h:276-310). `others` are the variables that are not parameters, the latest first, as in fn->locals; `true` marks those
that the program does not name: the last one, `__alloca_size__` (function, parser/parser.c:1480-1494), and those to_assign and conditional make
(parser/parser.c:369-500, 971-1008). In the body a variable is named by its offset in the frame (C48). -/
structure XFunc where
  name : String
  ret : CTy
  params : List CTy
  others : List (Frame.Var × Bool)
  body : XStmt

/-- What assign_lvar_offsets looks at (codegen.c:1799-1889). -/
def XFunc.frame (f : XFunc) : Frame.Fn := ⟨f.others.map (·.1), false, f.params.map fun t => intVar t.low⟩

def XFunc.lay (f : XFunc) : Option Frame := (layout f.frame).toOption

/-! ### What the compiler makes of it -/

/-- Positions of the variables the program does not name, in the order in which they are made. -/
def XFunc.hid (f : XFunc) : List Nat := ((List.range f.others.length).filter fun i => (f.others[i]?.map (·.2)) == some true).reverse

/-- Offset of the `k`-th hidden variable; the first one of `hid` is `__alloca_size__`. -/
def XFunc.tmp (f : XFunc) (fr : Frame) (k : Nat) : Int := (fr.offs[(f.hid[k + 1]?).getD (f.others.length - 1)]?).getD 0

/-- The function as the code generator gets it (parser/parser.c:1439-1512). -/
def XFunc.low (f : XFunc) : Option Func := do
  let fr ← f.lay
  let (st, k) ← trS (f.tmp fr) f.ret f.body 0
  if k + 1 ≤ f.hid.length then some ⟨f.name, f.ret.low, f.params.map (·.low), f.others.map (·.1), st⟩ else none

/-! ### Specification -/

/-- The objects of a call with their offsets: variables with a name, and parameters. -/
def XFunc.objs (f : XFunc) (fr : Frame) : List (Int × Frame.Var) :=
  ((fr.offs.zip f.frame.locals).zip (f.others.map (·.2) ++ f.params.map fun _ => false)).filterMap fun p => if p.2 then none else some p.1

/-- The parameters with their offsets. -/
def XFunc.slots (f : XFunc) (fr : Frame) : List (Ty × Int) := (f.params.map (·.low)).zip (fr.offs.drop (fr.offs.length - f.params.length))

/-- The value a call yields when the body has ended. Only `main` may reach its closing brace and yield a value (C11 6.9.1p12, 5.1.2.2.3). -/
def XFunc.result (f : XFunc) : End → Option Int
  | .ret (some w) => if f.ret.scalar && inRange f.ret.low w then some w else none
  | .ret none => if f.ret = .void then some 0 else none
  | .fell => if f.ret = .void then some 0 else if f.name = "main" ∧ f.ret = .int false then some 0 else none

/-- Functions defined elsewhere: for the live bytes, an address, a type, arguments and a memory: value and memory. -/
abbrev ExtX := (W → Bool) → W → Ty → List (Ty × Int) → Mem → Option (Int × Mem)

open Classical in
/-- What is the same whichever of the possible choices is made (and there is a choice); otherwise nothing. -/
noncomputable def agreed {ι α : Type} (p : ι → Prop) (h : ι → Option α) : Option α :=
  if H : (∃ i, p i) ∧ ∃ r, ∀ i, p i → h i = some r then some H.2.choose else none

/-- Objects at `fp` are in the stack area from `lo` to `hi`, and apart from what is live already. -/
def Placed (lo hi : Nat) (valid : W → Bool) (l : List (Int × Frame.Var)) (fp : W) : Prop :=
  ∀ b, inObjs fp l b = true → valid b = false ∧ lo ≤ b.toNat ∧ b.toNat < hi

/-- The environment of the expressions in a function. -/
def envX (sym : Label → W) (fp : W) (valid : W → Bool) (calls : W → Ty → List (Ty × Int) → Mem → Option (Int × Mem)) : CEnv :=
  { fp := fp, sym := sym, valid := valid, call := fun a _ ty vs m => calls a ty vs m, room := 0 }

/-- One call of `f` with arguments `vs`, with at most `it` iterations and gotos: its objects come into being at some place, with indeterminate contents; the
arguments are stored in the parameters; the body is executed, and the lifetime of the objects ends. `calls` is what calls in the body do, given the live bytes.
If the result depends on the place or on the indeterminate contents there is no result. -/
noncomputable def callX (sym : Label → W) (lo hi it : Nat) (calls : (W → Bool) → W → Ty → List (Ty × Int) → Mem → Option (Int × Mem)) (f : XFunc) (fr : Frame)
    (valid : W → Bool) (vs : List Int) (m : Mem) : Option (Int × Mem) :=
  agreed (fun p : W × Mem => Placed lo hi valid (f.objs fr) p.1) fun p =>
    let live : W → Bool := fun b => valid b || inObjs p.1 (f.objs fr) b
    match runX (envX sym p.1 live (calls live)) f.ret it none f.body (bindArgs p.1 (f.slots fr) vs fun b => if valid b then m b else p.2 b) with
    | .done e m' => (f.result e).map (·, fun b => if valid b then m' b else m b)
    | _ => none

/-- Calls in a program that consists of the functions `F` and of functions `Y` defined elsewhere, nested at most `D` deep. A call must have the type of the function
(C11 6.5.2.2p9). -/
noncomputable def callsX (F : List XFunc) (Y : ExtX) (sym : Label → W) (lo hi it : Nat) : Nat → (W → Bool) → W → Ty → List (Ty × Int) → Mem → Option (Int × Mem)
  | 0 => fun valid fa ty vs m =>
    match F.find? (fun f => decide (sym (.sym f.name) = fa)) with
    | none => Y valid fa ty vs m
    | some _ => none
  | D + 1 => fun valid fa ty vs m =>
    match F.find? (fun f => decide (sym (.sym f.name) = fa)) with
    | none => Y valid fa ty vs m
    | some f =>
      match f.lay with
      | none => none
      | some fr =>
        if ty = f.ret.low ∧ vs.map (·.1) = f.params.map (·.low) then callX sym lo hi it (callsX F Y sym lo hi it D) f fr valid (vs.map (·.2)) m
        else none

/-- The functions defined elsewhere, as the source program (`Y`) and as the compiled program (`X`) see them: they change only live bytes, and neither read nor change what
is live only for the compiled program. They need at most `R` slots of stack. -/
structure ExtSim (Y : ExtX) (X : Whole.Ext) (R : Nat) : Prop where
  keeps : ∀ valid fa ty vs m v m', Y valid fa ty vs m = some (v, m') → ∀ b, valid b = false → m' b = m b
  same : ∀ valid fa ty vs m v m', Y valid fa ty vs m = some (v, m') → ∀ (valid' : W → Bool) room m1, R ≤ room → (∀ b, valid b = true → valid' b = true) →
    (∀ b, valid b = true → m1 b = m b) →
    ∃ m1', X valid' room fa ty vs m1 = some (v, m1') ∧ (∀ b, valid b = true → m1' b = m' b) ∧ ∀ b, valid b = false → m1' b = m1 b
  frames : ∀ valid room fa ty vs m v m', X valid room fa ty vs m = some (v, m') → ∀ b, valid b = false → m' b = m b

/-- Functions covered: `__alloca_size__` comes first, the hidden variables have 8 bytes, the body is typed. -/
structure XFunc.Wf (f : XFunc) : Prop where
  last : f.others.getLast? = some (⟨.int, 8, 8⟩, true)
  hidden : ∀ p ∈ f.others, p.2 = true → p.1 = ⟨.int, 8, 8⟩
  typed : f.body.typed f.ret = true

end Toycc.Src
