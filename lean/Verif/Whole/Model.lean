import Verif.Fn.Model
import Verif.Stm.Names
/-!
A whole file of functions: parsing of the bodies in order and emission of the complete text of each function, emit_text codegen.c:2010-2193
(prologue, body, epilogue). The functions are not variadic, and their parameters have integer or pointer types.
-/
namespace Toycc.Whole
open Toycc.Rv Toycc.Cg Toycc.Stm Toycc.Frame Toycc.Fn

/-- A function definition (struct Obj, toycc.h:276-310, with `is_function` and `is_definition`): `others` are the variables that are not
parameters, the latest first, as in fn->locals; the last one is `__alloca_size__`, which is declared first (function,
parser/parser.c:1480-1494). In the body a local variable is named by its offset in the frame. -/
structure Func where
  name : String
  ret : Ty
  params : List Ty
  others : List Frame.Var
  body : SStmt

/-- A variable of an integer or pointer type: new_var gives it the alignment of its type (parser/scope.c:107-117), which is its size
(type.c:4-74). -/
def intVar (t : Ty) : Frame.Var := ⟨.int, t.size, t.size⟩

/-- What assign_lvar_offsets looks at. -/
def Func.frame (f : Func) : Frame.Fn := ⟨f.others, false, f.params.map intVar⟩

/-- The integer instructions of a prologue or epilogue. The moves between fs and ft registers (codegen.c:2075-2076, 2170-2171) have no effect
on the integer machine; there are no others here, since no parameter is a floating-point number. -/
def intOnly : List PI → List Instr
  | [] => []
  | .i x :: r => x :: intOnly r
  | _ :: r => intOnly r

/-- One function, emit_text codegen.c:2028-2191. The two pushes of the prologue are counted in `depth`. -/
def emitFn (f : Func) (st : Stmt) (gs : GS) : Option (List Instr × GS) := do
  let fr ← (layout f.frame).toOption
  let pro ← prologue f.frame fr
  let (c, gs) ← genBody f.name st gs.push.push
  some (.label (.sym f.name) :: (intOnly pro ++ c ++ intOnly (epilogue f.frame)), gs.pop.pop)

/-- All functions to be emitted, emit_text codegen.c:2010-2193, in the order of the list. -/
def emitFns : List (Func × Stmt) → GS → Option (List Instr × GS)
  | [], gs => some ([], gs)
  | (f, st) :: r, gs => do
    let (c, gs) ← emitFn f st gs
    let (cs, gs) ← emitFns r gs
    some (c ++ cs, gs)

/-- Parsing the function definitions of a file in order (parser, parser/parser.c:1592-1625), with one counter of unique names, of
which `__func__` and `__FUNCTION__` take two (function, parser/parser.c:1498-1507). -/
def parseFns (uid : Nat) : List Func → Option (List (Func × Stmt) × Nat)
  | [] => some ([], uid)
  | f :: r => do
    let (st, uid) ← elabBody (uid + 2) f.body
    let (sts, uid) ← parseFns uid r
    some ((f, st) :: sts, uid)

end Toycc.Whole
