import Verif.Frame.Model
import Verif.Stm.Model
/-!
The code around the body of a function: prologue and epilogue (emit_text, codegen.c:2010-2193), store_args and store_fltargs (codegen.c:1954-2008); and the code
for aggregates that are passed or returned: push_struct (codegen.c:647-673), copy_ret_buffer (codegen.c:894-913), copy_struct_reg and copy_struct_mem
(codegen.c:1585-1640). Directives (.text, .global ...) are left out.
-/
namespace Toycc.Fn
open Toycc.Rv Toycc.Cg Toycc.Frame Toycc.Util

/-- An instruction of a prologue or epilogue: an integer one; `fsw` or `fsd` of an argument register `fa<r>` to `off(sp)`; `fsgnj.d` between `fs<k>` and
`ft<k>` (`back`: towards `fs<k>`). -/
inductive PI where
  | i (x : Instr)
  | fstore (dbl : Bool) (r : Nat) (off : Int)
  | fmove (back : Bool) (k : Nat)
  deriving DecidableEq, Repr

/-- The instructions of the switch in store_args, codegen.c:1965-1987. -/
def storeReg (r : Reg) (off : Int) (base : Reg) (sz : Nat) : List Instr :=
  if sz = 1 then [.store .b r off base] else if sz = 2 then [.store .h r off base] else if sz = 4 then [.store .w r off base]
  else if sz = 8 then [.store .d r off base]
  else (List.range sz).flatMap fun (i : Nat) => [.store .b r (off + (i : Int)) base, .srli r r 8]

/-- store_args, codegen.c:1954-1988. The offsets are relative to sp, which equals fp here. `none`: `argreg[r]` is outside the array. (With `sz = 0` the array is
not accessed.) -/
def storeArgs (r : Nat) (off : Int) (sz : Nat) : Option (List Instr) :=
  match argRegs[r]? with
  | some x => some (if beyondInstructionOffset off then [.li .t0 off, .op .add .t0 .sp .t0] ++ storeReg x 0 .t0 sz else storeReg x off .sp sz)
  | none => if sz = 0 then some (if beyondInstructionOffset off then [.li .t0 off, .op .add .t0 .sp .t0] else []) else none

/-- store_fltargs, codegen.c:1990-2008. `none`: `unreachable()`. -/
def storeFlt (r : Nat) (off : Int) (sz : Nat) : Option (List PI) :=
  if sz = 4 then some [.fstore false r off] else if sz = 8 then some [.fstore true r off] else none

def ints (c : List Instr) : List PI := c.map .i

/-- One parameter with its offset, codegen.c:2085-2117: the code and the counters g_arg and f_arg. `none`: a failing assertion. -/
def saveParam (v : Frame.Var) (o : Int) (g f : Nat) : Option (List PI × Nat × Nat) :=
  if 0 < o then
    if g < maxRegs then (if v.cls = .agg then some ([], g + 1, f) else none) else some ([], g, f)
  else match v.cls with
    | .agg => do
      let c1 ← storeArgs g o (min v.size 8)
      if 8 < v.size then
        let c2 ← storeArgs (g + 1) (o + 8) (v.size - 8)
        some (ints (c1 ++ c2), g + 2, f)
      else some (ints c1, g + 1, f)
    | .flt =>
      if f < maxRegs then (storeFlt f o v.size).map fun c => (c, g, f + 1)
      else if g < maxRegs then (storeArgs g o v.size).map fun c => (ints c, g + 1, f)
      else some ([], g, f)
    | .ld =>
      if g + 1 < maxRegs then do
        let c1 ← storeArgs g o 8
        let c2 ← storeArgs (g + 1) (o + 8) 8
        some (ints (c1 ++ c2), g + 2, f)
      else some ([], g, f)
    | .int => if g < maxRegs then (storeArgs g o v.size).map fun c => (ints c, g + 1, f) else some ([], g, f)

/-- The loop over the parameters, codegen.c:2083-2118. -/
def saveParams : List (Frame.Var × Int) → Nat → Nat → Option (List PI × Nat)
  | [], g, _ => some ([], g)
  | (v, o) :: r, g, f => do
    let (c, g, f) ← saveParam v o g f
    let (cs, g) ← saveParams r g f
    some (c ++ cs, g)

/-- The loop that saves the remaining registers of a variadic function, codegen.c:2129-2132; `n` registers from number `g` on. -/
def saveVa (g : Nat) (off : Int) : Nat → Option (List Instr)
  | 0 => some []
  | n + 1 => do
    let c ← storeArgs g off 8
    let cs ← saveVa (g + 1) (off + 8) n
    some (c ++ cs)

/-- Reserving the frame, codegen.c:2138-2143. -/
def reserve (size : Int) : List Instr :=
  if beyondInstructionOffset (-size) then [.li .t0 (-size), .op .add .sp .sp .t0] else [.addi .sp .sp (-size)]

/-- The offset of alloca_bottom (the variable declared first, function in parser.c:1480-1494). -/
def allocaOff (fn : Frame.Fn) (fr : Frame) : Option Int := fr.offs[fn.others.length - 1]?

/-- Saving the registers for variable arguments, codegen.c:2120-2136. -/
def vaSaves (fn : Frame.Fn) (fr : Frame) (g : Nat) : Option (List Instr) :=
  if fn.variadic then (vaOff fn fr).bind (fun off => saveVa g off (maxRegs - g)) else some []

/-- The prologue, codegen.c:2031-2150. `none`: a diagnostic or a failing assertion. -/
def prologue (fn : Frame.Fn) (fr : Frame) : Option (List PI) := do
  if fn.variadic ∧ fn.params.any (fun v => v.cls = .agg) then none
  else
    let (c1, g) ← saveParams (fn.params.zip (fr.offs.drop (fr.offs.length - fn.params.length))) 0 0
    let c2 ← vaSaves fn fr g
    let al ← allocaOff fn fr
    some (ints (if vaSize fn = 0 then [] else [.addi .sp .sp (-(vaSize fn))]) ++ ints (pushI .ra ++ pushI .fp ++ [.mv .fp .sp]) ++
      (List.range 12).map (.fmove false) ++ c1 ++ ints (c2 ++ reserve fr.size ++ [.li .t0 al, .op .add .t0 .t0 .fp, .store .d .sp 0 .t0]))

/-- The epilogue from the return label on (the label itself is in `Stm.genBody`), codegen.c:2168-2190. -/
def epilogue (fn : Frame.Fn) : List PI :=
  (List.range 12).map (.fmove true) ++
    ints ([.mv .sp .fp] ++ popI .fp ++ popI .ra ++ (if vaSize fn = 0 then [] else [.addi .sp .sp (vaSize fn)]) ++ [.ret])

/-! ### Aggregates -/

/-- push_struct, codegen.c:647-673. -/
def pushStruct (size : Nat) : List Instr :=
  let n := words size
  if n ≤ 2 then (List.range n).reverse.flatMap fun (i : Nat) => [.load .d false .t0 (8 * (i : Int)) .a0] ++ pushI .t0
  else [.addi .t1 .t1 (-(8 * n : Int))] ++
    ((List.range n).flatMap fun (i : Nat) => [.load .d false .t0 (8 * (i : Int)) .a0, .store .d .t0 (8 * (i : Int)) .t1]) ++ pushI .t1

/-- copy_ret_buffer, codegen.c:894-913, for a buffer at `off`. (`srl` with a constant is `srli`.) -/
def copyRetBuffer (off : Int) (size : Nat) : List Instr :=
  ((List.range (min 8 size)).flatMap fun (i : Nat) => [.store .b .a0 (off + i) .fp, .srli .a0 .a0 8]) ++
  (if 8 < size then (List.range (min 16 size - 8)).flatMap fun (i : Nat) => [.store .b .a1 (off + 8 + i) .fp, .srli .a1 .a1 8] else [])

/-- One round of the loop of copy_struct_reg, codegen.c:1594-1615. -/
def copyStructRegStep (size i : Nat) : List Instr :=
  let w : Width := if size = 1 then .b else if size = 2 then .h else if size = 3 ∨ size = 4 then .w else .d
  match argRegs[i]? with
  | some r => [.li r 0, .load w false r (8 * (i : Int)) .t0]
  | none => []

/-- copy_struct_reg, codegen.c:1585-1619; called for sizes up to 16. `sz` is the same in each round: `MIN(8, ty->size)`; so there is one round for sizes up to 8
and two up to 16. -/
def copyStructReg (size : Nat) : List Instr := [.mv .t0 .a0] ++ (List.range (words size)).flatMap (copyStructRegStep size)

/-- copy_struct_mem, codegen.c:1621-1640; the hidden parameter is at `off`. -/
def copyStructMem (off : Int) (size : Nat) : List Instr :=
  [.load .d false .a1 off .fp] ++ ((List.range size).flatMap fun (i : Nat) => [.load .b false .t0 (i : Int) .a0, .store .b .t0 (i : Int) .a1]) ++ [.mv .a0 .a1]

/-- The address of the buffer for the result, codegen.c:887, 1335. -/
def bufAddr (off : Int) : List Instr := [.addi .a0 .fp off]

/-- Reserving space for aggregates, and releasing what is on the stack, codegen.c:877, 1301. -/
def reserveStructs (words : Nat) : List Instr := [.addi .sp .sp (-(8 * words : Int))]
def releaseArgs (stack : Nat) : List Instr := if stack = 0 then [] else [.addi .sp .sp (8 * stack)]

end Toycc.Fn
