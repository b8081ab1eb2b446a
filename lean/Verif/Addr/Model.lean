import Verif.Rv.Machine
/-!
The text toycc emits for the address of a function or of an object with static or thread storage duration (codegen.c:195-231, 256-330), and what the
assembler, the linker and the machine make of it (the RISC-V ELF psABI: R_RISCV_PCREL_HI20, GOT_HI20, TLS_GD_HI20, TPREL_HI20, PCREL_LO12_I, TPREL_LO12_I).
The machine of `Verif.Rv` takes these sequences for one instruction `la`; here they are taken apart. Linker relaxation is not modelled.
-/
namespace Toycc.Addr
open Toycc.Rv

/-- What `%...hi(symbol)` asks for. -/
inductive Hi where
  | pcrel (name : String)
  | got (name : String)
  | tlsGd (name : String)
  | tprel (name : String)
  deriving DecidableEq

/-- Lines of the assembly text. -/
inductive Line where
  | label (l : Label)
  /-- `auipc a0, %...(symbol)` -/
  | auipc (h : Hi)
  /-- `addi a0, a0, %pcrel_lo(label)` -/
  | addi (l : Label)
  /-- `ld a0, %pcrel_lo(label)(a0)` -/
  | ld (l : Label)
  /-- `add a0, a0, %tprel_lo(symbol)` -/
  | addTp (name : String)
  /-- `call __tls_get_addr@plt` -/
  | callTls
  /-- any other code of this many bytes -/
  | other (bytes : Nat)
  deriving DecidableEq

/-- `.L.pcrel%d`. -/
def pcrel (c : Nat) : Label := .gen ".L.pcrel" c

/-- relative_addressing, codegen.c:195-204. -/
def relative (name : String) (c : Nat) : List Line := [.label (pcrel c), .auipc (.pcrel name), .addi (pcrel c)]

/-- GOT_relative_addressing, codegen.c:206-215. -/
def gotRelative (name : String) (c : Nat) : List Line := [.label (pcrel c), .auipc (.got name), .ld (pcrel c)]

/-- TLS_relative_addressing, codegen.c:223-231. -/
def tlsRelative (name : String) (c : Nat) : List Line :=
  [.label (pcrel c), .auipc (.tlsGd name), .addi (pcrel c), .callTls]

/-- The fields of a `struct Obj` that is not local, and whether the node has a function type. -/
structure Ref where
  name : String
  isTls : Bool
  isFunc : Bool
  isDef : Bool
  deriving DecidableEq

/-- The part of gen_addr for variables that are not local, codegen.c:256-330; the second component is the counter of count() afterwards. -/
def genAddr (fpic : Bool) (v : Ref) (c : Nat) : List Line × Nat :=
  if fpic then
    if v.isTls then (tlsRelative v.name c, c + 1) else (gotRelative v.name c, c + 1)
  else if v.isTls then ([.auipc (.tprel v.name), .addTp v.name], c)
  else if v.isFunc then
    if v.isDef then (relative v.name c, c + 1) else (gotRelative v.name c, c + 1)
  else (gotRelative v.name c, c + 1)

/-- A file, as far as addresses are concerned: code, labels of other kinds, and places where an address is taken. -/
inductive Item where
  | code (bytes : Nat)
  | mark (l : Label)
  | addr (v : Ref)

/-- The text of a file, and the counter of count() afterwards. Other uses of the counter are `mark`s, whose number is left open. -/
def emit (fpic : Bool) : List Item → Nat → List Line
  | [], _ => []
  | .code n :: r, c => .other n :: emit fpic r c
  | .mark l :: r, c => .label l :: emit fpic r (c + 1)
  | .addr v :: r, c => (genAddr fpic v c).1 ++ emit fpic r (genAddr fpic v c).2

/-! ### The linker -/

/-- Bytes of a line. `call` is two instructions. -/
def Line.size : Line → Nat
  | .label _ => 0
  | .auipc _ => 4
  | .addi _ => 4
  | .ld _ => 4
  | .addTp _ => 4
  | .callTls => 8
  | .other n => n

def bytes (t : List Line) : Nat := (t.map Line.size).sum

/-- The addresses the linker gives out: of the first byte of the text, of the symbols defined in the module, of their slots in the global offset table
(address and TLS descriptor), and the offsets of thread-local objects from the thread pointer. -/
structure Layout where
  text : W
  sym : String → W
  got : String → W
  gd : String → W
  tpoff : String → Int

/-- The value of a relocation at address `a`. -/
def Layout.value (L : Layout) (a : W) : Hi → Int
  | .pcrel n => (L.sym n - a).toInt
  | .got n => (L.got n - a).toInt
  | .tlsGd n => (L.gd n - a).toInt
  | .tprel n => L.tpoff n

/-- The field of a U-type instruction: the upper 20 bits, rounded so that the lower 12 can be added as a signed number; the linker reports values out of range. -/
def hiField (v : Int) : Option (BitVec 20) :=
  if -(2 ^ 19) ≤ (v + 2048) / 4096 ∧ (v + 2048) / 4096 < 2 ^ 19 then some (BitVec.ofInt 20 ((v + 2048) / 4096)) else none

/-- The field of an I-type instruction. -/
def loField (v : Int) : BitVec 12 := BitVec.ofInt 12 v

/-- The relocation at the instruction with the address of this line. -/
def relocAt : List Line → W → Option (Hi × W)
  | .label _ :: r, a => relocAt r a
  | .auipc h :: _, a => some (h, a)
  | _, _ => none

/-- The relocation at the instruction a label stands for. -/
def hiOf (l : Label) : List Line → W → Option (Hi × W)
  | [], _ => none
  | x :: r, a => if x = .label l then relocAt r a else hiOf l r (a + BitVec.ofNat 64 x.size)

/-- Instructions of the machine; all registers are a0. -/
inductive MI where
  | nothing
  | auipc (imm : BitVec 20)
  | addi (imm : BitVec 12)
  | ld (imm : BitVec 12)
  | callTls
  | other
  deriving DecidableEq

/-- The linked instruction of line `x` at address `a` of the text `t`. `none`: the linker reports an error. -/
def Layout.link (L : Layout) (t : List Line) (x : Line) (a : W) : Option MI :=
  match x with
  | .label _ => some .nothing
  | .auipc h => (hiField (L.value a h)).map .auipc
  | .addi l => (hiOf l t L.text).map fun p => .addi (loField (L.value p.2 p.1))
  | .ld l => (hiOf l t L.text).map fun p => .ld (loField (L.value p.2 p.1))
  | .addTp n => some (.addi (loField (L.tpoff n)))
  | .callTls => some .callTls
  | .other _ => some .other

/-! ### The machine -/

/-- One instruction at address `pc`; `call` is the behaviour of __tls_get_addr in a thread. -/
def step (call : St → Option St) (i : MI) (pc : W) (s : St) : Option St :=
  match i with
  | .nothing => some s
  | .auipc imm => some (s.set .a0 (pc + (imm ++ 0#12).signExtend 64))
  | .addi imm => some (s.set .a0 (s.r .a0 + imm.signExtend 64))
  | .ld imm => some (s.set .a0 (BitVec.ofNat 64 (readN s.mem (s.r .a0 + imm.signExtend 64) 8)))
  | .callTls => call s
  | .other => none

/-- The lines `r` of the text `t`, the first of which has the address `a`, executed one after the other in a module loaded with displacement `bias`. -/
def run (L : Layout) (t : List Line) (bias : W) (call : St → Option St) : List Line → W → St → Option St
  | [], _, s => some s
  | x :: r, a, s => (L.link t x a).bind fun i => (step call i (a + bias) s).bind fun s' => run L t bias call r (a + BitVec.ofNat 64 x.size) s'

end Toycc.Addr
