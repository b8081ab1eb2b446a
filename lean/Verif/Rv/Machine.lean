import Verif.Common
/-!
The RISC-V (RV64IM) machine on which generated code is executed. This file is the trusted reading of the ISA manual for
the instructions toycc emits for integer code. Memory is byte addressed and little endian; misaligned accesses succeed;
instructions are numbered, and an instruction address is `env.addr index`.
-/
namespace Toycc.Rv

abbrev W := BitVec 64
abbrev Mem := W → BitVec 8

/-- The integer registers used by codegen.c. -/
inductive Reg where
  | zero | ra | sp | fp
  | a0 | a1 | a2 | a3 | a4 | a5 | a6 | a7
  | t0 | t1 | t2 | t3 | t4 | t5
  deriving DecidableEq, Repr

/-- Labels of the generated assembly text (their spelling is in `Verif.Cg.Labels`). -/
inductive Label where
  /-- `<prefix>.<n>` made with count(), codegen.c:29-33 -/
  | gen (prefix_ : String) (n : Nat)
  /-- `.L..<n>` made by new_unique_name(), parser/common.c:295-300 -/
  | uniq (n : Nat)
  /-- `return.<function>` -/
  | ret (fn : String)
  /-- a C symbol -/
  | sym (name : String)
  deriving DecidableEq, Repr

inductive Alu where
  | add | sub | mul | div | divu | rem | remu | and | or | xor | slt | sltu | sll | srl | sra
  | addw | subw | mulw | divw | divuw | remw | remuw | sllw | srlw | sraw
  deriving DecidableEq, Repr

inductive Width where
  | b | h | w | d
  deriving DecidableEq, Repr

def Width.bytes : Width → Nat
  | .b => 1 | .h => 2 | .w => 4 | .d => 8

inductive Instr where
  | label (l : Label)
  | li (rd : Reg) (v : Int)
  | mv (rd rs : Reg)
  | op (o : Alu) (rd rs1 rs2 : Reg)
  | addi (rd rs : Reg) (imm : Int)
  | slli (rd rs : Reg) (n : Nat)
  | srli (rd rs : Reg) (n : Nat)
  | srai (rd rs : Reg) (n : Nat)
  | andi (rd rs : Reg) (imm : Int)
  | seqz (rd rs : Reg)
  | snez (rd rs : Reg)
  | neg (rd rs : Reg)
  | negw (rd rs : Reg)
  | not (rd rs : Reg)
  | load (w : Width) (unsigned : Bool) (rd : Reg) (off : Int) (base : Reg)
  | store (w : Width) (rs : Reg) (off : Int) (base : Reg)
  /-- address of a symbol, through the GOT or pc-relative (auipc + ld/addi with linker relocations) -/
  | la (rd : Reg) (sym : Label)
  | j (l : Label)
  | bnez (rs : Reg) (l : Label)
  | beqz (rs : Reg) (l : Label)
  | beq (rs1 rs2 : Reg) (l : Label)
  | bleu (rs1 rs2 : Reg) (l : Label)
  /-- jump to the address in rs -/
  | jr (rs : Reg)
  /-- call the function whose address is in rs -/
  | jalr (rs : Reg)
  | ret
  deriving DecidableEq, Repr

structure St where
  regs : Reg → W
  mem : Mem

def St.r (s : St) (x : Reg) : W := if x = .zero then 0 else s.regs x

def St.set (s : St) (x : Reg) (v : W) : St := { s with regs := fun y => if y = x then v else s.regs y }

/-- Sign extension of the low 32 bits. -/
def sext32 (x : BitVec 32) : W := x.signExtend 64

def lo (x : W) : BitVec 32 := x.setWidth 32

def ofBool (b : Bool) : W := if b then 1 else 0

/-- Results of the register-register instructions. -/
def Alu.eval (o : Alu) (x y : W) : W :=
  match o with
  | .add => x + y
  | .sub => x - y
  | .mul => x * y
  | .div => if y = 0 then -1 else x.sdiv y
  | .divu => if y = 0 then -1 else x / y
  | .rem => if y = 0 then x else x.srem y
  | .remu => if y = 0 then x else x % y
  | .and => x &&& y
  | .or => x ||| y
  | .xor => x ^^^ y
  | .slt => ofBool (x.slt y)
  | .sltu => ofBool (x.ult y)
  | .sll => x <<< (y.toNat % 64)
  | .srl => x >>> (y.toNat % 64)
  | .sra => x.sshiftRight (y.toNat % 64)
  | .addw => sext32 (lo x + lo y)
  | .subw => sext32 (lo x - lo y)
  | .mulw => sext32 (lo x * lo y)
  | .divw => if lo y = 0 then -1 else sext32 ((lo x).sdiv (lo y))
  | .divuw => if lo y = 0 then -1 else sext32 (lo x / lo y)
  | .remw => if lo y = 0 then sext32 (lo x) else sext32 ((lo x).srem (lo y))
  | .remuw => if lo y = 0 then sext32 (lo x) else sext32 (lo x % lo y)
  | .sllw => sext32 (lo x <<< (y.toNat % 32))
  | .srlw => sext32 (lo x >>> (y.toNat % 32))
  | .sraw => sext32 ((lo x).sshiftRight (y.toNat % 32))

/-- The `n` bytes at `a`, little endian. -/
def readN (m : Mem) (a : W) : Nat → Nat
  | 0 => 0
  | n + 1 => readN m a n + (m (a + BitVec.ofNat 64 n)).toNat * 256 ^ n

/-- Memory after storing the low `n` bytes of `x` at `a`, little endian. -/
def writeN (m : Mem) (a : W) (n : Nat) (x : Nat) : Mem :=
  fun b => if (b - a).toNat < n then BitVec.ofNat 8 (x / 256 ^ (b - a).toNat) else m b

/-- Extension of an `n`-byte value to a register. -/
def extend (unsigned : Bool) (n : Nat) (v : Nat) : W :=
  if unsigned then BitVec.ofNat 64 v else (BitVec.ofNat (8 * n) v).signExtend 64

/-- The world outside the generated text: addresses of symbols and instructions; functions defined elsewhere are a
function on states (registers and memory at their return). -/
structure Env where
  sym : Label → W
  addr : Nat → W
  index : W → Option Nat
  ext : W → St → Option St

abbrev Prog := List Instr

/-- Position of a label. -/
def find (P : Prog) (l : Label) : Option Nat := P.findIdx? (fun i => i == .label l)

/-- Effect of an instruction that does not transfer control. -/
def exec (env : Env) (i : Instr) (s : St) : Option St :=
  match i with
  | .label _ => some s
  | .li rd v => some (s.set rd (BitVec.ofInt 64 v))
  | .mv rd rs => some (s.set rd (s.r rs))
  | .op o rd a b => some (s.set rd (o.eval (s.r a) (s.r b)))
  | .addi rd rs imm => some (s.set rd (s.r rs + BitVec.ofInt 64 imm))
  | .slli rd rs n => some (s.set rd (s.r rs <<< n))
  | .srli rd rs n => some (s.set rd (s.r rs >>> n))
  | .srai rd rs n => some (s.set rd ((s.r rs).sshiftRight n))
  | .andi rd rs imm => some (s.set rd (s.r rs &&& BitVec.ofInt 64 imm))
  | .seqz rd rs => some (s.set rd (ofBool (s.r rs == 0)))
  | .snez rd rs => some (s.set rd (ofBool (s.r rs != 0)))
  | .neg rd rs => some (s.set rd (0 - s.r rs))
  | .negw rd rs => some (s.set rd (sext32 (0 - lo (s.r rs))))
  | .not rd rs => some (s.set rd (~~~ s.r rs))
  | .load w u rd off base =>
    some (s.set rd (extend u w.bytes (readN s.mem (s.r base + BitVec.ofInt 64 off) w.bytes)))
  | .store w rs off base =>
    some { s with mem := writeN s.mem (s.r base + BitVec.ofInt 64 off) w.bytes (s.r rs).toNat }
  | .la rd l => some (s.set rd (env.sym l))
  | _ => none

/-- Target of a conditional branch. -/
def branch (P : Prog) (pc : Nat) (s : St) (c : Bool) (l : Label) : Option (Nat × St) :=
  if c then (find P l).map (·, s) else some (pc + 1, s)

/-- One instruction. `none`: the machine stops (end of text, unknown label or address). -/
def step (P : Prog) (env : Env) (c : Nat × St) : Option (Nat × St) :=
  match P[c.1]? with
  | none => none
  | some i =>
    match i with
    | .j l => branch P c.1 c.2 true l
    | .bnez rs l => branch P c.1 c.2 (c.2.r rs != 0) l
    | .beqz rs l => branch P c.1 c.2 (c.2.r rs == 0) l
    | .beq a b l => branch P c.1 c.2 (c.2.r a == c.2.r b) l
    | .bleu a b l => branch P c.1 c.2 (decide (c.2.r a ≤ c.2.r b)) l
    | .jr rs => (env.index (c.2.r rs)).map (·, c.2)
    | .jalr rs =>
      match env.index (c.2.r rs) with
      | some t => some (t, c.2.set .ra (env.addr (c.1 + 1)))
      | none => (env.ext (c.2.r rs) (c.2.set .ra (env.addr (c.1 + 1)))).map (c.1 + 1, ·)
    | .ret => (env.index (c.2.r .ra)).map (·, c.2)
    | i => (exec env i c.2).map (c.1 + 1, ·)

/-- `n` steps lead from `c` to `c'`. -/
inductive StepN (P : Prog) (env : Env) : Nat → Nat × St → Nat × St → Prop
  | zero (c) : StepN P env 0 c c
  | succ {n c c' c''} : step P env c = some c' → StepN P env n c' c'' → StepN P env (n + 1) c c''

/-- Some number of steps leads from `c` to `c'`. -/
def Runs (P : Prog) (env : Env) (c c' : Nat × St) : Prop := ∃ n, StepN P env n c c'

end Toycc.Rv
