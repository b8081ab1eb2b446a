import Verif.Atomic.Model
/-!
Specification: an atomic compound assignment is one indivisible read-modify-write (C11 6.5.16.2p3), whatever other threads do.
-/
namespace Toycc.Atomic
open Toycc.Rv
open Toycc.Cg (BinOp)

/-- `o op v` on objects of type int, two's complement without overflow (C11 7.17.7.5p3). `none`: undefined (division by zero) or no
operator of a compound assignment. -/
def apply (op : BinOp) (o v : BitVec 32) : Option (BitVec 32) :=
  match op with
  | .add => some (o + v)
  | .sub => some (o - v)
  | .mul => some (o * v)
  | .div => if v = 0 then none else some (o.sdiv v)
  | .mod => if v = 0 then none else some (o.srem v)
  | .and => some (o &&& v)
  | .or => some (o ||| v)
  | .xor => some (o ^^^ v)
  | .shl => some (o <<< (v.toNat % 32))
  | .shr => some (o.sshiftRight (v.toNat % 32))
  | _ => none

/-- The int object, and the bytes behind it. -/
def int_ (x : W) : BitVec 32 := x.setWidth 32
def behind (x : W) : BitVec 32 := x.extractLsb' 32 32

/-- A write that applies `op v` to the int object and nothing else. -/
def Applies (op : BinOp) (v : BitVec 32) (w : Write) : Prop :=
  apply op (int_ w.before) v = some (int_ w.after) ∧ behind w.after = behind w.before

/-- The writes of a log follow each other: each one finds what the one before left. -/
inductive History : W → List Write → W → Prop
  | nil (x) : History x [] x
  | snoc {x l w} : History x l w.before → History x (l ++ [w]) w.after

/-- The writes of one hart. -/
def by_ (i : Nat) (l : List Write) : List Write := l.filter (fun w => w.hart == i)

def Finished (T : Threads) (c : Sys) (i : Nat) : Prop := (c.harts i).pc = (T.prog i).length

/-! ### What a thread starts with -/

/-- Straight code in one place. -/
def At (P : Prog) (pc : Nat) (c : List Instr) : Prop := ∀ i, i < c.length → P[pc + i]? = (c[i]?).map .base

/-- Some number of instructions that leave the shared bytes alone. -/
inductive LRuns (P : Prog) (env : Env) (obj : W) : Nat × St → Nat × St → Prop
  | refl (c) : LRuns P env obj c c
  | step {a b c} : lstep P env obj a = some b → LRuns P env obj b c → LRuns P env obj a c

def inR (a : W) (n : Nat) (b : W) : Bool := decide ((b - a).toNat < n)

/-- The code `c` leaves `x` in a0, keeps fp and sp, changes only the bytes `wr`, and leaves the shared bytes alone, if the memory meets
`pre`. -/
def Leaves (env : Env) (obj fp sp : W) (pre : Mem → Prop) (wr : W → Bool) (c : List Instr) (x : W) : Prop :=
  ∀ P pc s, At P pc c → s.r .fp = fp → s.r .sp = sp → pre s.mem →
    ∃ s', LRuns P env obj (pc, s) (pc + c.length, s') ∧ s'.r .a0 = x ∧ s'.r .fp = fp ∧ s'.r .sp = sp ∧
      ∀ b, wr b = false → s'.mem b = s.mem b

def Apart (r s : W × Nat) : Prop := ∀ b, inR r.1 r.2 b = true → inR s.1 s.2 b = false

/-- A thread that executes `A op= B`, with its stack frame. -/
structure Job where
  op : BinOp
  /-- the operands as the parser sees them -/
  bin : Low.Bin
  tmp : Tmp
  gs : Cg.GS
  /-- the value of B -/
  v : BitVec 32
  fp : W
  sp : W
  /-- the bytes the evaluation of A and B may change (its stack) -/
  wr : W → Bool

/-- The variables made for the assignment, and the two stack slots it uses. -/
def Job.regions (j : Job) : List (W × Nat) :=
  [(j.fp + BitVec.ofInt 64 j.tmp.addr, 8), (j.fp + BitVec.ofInt 64 j.tmp.val, 4), (j.fp + BitVec.ofInt 64 j.tmp.old, 4),
   (j.fp + BitVec.ofInt 64 j.tmp.new, 4), (j.sp + BitVec.ofInt 64 (-8), 8),
   (j.sp + BitVec.ofInt 64 (-8) + BitVec.ofInt 64 (-8), 8)]

/-- Memory as it was at the start, outside the variables and stack of the assignment. -/
def Job.asAtStart (j : Job) (m0 m : Mem) : Prop :=
  ∀ b, j.wr b = false → (∀ r ∈ j.regions, inR r.1 r.2 b = false) → m b = m0 b

/-- Labels are defined once. -/
def Unique (P : Prog) : Prop :=
  ∀ (i k : Nat) (l : Label), P[i]? = some (Ins.base (.label l)) → P[k]? = some (Ins.base (.label l)) → i = k

/-- Hart `i` is about to execute the code of the assignment `j` to the shared object: an int that is not a member, B of type int; the
evaluation of A and B does what it should on its own; the variables are apart from each other, from the stack and from the shared
bytes, and not far from fp. -/
structure Starts (P : Prog) (env : Env) (obj : W) (h : Hart) (j : Job) : Prop where
  int_l : j.bin.l.ty = .int false
  int_r : j.bin.r.ty = .int false ∧ j.bin.r.e.ty = .int false
  op : j.bin.op = j.op
  defined : ∀ o, (apply j.op o j.v).isSome = true
  code : ∃ gs', atomicAssign j.bin j.tmp j.gs = some (P, gs')
  unique : Unique P
  pc : h.pc = 0
  fp : h.st.r .fp = j.fp
  sp : h.st.r .sp = j.sp
  near : ∀ o ∈ [j.tmp.addr, j.tmp.val, j.tmp.old, j.tmp.new], -2048 ≤ o ∧ o ≤ 2047
  apart : j.regions.Pairwise Apart
  private_ : ∀ r ∈ j.regions, touches obj r.1 r.2 = false
  stack : ∀ r ∈ j.regions.take 5, ∀ b, inR r.1 r.2 b = true → j.wr b = false
  evalA : ∀ c gs', Cg.gen true j.bin.l.e j.gs.push = some (c, gs') →
    Leaves env obj j.fp (j.sp + BitVec.ofInt 64 (-8)) (j.asAtStart h.st.mem) j.wr c obj
  evalB : ∀ gs c gs', Cg.gen false j.bin.r.e gs = some (c, gs') →
    Leaves env obj j.fp (j.sp + BitVec.ofInt 64 (-8)) (j.asAtStart h.st.mem) j.wr c (sext32 j.v)

end Toycc.Atomic
