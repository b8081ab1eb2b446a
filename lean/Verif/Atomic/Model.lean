import Verif.Low.Model
import Verif.Rv.Machine
/-!
Atomic objects: compound assignment (to_assign, parser/parser.c:406-482), `__builtin_compare_and_swap` and
`__builtin_atomic_exchange` (parser/parser.c:231-254, codegen.c:1345-1400), and the machine their code runs on: harts that share
one object and are interleaved instruction by instruction.
-/
namespace Toycc.Atomic
open Toycc.Rv
open Toycc.Cg (GS genLoad pushI popI cmpZero)
open Toycc.Low (Node CTy Bin assignN binN)

/-! ### Code -/

/-- Instructions: those of Verif.Rv and the ones codegen.c emits only for atomic objects. -/
inductive Ins where
  | base (i : Instr)
  /-- `bne rs1, rs2, label` (codegen.c:1373) -/
  | bne (rs1 rs2 : Reg) (l : Label)
  /-- `lr.w.aq rd, (rs)` (codegen.c:1372) -/
  | lr (rd rs : Reg)
  /-- `sc.w.aq rd, rs2, (rs1)` (codegen.c:1379) -/
  | sc (rd rs2 rs1 : Reg)
  /-- `amoswap.w.aq rd, rs2, (rs1)` and `amoswap.d.aq` (codegen.c:1399) -/
  | amoswap (w : Width) (rd rs2 rs1 : Reg)
  deriving DecidableEq, Repr

abbrev Prog := List Ins

def base (c : List Instr) : Prog := c.map .base

def retry (k : Nat) : Label := .gen ".L.cas_retry" k
def return_ (k : Nat) : Label := .gen ".L.cas_return" k
def end_ (k : Nat) : Label := .gen ".L.cas_end" k
def begin_ (k : Nat) : Label := .gen "begin" k

/-- ND_CAS, codegen.c:1345-1390. `t` is `node->cas_old->ty->base`. -/
def genCas (addr old new : Cg.Expr) (t : Cg.Ty) (s : GS) : Option (Prog × GS) := do
  let (c1, s) ← Cg.gen false addr s
  let (c2, s) ← Cg.gen false old s
  let (c3, s) ← Cg.gen false new s
  let k := s.cnt
  some (base (c1 ++ [.mv .t0 .a0] ++ c2 ++ [.mv .t1 .a0] ++ genLoad t ++ [.mv .t2 .a0] ++ c3 ++ [.mv .t3 .a0, .label (retry k)]) ++
    [.lr .t4 .t0, .bne .t4 .t2 (return_ k), .sc .a0 .t3 .t0] ++
    base [.bnez .a0 (retry k), .label (return_ k), .op .subw .t2 .t4 .t2, .seqz .a0 .t2, .beqz .t2 (end_ k),
      .store .w .t4 0 .t1, .label (end_ k)], s.next)

/-- ND_EXCH, codegen.c:1392-1400. `size` is `node->lhs->ty->base->size`. -/
def genExch (l r : Cg.Expr) (size : Nat) (s : GS) : Option (Prog × GS) := do
  let (c1, s) ← Cg.gen false l s
  let (c2, s) ← Cg.gen false r s.push
  some (base (c1 ++ pushI .a0 ++ c2 ++ popI .a1) ++ [.amoswap (if size ≤ 4 then .w else .d) .a0 .a0 .a1], s.pop)

/-- The variables made for `A op= B` (offsets from fp) and the labels of the loop. -/
structure Tmp where
  addr : Int
  val : Int
  old : Int
  new : Int
  cont : Nat
  brk : Nat

/-- A variable of the function. -/
def lvar (t : CTy) (off : Int) : Node := ⟨.var t.low (.loc off), t⟩

/-- to_assign for an atomic object that is not a member, parser.c:406-482, and its code: ND_STMT_EXPR (codegen.c:1126-1129), ND_EXPR_STMT
and ND_DO (codegen.c:1693-1705). The loop runs while `!CAS` differs from 0. -/
def atomicAssign (b : Bin) (v : Tmp) (s : GS) : Option (Prog × GS) := do
  let t := b.l.ty
  let n1 ← assignN (lvar (.ptr t) v.addr) ⟨.addr b.l.e, .ptr t⟩
  let (c1, s) ← Cg.gen false n1.e s
  let n2 ← assignN (lvar b.r.ty v.val) b.r
  let (c2, s) ← Cg.gen false n2.e s
  let n3 ← assignN (lvar t v.old) ⟨.deref t.low (lvar (.ptr t) v.addr).e, t⟩
  let (c3, s) ← Cg.gen false n3.e s
  let k := s.cnt
  let n4 ← assignN (lvar t v.new) (binN b.op (lvar t v.old) (lvar b.r.ty v.val))
  let (c4, s) ← Cg.gen false n4.e s.next
  let (c5, s) ← genCas (lvar (.ptr t) v.addr).e (.addr (lvar t v.old).e) (lvar t v.new).e t.low s
  let (c6, s) ← Cg.gen false (lvar t v.new).e s
  some (base (c1 ++ c2 ++ c3 ++ [.label (begin_ k)] ++ c4 ++ [.label (.uniq v.cont)]) ++ c5 ++
    base (cmpZero ++ cmpZero ++ [.beqz .a0 (begin_ k), .label (.uniq v.brk)] ++ c6), s)

/-- to_assign, parser.c:369-500: members are looked at before atomic types. `tmp` is the hidden variable of the other cases. -/
def compound (isAtomic : Bool) (b : Bin) (v : Tmp) (tmp : Int) (s : GS) : Option (Prog × GS) :=
  match isAtomic, b.l.e with
  | true, .member _ _ | false, _ => do
    let n ← Low.toAssign tmp b
    let (c, s) ← Cg.gen false n.e s
    some (base c, s)
  | true, _ => atomicAssign b v s

/-- atomic_fetch_add, include/stdatomic.h:37: `(*(obj) += (val))`. -/
def fetchAdd (obj val : Node) (v : Tmp) (tmp : Int) (s : GS) : Option (Prog × GS) := do
  let t ← obj.ty.base
  let b ← Low.newAdd ⟨.deref t.low obj.e, t⟩ val
  compound true b v tmp s

/-! ### Harts

The eight bytes from the address `obj` on are shared: the atomic object and, if it is smaller, what follows it. All other memory is
private to a hart (its stack and variables). Accesses to the shared bytes take effect in the order in which the harts execute them
(no weaker memory order). A reservation is lost when another hart writes any of the shared bytes, and `sc` may also fail for no reason. -/

structure Hart where
  pc : Nat
  st : St
  res : Bool

/-- `n` bytes at `a` have a byte in common with the shared ones. -/
def touches (obj a : W) (n : Nat) : Bool := decide ((a - obj).toNat < 8 ∨ (obj - a).toNat < n)

/-- `n` bytes at `a` are shared ones. -/
def inside (obj a : W) (n : Nat) : Bool := decide ((a - obj).toNat + n ≤ 8)

/-- Address and size of the memory access of an instruction. -/
def access (i : Instr) (s : St) : Option (W × Nat) :=
  match i with
  | .load w _ _ off b => some (s.r b + BitVec.ofInt 64 off, w.bytes)
  | .store w _ off b => some (s.r b + BitVec.ofInt 64 off, w.bytes)
  | _ => none

/-- The instruction leaves the shared bytes alone. -/
def private_ (obj : W) (i : Instr) (s : St) : Bool :=
  match access i s with
  | some (a, n) => !touches obj a n
  | none => true

def find (P : Prog) (l : Label) : Option Nat := P.findIdx? (fun i => i == .base (.label l))

def jump (P : Prog) (pc : Nat) (s : St) (c : Bool) (l : Label) : Option (Nat × St) :=
  if c then (find P l).map (·, s) else some (pc + 1, s)

/-- An instruction that leaves the shared bytes alone. -/
def lstep (P : Prog) (env : Env) (obj : W) (c : Nat × St) : Option (Nat × St) :=
  match P[c.1]? with
  | some (.base (.j l)) => jump P c.1 c.2 true l
  | some (.base (.bnez r l)) => jump P c.1 c.2 (c.2.r r != 0) l
  | some (.base (.beqz r l)) => jump P c.1 c.2 (c.2.r r == 0) l
  | some (.bne a b l) => jump P c.1 c.2 (c.2.r a != c.2.r b) l
  | some (.base i) => if private_ obj i c.2 then (exec env i c.2).map (c.1 + 1, ·) else none
  | _ => none

/-- `n` bytes of the shared ones, `k` bytes after the first. -/
def bytes (x : W) (k n : Nat) : Nat := x.toNat / 256 ^ k % 256 ^ n

/-- The shared bytes after writing `n` bytes of `v`, `k` bytes after the first. -/
def patch (x : W) (k n : Nat) (v : Nat) : W :=
  BitVec.ofNat 64 (x.toNat % 256 ^ k + v % 256 ^ n * 256 ^ k + x.toNat / 256 ^ (k + n) * 256 ^ (k + n))

/-- An instruction that refers to the shared bytes: the hart, and the bytes if they are written. `fail`: `sc` fails for no reason.
lr, sc and amoswap anywhere else than at `obj` are outside the model (`none`). -/
def sstep (P : Prog) (obj : W) (fail : Bool) (h : Hart) (x : W) : Option (Hart × Option W) :=
  match P[h.pc]? with
  | some (.base (.load w u rd off b)) =>
    let a := h.st.r b + BitVec.ofInt 64 off
    if inside obj a w.bytes then
      some (⟨h.pc + 1, h.st.set rd (extend u w.bytes (bytes x (a - obj).toNat w.bytes)), h.res⟩, none)
    else none
  | some (.base (.store w rs off b)) =>
    let a := h.st.r b + BitVec.ofInt 64 off
    if inside obj a w.bytes then
      some (⟨h.pc + 1, h.st, h.res⟩, some (patch x (a - obj).toNat w.bytes (h.st.r rs).toNat))
    else none
  | some (.lr rd rs) =>
    if h.st.r rs = obj then some (⟨h.pc + 1, h.st.set rd (sext32 (lo x)), true⟩, none) else none
  | some (.sc rd rs2 rs1) =>
    if h.st.r rs1 = obj then
      if h.res && !fail then some (⟨h.pc + 1, h.st.set rd 0, false⟩, some (patch x 0 4 (h.st.r rs2).toNat))
      else some (⟨h.pc + 1, h.st.set rd 1, false⟩, none)
    else none
  | some (.amoswap w rd rs2 rs1) =>
    if h.st.r rs1 = obj then
      some (⟨h.pc + 1, h.st.set rd (extend false w.bytes (bytes x 0 w.bytes)), h.res⟩, some (patch x 0 w.bytes (h.st.r rs2).toNat))
    else none
  | _ => none

/-- One instruction of a hart. -/
def hstep (P : Prog) (env : Env) (obj : W) (fail : Bool) (h : Hart) (x : W) : Option (Hart × Option W) :=
  match lstep P env obj (h.pc, h.st) with
  | some (pc, s) => some (⟨pc, s, h.res⟩, none)
  | none => sstep P obj fail h x

/-- A write to the shared bytes: by which hart, what was there before and after. -/
structure Write where
  hart : Nat
  before : W
  after : W
  deriving DecidableEq

/-- Any number of harts, the shared bytes and the writes so far. -/
structure Sys where
  shared : W
  harts : Nat → Hart
  log : List Write

/-- What the harts execute. -/
structure Threads where
  prog : Nat → Prog
  env : Nat → Env
  obj : W

/-- One instruction of hart `i`. -/
def sysStep (T : Threads) (i : Nat) (fail : Bool) (c : Sys) : Option Sys :=
  match hstep (T.prog i) (T.env i) T.obj fail (c.harts i) c.shared with
  | none => none
  | some (h, none) => some { c with harts := fun j => if j = i then h else c.harts j }
  | some (h, some x) =>
    some ⟨x, fun j => if j = i then h else { c.harts j with res := false }, c.log ++ [⟨i, c.shared, x⟩]⟩

/-- Any schedule. -/
inductive Reach (T : Threads) (c : Sys) : Sys → Prop
  | refl : Reach T c c
  | step {c1 c2 i fail} : Reach T c c1 → sysStep T i fail c1 = some c2 → Reach T c c2

/-- A given schedule. -/
def runS (T : Threads) : List (Nat × Bool) → Sys → Option Sys
  | [], c => some c
  | (i, f) :: r, c => (sysStep T i f c).bind (runS T r)

end Toycc.Atomic
