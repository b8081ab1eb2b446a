import Verif.Atomic.Props
/-!
The other operations of <stdatomic.h> on the same object: what they should do, and how a thread starts with one.
-/
namespace Toycc.Atomic
open Toycc.Rv hiding Prog find step Runs
open Toycc.Cg (GS)

/-- What a thread does to the shared object: `A op= B`; `atomic_exchange(&A, v)` for an int and for an object of 8 bytes;
`atomic_store(&A, v)`; `atomic_load(&A)`; `atomic_compare_exchange_strong(&A, E, d)`, where the int at E is `e`. -/
inductive Op where
  | assign (j : Job)
  | exch (v : BitVec 32)
  | exch8 (v : W)
  | store (v : BitVec 32)
  | load
  | cas (E : W) (e d : BitVec 32)

/-- The int object becomes `v`, and nothing else changes. -/
def Sets (v : BitVec 32) (w : Write) : Prop := int_ w.after = v ∧ behind w.after = behind w.before

/-- The writes an operation may make. -/
def Does : Op → Write → Prop
  | .assign j, w => Applies j.op j.v w
  | .exch v, w => Sets v w
  | .exch8 v, w => w.after = v
  | .store v, w => Sets v w
  | .load, _ => False
  | .cas _ e d, w => int_ w.before = e ∧ Sets d w

/-- The values the shared bytes have had. -/
def seen (x0 : W) (l : List Write) : List W := x0 :: l.map Write.after

/-- What is true at the end of the operation: the writes of the thread, its result and, for a compare-and-exchange, the expected value. -/
def Result : Op → List W → List Write → St → Prop
  | .assign j, _, l, s => ∃ w, l = [w] ∧ Applies j.op j.v w ∧ s.r .a0 = sext32 (int_ w.after)
  | .exch v, _, l, s => ∃ w, l = [w] ∧ Sets v w ∧ s.r .a0 = sext32 (int_ w.before)
  | .exch8 v, _, l, s => ∃ w, l = [w] ∧ w.after = v ∧ s.r .a0 = w.before
  | .store v, _, l, s => ∃ w, l = [w] ∧ Sets v w ∧ s.r .a0 = sext32 v
  | .load, vs, l, s => l = [] ∧ ∃ y ∈ vs, s.r .a0 = sext32 (int_ y)
  | .cas E e d, vs, l, s =>
    (∃ w, l = [w] ∧ int_ w.before = e ∧ Sets d w ∧ s.r .a0 = 1 ∧ readN s.mem E 4 = e.toNat) ∨
    (l = [] ∧ s.r .a0 = 0 ∧ ∃ y ∈ vs, int_ y ≠ e ∧ readN s.mem E 4 = (int_ y).toNat)

/-- `Leaves`, and the registers in which a compare-and-exchange keeps its operands are left alone too. -/
def LeavesT (env : Env) (obj fp sp : W) (pre : Mem → Prop) (wr : W → Bool) (c : List Instr) (x : W) : Prop :=
  ∀ P pc s, At P pc c → s.r .fp = fp → s.r .sp = sp → pre s.mem →
    ∃ s', LRuns P env obj (pc, s) (pc + c.length, s') ∧ s'.r .a0 = x ∧ s'.r .fp = fp ∧ s'.r .sp = sp ∧
      s'.r .t0 = s.r .t0 ∧ s'.r .t1 = s.r .t1 ∧ s'.r .t2 = s.r .t2 ∧ ∀ b, wr b = false → s'.mem b = s.mem b

/-- The two operands do on their own what they should: `l` gives the address of the object; then, with that on the stack, `r` gives `x`. -/
structure Operands (env : Env) (obj : W) (st : St) (gs : GS) (l r : Cg.Expr) (x : W) : Prop where
  priv : touches obj (st.r .sp + BitVec.ofInt 64 (-8)) 8 = false
  eval : ∃ wr wr', (∀ b, inR (st.r .sp + BitVec.ofInt 64 (-8)) 8 b = true → wr' b = false) ∧
    (∀ c gs', Cg.gen false l gs = some (c, gs') → Leaves env obj (st.r .fp) (st.r .sp) (fun m => m = st.mem) wr c obj) ∧
    ∀ gs c gs', Cg.gen false r gs = some (c, gs') → Leaves env obj (st.r .fp) (st.r .sp + BitVec.ofInt 64 (-8))
      (fun m => ∀ b, wr b = false → inR (st.r .sp + BitVec.ofInt 64 (-8)) 8 b = false → m b = st.mem b) wr' c x

/-- The thread is about to execute the code of an operation. -/
inductive Begins (P : Prog) (env : Env) (obj : W) (h : Hart) : Op → Prop
  | assign {j} : Starts P env obj h j → Begins P env obj h (.assign j)
  | exch {l r gs gs' v} : genExch l r 4 gs = some (P, gs') → h.pc = 0 → Operands env obj h.st gs l r (sext32 v) → Begins P env obj h (.exch v)
  | exch8 {l r gs gs' v} : genExch l r 8 gs = some (P, gs') → h.pc = 0 → Operands env obj h.st gs l r v → Begins P env obj h (.exch8 v)
  /-- `*l = r` -/
  | store {l r gs c gs' v} : Cg.gen false (.assign (.int false) (.deref (.int false) l) r) gs = some (c, gs') → P = base c → h.pc = 0 →
      Operands env obj h.st gs l r (sext32 v) → Begins P env obj h (.store v)
  /-- `*l` -/
  | load {l gs c gs' wr} : Cg.gen false (.deref (.int false) l) gs = some (c, gs') → P = base c → h.pc = 0 →
      (∀ c gs', Cg.gen false l gs = some (c, gs') → Leaves env obj (h.st.r .fp) (h.st.r .sp) (fun m => m = h.st.mem) wr c obj) →
      Begins P env obj h .load
  | cas {a o n gs gs' wr E e d} : genCas a o n (.int false) gs = some (P, gs') → h.pc = 0 → Unique P →
      touches obj E 4 = false → (∀ b, inR E 4 b = true → wr b = false) → readN h.st.mem E 4 = e.toNat →
      (∀ gs c gs', Cg.gen false a gs = some (c, gs') → LeavesT env obj (h.st.r .fp) (h.st.r .sp) (fun m => ∀ b, wr b = false → m b = h.st.mem b) wr c obj) →
      (∀ gs c gs', Cg.gen false o gs = some (c, gs') → LeavesT env obj (h.st.r .fp) (h.st.r .sp) (fun m => ∀ b, wr b = false → m b = h.st.mem b) wr c E) →
      (∀ gs c gs', Cg.gen false n gs = some (c, gs') →
        LeavesT env obj (h.st.r .fp) (h.st.r .sp) (fun m => ∀ b, wr b = false → m b = h.st.mem b) wr c (sext32 d)) →
      Begins P env obj h (.cas E e d)

end Toycc.Atomic
