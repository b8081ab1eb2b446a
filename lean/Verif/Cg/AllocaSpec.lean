import Verif.Cg.Alloca
/-!
What alloca promises, over histories. A history is any sequence, starting after the prologue, of: saving a register on the stack, taking it back, alloca,
stores of bytes to blocks and to memory outside of the stack, and anything that changes only registers and memory below the stack pointer (calls).
`Abs` is what the program believes: the saved values, the blocks with their requested sizes, and what it has stored last in each byte.
-/
namespace Toycc.Cg.Alloca
open Toycc.Rv

/-- The frame: the frame pointer, the offset of alloca_bottom, the lowest address the stack may use, and the stack pointer after the prologue. -/
structure Area where
  fp : W
  off : Int
  lo : W
  top : W

/-- The 8 bytes of the variable alloca_bottom. -/
def Area.slot (a : Area) : W := a.fp + BitVec.ofInt 64 a.off
def Area.inSlot (a : Area) (x : W) : Prop := (x - a.slot).toNat < 8
/-- The addresses from `lo` up to `top`: the stack below the frame. -/
def Area.inStack (a : Area) (x : W) : Prop := (x - a.lo).toNat < (a.top - a.lo).toNat
/-- alloca_bottom is in the frame. -/
def Area.Ok (a : Area) : Prop := ∀ x, a.inSlot x → ¬ a.inStack x

structure Abs where
  temps : List W
  blocks : List (W × Nat)
  known : W → Option (BitVec 8)

/-- The bytes of a block. -/
def inBlock (x : W) (b : W × Nat) : Prop := (x - b.1).toNat < b.2

/-- Running `c` alone leads from `s` to `s'`. -/
def Alone (env : Env) (c : List Instr) (s s' : St) : Prop := Runs c env (0, s) (c.length, s')

inductive Hist (env : Env) (a : Area) : St → Abs → Prop
  | start {s} : s.r .fp = a.fp → s.r .sp = a.top → readN s.mem a.slot 8 = a.top.toNat → Hist env a s ⟨[], [], fun _ => none⟩
  | push {s s' A} (r : Reg) : Hist env a s A → 8 ≤ (s.r .sp - a.lo).toNat → r ≠ .sp → Alone env (pushI r) s s' →
      Hist env a s' { A with temps := s.r r :: A.temps }
  | pop {s s' A v ts} (r : Reg) : Hist env a s A → A.temps = v :: ts → r ≠ .sp → r ≠ .fp → Alone env (popI r) s s' → Hist env a s' { A with temps := ts }
  | alloca {s s' A l1 l2} : Hist env a s A → l1 ≠ l2 → ((s.r .a0).toNat + 7) / 8 * 8 ≤ (s.r .sp - a.lo).toNat → Alone env (allocaCode a.off l1 l2) s s' →
      Hist env a s' { A with blocks := (s'.r .a0, (s.r .a0).toNat) :: A.blocks }
  | store {s A} (x : W) (v : BitVec 8) : Hist env a s A → ((∃ b ∈ A.blocks, inBlock x b) ∨ (¬ a.inStack x ∧ ¬ a.inSlot x)) →
      Hist env a { s with mem := writeN s.mem x 1 v.toNat } { A with known := fun y => if y = x then some v else A.known y }
  | other {s s' A} : Hist env a s A → s'.r .sp = s.r .sp → s'.r .fp = s.r .fp → (∀ x, ¬ (x - a.lo).toNat < (s.r .sp - a.lo).toNat → s'.mem x = s.mem x) → Hist env a s' A

/-- The bytes of the saved values. -/
def inTemps (s : St) (A : Abs) (x : W) : Prop := (x - s.r .sp).toNat < 8 * A.temps.length

/-- The program's beliefs are right. -/
structure Holds (a : Area) (s : St) (A : Abs) : Prop where
  temps : ∀ i v, A.temps[i]? = some v → readN s.mem (s.r .sp + BitVec.ofNat 64 (8 * i)) 8 = v.toNat
  known : ∀ x v, A.known x = some v → s.mem x = v
  inside : ∀ b ∈ A.blocks, ∀ x, inBlock x b → a.inStack x ∧ ¬ inTemps s A x
  disjoint : A.blocks.Pairwise fun b c => ∀ x, ¬ (inBlock x b ∧ inBlock x c)
  /-- Nothing is lost: the stack pointer is below everything. -/
  below : ∀ b ∈ A.blocks, ∀ x, inBlock x b → ¬ (x - a.lo).toNat < (s.r .sp - a.lo).toNat

end Toycc.Cg.Alloca
