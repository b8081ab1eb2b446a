import Verif.Atomic.Props
/-!
Where the code does not have the property C85, each shown by a run.
-/
namespace Toycc.Atomic
open Toycc.Rv hiding Prog find step Runs
open Toycc.Cg (BinOp)

theorem reach_runS {T : Threads} {c0 c c' : Sys} (h0 : Reach T c0 c) : ∀ {l}, runS T l c = some c' → Reach T c0 c' := by
  intro l
  induction l generalizing c with
  | nil => intro h; simp only [runS, Option.some.injEq] at h; exact h ▸ h0
  | cons a r ih =>
    intro h
    simp only [runS] at h
    cases hs : sysStep T a.1 a.2 c with
    | none => rw [hs] at h; simp at h
    | some c1 => rw [hs] at h; exact ih (.step h0 hs) h

/-- A thread with its frame at 1024. -/
def st0 : St := (St.set (St.set ⟨fun _ => 0, fun _ => 0⟩ .fp 1024) .sp 960)

/-- All threads execute `p`; the object is at 4096 and holds `x`. -/
def threads (p : Prog) : Threads := ⟨fun _ => p, fun _ => exEnv 4096, 4096⟩
def start (x : W) : Sys := ⟨x, fun _ => ⟨0, st0, false⟩, []⟩

def wide : Tmp := ⟨-16, -24, -32, -40, 1, 0⟩

/-- `x op= v` for an object of type `t` at the symbol x, with the constant `v` of type `t`. -/
def assignOf (t : Low.CTy) (op : BinOp) (v : Int) : Prog :=
  ((compound true ⟨op, ⟨.var t.low (.glob "x"), t⟩, ⟨.num t.low v, t⟩⟩ wide (-48) ⟨0, 0⟩).getD ([], ⟨0, 0⟩)).1

def solo (p : Prog) (n : Nat) (x : W) : Option Sys := runS (threads p) (List.replicate n (0, false)) (start x)

/-- How a thread running alone ends. -/
theorem of_solo {p : Prog} {n : Nat} {x s a : W} {l : List Write}
    (h : (solo p n x).map (fun c => (c.shared, (c.harts 0).pc, (c.harts 0).st.r .a0, c.log)) = some (s, p.length, a, l)) :
    ∃ c, Reach (threads p) (start x) c ∧ Finished (threads p) c 0 ∧ c.shared = s ∧ (c.harts 0).st.r .a0 = a ∧ c.log = l := by
  cases hs : solo p n x with
  | none => rw [hs] at h; simp at h
  | some c =>
    rw [hs] at h
    simp only [Option.map_some, Option.some.injEq, Prod.mk.injEq] at h
    exact ⟨c, reach_runS .refl hs, h.2.1, h.1, h.2.2.1, h.2.2.2⟩

/-- **Found:** `_Atomic unsigned x = 0x80000000; x += 1;` ends with the value 0x80000001 and has not written to `x` at all: `lr.w` extends
the sign, the load of `old` does not, and the comparison for the result looks at 32 bits only. -/
theorem C85_unsigned_wrong : ∃ c, Reach (threads (assignOf (.int true) .add 1)) (start 0x80000000) c ∧
    Finished (threads (assignOf (.int true) .add 1)) c 0 ∧ c.shared = 0x80000000 ∧ (c.harts 0).st.r .a0 = 0x80000001 ∧ c.log = [] :=
  of_solo (n := 65) (by decide +kernel)

/-- **Found:** `_Atomic long x = 0xffffffff; x += 1;` likewise. -/
theorem C85_long_wrong : ∃ c, Reach (threads (assignOf (.long false) .add 1)) (start 0xffffffff) c ∧
    Finished (threads (assignOf (.long false) .add 1)) c 0 ∧ c.shared = 0xffffffff ∧ (c.harts 0).st.r .a0 = 0x100000000 ∧ c.log = [] :=
  of_solo (n := 65) (by decide +kernel)

/-- **Found:** `_Atomic long x = 5; x += 0x100000000;` stores 32 bits. -/
theorem C85_long_store_wrong : ∃ c, Reach (threads (assignOf (.long false) .add 0x100000000)) (start 5) c ∧
    Finished (threads (assignOf (.long false) .add 0x100000000)) c 0 ∧ c.shared = 5 ∧ (c.harts 0).st.r .a0 = 0x100000005 ∧ c.log = [⟨0, 5, 5⟩] :=
  of_solo (n := 67) (by decide +kernel)

/-- **Found:** `_Atomic char x = -1; x += 1;` with three bytes 0xff behind it writes those too. -/
theorem C85_char_wrong : ∃ c, Reach (threads (assignOf (.char false) .add 1)) (start 0xffffffff) c ∧
    Finished (threads (assignOf (.char false) .add 1)) c 0 ∧ c.shared = 0 ∧ (c.harts 0).st.r .a0 = 0 ∧ c.log = [⟨0, 0xffffffff, 0⟩] :=
  of_solo (n := 69) (by decide +kernel)

/-- With something else behind it, the assignment has not ended after a thousand instructions though nobody else runs. -/
example : ((solo (assignOf (.char false) .add 1) 1000 0x0102).map fun c => (c.shared, c.log, decide ((c.harts 0).pc < (assignOf (.char false) .add 1).length))) =
    some (0x0102, [], true) := by decide +kernel

/-- `s.x += 1` for an atomic int member of a global structure. -/
def memberAssign : Prog :=
  ((compound true ⟨.add, ⟨.member ⟨.int false, 0, none⟩ (.var (.struc 4) (.glob "s")), .int false⟩, ⟨.num (.int false) 1, .int false⟩⟩ wide (-48) ⟨0, 0⟩).getD
    ([], ⟨0, 0⟩)).1

/-- `atomic_fetch_add(&x, 1)` for an atomic int. -/
def fetchProg : Prog :=
  ((fetchAdd ⟨.addr (.var (.int false) (.glob "x")), .ptr (.int false)⟩ ⟨.num (.int false) 1, .int false⟩ wide (-48) ⟨0, 0⟩).getD ([], ⟨0, 0⟩)).1

/-- `x += 1` with the hidden variables far from fp. -/
def farProg : Prog :=
  ((atomicAssign (globalBin .add 1) ⟨-4096, -4104, -4112, -4120, 1, 0⟩ ⟨0, 0⟩).getD ([], ⟨0, 0⟩)).1

/-- **Found:** two threads that execute `s.x += 1` for an atomic member: one of the updates is lost (members are not treated as atomic). -/
theorem C85_member_wrong : ∃ c, Reach (threads memberAssign) (start 7) c ∧ Finished (threads memberAssign) c 0 ∧
    Finished (threads memberAssign) c 1 ∧ c.shared = 8 := by
  have h : (runS (threads memberAssign) (List.replicate 20 (0, false) ++ List.replicate 26 (1, false) ++ List.replicate 6 (0, false)) (start 7)).map
      (fun c => (c.shared, (c.harts 0).pc, (c.harts 1).pc)) = some (8, memberAssign.length, memberAssign.length) := by decide +kernel
  cases hs : runS (threads memberAssign) (List.replicate 20 (0, false) ++ List.replicate 26 (1, false) ++ List.replicate 6 (0, false)) (start 7) with
  | none => rw [hs] at h; simp at h
  | some c =>
    rw [hs] at h
    simp only [Option.map_some, Option.some.injEq, Prod.mk.injEq] at h
    exact ⟨c, reach_runS .refl hs, h.2.1, h.2.2, h.1⟩

/-- **Found:** `atomic_fetch_add(&x, 1)` with 7 in `x` gives 8, the value after the addition, not the one before (C11 7.17.7.5p4). -/
theorem C85_fetch_wrong : ∃ c, Reach (threads fetchProg) (start 7) c ∧
    Finished (threads fetchProg) c 0 ∧ c.shared = 8 ∧ (c.harts 0).st.r .a0 = 8 ∧ c.log = [⟨0, 7, 8⟩] :=
  of_solo (n := 67) (by decide +kernel)

/-- **Found:** with the hidden variables more than 2048 bytes from fp, computing the address of `old` overwrites t0, which holds the
address of the object: `lr.w` reads from -4120. -/
theorem C85_far_wrong : ∃ c, Reach (threads farProg) (start 7) c ∧ farProg[(c.harts 0).pc]? = some (.lr .t4 .t0) ∧
    (c.harts 0).st.r .t0 = BitVec.ofInt 64 (-4120) := by
  have h : (solo farProg 62 7).map (fun c => (farProg[(c.harts 0).pc]?, (c.harts 0).st.r .t0)) =
      some (some (.lr .t4 .t0), BitVec.ofInt 64 (-4120)) := by decide +kernel
  cases hs : solo farProg 62 7 with
  | none => rw [hs] at h; simp at h
  | some c =>
    rw [hs] at h
    simp only [Option.map_some, Option.some.injEq, Prod.mk.injEq] at h
    exact ⟨c, reach_runS .refl hs, h.1, h.2⟩

end Toycc.Atomic
