import Verif.Atomic.Lemmas
/-! The code of `A op= B` for an int object, written out. -/
namespace Toycc.Atomic
open Toycc.Rv hiding Prog find step Runs
open Toycc.Cg (GS genLoad pushI popI cmpZero)

/-- `x = ...` for a variable at `off` from fp, whose right side is evaluated by `c`. -/
def asg (off : Int) (w : Width) (c : List Instr) : List Instr :=
  [.addi .a0 .fp off] ++ pushI .a0 ++ c ++ popI .a1 ++ [.store w .a0 0 .a1]

/-- `old op val`. -/
def opCode (v : Tmp) (alu : Alu) : List Instr :=
  [.addi .a0 .fp v.val, .load .w false .a0 0 .a0] ++ pushI .a0 ++ [.addi .a0 .fp v.old, .load .w false .a0 0 .a0] ++ popI .a1 ++
    [.op alu .a0 .a0 .a1]

/-- Up to the load from the object, and after it. -/
def loadPre (v : Tmp) : List Instr :=
  [.addi .a0 .fp v.old] ++ pushI .a0 ++ [.addi .a0 .fp v.addr, .load .d false .a0 0 .a0]

def casPre (v : Tmp) : List Instr :=
  [.addi .a0 .fp v.addr, .load .d false .a0 0 .a0, .mv .t0 .a0, .addi .a0 .fp v.old, .mv .t1 .a0, .load .w false .a0 0 .a0, .mv .t2 .a0,
   .addi .a0 .fp v.new, .load .w false .a0 0 .a0, .mv .t3 .a0]

/-- Evaluation and storing of the operands. -/
def partA (v : Tmp) (cA cB : List Instr) : List Instr := asg v.addr .d cA ++ (asg v.val .w cB ++ loadPre v)

/-- From the end of the load to the first lr. -/
def partB (v : Tmp) (alu : Alu) (k k' : Nat) : List Instr :=
  popI .a1 ++ [.store .w .a0 0 .a1] ++ [.label (begin_ k)] ++ asg v.new .w (opCode v alu) ++ [.label (.uniq v.cont)] ++ casPre v ++
    [.label (retry k')]

/-- From sc on. -/
def partC (v : Tmp) (k k' : Nat) : List Instr :=
  [.bnez .a0 (retry k'), .label (return_ k'), .op .subw .t2 .t4 .t2, .seqz .a0 .t2, .beqz .t2 (end_ k'), .store .w .t4 0 .t1,
   .label (end_ k'), .seqz .a0 .a0, .seqz .a0 .a0, .beqz .a0 (begin_ k), .label (.uniq v.brk), .addi .a0 .fp v.new,
   .load .w false .a0 0 .a0]

def whole (v : Tmp) (alu : Alu) (k k' : Nat) (cA cB : List Instr) : Prog :=
  base (partA v cA cB ++ [.load .w false .a0 0 .a0] ++ partB v alu k k') ++ [.lr .t4 .t0, .bne .t4 .t2 (return_ k'), .sc .a0 .t3 .t0] ++
    base (partC v k k')

theorem near_off {o : Int} (h : -2048 ≤ o ∧ o ≤ 2047) (r : Reg) : Cg.addOffset r o = [.addi .a0 r o] := by
  unfold Cg.addOffset Util.beyondInstructionOffset
  rw [if_neg (by simp; omega)]

theorem gen_lvar {t : Low.CTy} {o : Int} (h : -2048 ≤ o ∧ o ≤ 2047) (s : GS) (ad : Bool) :
    Cg.gen ad (lvar t o).e s = some (if ad then [.addi .a0 .fp o] else [.addi .a0 .fp o] ++ genLoad t.low, s) := by
  simp only [lvar, Cg.gen, Cg.varAddr, near_off h]

theorem gen_asg {t : Low.CTy} {o : Int} (h : -2048 ≤ o ∧ o ≤ 2047) {e : Cg.Expr} {s s1 : GS} {c : List Instr} {lt : Cg.Ty}
    (hs : ∀ n, lt ≠ .struc n) (he : Cg.gen false e s.push = some (c, s1)) :
    Cg.gen false (.assign lt (lvar t o).e e) s = some (asg o (Cg.widthOf lt.size) c, s1.pop) := by
  have hb : (lvar t o).e.bitfield = none := rfl
  rw [Cg.gen]
  simp only [Bool.false_and, Bool.false_eq_true, if_false, gen_lvar h, he, bind, Option.bind, hb, if_true]
  cases lt <;> first
    | (exfalso; exact hs _ rfl)
    | simp [asg, Cg.genStore, List.append_assoc]

theorem code_eq {b : Low.Bin} {v : Tmp} {s s' : GS} {P : Prog} {alu : Alu} (hl : b.l.ty = .int false) (hr : b.r.ty = .int false ∧ b.r.e.ty = .int false)
    (near : ∀ o ∈ [v.addr, v.val, v.old, v.new], -2048 ≤ o ∧ o ≤ 2047)
    (hop : Cg.binInstrs b.op (.int false) (.int false) = [.op alu .a0 .a0 .a1])
    (hcmp : b.op ≠ .eq ∧ b.op ≠ .ne ∧ b.op ≠ .lt ∧ b.op ≠ .le)
    (h : atomicAssign b v s = some (P, s')) :
    ∃ cA s1 s2 cB s3 k k', Cg.gen true b.l.e s.push = some (cA, s1) ∧ Cg.gen false b.r.e s2 = some (cB, s3) ∧
      P = whole v alu k k' cA cB := by
  have na := near v.addr (by simp)
  have nv := near v.val (by simp)
  have no := near v.old (by simp)
  have nn := near v.new (by simp)
  unfold atomicAssign at h
  simp only [hl, hr.1, Low.assignN, lvar, Low.castN, bind, Option.bind] at h
  cases hA : Cg.gen true b.l.e s.push with
  | none =>
    simp [Cg.gen, hA, bind, Option.bind, Cg.varAddr] at h
  | some x =>
    obtain ⟨cA, s1⟩ := x
    have e1 : Cg.gen false (.cast (Low.CTy.ptr (.int false)).low (.addr b.l.e)) s.push = some (cA, s1) := by
      simp [Cg.gen, hA, bind, Option.bind, Cg.genCast, Low.CTy.low, Cg.Expr.ty, Cg.typeId, Cg.castMatrix]
    have g1 := gen_asg (t := .ptr (.int false)) na (lt := (Low.CTy.ptr (.int false)).low) (by intro n hn; simp [Low.CTy.low] at hn) e1
    simp only [lvar] at g1
    rw [g1] at h
    dsimp only at h
    cases hB : Cg.gen false b.r.e s1.pop.push with
    | none => simp [Cg.gen, hB, bind, Option.bind, Cg.varAddr] at h
    | some y =>
      obtain ⟨cB, s3⟩ := y
      have e2 : Cg.gen false (.cast (Low.CTy.int false).low b.r.e) s1.pop.push = some (cB, s3) := by
        simp [Cg.gen, hB, hr.2, bind, Option.bind, Cg.genCast, Low.CTy.low, Cg.typeId, Cg.castMatrix]
      have g2 := gen_asg (t := .int false) nv (lt := (Low.CTy.int false).low) (by intro n hn; simp [Low.CTy.low] at hn) e2
      simp only [lvar] at g2
      rw [g2] at h
      dsimp only at h
      have e3 : ∀ s : GS, Cg.gen false (.cast (Low.CTy.int false).low (.deref (Low.CTy.int false).low (.var (Low.CTy.ptr (.int false)).low (.loc v.addr)))) s
          = some ([.addi .a0 .fp v.addr, .load .d false .a0 0 .a0, .load .w false .a0 0 .a0], s) := by
        intro s
        simp [Cg.gen, bind, Option.bind, Cg.genCast, Low.CTy.low, Cg.typeId, Cg.castMatrix, Cg.varAddr, near_off na, Cg.Expr.ty, genLoad,
          Cg.widthOf, Cg.Ty.size, Cg.Ty.unsigned]
      have g3 := gen_asg (t := .int false) no (lt := (Low.CTy.int false).low) (by intro n hn; simp [Low.CTy.low] at hn) (e3 s3.pop.push)
      simp only [lvar] at g3
      rw [g3] at h
      dsimp only at h
      have e4 : ∀ s : GS, Cg.gen false (.cast (Low.CTy.int false).low (Low.binN b.op ⟨.var (Low.CTy.int false).low (.loc v.old), .int false⟩
          ⟨.var (Low.CTy.int false).low (.loc v.val), .int false⟩).e) s = some (opCode v alu, s) := by
        intro s
        have hp : s.push.pop = s := by cases s; rfl
        obtain ⟨n1, n2, n3, n4⟩ := hcmp
        generalize b.op = op at *
        cases op <;> first
          | (exfalso; first | exact n1 rfl | exact n2 rfl | exact n3 rfl | exact n4 rfl)
          | simp [Cg.gen, bind, Option.bind, Cg.genCast, Low.binN, Low.common, Low.castN, Low.CTy.base, Low.CTy.size, Low.CTy.low, Cg.typeId,
              Cg.castMatrix, Cg.varAddr, near_off nv, near_off no, Cg.Expr.ty, genLoad, Cg.widthOf, Cg.Ty.size, Cg.Ty.unsigned, opCode, hop, hp]
      have g4 := gen_asg (t := .int false) nn (lt := (Low.CTy.int false).low) (by intro n hn; simp [Low.CTy.low] at hn)
        (e4 s3.pop.push.pop.next.push)
      simp only [lvar] at g4
      rw [g4] at h
      dsimp only at h
      refine ⟨cA, s1, s1.pop.push, cB, s3, s3.pop.push.pop.cnt, s3.pop.push.pop.next.push.pop.cnt, rfl, hB, ?_⟩
      simp [genCas, Cg.gen, bind, Option.bind, Low.CTy.low, Cg.varAddr, near_off na, near_off no, near_off nn, genLoad, Cg.widthOf,
        Cg.Ty.size, Cg.Ty.unsigned] at h
      rw [← h.1]
      simp [whole, base, partA, partB, partC, casPre, loadPre, asg, Low.CTy.low, Cg.widthOf, Cg.Ty.size, cmpZero, List.append_assoc, pushI, popI]

end Toycc.Atomic
