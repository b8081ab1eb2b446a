import Verif.Src.Lower
import Verif.Low.Props
import Verif.Stm.Props
/-!
C72: function bodies, from what is written to what the machine does. The body is one of Verif.Src.Spec, with compound assignments, `++`, `--`, pointer arithmetic,
initialised variables and implicit conversions as in C; its meaning is `runX` of that file. The parser rewrites it (`trS`), with hidden variables for the
operands of compound assignments; the code generator makes code of the result (`compileBody`, Verif.Stm.Model). As in Verif.Low.Props, `S` has the objects of the
source program, `E` also the hidden variables.
-/
namespace Toycc.Src.Props
open Toycc.Rv Toycc.Cg Toycc.Low Toycc.Src
open Toycc.Stm hiding exec
open Toycc.Stm.Props (Covered Room Returns compile_total compile_labels compiled_body_partial)

variable {S E : CEnv} {tmp : Nat → Int} {N : Nat}

/-- The parser accepts every typed body, and the statements it makes of it do, for every number of iterations, what C prescribes for the body: they end the same
way, with the same value returned and the same memory outside the hidden variables, or go on as long. -/
theorem C72_rewritten_body_partial (H : Hidden S E tmp N) (hS : S.CallsTyped) (rt : CTy) (x : XStmt) (hx : x.typed rt = true) (k : Nat) :
    ∃ s k', trS tmp rt x k = some (s, k') ∧ (k' ≤ N → ∀ d n m m1, Agree S tmp m m1 →
      (∀ r m', runX S rt n none x m = .done r m' → ∃ m1', run (evC E d) n none s m1 = .done r m1' ∧ Agree S tmp m' m1') ∧
      (runX S rt n none x m = .timeout → run (evC E d) n none s m1 = .timeout)) := by
  obtain ⟨s, k', h1, -, h3⟩ := lower H hS x hx k
  refine ⟨s, k', h1, fun hN d n m m1 ha => ?_⟩
  have h := sim_run n (h3 hN d) none m m1 ha
  constructor
  · intro r m' he
    rw [he] at h
    exact h
  · intro he
    rw [he] at h
    exact h

/-- **C72**. The code of a typed body whose rewritten form is covered by C40 (`Covered`), started in a state that has the memory `m` of the source program:
if C prescribes that the body ends, the machine gets to the end of the code with the memory C prescribes and the returned value in a0, with sp and fp as
before, and nothing changed that is not an object of the program or a free part of the stack; if the body runs forever, so does the machine. -/
theorem C72_body_partial (H : Hidden S E tmp N) (hS : S.CallsTyped) (hE : E.CallsTyped) {B : W} {env : Env} {P : Prog} (hw : World E B env P)
    (hv : ∀ b, E.valid b = true → S.valid b = true ∨ ∃ k, (b - (S.fp + BitVec.ofInt 64 (tmp k))).toNat < 8)
    (rt : CTy) (x : XStmt) (hx : x.typed rt = true) (k : Nat) :
    ∃ st k', trS tmp rt x k = some (st, k') ∧ (k' ≤ N → Covered st → ∀ (fn : String) (uid : Nat) (gs : GS), Room E gs.depth st →
      ∃ code uid' gs', compileBody fn uid st gs = some (code, uid', gs') ∧
        ∀ (m : Mem) (pc : Nat) (s : St), CodeAt P pc code → s.r .sp = B - BitVec.ofNat 64 (8 * gs.depth) → s.r .fp = E.fp →
          (∀ b, S.valid b = true → s.mem b = m b) →
          (∀ n e m', runX S rt n none x m = .done e m' →
            ∃ s', Runs P env (pc, s) (pc + code.length, s') ∧ s'.r .sp = s.r .sp ∧ s'.r .fp = s.r .fp ∧
              (∀ b, S.valid b = true → s'.mem b = m' b) ∧
              (∀ b, E.valid b = false → ¬ (8 * gs.depth ≤ idx B b ∧ idx B b < 8 * E.room) → s'.mem b = s.mem b) ∧
              Returns fn e (s'.r .a0)) ∧
          ((∀ n, runX S rt n none x m = .timeout) → ∀ k, ∃ c, StepN P env k (pc, s) c)) := by
  obtain ⟨st, k', h1, h2⟩ := C72_rewritten_body_partial H hS rt x hx k
  refine ⟨st, k', h1, fun hN hcov fn uid gs hr => ?_⟩
  obtain ⟨code, uid', gs', c1, -⟩ := compile_total hcov fn uid gs
  refine ⟨code, uid', gs', c1, fun m pc s hc hsp hfp hm => ?_⟩
  classical
  let m1 : Mem := fun b => if ∃ k, (b - (S.fp + BitVec.ofInt 64 (tmp k))).toNat < 8 then s.mem b else m b
  have hag : Agree S tmp m m1 := by
    intro b hb
    show m b = if _ then _ else _
    rw [if_neg]
    rintro ⟨j, hj⟩
    have := hb j
    unfold slotA at this
    omega
  have hmt : Match E B gs.depth m1 s := by
    refine ⟨hsp, hfp, fun b hb => ?_⟩
    show s.mem b = if _ then _ else _
    split
    · rfl
    · rename_i hn
      rcases hv b hb with h | h
      · exact hm b h
      · exact absurd h hn
  obtain ⟨q1, q2⟩ := compiled_body_partial hw hE hcov hr c1 hc hmt
  constructor
  · intro n e m' he
    obtain ⟨m1', r1, r2⟩ := (h2 hN gs.depth n m m1 hag).1 e m' he
    obtain ⟨s', p1, p2, p3, p4, p5, p6⟩ := q1 n e m1' r1
    refine ⟨s', p1, p2, p3, fun b hb => ?_, p5, p6⟩
    rw [p4 b (H.valid b hb)]
    exact (r2 b fun k => H.apart b k hb).symm
  · intro ht
    exact q2 fun n => (h2 hN gs.depth n m m1 hag).2 (ht n)

/-- What C prescribes does not depend on the bound on iterations. -/
theorem C72_result_unique (H : Hidden S E tmp N) (hS : S.CallsTyped) (rt : CTy) (x : XStmt) (hx : x.typed rt = true) {s : SStmt} {k k' : Nat}
    (hs : trS tmp rt x k = some (s, k')) (hN : k' ≤ N) {m : Mem} {n1 n2 : Nat} {r1 r2 : End} {m1 m2 : Mem}
    (h1 : runX S rt n1 none x m = .done r1 m1) (h2 : runX S rt n2 none x m = .done r2 m2) :
    r1 = r2 ∧ ∀ b, S.valid b = true → m1 b = m2 b := by
  obtain ⟨s', k'', e, g⟩ := C72_rewritten_body_partial H hS rt x hx k
  rw [hs] at e
  cases e
  obtain ⟨a1, b1, c1⟩ := (g hN 0 n1 m m (fun _ _ => rfl)).1 _ _ h1
  obtain ⟨a2, b2, c2⟩ := (g hN 0 n2 m m (fun _ _ => rfl)).1 _ _ h2
  obtain ⟨rfl, rfl⟩ := Stm.Props.result_unique b1 b2
  exact ⟨rfl, fun b hb => (c1 b fun k => H.apart b k hb).trans (c2 b fun k => H.apart b k hb).symm⟩

/-! ### Example: `long y = 0; while (x) { y += x; x--; } return y;` with long x = 2, in a function returning int -/

open Toycc.Low.Props (exS exC exTmp ex_hidden ex_typed ex_typedC ex_cover sx)

def sy : SExpr := .var (.long false) (.loc (-16))
def eAdd : SExpr := .opAssign .add sy sx
def eDec : SExpr := .post false sx
def exB : XStmt := .seq (.items [.ini (.long false) (-16) (.num (.int false) 0)])
  (.seq (.loop [] (some sx) none (.seq (.items [.expr eAdd]) (.seq (.items [.expr eDec]) .skip))) (.seq (.ret (some sy)) .skip))
def exMem : Mem := writeN (writeN (fun _ => 0) 1016 8 2) 1008 8 77

theorem exB_typed : exB.typed (.int false) = true := by decide +kernel

def exVal (e : SExpr) (m : Mem) : Option Int := (evalX exS false e m).map (·.1)
def exAft (e : SExpr) (m : Mem) : Mem := ((evalX exS false e m).getD (0, m)).2
theorem ex_ev {e : SExpr} {m : Mem} {v : Int} (h : exVal e m = some v) : evalX exS false e m = some (v, exAft e m) := by
  unfold exVal at h
  unfold exAft
  cases hv : evalX exS false e m with
  | none => rw [hv] at h; cases h
  | some p => rw [hv] at h; cases h; rfl

def eIni : SExpr := .assign sy (.num (.int false) 0)
def m0 : Mem := exAft eIni (writeN exMem 1008 8 0)
def m1 : Mem := exAft eDec (exAft eAdd (exAft sx m0))
def m2 : Mem := exAft eDec (exAft eAdd (exAft sx m1))
def m3 : Mem := exAft (.cast (.int false) sy) (exAft sx m2)

/-- C: the body returns 2 + 1. -/
theorem exB_run : runX exS (.int false) 5 none exB exMem = .done (.ret (some 3)) m3 := by
  have i := ex_ev (show exVal eIni (writeN exMem 1008 8 0) = some 0 by decide +kernel)
  have t0 := ex_ev (show exVal sx m0 = some 2 by decide +kernel)
  have a0 := ex_ev (show exVal eAdd (exAft sx m0) = some 2 by decide +kernel)
  have d0 := ex_ev (show exVal eDec (exAft eAdd (exAft sx m0)) = some 2 by decide +kernel)
  have t1 := ex_ev (show exVal sx m1 = some 1 by decide +kernel)
  have a1 := ex_ev (show exVal eAdd (exAft sx m1) = some 3 by decide +kernel)
  have d1 := ex_ev (show exVal eDec (exAft eAdd (exAft sx m1)) = some 1 by decide +kernel)
  have t2 := ex_ev (show exVal sx m2 = some 0 by decide +kernel)
  have r := ex_ev (show exVal (.cast (.int false) sy) (exAft sx m2) = some 3 by decide +kernel)
  have hi : evI exS (.ini (.long false) (-16) (.num (.int false) 0)) exMem = some m0 := by
    unfold evI
    dsimp only
    rw [if_pos (by decide +kernel)]
    have : exS.fp + BitVec.ofInt 64 (-16) = 1008#64 := by decide
    rw [this]
    exact congrArg (Option.map (·.2)) i
  have e0 : evI exS (.expr eAdd) (exAft sx m0) = some (exAft eAdd (exAft sx m0)) := by rw [evI, a0, Option.map_some]
  have e1 : evI exS (.expr eDec) (exAft eAdd (exAft sx m0)) = some m1 := by rw [evI, d0, Option.map_some, m1]
  have e2 : evI exS (.expr eAdd) (exAft sx m1) = some (exAft eAdd (exAft sx m1)) := by rw [evI, a1, Option.map_some]
  have e3 : evI exS (.expr eDec) (exAft eAdd (exAft sx m1)) = some m2 := by rw [evI, d1, Option.map_some, m2]
  simp [runX, execX, exB, evIs, evCondX, hi, t0, e0, e1, t1, e2, e3, t2, r, Res.andThen, iterC, m3]

theorem ex_stack : ∀ b, idx 1008 b < 8 * exC.room → exC.valid b = false := by
  intro b h
  simp only [idx, exC, Cg.Props.exE, BitVec.toNat_sub, BitVec.toNat_ofNat, BitVec.ofNat_eq_ofNat] at h
  simp only [exC, decide_eq_false_iff_not]
  have := b.isLt
  omega

/-- What the parser makes of it, with two hidden variables. -/
theorem exB_tr : (trS exTmp (.int false) exB 0).isSome = true := by decide +kernel
def exTr : SStmt × Nat := (trS exTmp (.int false) exB 0).get exB_tr
theorem exTr_eq : trS exTmp (.int false) exB 0 = some exTr := (Option.some_get exB_tr).symm
theorem exTr_two : exTr.2 = 2 := by decide +kernel
theorem exTr_covered : Covered exTr.1 := ⟨by decide +kernel, by decide +kernel, by decide +kernel, by decide +kernel, by decide +kernel⟩
theorem exTr_room : Room exC 0 exTr.1 := by
  have : ∀ p ∈ exTr.1.uses, need p.2 ≤ 16 := by decide +kernel
  intro p hp
  rw [Nat.zero_add]
  exact this p hp

/-- All hypotheses of C72 are met: the code ends with 3 in a0. -/
example : ∃ code uid' gs' s', compileBody "f" 0 exTr.1 ⟨0, 0⟩ = some (code, uid', gs') ∧
    Runs code Cg.Props.nullEnv (0, Cg.Props.exSt exMem) (code.length, s') ∧ s'.r .a0 = 3 := by
  obtain ⟨code, uid', gs', h, -⟩ := compile_total exTr_covered "f" 0 ⟨0, 0⟩
  have hw : World exC 1008 Cg.Props.nullEnv code :=
    Cg.Props.world_closed (by decide) ex_stack (fun _ => rfl) (compile_labels h).1 (fun _ _ _ _ _ => rfl)
  obtain ⟨st, k', e, g⟩ := C72_body_partial ex_hidden ex_typed ex_typedC hw ex_cover (.int false) exB exB_typed 0
  have e' := Option.some.inj (exTr_eq.symm.trans e)
  have e1 : st = exTr.1 := by rw [e']
  have e2 : k' = 2 := by rw [← exTr_two, e']
  subst e1 e2
  obtain ⟨code', uid2, gs2, h', g⟩ := g (Nat.le_refl _) exTr_covered "f" 0 ⟨0, 0⟩ exTr_room
  rw [h] at h'
  cases h'
  obtain ⟨s', r, -, -, -, -, ha⟩ := (g exMem 0 (Cg.Props.exSt exMem) (codeAt_self code) (by decide) rfl (fun _ _ => rfl)).1 _ _ _ exB_run
  exact ⟨code, uid', gs', s', h, by rw [Nat.zero_add] at r; exact r, ha⟩

/-- `for (;;) ;` is typed and runs forever in C. -/
example (m : Mem) : (XStmt.loop [] none none .skip).typed .void = true ∧ ∀ n, runX exS .void n none (.loop [] none none .skip) m = .timeout := by
  refine ⟨rfl, ?_⟩
  have key : ∀ n m, execX exS .void n .void none (.loop [] none none .skip) m = .timeout := by
    intro n
    induction n with
    | zero => intro m; rw [execX]
    | succ n ih => intro m; rw [execX]; simp [evIs, evCondX, execX, iterC, ih]
  intro n
  rw [runX.eq_def, key]

end Toycc.Src.Props
