import Verif.Stm.Sem
/-!
Execution of statement nodes, where labels are already resolved: an intermediate step between C statements (Verif.Stm.Sem) and
the machine.
-/
namespace Toycc.Stm
open Toycc.Rv Toycc.Cg

inductive OutR where
  | normal | jump (l : Label) | ret (v : Option Int)
  deriving DecidableEq, Repr

/-- The label is attached to a statement inside. -/
def Stmt.defs (l : Label) : Stmt → Bool
  | .seq a b => a.defs l || b.defs l
  | .ifs _ a b => a.defs l || b.defs l
  | .loop _ _ _ b _ _ => b.defs l
  | .doW b _ _ _ => b.defs l
  | .switch _ _ _ b _ => b.defs l
  | .label l' s => (l == l') || s.defs l
  | _ => false

/-- The 64-bit comparison of `caseTest`. -/
def Case.holds (v : Int) (c : Case) : Bool := decide ((v - c.lo) % 2 ^ 64 ≤ (c.hi - c.lo) % 2 ^ 64)

/-- Where a switch goes. -/
def dispatch (v : Int) (cs : List Case) (d : Option Label) (b : Label) : Label :=
  match cs.find? (Case.holds v) with
  | some c => c.lbl
  | none => d.getD b

def catchJump (b : Label) : Res OutR → Res OutR
  | .done (.jump l) m => if l = b then .done .normal m else .done (.jump l) m
  | r => r

def Res.seqR (r : Res OutR) (f : Mem → Res OutR) : Res OutR :=
  match r with
  | .done .normal m => f m
  | r => r

/-- The end of an iteration: `next` after a normal end and after a jump to `k`. -/
def iterR (b k : Label) (next : Mem → Res OutR) : Res OutR → Res OutR
  | .done .normal m => next m
  | .done (.jump l) m => if l = k then next m else if l = b then .done .normal m else .done (.jump l) m
  | r => r

def execR (ev : Ev) (n : Nat) (en : Option Label) (s : Stmt) (m : Mem) : Res OutR :=
  match s with
  | .skip => .done .normal m
  | .seq a b =>
    match en with
    | none => (execR ev n none a m).seqR fun m => execR ev n none b m
    | some g =>
      if a.defs g then (execR ev n (some g) a m).seqR fun m => execR ev n none b m
      else execR ev n (some g) b m
  | .expr e =>
    match ev .value e m with
    | some (_, m) => .done .normal m
    | none => .stuck
  | .ifs c a b =>
    match en with
    | none =>
      match ev .test c m with
      | some (v, m) => if v ≠ 0 then execR ev n none a m else execR ev n none b m
      | none => .stuck
    | some g => if a.defs g then execR ev n (some g) a m else execR ev n (some g) b m
  | .loop init c inc body b k =>
    match n with
    | 0 => .timeout
    | n + 1 =>
      let next : Mem → Res OutR := fun m =>
        match evList ev inc.toList m with
        | some m => execR ev n none (.loop [] c inc body b k) m
        | none => .stuck
      match en with
      | none =>
        match evList ev init m with
        | some m =>
          match evCond ev c m with
          | some (v, m) => if v ≠ 0 then iterR b k next (execR ev (n + 1) none body m) else .done .normal m
          | none => .stuck
        | none => .stuck
      | some g => iterR b k next (execR ev (n + 1) (some g) body m)
  | .doW body c b k =>
    match n with
    | 0 => .timeout
    | n + 1 =>
      let next : Mem → Res OutR := fun m =>
        match ev .test c m with
        | some (v, m) => if v ≠ 0 then execR ev n none (.doW body c b k) m else .done .normal m
        | none => .stuck
      iterR b k next (execR ev (n + 1) en body m)
  | .switch c cs d body b =>
    match en with
    | none =>
      match ev .switch c m with
      | some (v, m) =>
        if dispatch v cs d b = b then .done .normal m
        else if body.defs (dispatch v cs d b) then catchJump b (execR ev n (some (dispatch v cs d b)) body m)
        else .stuck
      | none => .stuck
    | some g => catchJump b (execR ev n (some g) body m)
  | .label l s => if en = some l then execR ev n none s m else execR ev n en s m
  | .goto (.lab l) => .done (.jump l) m
  | .goto (.name _) => .stuck
  | .ret none => .done (.ret none) m
  | .ret (some e) =>
    match ev .ret e m with
    | some (v, m) => .done (.ret (some v)) m
    | none => .stuck
termination_by (n, s)

/-- A whole body. -/
def runR (ev : Ev) (n : Nat) (en : Option Label) (body : Stmt) (m : Mem) : Res End :=
  match execR ev n en body m with
  | .timeout => .timeout
  | .done .normal m => .done .fell m
  | .done (.ret v) m => .done (.ret v) m
  | .done (.jump l) m =>
    match n with
    | 0 => .timeout
    | n + 1 => if body.defs l then runR ev n (some l) body m else .stuck
  | .stuck => .stuck

end Toycc.Stm
