import Verif.Stm.Model
/-!
Specification: execution of C statements (C11 6.8). `ev` evaluates expressions. Fuel bounds the number of loop iterations and
gotos; running out of it is `timeout`. A statement is entered at its start or at a label inside it.
-/
namespace Toycc.Stm
open Toycc.Rv Toycc.Cg

/-- What an expression is evaluated for (C itself does not care; see `evC`). -/
inductive Use where
  | value | test | switch | ret
  deriving DecidableEq, Repr

/-- An evaluator of expressions: value and new memory, `none` for undefined behaviour. -/
abbrev Ev := Use → Expr → Mem → Option (Int × Mem)

/-- C's evaluator. -/
def evC (E : CEnv) (d : Nat) : Ev := fun _ e m => evalC E false d e m

/-- How a statement ends: at its end, by `break`, `continue`, `goto`, `return`. -/
inductive Out where
  | normal | brk | cont | goto (n : String) | ret (v : Option Int)
  deriving DecidableEq, Repr

inductive Res (α : Type) where
  | timeout | stuck | done (o : α) (m : Mem)

/-- Where a statement is entered: a label, or the case label of the enclosing switch that a value selects, or `default`. -/
inductive Tgt where
  | lab (n : String) | case (v : Int) | dflt
  deriving DecidableEq, Repr

/-- C11 6.8.4.2p5: the case constants are converted to the promoted type `t` of the controlling expression. -/
def caseHolds (t : Ty) (lo hi v : Int) : Bool := decide (convC t lo ≤ v ∧ v ≤ convC t hi)

/-- Whether the target is inside the statement; `t` is the type of the enclosing switch. Case labels of inner switches do not
count. -/
def SStmt.has (t : Ty) (g : Tgt) : SStmt → Bool
  | .seq a b => a.has t g || b.has t g
  | .ifs _ a b => a.has t g || b.has t g
  | .loop _ _ _ b => b.has t g
  | .doW b _ => b.has t g
  | .switch _ b => match g with
    | .lab n => b.has t (.lab n)
    | _ => false
  | .case lo hi s => (match g with | .case v => caseHolds t lo hi v | _ => false) || s.has t g
  | .dflt s => (g == .dflt) || s.has t g
  | .label n s => (g == .lab n) || s.has t g
  | _ => false

/-- Continue with `f` after a normal end. -/
def Res.andThen (r : Res Out) (f : Mem → Res Out) : Res Out :=
  match r with
  | .done .normal m => f m
  | r => r

/-- Expression statements. -/
def evList (ev : Ev) : List Expr → Mem → Option Mem
  | [], m => some m
  | e :: r, m => (ev .value e m).bind fun p => evList ev r p.2

/-- Value of a condition; an absent one holds. -/
def evCond (ev : Ev) : Option Expr → Mem → Option (Int × Mem)
  | none, m => some (1, m)
  | some e, m => ev .test e m

/-- A `switch` ends at a `break` in its body. -/
def catchBrk : Res Out → Res Out
  | .done .brk m => .done .normal m
  | r => r

/-- The body of a loop has been executed: go on with `next`, also after `continue`; `break` ends the loop. -/
def iterC (next : Mem → Res Out) : Res Out → Res Out
  | .done .normal m => next m
  | .done .cont m => next m
  | .done .brk m => .done .normal m
  | r => r

/-- Execution with fuel `n`. `t`: promoted type of the enclosing switch; `en`: where to start. -/
def exec (ev : Ev) (n : Nat) (t : Ty) (en : Option Tgt) (s : SStmt) (m : Mem) : Res Out :=
  match s with
  | .skip => .done .normal m
  | .seq a b =>
    match en with
    | none => (exec ev n t none a m).andThen fun m => exec ev n t none b m
    | some g =>
      if a.has t g then (exec ev n t (some g) a m).andThen fun m => exec ev n t none b m
      else exec ev n t (some g) b m
  | .expr e =>
    match ev .value e m with
    | some (_, m) => .done .normal m
    | none => .stuck
  | .ifs c a b =>
    match en with
    | none =>
      match ev .test c m with
      | some (v, m) => if v ≠ 0 then exec ev n t none a m else exec ev n t none b m
      | none => .stuck
    | some g => if a.has t g then exec ev n t (some g) a m else exec ev n t (some g) b m
  | .loop init c inc body =>
    match n with
    | 0 => .timeout
    | n + 1 =>
      let next : Mem → Res Out := fun m =>
        match evList ev inc.toList m with
        | some m => exec ev n t none (.loop [] c inc body) m
        | none => .stuck
      match en with
      | none =>
        match evList ev init m with
        | some m =>
          match evCond ev c m with
          | some (v, m) => if v ≠ 0 then iterC next (exec ev (n + 1) t none body m) else .done .normal m
          | none => .stuck
        | none => .stuck
      | some g => iterC next (exec ev (n + 1) t (some g) body m)
  | .doW body c =>
    match n with
    | 0 => .timeout
    | n + 1 =>
      let next : Mem → Res Out := fun m =>
        match ev .test c m with
        | some (v, m) => if v ≠ 0 then exec ev n t none (.doW body c) m else .done .normal m
        | none => .stuck
      iterC next (exec ev (n + 1) t en body m)
  | .switch c body =>
    match en with
    | none =>
      match ev .switch c m with
      | some (v, m) =>
        let t := promote c.ty
        if body.has t (.case v) then catchBrk (exec ev n t (some (.case v)) body m)
        else if body.has t .dflt then catchBrk (exec ev n t (some .dflt) body m)
        else .done .normal m
      | none => .stuck
    | some g => catchBrk (exec ev n (promote c.ty) (some g) body m)
  | .case lo hi s =>
    match en with
    | some (.case v) => if caseHolds t lo hi v then exec ev n t none s m else exec ev n t (some (.case v)) s m
    | en => exec ev n t en s m
  | .dflt s => if en = some .dflt then exec ev n t none s m else exec ev n t en s m
  | .label l s => if en = some (.lab l) then exec ev n t none s m else exec ev n t en s m
  | .goto l => .done (.goto l) m
  | .brk => .done .brk m
  | .cont => .done .cont m
  | .ret none => .done (.ret none) m
  | .ret (some e) =>
    match ev .ret e m with
    | some (v, m) => .done (.ret (some v)) m
    | none => .stuck
termination_by (n, s)

/-- How a function body ends: at its closing brace, or by `return`, perhaps with a value. -/
inductive End where
  | fell | ret (v : Option Int)
  deriving DecidableEq, Repr

/-- A function body: a `goto` continues at its label (C11 6.8.6.1). -/
def run (ev : Ev) (n : Nat) (en : Option Tgt) (body : SStmt) (m : Mem) : Res End :=
  match exec ev n .void en body m with
  | .timeout => .timeout
  | .done .normal m => .done .fell m
  | .done (.ret v) m => .done (.ret v) m
  | .done (.goto l) m =>
    match n with
    | 0 => .timeout
    | n + 1 => if body.has .void (.lab l) then run ev n (some (.lab l)) body m else .stuck
  | _ => .stuck

end Toycc.Stm
