import Verif.Src.Model
import Verif.Low.Plain
import Verif.Stm.Sem
/-!
Specification: what C prescribes for function bodies (C11 6.8, with the values of expressions of Verif.Low.Spec), and which bodies are typed.
-/
namespace Toycc.Src
open Toycc.Rv Toycc.Cg Toycc.Low
open Toycc.Stm (Out Res Tgt End caseHolds iterC catchBrk)

/-- Execution of an item. The object of a declaration is zero before its initialiser is evaluated (C leaves its value indeterminate). -/
def evI (S : CEnv) : XI → Mem → Option Mem
  | .expr e, m => (evalX S false e m).map (·.2)
  | .var _, m => some m
  | .ini t off e, m =>
    let a := S.fp + BitVec.ofInt 64 off
    if S.ok a t.size then (evalX S false (.assign (.var t (.loc off)) e) (writeN m a t.size 0)).map (·.2) else none

def evIs (S : CEnv) : List XI → Mem → Option Mem
  | [], m => some m
  | i :: r, m => (evI S i m).bind (evIs S r)

/-- Value of a condition; an absent one holds. -/
def evCondX (S : CEnv) : Option SExpr → Mem → Option (Int × Mem)
  | none, m => some (1, m)
  | some e, m => evalX S false e m

/-- The promoted type of a controlling expression, C11 6.8.4.2p5. -/
def swTy (c : SExpr) : Ty :=
  match typeC c with
  | some t => match prom (c.vty t) with
    | some p => p.low
    | none => .void
  | none => .void

/-- Whether the target is inside the statement; `t` is the type of the enclosing switch. -/
def XStmt.has (t : Ty) (g : Tgt) : XStmt → Bool
  | .seq a b => a.has t g || b.has t g
  | .ifs _ a b => a.has t g || b.has t g
  | .loop _ _ _ b => b.has t g
  | .doW b _ => b.has t g
  | .switch _ b => match g with
    | .lab n => b.has t (.lab n)
    | _ => false
  | .case lo hi s => (match g with | .case v => caseHolds t lo hi v | _ => false) || s.has t g
  | .dflt s => (g == .dflt) || s.has t g
  | .label n s => (g == .lab n) || s.has t g
  | _ => false

/-- Execution with fuel `n`, which bounds the iterations of loops. `t`: promoted type of the enclosing switch; `en`: where to start; `rt`: the return
type of the function, to which a returned value is converted (C11 6.8.6.4p3). -/
def execX (S : CEnv) (rt : CTy) (n : Nat) (t : Ty) (en : Option Tgt) (s : XStmt) (m : Mem) : Res Out :=
  match s with
  | .skip => .done .normal m
  | .seq a b =>
    match en with
    | none => (execX S rt n t none a m).andThen fun m => execX S rt n t none b m
    | some g =>
      if a.has t g then (execX S rt n t (some g) a m).andThen fun m => execX S rt n t none b m
      else execX S rt n t (some g) b m
  | .items is =>
    match en with
    | none =>
      match evIs S is m with
      | some m => .done .normal m
      | none => .stuck
    | some _ => .done .normal m
  | .ifs c a b =>
    match en with
    | none =>
      match evalX S false c m with
      | some (v, m) => if v ≠ 0 then execX S rt n t none a m else execX S rt n t none b m
      | none => .stuck
    | some g => if a.has t g then execX S rt n t (some g) a m else execX S rt n t (some g) b m
  | .loop init c inc body =>
    match n with
    | 0 => .timeout
    | n + 1 =>
      let next : Mem → Res Out := fun m =>
        match evIs S (inc.toList.map .expr) m with
        | some m => execX S rt n t none (.loop [] c inc body) m
        | none => .stuck
      match en with
      | none =>
        match evIs S init m with
        | some m =>
          match evCondX S c m with
          | some (v, m) => if v ≠ 0 then iterC next (execX S rt (n + 1) t none body m) else .done .normal m
          | none => .stuck
        | none => .stuck
      | some g => iterC next (execX S rt (n + 1) t (some g) body m)
  | .doW body c =>
    match n with
    | 0 => .timeout
    | n + 1 =>
      let next : Mem → Res Out := fun m =>
        match evalX S false c m with
        | some (v, m) => if v ≠ 0 then execX S rt n t none (.doW body c) m else .done .normal m
        | none => .stuck
      iterC next (execX S rt (n + 1) t en body m)
  | .switch c body =>
    match en with
    | none =>
      match evalX S false c m with
      | some (v, m) =>
        if body.has (swTy c) (.case v) then catchBrk (execX S rt n (swTy c) (some (.case v)) body m)
        else if body.has (swTy c) .dflt then catchBrk (execX S rt n (swTy c) (some .dflt) body m)
        else .done .normal m
      | none => .stuck
    | some g => catchBrk (execX S rt n (swTy c) (some g) body m)
  | .case lo hi s =>
    match en with
    | some (.case v) => if caseHolds t lo hi v then execX S rt n t none s m else execX S rt n t (some (.case v)) s m
    | en => execX S rt n t en s m
  | .dflt s => if en = some .dflt then execX S rt n t none s m else execX S rt n t en s m
  | .label l s => if en = some (.lab l) then execX S rt n t none s m else execX S rt n t en s m
  | .goto l => .done (.goto l) m
  | .brk => .done .brk m
  | .cont => .done .cont m
  | .ret none => .done (.ret none) m
  | .ret (some e) =>
    match evalX S false (.cast rt e) m with
    | some (v, m) => .done (.ret (some v)) m
    | none => .stuck
termination_by (n, s)

/-- A function body: a `goto` continues at its label (C11 6.8.6.1). -/
def runX (S : CEnv) (rt : CTy) (n : Nat) (en : Option Tgt) (body : XStmt) (m : Mem) : Res End :=
  match execX S rt n .void en body m with
  | .timeout => .timeout
  | .done .normal m => .done .fell m
  | .done (.ret v) m => .done (.ret v) m
  | .done (.goto l) m =>
    match n with
    | 0 => .timeout
    | n + 1 => if body.has .void (.lab l) then runX S rt n (some (.lab l)) body m else .stuck
  | _ => .stuck

/-- An expression with a type, in the class of C53 and C54. -/
def okE (e : SExpr) : Bool := (typeC e).isSome && plain true e

/-- A controlling expression: it has a scalar type (C11 6.8.4.1p1, 6.8.5p2). -/
def okC (e : SExpr) : Bool :=
  plain true e && match typeC e with
    | some t => t.decay.scalar
    | none => false

/-- The controlling expression of a switch has an integer type (C11 6.8.4.2p1). -/
def okSw (e : SExpr) : Bool :=
  plain true e && match typeC e with
    | some t => t.isInt
    | none => false

def okI : XI → Bool
  | .expr e => okE e
  | .var _ => true
  | .ini t off e => t.scalar && okE (.assign (.var t (.loc off)) e)

/-- Typed bodies. -/
def XStmt.typed (rt : CTy) : XStmt → Bool
  | .seq a b => a.typed rt && b.typed rt
  | .items is => is.all okI
  | .ifs c a b => okC c && a.typed rt && b.typed rt
  | .loop init c inc body => init.all okI && c.toList.all okC && inc.toList.all okE && body.typed rt
  | .doW b c => okC c && b.typed rt
  | .switch c b => okSw c && b.typed rt
  | .case _ _ s => s.typed rt
  | .dflt s => s.typed rt
  | .label _ s => s.typed rt
  | .ret (some e) => okE (.cast rt e)
  | _ => true

end Toycc.Src
