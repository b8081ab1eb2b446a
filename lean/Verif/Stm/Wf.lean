import Verif.Stm.Sem
/-!
Constraints on source statements, checkable on their own: those of C (C11 6.8.1p3, 6.8.4.2p3) and the two restrictions under which
toycc's case labels are right.
-/
namespace Toycc.Stm
open Toycc.Rv Toycc.Cg

/-- Names of the labels in a statement. -/
def SStmt.names : SStmt → List String
  | .seq a b => a.names ++ b.names
  | .ifs _ a b => a.names ++ b.names
  | .loop _ _ _ b => b.names
  | .doW b _ => b.names
  | .switch _ b => b.names
  | .case _ _ s => s.names
  | .dflt s => s.names
  | .label n s => n :: s.names
  | _ => []

/-- Names used in gotos. -/
def SStmt.gotos : SStmt → List String
  | .seq a b => a.gotos ++ b.gotos
  | .ifs _ a b => a.gotos ++ b.gotos
  | .loop _ _ _ b => b.gotos
  | .doW b _ => b.gotos
  | .switch _ b => b.gotos
  | .case _ _ s => s.gotos
  | .dflt s => s.gotos
  | .label _ s => s.gotos
  | .goto n => [n]
  | _ => []

/-- Case ranges of the enclosing switch in a statement. -/
def SStmt.cases : SStmt → List (Int × Int)
  | .seq a b => a.cases ++ b.cases
  | .ifs _ a b => a.cases ++ b.cases
  | .loop _ _ _ b => b.cases
  | .doW b _ => b.cases
  | .case lo hi s => (lo, hi) :: s.cases
  | .dflt s => s.cases
  | .label _ s => s.cases
  | _ => []

/-- Number of `default` labels of the enclosing switch. -/
def SStmt.defaults : SStmt → Nat
  | .seq a b => a.defaults + b.defaults
  | .ifs _ a b => a.defaults + b.defaults
  | .loop _ _ _ b => b.defaults
  | .doW b _ => b.defaults
  | .case _ _ s => s.defaults
  | .dflt s => s.defaults + 1
  | .label _ s => s.defaults
  | _ => 0

/-- Case labels that toycc handles: within int (a wider constant is truncated); for `unsigned int` not negative (i.e. not above
INT_MAX before conversion); for `unsigned long` not a range that changes sign. -/
def caseOk (t : Ty) (p : Int × Int) : Bool :=
  decide (-(2 ^ 31) ≤ p.1 ∧ p.1 ≤ p.2 ∧ p.2 < 2 ^ 31) &&
  match t with
  | .int false | .long false | .enum => true
  | .int true => decide (0 ≤ p.1)
  | .long true => decide (0 ≤ p.1 ∨ p.2 < 0)
  | _ => false

/-- C11 6.8.4.2p3: after conversion, the case constants of a switch are distinct. -/
def apart (t : Ty) (p q : Int × Int) : Prop := convC t p.2 < convC t q.1 ∨ convC t q.2 < convC t p.1

instance (t p q) : Decidable (apart t p q) := inferInstanceAs (Decidable (_ ∨ _))

/-- The constraints on every switch inside. -/
def SStmt.switchesOk : SStmt → Bool
  | .seq a b => a.switchesOk && b.switchesOk
  | .ifs _ a b => a.switchesOk && b.switchesOk
  | .loop _ _ _ b => b.switchesOk
  | .doW b _ => b.switchesOk
  | .switch c b => b.switchesOk && b.cases.all (caseOk (promote c.ty)) && decide (b.cases.Pairwise (apart (promote c.ty))) &&
      decide (b.defaults ≤ 1)
  | .case _ _ s => s.switchesOk
  | .dflt s => s.switchesOk
  | .label _ s => s.switchesOk
  | _ => true

/-- `case` and `default` are inside a switch, `break` and `continue` inside a loop (or switch), and no case range is empty. -/
def SStmt.placed (sw brk cont : Bool) : SStmt → Bool
  | .seq a b => a.placed sw brk cont && b.placed sw brk cont
  | .ifs _ a b => a.placed sw brk cont && b.placed sw brk cont
  | .loop _ _ _ b => b.placed sw true true
  | .doW b _ => b.placed sw true true
  | .switch _ b => b.placed true true cont
  | .case lo hi s => sw && decide (convC (.int false) lo ≤ convC (.int false) hi) && s.placed sw brk cont
  | .dflt s => sw && s.placed sw brk cont
  | .label _ s => s.placed sw brk cont
  | .brk => brk
  | .cont => cont
  | _ => true

end Toycc.Stm
