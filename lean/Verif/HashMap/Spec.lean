import Verif.HashMap.Model
/-! Specification of a map from keys to values, independent of hashing. -/
namespace Toycc.HashMap
variable {V : Type}

/-- Effect of one operation on a mathematical finite map. -/
def specStep (f : Key → Option V) : Op V → (Key → Option V)
  | .put k v => fun q => if q = k then some v else f q
  | .del k => fun q => if q = k then none else f q

/-- The mathematical map after a history, starting from `f`. -/
def specFrom (f : Key → Option V) (ops : List (Op V)) : Key → Option V := ops.foldl specStep f

/-- The mathematical map after a history on a new map. -/
def spec (ops : List (Op V)) : Key → Option V := specFrom (fun _ => none) ops

/-- No operation of the history is a deletion. -/
def DeleteFree (ops : List (Op V)) : Prop := ∀ k, Op.del k ∉ ops

/-- Once a deletion has happened, keys are only put while they are absent
(a macro is only redefined after an #undef). -/
def Disciplined (deleted : Bool) (f : Key → Option V) : List (Op V) → Prop
  | [] => True
  | .put k v :: r => (deleted = true → f k = none) ∧ Disciplined deleted (specStep f (.put k v)) r
  | .del k :: r => Disciplined true (specStep f (.del k)) r

end Toycc.HashMap
