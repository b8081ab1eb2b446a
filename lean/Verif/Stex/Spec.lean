import Verif.Stex.Model
/-!
Specification: GNU C's statement expressions. The value is that of the last expression statement; break, continue and return leave the expressions around; in the condition and the increment of a loop, break and
continue are for the loop around it (GCC manual, "Statement Expressions").
-/
namespace Toycc.Stex
variable {σ : Type}

/-- How an evaluation ends. -/
inductive R (α : Type) where
  | done (a : α)
  | brk
  | cont
  | ret (v : Int)

def andThen {α β : Type} : Option (R α × σ) → (α → σ → Option (R β × σ)) → Option (R β × σ)
  | none, _ => none
  | some (.done a, m), f => f a m
  | some (.brk, m), _ => some (.brk, m)
  | some (.cont, m), _ => some (.cont, m)
  | some (.ret v, m), _ => some (.ret v, m)

/-- The labels of a switch; `none` is default. -/
def caseLabels : Cases σ → List (Option Int)
  | .nil => []
  | .cons v _ r => v :: caseLabels r

/-- What follows a label. -/
def from? (v : Option Int) : Cases σ → Option (Cases σ)
  | .nil => none
  | .cons u ss r => if u = v then some (.cons u ss r) else from? v r

/-- 6.8.4.2p5: where the switch goes on for the value `v`. -/
def chosen (v : Int) (cs : Cases σ) : Cases σ :=
  match from? (some v) cs with
  | some c => c
  | none => match from? none cs with
    | some c => c
    | none => .nil

mutual
/-- Evaluation within `n` steps. -/
def evalE : Nat → Expr σ → σ → Option (R Int × σ)
  | 0, _, _ => none
  | _ + 1, .leaf g, m => some (.done (g m).1, (g m).2)
  | n + 1, .una f e, m => andThen (evalE n e m) fun v m => some (.done (f v m).1, (f v m).2)
  | n + 1, .rl f l r, m => andThen (evalE n r m) fun b m => andThen (evalE n l m) fun a m => some (.done (f a b m).1, (f a b m).2)
  | n + 1, .lr f l r, m => andThen (evalE n l m) fun a m => andThen (evalE n r m) fun b m => some (.done (f b a m).1, (f b a m).2)
  | n + 1, .cond c a b, m => andThen (evalE n c m) fun v m => if v = 0 then evalE n b m else evalE n a m
  | n + 1, .stx ss, m => evalLast n ss m
/-- The statements in order; the value of the last one, which must be an expression. -/
def evalLast : Nat → Stmts σ → σ → Option (R Int × σ)
  | 0, _, _ => none
  | _ + 1, .nil, _ => none
  | n + 1, .cons (.expr e) .nil, m => evalE n e m
  | _ + 1, .cons _ .nil, _ => none
  | n + 1, .cons s (.cons s' r), m => andThen (execS n s m) fun _ m => evalLast n (.cons s' r) m
def execS : Nat → Stmt σ → σ → Option (R Unit × σ)
  | 0, _, _ => none
  | n + 1, .expr (.stx ss), m => execSS n ss m
  | n + 1, .expr e, m => andThen (evalE n e m) fun _ m => some (.done (), m)
  | n + 1, .block ss, m => execSS n ss m
  | n + 1, .ite c a b, m => andThen (evalE n c m) fun v m => if v = 0 then execS n b m else execS n a m
  | n + 1, .loop w c s i, m => andThen (evalE n c m) fun v m =>
      if v = 0 then some (.done (), m) else match execS n s m with
        | none => none
        | some (.brk, m) => some (.done (), m)
        | some (.ret v, m) => some (.ret v, m)
        | some (.cont, m) => andThen (evalE n i m) fun _ m => execS n (.loop w c s i) m
        | some (.done _, m) => andThen (evalE n i m) fun _ m => execS n (.loop w c s i) m
  | n + 1, .dow s c, m => match execS n s m with
      | none => none
      | some (.brk, m) => some (.done (), m)
      | some (.ret v, m) => some (.ret v, m)
      | some (.cont, m) => andThen (evalE n c m) fun v m => if v = 0 then some (.done (), m) else execS n (.dow s c) m
      | some (.done _, m) => andThen (evalE n c m) fun v m => if v = 0 then some (.done (), m) else execS n (.dow s c) m
  | n + 1, .sw e cs, m => andThen (evalE n e m) fun v m => match execC n (chosen v cs) m with
      | none => none
      | some (.brk, m) => some (.done (), m)
      | some (.ret v, m) => some (.ret v, m)
      | some (.cont, m) => some (.cont, m)
      | some (.done _, m) => some (.done (), m)
  | _ + 1, .brk, m => some (.brk, m)
  | _ + 1, .cont, m => some (.cont, m)
  | n + 1, .ret e, m => andThen (evalE n e m) fun v m => some (.ret v, m)
def execSS : Nat → Stmts σ → σ → Option (R Unit × σ)
  | 0, _, _ => none
  | _ + 1, .nil, m => some (.done (), m)
  | n + 1, .cons s r, m => andThen (execS n s m) fun _ m => execSS n r m
/-- The statements after a label and, without break, those after the next ones. -/
def execC : Nat → Cases σ → σ → Option (R Unit × σ)
  | 0, _, _ => none
  | _ + 1, .nil, m => some (.done (), m)
  | n + 1, .cons _ ss r, m => andThen (execSS n ss m) fun _ m => execC n r m
end

mutual
/-- `CalmE b d e`: `b` and `d` say whether break and continue may leave `e`. They must not leave the second operand of an operator, nor the condition and increment of a `for` loop. The labels
of a switch are different (6.8.4.2p3). -/
def CalmE (b d : Bool) : Expr σ → Prop
  | .leaf _ => True
  | .una _ e => CalmE b d e
  | .rl _ l r => CalmE b d r ∧ CalmE false false l
  | .lr _ l r => CalmE b d l ∧ CalmE false false r
  | .cond c x y => CalmE b d c ∧ CalmE b d x ∧ CalmE b d y
  | .stx ss => CalmSS b d ss
def CalmS (b d : Bool) : Stmt σ → Prop
  | .expr e => CalmE b d e
  | .block ss => CalmSS b d ss
  | .ite c x y => CalmE b d c ∧ CalmS b d x ∧ CalmS b d y
  | .loop w c s i => CalmE (w && b) (w && d) c ∧ CalmS true true s ∧ CalmE (w && b) (w && d) i
  | .dow s c => CalmS true true s ∧ CalmE b d c
  | .sw e cs => CalmE b d e ∧ (caseLabels cs).Nodup ∧ CalmC d cs
  | .brk => b = true
  | .cont => d = true
  | .ret e => CalmE b d e
def CalmSS (b d : Bool) : Stmts σ → Prop
  | .nil => True
  | .cons s r => CalmS b d s ∧ CalmSS b d r
def CalmC (d : Bool) : Cases σ → Prop
  | .nil => True
  | .cons _ ss r => CalmSS true d ss ∧ CalmC d r
end

end Toycc.Stex
