import Verif.Stex.Main
/-! C95: statement expressions. -/
namespace Toycc.Stex
variable {σ : Type}

/-- A body that ends according to the specification ends in the compiled function, at the epilogue, with the same memory and, if it returned, its value. If it ran to its end the stack of operands is
what it was. Statement expressions may be nested in any way with operators, conditions and loops, and return may leave them anywhere. Partial (`CalmS`): break and continue must not leave an operand
while another one is on the stack (`stack_grows`, `operand_lost`), nor the condition of a `for` (`for_condition_wrong`). -/
theorem C95_body_partial (s : Stmt σ) (n : Nat) (m : σ) (r : R Unit) (m' : σ) (hc : CalmS false false s) (h : execS n s m = some (r, m')) (a : Int) (stk : List Int) :
    (∃ a', r = .done () ∧ Steps (gen s) ⟨0, a, stk, m⟩ ⟨(gen s).length - 1, a', stk, m'⟩) ∨
    (∃ v stk', r = .ret v ∧ Steps (gen s) ⟨0, a, stk, m⟩ ⟨(gen s).length - 1, v, stk', m'⟩) := by
  have hat : At (gen s) 0 (genS 0 .ret .ret s ++ [.label .ret]) := ⟨[], [], by simp [gen], rfl⟩
  have hr := hat.right.find (gen_nodup s)
  have hl : (gen s).length - 1 = 0 + (genS 0 .ret .ret s).length := by simp [gen]
  have := (sim (gen s) _ (gen_nodup s) hr n).s s m r m' h false false hc 0 .ret .ret 0 a stk hat.left
  rw [hl]
  cases r with
  | done u =>
    obtain ⟨a', h1⟩ := this
    exact .inl ⟨a', rfl, h1⟩
  | brk => exact nomatch this.1
  | cont => exact nomatch this.1
  | ret v =>
    obtain ⟨k, h1⟩ := this
    exact .inr ⟨v, k, rfl, h1⟩

/-- At every place of a function, the code of an expression leaves the value in a0 and the stack of operands as it was. Partial as `C95_body_partial`. -/
theorem C95_expression_partial (s : Stmt σ) (e : Expr σ) (b d : Bool) (n : Nat) (m m' : σ) (v : Int) (hc : CalmE b d e) (h : evalE n e m = some (.done v, m')) (k pc : Nat) (B C : Lbl) (pre post : List (Instr σ))
    (hp : gen s = pre ++ (genE k B C e ++ post)) (hpc : pre.length = pc) (a : Int) (stk : List Int) :
    Steps (gen s) ⟨pc, a, stk, m⟩ ⟨pc + (genE k B C e).length, v, stk, m'⟩ := by
  have hat : At (gen s) 0 (genS 0 .ret .ret s ++ [.label .ret]) := ⟨[], [], by simp [gen], rfl⟩
  exact (sim (gen s) _ (gen_nodup s) (hat.right.find (gen_nodup s)) n).e e m _ m' h b d hc k B C pc a stk ⟨pre, post, hp, hpc⟩

/-! ### Examples: memory is one variable -/

def num (v : Int) : Expr Int := .leaf (fun m => (v, m))
def var : Expr Int := .leaf (fun m => (m, m))
def dec : Expr Int := .leaf (fun m => (m - 1, m - 1))
def add (l r : Expr Int) : Expr Int := .rl (fun a b m => (a + b, m)) l r
def eq (l r : Expr Int) : Expr Int := .rl (fun a b m => (if a = b then 1 else 0, m)) l r
/-- `x = e`, where 4096 is the address of `x`. -/
def asg (e : Expr Int) : Expr Int := .lr (fun v _ _ => (v, v)) (num 4096) e
def list : List (Stmt Int) → Stmts Int
  | [] => .nil
  | s :: r => .cons s (list r)

/-- `return 1 + ({ while (x) { x--; if (x == 2) break; else continue; } if (x == 0) return 100 + ({ return 50; 1; }); x; });` -/
def ex : Stmt Int := .ret (add (num 1) (.stx (list [.loop true var (.block (list [.expr dec, .ite (eq var (num 2)) .brk .cont])) (num 0),
  .ite (eq var (num 0)) (.ret (add (num 100) (.stx (list [.ret (num 50), .expr (num 1)])))) (.block .nil), .expr var])))

theorem ex_calm : CalmS false false ex := by simp [ex, CalmS, CalmE, CalmSS, list, add, eq, num, var, dec]

/-- From 5: 1 + 2. -/
example : ∃ stk', Steps (gen ex) ⟨0, 0, [], 5⟩ ⟨(gen ex).length - 1, 3, stk', 2⟩ := by
  rcases C95_body_partial ex 60 5 (.ret 3) 2 ex_calm rfl 0 [] with ⟨_, h, _⟩ | ⟨v, k, h, h1⟩
  · cases h
  · cases h; exact ⟨k, h1⟩

/-- From 1: the inner return. -/
example : ∃ stk', Steps (gen ex) ⟨0, 0, [], 1⟩ ⟨(gen ex).length - 1, 50, stk', 0⟩ := by
  rcases C95_body_partial ex 60 1 (.ret 50) 0 ex_calm rfl 0 [] with ⟨_, h, _⟩ | ⟨v, k, h, h1⟩
  · cases h
  · cases h; exact ⟨k, h1⟩

/-- `while (1) { do { x--; if (x == 3) continue; else ; } while (({ if (x == 3) break; else ; x; })); return 9; } return x;`: the break in the condition of `do` is for `while`. -/
def exDo : Stmt Int := .block (list [.loop true (num 1) (.block (list [.dow (.block (list [.expr dec, .ite (eq var (num 3)) .cont (.block .nil)]))
  (.stx (list [.ite (eq var (num 3)) .brk (.block .nil), .expr var])), .ret (num 9)])) (num 0), .ret var])

theorem exDo_calm : CalmS false false exDo := by simp [exDo, CalmS, CalmE, CalmSS, list, eq, num, var, dec]

example : ∃ stk', Steps (gen exDo) ⟨0, 0, [], 5⟩ ⟨(gen exDo).length - 1, 3, stk', 3⟩ := by
  rcases C95_body_partial exDo 60 5 (.ret 3) 3 exDo_calm rfl 0 [] with ⟨_, h, _⟩ | ⟨v, k, h, h1⟩
  · cases h
  · cases h; exact ⟨k, h1⟩

/-- From 2: the condition ends the inner loop. -/
example : ∃ stk', Steps (gen exDo) ⟨0, 0, [], 2⟩ ⟨(gen exDo).length - 1, 9, stk', 0⟩ := by
  rcases C95_body_partial exDo 60 2 (.ret 9) 0 exDo_calm rfl 0 [] with ⟨_, h, _⟩ | ⟨v, k, h, h1⟩
  · cases h
  · cases h; exact ⟨k, h1⟩

def cases : List (Option Int × List (Stmt Int)) → Cases Int
  | [] => .nil
  | (v, ss) :: r => .cons v (list ss) (cases r)

/-- `while (1) { switch (--x) { case 3: continue; default: return 7; case 2: x = x + 10; case 9: break; } return x; }` -/
def exSw : Stmt Int := .loop true (num 1) (.block (list [.sw dec (cases [(some 3, [.cont]), (none, [.ret (num 7)]), (some 2, [.expr (asg (add var (num 10)))]), (some 9, [.brk])]), .ret var])) (num 0)

theorem exSw_calm : CalmS false false exSw := by simp [exSw, CalmS, CalmE, CalmSS, CalmC, caseLabels, cases, list, asg, add, num, var, dec]

/-- From 4: case 3 goes to the loop, case 2 falls through to case 9. -/
example : ∃ stk', Steps (gen exSw) ⟨0, 0, [], 4⟩ ⟨(gen exSw).length - 1, 12, stk', 12⟩ := by
  rcases C95_body_partial exSw 60 4 (.ret 12) 12 exSw_calm rfl 0 [] with ⟨_, h, _⟩ | ⟨v, k, h, h1⟩
  · cases h
  · cases h; exact ⟨k, h1⟩

/-- From 1: default. -/
example : ∃ stk', Steps (gen exSw) ⟨0, 0, [], 1⟩ ⟨(gen exSw).length - 1, 7, stk', 0⟩ := by
  rcases C95_body_partial exSw 60 1 (.ret 7) 0 exSw_calm rfl 0 [] with ⟨_, h, _⟩ | ⟨v, k, h, h1⟩
  · cases h
  · cases h; exact ⟨k, h1⟩

/-! ### Where the code does not have the property -/

def runN (prog : List (Instr σ)) : Nat → St σ → Option (St σ)
  | 0, s => some s
  | n + 1, s => match step prog s with
    | none => none
    | some s1 => runN prog n s1

theorem steps_of_runN {prog : List (Instr σ)} : ∀ (n : Nat) (s s' : St σ), runN prog n s = some s' → Steps prog s s'
  | 0, s, s', h => by simp only [runN, Option.some.injEq] at h; subst h; exact .refl _
  | n + 1, s, s', h => by
    rw [runN] at h
    split at h
    · cases h
    · rename_i s1 h1; exact .head h1 (steps_of_runN n s1 s' h)

/-- `while (x) x = ({ x--; continue; 2; });` -/
def leak : Stmt Int := .loop true var (.expr (asg (.stx (list [.expr dec, .cont, .expr (num 2)])))) (num 0)

theorem leak_body (n : Nat) (m : Int) : execS (n + 10) (.expr (asg (.stx (list [.expr dec, .cont, .expr (num 2)])))) m = some (.cont, m - 1) := rfl

theorem leak_source : ∀ k j : Nat, execS (k + j + 11) leak (k : Int) = some (.done (), 0)
  | 0, j => rfl
  | k + 1, j => by
    have e : k + 1 + j + 11 = (k + j + 11) + 1 := by omega
    have h1 : evalE (k + j + 11) var ((k + 1 : Nat) : Int) = some (.done ((k + 1 : Nat) : Int), ((k + 1 : Nat) : Int)) := rfl
    have h2 := leak_body (k + j + 1) ((k + 1 : Nat) : Int)
    have h3 : ((k + 1 : Nat) : Int) - 1 = k := by omega
    have h4 : evalE (k + j + 11) (num 0) (k : Int) = some (.done 0, (k : Int)) := rfl
    have ih := leak_source k j
    rw [e, leak, execS, h1]
    simp only [andThen]
    rw [if_neg (by omega), show k + j + 11 = k + j + 1 + 10 by omega, h2, h3]
    simp only
    rw [show k + j + 1 + 10 = k + j + 11 by omega, h4]
    exact ih

theorem leak_machine (k : Nat) : ∀ (stk : List Int) (a : Int), ∃ a', Steps (gen leak) ⟨0, a, stk, (k : Int)⟩ ⟨(gen leak).length - 1, a', List.replicate k 4096 ++ stk, 0⟩ := by
  induction k with
  | zero => intro stk a; exact ⟨0, steps_of_runN 4 _ _ rfl⟩
  | succ k ih =>
    intro stk a
    obtain ⟨a', h⟩ := ih (4096 :: stk) 0
    refine ⟨a', ?_⟩
    have e : List.replicate (k + 1) (4096 : Int) ++ stk = List.replicate k 4096 ++ (4096 :: stk) := by
      rw [List.replicate_succ']; simp
    rw [e]
    refine Steps.trans ?_ h
    have h1 : Steps (gen leak) ⟨0, a, stk, ((k + 1 : Nat) : Int)⟩ ⟨2, ((k + 1 : Nat) : Int), stk, ((k + 1 : Nat) : Int)⟩ := steps_of_runN 2 _ _ rfl
    have hj : At (gen leak) 2 [.jz (.brk 0)] := ⟨(gen leak).take 2, (gen leak).drop 3, rfl, rfl⟩
    have h2 : Steps (gen leak) ⟨3, ((k + 1 : Nat) : Int), stk, ((k + 1 : Nat) : Int)⟩ ⟨0, 0, 4096 :: stk, ((k + 1 : Nat) : Int) - 1⟩ := steps_of_runN 7 _ _ rfl
    have h3 : ((k + 1 : Nat) : Int) - 1 = k := by omega
    rw [h3] at h2
    exact Steps.trans (Steps.trans h1 (s_nz hj (by omega))) h2

/-- The source ends after `k` rounds, and the compiled code too; but every round leaves the address of `x` on the stack, which grows without bound. -/
theorem stack_grows (k : Nat) : execS (k + 11) leak (k : Int) = some (.done (), 0) ∧
    ∃ a', Steps (gen leak) ⟨0, 0, [], (k : Int)⟩ ⟨(gen leak).length - 1, a', List.replicate k 4096, 0⟩ := by
  refine ⟨leak_source k 0, ?_⟩
  obtain ⟨a', h⟩ := leak_machine k [] 0
  exact ⟨a', by simpa using h⟩

/-- `return ({ while (1) x = ({ break; 2; }); 5; }) + 7;` -/
def lost : Stmt Int := .ret (add (.stx (list [.loop true (num 1) (.expr (asg (.stx (list [.brk, .expr (num 2)])))) (num 0), .expr (num 5)])) (num 7))

/-- The result should be 12, but the address that break left on the stack is taken for the right operand. -/
theorem operand_lost : execS 20 lost 0 = some (.ret 12, 0) ∧ Steps (gen lost) ⟨0, 0, [], 0⟩ ⟨(gen lost).length - 1, 4101, [7], 0⟩ :=
  ⟨rfl, steps_of_runN 12 _ _ rfl⟩

/-- `while (1) { for (; ({ break; 1; }); ) ; x = 1; break; }` -/
def forCond : Stmt Int := .loop true (num 1) (.block (list [.loop false (.stx (list [.brk, .expr (num 1)])) (.block .nil) (num 0), .expr (asg (num 1)), .brk])) (num 0)

/-- By the manual of GCC the first break leaves the outer loop; in toycc it leaves the inner one. -/
theorem for_condition_wrong : execS 20 forCond 0 = some (.done (), 0) ∧ ∃ a, Steps (gen forCond) ⟨0, 0, [], 0⟩ ⟨(gen forCond).length - 1, a, [], 1⟩ :=
  ⟨rfl, 1, steps_of_runN 12 _ _ rfl⟩

end Toycc.Stex
