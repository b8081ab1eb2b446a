/-!
Statement expressions `({ … })` and jumps out of them: gen_expr and gen_stmt (codegen.c) as far as they use the stack of operands and labels.
Memory is any type `σ`. Everything that evaluates without jumping, and what an operator computes, is a parameter of the node (C38, C40 are about these).
Simplified: values are integers of any size; break and continue labels are numbered by the counter of codegen.c instead of that of the parser (that labels are distinct is C47); the body of a
switch is a sequence of labels and statements, without case ranges; goto is left out.
-/
namespace Toycc.Stex

mutual
/-- Expressions. `leaf`: no operand on the stack, no jump. -/
inductive Expr (σ : Type) where
  | leaf (g : σ → Int × σ)
  | una (f : Int → σ → Int × σ) (e : Expr σ)
  | rl (f : Int → Int → σ → Int × σ) (l r : Expr σ)     -- arithmetic: the right operand is evaluated first
  | lr (f : Int → Int → σ → Int × σ) (l r : Expr σ)     -- assignment: the address on the left first
  | cond (c a b : Expr σ)
  | stx (ss : Stmts σ)
/-- Statements. `loop w c s i`: `while (c) s` if `w` (then `i` is void), else `for (; c; i) s`. -/
inductive Stmt (σ : Type) where
  | expr (e : Expr σ)
  | block (ss : Stmts σ)
  | ite (c : Expr σ) (a b : Stmt σ)
  | loop (w : Bool) (c : Expr σ) (s : Stmt σ) (i : Expr σ)
  | dow (s : Stmt σ) (c : Expr σ)     -- do s while (c);
  | sw (e : Expr σ) (cs : Cases σ)
  | brk
  | cont
  | ret (e : Expr σ)
inductive Stmts (σ : Type) where
  | nil
  | cons (s : Stmt σ) (r : Stmts σ)
/-- `case v: ss`, or `default: ss`, and what follows. -/
inductive Cases (σ : Type) where
  | nil
  | cons (v : Option Int) (ss : Stmts σ) (r : Cases σ)
end

inductive Lbl where
  | els (k : Nat) | fin (k : Nat) | begin (k : Nat) | brk (k : Nat) | cont (k : Nat) | case (k i : Nat) | ret
  deriving DecidableEq

/-- Instructions, or short sequences of them. The result of an expression is in a0. -/
inductive Instr (σ : Type) where
  | prim (g : σ → Int × σ)
  | un (f : Int → σ → Int × σ)
  | push
  | pop (f : Int → Int → σ → Int × σ)     -- pop("a1"), and the operator on a0 and a1
  | jz (L : Lbl)                          -- cmp_zero and bnez
  | jnz (L : Lbl)                         -- cmp_zero and beqz
  | jeq (v : Int) (L : Lbl)               -- li a1, v and beq
  | j (L : Lbl)
  | label (L : Lbl)

variable {σ : Type}

mutual
/-- How often count() is called. -/
def cntE : Expr σ → Nat
  | .leaf _ => 0
  | .una _ e => cntE e
  | .rl _ l r => cntE r + cntE l
  | .lr _ l r => cntE l + cntE r
  | .cond c a b => 1 + cntE c + cntE a + cntE b
  | .stx ss => cntSS ss
def cntS : Stmt σ → Nat
  | .expr e => cntE e
  | .block ss => cntSS ss
  | .ite c a b => 1 + cntE c + cntS a + cntS b
  | .loop _ c s i => 1 + cntE c + cntS s + cntE i
  | .dow s c => 1 + cntS s + cntE c
  | .sw e cs => 1 + cntE e + cntC cs
  | .brk => 0
  | .cont => 0
  | .ret e => cntE e
def cntSS : Stmts σ → Nat
  | .nil => 0
  | .cons s r => cntS s + cntSS r
def cntC : Cases σ → Nat
  | .nil => 0
  | .cons _ ss r => cntSS ss + cntC r
end

/-- The label that ND_CASE has for `v` (parser/parser.c:1206-1240), as its index, counted from `i`; `none` is default. -/
def caseIdx (v : Option Int) : Cases σ → Nat → Option Nat
  | .nil, _ => none
  | .cons u _ r, i => if u = v then some i else caseIdx v r (i + 1)

/-- The comparisons of a switch, codegen.c:1710-1715: the parser has put each case before those already there (parser/parser.c:1218-1219). -/
def disp (k : Nat) : Cases σ → Nat → List (Instr σ)
  | .nil, _ => []
  | .cons (some v) _ r, i => disp k r (i + 1) ++ [.jeq v (.case k i)]
  | .cons none _ r, i => disp k r (i + 1)

/-- After them, codegen.c:1732-1736. -/
def other (k : Nat) (cs : Cases σ) : List (Instr σ) :=
  match caseIdx none cs 0 with
  | some i => [.j (.case k i), .j (.brk k)]
  | none => [.j (.brk k)]

mutual
/-- gen_expr: binary operators codegen.c:1408-1412 and 1503-1508, ND_ASSIGN 1079-1083, ND_STMT_EXPR 1126-1129, ND_COND 1157-1167. `k` is the counter, `B` and `C` are the labels of break and
continue (brk_label and cont_label of parser.c). -/
def genE (k : Nat) (B C : Lbl) : Expr σ → List (Instr σ)
  | .leaf g => [.prim g]
  | .una f e => genE k B C e ++ [.un f]
  | .rl f l r => genE k B C r ++ ([.push] ++ (genE (k + cntE r) B C l ++ [.pop f]))
  | .lr f l r => genE k B C l ++ ([.push] ++ (genE (k + cntE l) B C r ++ [.pop f]))
  | .cond c a b => genE (k + 1) B C c ++ ([.jz (.els k)] ++ (genE (k + 1 + cntE c) B C a ++ ([.j (.fin k)] ++ ([.label (.els k)] ++ (genE (k + 1 + cntE c + cntE a) B C b ++ [.label (.fin k)])))))
  | .stx ss => genSS k B C ss
/-- gen_stmt, codegen.c:1642-1797; the labels of loops parser.c:1174-1319: while and do parse their conditions with the labels of the surrounding loop. -/
def genS (k : Nat) (B C : Lbl) : Stmt σ → List (Instr σ)
  | .expr e => genE k B C e
  | .block ss => genSS k B C ss
  | .ite c a b => genE (k + 1) B C c ++ ([.jz (.els k)] ++ (genS (k + 1 + cntE c) B C a ++ ([.j (.fin k)] ++ ([.label (.els k)] ++ (genS (k + 1 + cntE c + cntS a) B C b ++ [.label (.fin k)])))))
  | .loop w c s i => [.label (.begin k)] ++ (genE (k + 1) (if w then B else .brk k) (if w then C else .cont k) c ++ ([.jz (.brk k)] ++ (genS (k + 1 + cntE c) (.brk k) (.cont k) s ++
      ([.label (.cont k)] ++ (genE (k + 1 + cntE c + cntS s) (if w then B else .brk k) (if w then C else .cont k) i ++ ([.j (.begin k)] ++ [.label (.brk k)]))))))
  | .dow s c => [.label (.begin k)] ++ (genS (k + 1) (.brk k) (.cont k) s ++ ([.label (.cont k)] ++ (genE (k + 1 + cntS s) B C c ++ ([.jnz (.begin k)] ++ [.label (.brk k)]))))
  | .sw e cs => genE (k + 1) B C e ++ (disp k cs 0 ++ (other k cs ++ (genC k 0 (k + 1 + cntE e) C cs ++ [.label (.brk k)])))
  | .brk => [.j B]
  | .cont => [.j C]
  | .ret e => genE k B C e ++ [.j .ret]
def genSS (k : Nat) (B C : Lbl) : Stmts σ → List (Instr σ)
  | .nil => []
  | .cons s r => genS k B C s ++ genSS (k + cntS s) B C r
/-- ND_CASE, codegen.c:1742-1745, of the switch with number `k`, from the label `i` on. -/
def genC (k i k' : Nat) (C : Lbl) : Cases σ → List (Instr σ)
  | .nil => []
  | .cons _ ss r => [.label (.case k i)] ++ (genSS k' (.brk k) C ss ++ genC k (i + 1) (k' + cntSS ss) C r)
end

/-- emit_text, codegen.c:2147-2168: the body and the label of the epilogue. Outside of loops there are no labels for break and continue; the parser rejects it. -/
def gen (s : Stmt σ) : List (Instr σ) := genS 0 .ret .ret s ++ [.label .ret]

/-! ### Machine -/

structure St (σ : Type) where
  pc : Nat
  a0 : Int
  stk : List Int
  mem : σ

/-- The place of a label. -/
def find (L : Lbl) : List (Instr σ) → Nat → Option Nat
  | [], _ => none
  | .label L' :: r, n => if L' = L then some n else find L r (n + 1)
  | _ :: r, n => find L r (n + 1)

def step (prog : List (Instr σ)) (s : St σ) : Option (St σ) :=
  match prog[s.pc]? with
  | none => none
  | some (.prim g) => some { s with pc := s.pc + 1, a0 := (g s.mem).1, mem := (g s.mem).2 }
  | some (.un f) => some { s with pc := s.pc + 1, a0 := (f s.a0 s.mem).1, mem := (f s.a0 s.mem).2 }
  | some .push => some { s with pc := s.pc + 1, stk := s.a0 :: s.stk }
  | some (.pop f) => match s.stk with
    | [] => none
    | v :: r => some { pc := s.pc + 1, a0 := (f s.a0 v s.mem).1, stk := r, mem := (f s.a0 v s.mem).2 }
  | some (.jz L) => if s.a0 = 0 then (find L prog 0).map (fun q => { s with pc := q }) else some { s with pc := s.pc + 1 }
  | some (.jnz L) => if s.a0 = 0 then some { s with pc := s.pc + 1 } else (find L prog 0).map (fun q => { s with pc := q })
  | some (.jeq v L) => if s.a0 = v then (find L prog 0).map (fun q => { s with pc := q }) else some { s with pc := s.pc + 1 }
  | some (.j L) => (find L prog 0).map (fun q => { s with pc := q })
  | some (.label _) => some { s with pc := s.pc + 1 }

inductive Steps (prog : List (Instr σ)) : St σ → St σ → Prop where
  | refl (s) : Steps prog s s
  | head {s s1 s2} : step prog s = some s1 → Steps prog s1 s2 → Steps prog s s2

end Toycc.Stex
