import Verif.Cg.Model
import Verif.Cg.Sem
/-!
Statements: the part of the parser that gives every statement its labels (stmt, compound_stmt and resolve_goto_labels,
parser/parser.c:1139-1377, 1407-1423, 1547-1589) and code generation (gen_stmt, codegen.c:1642-1797). Expressions are taken
as already parsed. Not modelled: `asm`, computed goto, statement expressions, returning a structure. A block is a chain of
pairs; declarations appear as the expression statements that initialise the variables.
-/
namespace Toycc.Stm
open Toycc.Rv Toycc.Cg

/-- Source statements. `loop` is `for`, and `while` with no `init` and `inc`; an absent `else` is `skip`. -/
inductive SStmt where
  | skip
  | seq (a b : SStmt)
  | expr (e : Expr)
  | ifs (c : Expr) (t e : SStmt)
  | loop (init : List Expr) (cond : Option Expr) (inc : Option Expr) (body : SStmt)
  | doW (body : SStmt) (cond : Expr)
  | switch (c : Expr) (body : SStmt)
  /-- `case lo ... hi: s`; `case v: s` has both equal -/
  | case (lo hi : Int) (s : SStmt)
  | dflt (s : SStmt)
  | label (name : String) (s : SStmt)
  | goto (name : String)
  | brk
  | cont
  | ret (e : Option Expr)

/-- Target of an ND_GOTO node: `unique_label` if it is set, else `label`. -/
inductive Target where
  | lab (l : Label) | name (n : String)
  deriving DecidableEq, Repr

/-- An element of the `case_next` list: `begin`, `end`, `label`. -/
structure Case where
  lo : Int
  hi : Int
  lbl : Label
  deriving DecidableEq, Repr

/-- Statement nodes. ND_CASE and ND_LABEL are both `label`. -/
inductive Stmt where
  | skip
  | seq (a b : Stmt)
  | expr (e : Expr)
  | ifs (c : Expr) (t e : Stmt)
  | loop (init : List Expr) (cond : Option Expr) (inc : Option Expr) (body : Stmt) (brk cont : Label)
  | doW (body : Stmt) (cond : Expr) (brk cont : Label)
  | switch (c : Expr) (cases : List Case) (dflt : Option Label) (body : Stmt) (brk : Label)
  | label (l : Label) (s : Stmt)
  | goto (t : Target)
  | ret (e : Option Expr)

/-- Parser state: the counter of new_unique_name (parser/common.c:295-300), `current_switch` with its lists, `labels`
(parser/parser.c:1078-1102); the most recent element first. -/
structure PS where
  uid : Nat
  sw : Option (List Case × Option Label)
  labels : List (String × Label)

/-- new_unique_name, parser/common.c:295-300. -/
def PS.fresh (s : PS) : Label × PS := (.uniq s.uid, { s with uid := s.uid + 1 })

/-- stmt, parser/parser.c:1139-1377; `brk` and `cont` are the variables brk_label and cont_label. `none`: error_tok ("stray
case", "stray break", "empty case range specified", ...). A case constant is stored in a C int (1184-1192). -/
def elabS (brk cont : Option Label) : SStmt → PS → Option (Stmt × PS)
  | .skip, s => some (.skip, s)
  | .seq a b, s => do
    let (a, s) ← elabS brk cont a s
    let (b, s) ← elabS brk cont b s
    some (.seq a b, s)
  | .expr e, s => some (.expr e, s)
  | .ifs c t e, s => do
    let (t, s) ← elabS brk cont t s
    let (e, s) ← elabS brk cont e s
    some (.ifs c t e, s)
  | .loop init c inc body, s => do
    let (b, s) := s.fresh
    let (k, s) := s.fresh
    let (body, s) ← elabS (some b) (some k) body s
    some (.loop init c inc body b k, s)
  | .doW body c, s => do
    let (b, s) := s.fresh
    let (k, s) := s.fresh
    let (body, s) ← elabS (some b) (some k) body s
    some (.doW body c b k, s)
  | .switch c body, s => do
    let (b, s) := s.fresh
    let (body, s') ← elabS (some b) cont body { s with sw := some ([], none) }
    let (cases, d) ← s'.sw
    some (.switch c cases d body b, { s' with sw := s.sw })
  | .case lo hi st, s => do
    let lo := convC (.int false) lo
    let hi := convC (.int false) hi
    let _ ← s.sw
    if hi < lo then none
    else
      let (l, s) := s.fresh
      let (st, s) ← elabS brk cont st s
      let (cs, d) ← s.sw
      some (.label l st, { s with sw := some (⟨lo, hi, l⟩ :: cs, d) })
  | .dflt st, s => do
    let _ ← s.sw
    let (l, s) := s.fresh
    let (st, s) ← elabS brk cont st s
    let (cs, _) ← s.sw
    some (.label l st, { s with sw := some (cs, some l) })
  | .label n st, s => do
    let (l, s) := s.fresh
    let (st, s) ← elabS brk cont st s
    some (.label l st, { s with labels := (n, l) :: s.labels })
  | .goto n, s => some (.goto (.name n), s)
  | .brk, s => do
    let b ← brk
    some (.goto (.lab b), s)
  | .cont, s => do
    let k ← cont
    some (.goto (.lab k), s)
  | .ret e, s => some (.ret e, s)

/-- resolve_goto_labels, parser/parser.c:1407-1423, on the statements of a function: the first entry of `labels` with the name. -/
def resolve (labels : List (String × Label)) : Stmt → Option Stmt
  | .skip => some .skip
  | .seq a b => do
    let a ← resolve labels a
    let b ← resolve labels b
    some (.seq a b)
  | .expr e => some (.expr e)
  | .ifs c t e => do
    let t ← resolve labels t
    let e ← resolve labels e
    some (.ifs c t e)
  | .loop init c inc body b k => do
    let body ← resolve labels body
    some (.loop init c inc body b k)
  | .doW body c b k => do
    let body ← resolve labels body
    some (.doW body c b k)
  | .switch c cs d body b => do
    let body ← resolve labels body
    some (.switch c cs d body b)
  | .label l s => do
    let s ← resolve labels s
    some (.label l s)
  | .goto (.lab l) => some (.goto (.lab l))
  | .goto (.name n) => do
    let (_, l) ← labels.find? (fun p => p.1 == n)
    some (.goto (.lab l))
  | .ret e => some (.ret e)

/-- A function body: parsing from counter value `uid`, then resolving its gotos (parser/parser.c:1500-1510). -/
def elabBody (uid : Nat) (body : SStmt) : Option (Stmt × Nat) := do
  let (st, s) ← elabS none none body ⟨uid, none, []⟩
  let st ← resolve s.labels st
  some (st, s.uid)

/-- The test for one case, codegen.c:1704-1725. -/
def caseTest (c : Case) : List Instr :=
  if c.lo = c.hi then [.li .a1 c.lo, .beq .a0 .a1 c.lbl]
  else [.mv .t1 .a0, .li .t0 c.lo, .op .sub .t1 .t1 .t0, .li .t2 (c.hi - c.lo), .bleu .t1 .t2 c.lbl]

/-- The jump to `default`, codegen.c:1733-1735. -/
def dfltJump : Option Label → List Instr
  | some l => [.j l]
  | none => []

/-- A sequence of expression statements. -/
def genList : List Expr → GS → Option (List Instr × GS)
  | [], s => some ([], s)
  | e :: r, s => do
    let (c1, s) ← gen false e s
    let (c2, s) ← genList r s
    some (c1 ++ c2, s)

/-- The condition of a loop, codegen.c:1679-1683. -/
def genCond (brk : Label) : Option Expr → GS → Option (List Instr × GS)
  | none, s => some ([], s)
  | some e, s => do
    let (c, s) ← gen false e s
    some (c ++ cmpZero ++ [.bnez .a0 brk], s)

/-- gen_stmt, codegen.c:1642-1797. `fn` is the name of the current function. -/
def genStmt (fn : String) : Stmt → GS → Option (List Instr × GS)
  | .skip, s => some ([], s)
  | .seq a b, s => do
    let (c1, s) ← genStmt fn a s
    let (c2, s) ← genStmt fn b s
    some (c1 ++ c2, s)
  | .expr e, s => gen false e s
  | .ifs c t e, s => do
    let k := s.cnt
    let (c0, s) ← gen false c s.next
    let (c1, s) ← genStmt fn t s
    let (c2, s) ← genStmt fn e s
    some (c0 ++ cmpZero ++ [.bnez .a0 (lbl "else" k)] ++ c1 ++ [.j (lbl "end" k), .label (lbl "else" k)] ++ c2 ++ [.label (lbl "end" k)], s)
  | .loop init c inc body b ct, s => do
    let k := s.cnt
    let (c0, s) ← genList init s.next
    let (c1, s) ← genCond b c s
    let (c2, s) ← genStmt fn body s
    let (c3, s) ← genList inc.toList s
    some (c0 ++ [.label (lbl "begin" k)] ++ c1 ++ c2 ++ [.label ct] ++ c3 ++ [.j (lbl "begin" k), .label b], s)
  | .doW body c b ct, s => do
    let k := s.cnt
    let (c1, s) ← genStmt fn body s.next
    let (c2, s) ← gen false c s
    some ([.label (lbl "begin" k)] ++ c1 ++ [.label ct] ++ c2 ++ cmpZero ++ [.beqz .a0 (lbl "begin" k), .label b], s)
  | .switch c cs d body b, s => do
    let (c1, s) ← gen false c s
    let (c2, s) ← genStmt fn body s
    some (c1 ++ cs.flatMap caseTest ++ dfltJump d ++ [.j b] ++ c2 ++ [.label b], s)
  | .label l st, s => do
    let (c, s) ← genStmt fn st s
    some (.label l :: c, s)
  | .goto (.lab l), s => some ([.j l], s)
  | .goto (.name _), _ => none
  | .ret none, s => some ([.j (.ret fn)], s)
  | .ret (some e), s => do
    let (c, s) ← gen false e s
    some (c ++ [.j (.ret fn)], s)

/-- The body of function `fn` up to and including its return label, emit_text codegen.c:2149-2168; the rest of the epilogue, the
prologue and the saving of arguments are modelled separately. -/
def genBody (fn : String) (st : Stmt) (gs : GS) : Option (List Instr × GS) := do
  let (c, gs) ← genStmt fn st gs
  some (c ++ (if fn = "main" then [.li .a0 0] else []) ++ [.label (.ret fn)], gs)

/-- Parsing and code generation of a body. The counter of unique names runs over the whole file; the numbers used up by string
literals and other anonymous objects inside expressions are not counted here (they only make gaps). -/
def compileBody (fn : String) (uid : Nat) (body : SStmt) (gs : GS) : Option (List Instr × Nat × GS) := do
  let (st, uid) ← elabBody uid body
  let (c, gs) ← genBody fn st gs
  some (c, uid, gs)

end Toycc.Stm
