import Verif.Parse.Model
/-!
Specification for C43: the C grammar of expressions (C11 6.5) as a printer with the parentheses the grammar requires.
-/
namespace Toycc.Parse

/-- The productions of C11 6.5, outermost first: expression 0, assignment 1, conditional 2, logical-OR 3, logical-AND 4, inclusive-OR
5, exclusive-OR 6, AND 7, equality 8, relational 9, shift 10, additive 11, multiplicative 12, cast 13, unary 14, postfix 15,
primary 16. -/
def BOp.prec : BOp → Nat
  | .lor => 3
  | .land => 4
  | .bor => 5
  | .bxor => 6
  | .band => 7
  | .eq | .ne => 8
  | .lt | .le | .gt | .ge => 9
  | .shl | .shr => 10
  | .add | .sub => 11
  | .mul | .div | .mod => 12

/-- Spelling of the operators. -/
def BOp.tok : BOp → Tok
  | .mul => .p .star | .div => .p .slash | .mod => .p .percent | .add => .p .plus | .sub => .p .minus
  | .shl => .p .shl | .shr => .p .shr | .lt => .p .lt | .le => .p .le | .gt => .p .gt | .ge => .p .ge
  | .eq => .p .eqeq | .ne => .p .ne | .band => .p .amp | .bxor => .p .caret | .bor => .p .bar
  | .land => .p .ampamp | .lor => .p .barbar

/-- `=` and the ten compound assignment operators; the others do not exist. -/
def AOp.tok : AOp → Option Tok
  | none => some (.p .eq)
  | some .mul => some (.p .stareq)
  | some .div => some (.p .slasheq)
  | some .mod => some (.p .percenteq)
  | some .add => some (.p .pluseq)
  | some .sub => some (.p .minuseq)
  | some .shl => some (.p .shleq)
  | some .shr => some (.p .shreq)
  | some .band => some (.p .ampeq)
  | some .bxor => some (.p .careteq)
  | some .bor => some (.p .bareq)
  | _ => none

def UOp.tok : UOp → Tok
  | .neg => .p .minus | .addr => .p .amp | .deref => .p .star | .not => .p .bang | .bitnot => .p .tilde
  | .preinc => .p .inc | .predec => .p .dec | .sizeof => .kw "sizeof" | .alignof => .kw "_Alignof"

/-- 6.5.3: unary-operator cast-expression; `++`, `--`, `sizeof` unary-expression. -/
def UOp.operand : UOp → Nat
  | .neg | .addr | .deref | .not | .bitnot => 13
  | .preinc | .predec | .sizeof | .alignof => 14

/-- The production a tree is made by. -/
def Tree.prec {T : Type} : Tree T → Nat
  | .ident _ | .num _ | .tnum _ _ | .str _ => 16
  | .index _ _ | .call _ _ | .member _ _ | .arrow _ _ | .postinc _ | .postdec _ => 15
  | .un _ _ | .sizeofT _ | .alignofT _ | .labelVal _ => 14
  | .cast _ _ => 13
  | .bin op _ _ => op.prec
  | .cond _ _ _ | .elvis _ _ => 2
  | .assign _ _ _ => 1
  | .comma _ _ => 0

/-- Parentheses when the production `q` is not allowed where `p` is wanted. -/
def paren (p q : Nat) (ts : List Tok) : List Tok := if q < p then .p .lpar :: (ts ++ [.p .rpar]) else ts

mutual
/-- The tokens of a tree where production `p` is wanted; `tn` prints type names. -/
def Tree.print {T : Type} (tn : T → List Tok) (p : Nat) : Tree T → List Tok
  | .ident s => [.ident s]
  | .num v => [.num v]
  | .tnum t v => [.tnum t v]
  | .str s => [.str s]
  | .bin op l r => paren p op.prec (l.print tn op.prec ++ op.tok :: r.print tn (op.prec + 1))
  | .assign op l r => paren p 1 (l.print tn 14 ++ op.tok.toList ++ r.print tn 1)
  | .cond c a b => paren p 2 (c.print tn 3 ++ .p .quest :: (a.print tn 0 ++ .p .colon :: b.print tn 2))
  | .elvis c b => paren p 2 (c.print tn 3 ++ .p .quest :: .p .colon :: b.print tn 2)
  | .comma l r => paren p 0 (l.print tn 1 ++ .p .comma :: r.print tn 0)
  | .un op e => paren p 14 (op.tok :: e.print tn op.operand)
  | .cast t e => paren p 13 (.p .lpar :: (tn t ++ .p .rpar :: e.print tn 13))
  | .sizeofT t => paren p 14 (.kw "sizeof" :: .p .lpar :: (tn t ++ [.p .rpar]))
  | .alignofT t => paren p 14 (.kw "_Alignof" :: .p .lpar :: (tn t ++ [.p .rpar]))
  | .labelVal s => paren p 14 [.p .ampamp, .ident s]
  | .index a i => paren p 15 (a.print tn 15 ++ .p .lbrk :: (i.print tn 0 ++ [.p .rbrk]))
  | .call f as => paren p 15 (f.print tn 15 ++ .p .lpar :: (as.print tn true ++ [.p .rpar]))
  | .member e s => paren p 15 (e.print tn 15 ++ [.p .dot, .ident s])
  | .arrow e s => paren p 15 (e.print tn 15 ++ [.p .arrow, .ident s])
  | .postinc e => paren p 15 (e.print tn 15 ++ [.p .inc])
  | .postdec e => paren p 15 (e.print tn 15 ++ [.p .dec])
/-- Arguments, separated by commas. -/
def Trees.print {T : Type} (tn : T → List Tok) (first : Bool) : Trees T → List Tok
  | .nil => []
  | .cons e r => (if first then [] else [.p .comma]) ++ e.print tn 1 ++ r.print tn false
end

mutual
/-- Trees that are expressions of C in the scope at hand: the comma operator groups to the right (C11's left-recursive grammar groups it
to the left; the value and the order of evaluation are the same), identifiers are not type names, compound assignment is with one
of the ten operators. -/
def Tree.Ok {T : Type} (O : Oracle T) : Tree T → Prop
  | .ident s => O.isType (.ident s) = false
  | .num _ | .tnum _ _ | .str _ | .sizeofT _ | .alignofT _ | .labelVal _ => True
  | .bin _ l r => l.Ok O ∧ r.Ok O
  | .assign op l r => op.tok.isSome = true ∧ l.Ok O ∧ r.Ok O
  | .cond c a b => c.Ok O ∧ a.Ok O ∧ b.Ok O
  | .elvis c b => c.Ok O ∧ b.Ok O
  | .comma l r => l.Ok O ∧ r.Ok O
  | .un _ e => e.Ok O
  | .cast _ e => e.Ok O
  | .index a i => a.Ok O ∧ i.Ok O
  | .call f as => f.Ok O ∧ as.Ok O
  | .member e _ | .arrow e _ | .postinc e | .postdec e => e.Ok O
def Trees.Ok {T : Type} (O : Oracle T) : Trees T → Prop
  | .nil => True
  | .cons e r => e.Ok O ∧ r.Ok O
end

/-- What is asked of the parser of type names: it reads back a printed type name up to the parenthesis that closes it; only
identifiers and keywords start type names, `sizeof` and `_Alignof` do not. -/
structure Oracle.Good {T : Type} (O : Oracle T) (tn : T → List Tok) : Prop where
  read : ∀ t r, O.typename (tn t ++ .p .rpar :: r) = .ok (t, .p .rpar :: r)
  starts : ∀ t, ∃ a r, tn t = a :: r ∧ O.isType a = true
  word : ∀ t, O.isType t = true → (∃ s, t = .ident s) ∨ (∃ s, t = .kw s ∧ s ≠ "sizeof" ∧ s ≠ "_Alignof")

mutual
/-- The grammar of expressions, C11 6.5, with the GNU forms `c ?: b` and `&&label`: `Derives O tn loose p t s` says that the tokens `s` are an expression with the tree `t` where
production `p` is wanted. Parentheses leave no trace in the tree. The rules with `loose = true` are not those of C; they describe what toycc accepts beyond it. -/
inductive Derives {T : Type} (O : Oracle T) (tn : T → List Tok) (loose : Bool) : Nat → Tree T → List Tok → Prop where
  /-- Each production contains the inner ones. -/
  | outer {p q t s} : Derives O tn loose q t s → p ≤ q → Derives O tn loose p t s
  | par {t s} : Derives O tn loose 0 t s → Derives O tn loose 16 t (.p .lpar :: (s ++ [.p .rpar]))
  | ident {s} : (O.isType (.ident s) = false ∨ loose = true) → Derives O tn loose 16 (.ident s) [.ident s]
  | num (v) : Derives O tn loose 16 (.num v) [.num v]
  | tnum (k v) : Derives O tn loose 16 (.tnum k v) [.tnum k v]
  | str (v) : Derives O tn loose 16 (.str v) [.str v]
  | index {a i s u} : Derives O tn loose 15 a s → Derives O tn loose 0 i u → Derives O tn loose 15 (.index a i) (s ++ .p .lbrk :: (u ++ [.p .rbrk]))
  | call {f as s u} : Derives O tn loose 15 f s → DerivesArgs O tn loose true as u → Derives O tn loose 15 (.call f as) (s ++ .p .lpar :: (u ++ [.p .rpar]))
  | member {e x s} : Derives O tn loose 15 e s → Derives O tn loose 15 (.member e x) (s ++ [.p .dot, .ident x])
  | arrow {e x s} : Derives O tn loose 15 e s → Derives O tn loose 15 (.arrow e x) (s ++ [.p .arrow, .ident x])
  | postinc {e s} : Derives O tn loose 15 e s → Derives O tn loose 15 (.postinc e) (s ++ [.p .inc])
  | postdec {e s} : Derives O tn loose 15 e s → Derives O tn loose 15 (.postdec e) (s ++ [.p .dec])
  | un {op e s} : Derives O tn loose op.operand e s → Derives O tn loose 14 (.un op e) (op.tok :: s)
  | sizeofT (t) : Derives O tn loose 14 (.sizeofT t) (.kw "sizeof" :: .p .lpar :: (tn t ++ [.p .rpar]))
  | alignofT (t) : Derives O tn loose 14 (.alignofT t) (.kw "_Alignof" :: .p .lpar :: (tn t ++ [.p .rpar]))
  | labelVal (x) : Derives O tn loose 14 (.labelVal x) [.p .ampamp, .ident x]
  | cast {t e s} : Derives O tn loose 13 e s → Derives O tn loose 13 (.cast t e) (.p .lpar :: (tn t ++ .p .rpar :: s))
  | bin {op l r s u} : Derives O tn loose op.prec l s → Derives O tn loose (op.prec + 1) r u → Derives O tn loose op.prec (.bin op l r) (s ++ op.tok :: u)
  | cond {c a b s u v} : Derives O tn loose 3 c s → Derives O tn loose 0 a u → Derives O tn loose 2 b v →
      Derives O tn loose 2 (.cond c a b) (s ++ .p .quest :: (u ++ .p .colon :: v))
  | elvis {c b s v} : Derives O tn loose 3 c s → Derives O tn loose 2 b v → Derives O tn loose 2 (.elvis c b) (s ++ .p .quest :: .p .colon :: v)
  | assign {op tk l r s u} : AOp.tok op = some tk → Derives O tn loose 14 l s → Derives O tn loose 1 r u → Derives O tn loose 1 (.assign op l r) (s ++ tk :: u)
  | comma {l r s u} : Derives O tn loose 1 l s → Derives O tn loose 0 r u → Derives O tn loose 0 (.comma l r) (s ++ .p .comma :: u)
  /-- `+e` has the tree of `e`. -/
  | plus {e s} : loose = true → Derives O tn loose 13 e s → Derives O tn loose 14 e (.p .plus :: s)
  /-- The left operand of an assignment is any conditional expression. -/
  | assignTo {op tk l r s u} : loose = true → AOp.tok op = some tk → Derives O tn loose 2 l s → Derives O tn loose 1 r u → Derives O tn loose 1 (.assign op l r) (s ++ tk :: u)
  /-- `sizeof` and `_Alignof` make primary expressions. -/
  | ofExpr {op e s} : loose = true → op = .sizeof ∨ op = .alignof → Derives O tn loose 14 e s → Derives O tn loose 16 (.un op e) (op.tok :: s)
  | ofType {t k} : loose = true → k = Tree.sizeofT t ∧ w = "sizeof" ∨ k = Tree.alignofT t ∧ w = "_Alignof" →
      Derives O tn loose 16 k (.kw w :: .p .lpar :: (tn t ++ [.p .rpar]))
/-- Arguments, separated by commas. -/
inductive DerivesArgs {T : Type} (O : Oracle T) (tn : T → List Tok) (loose : Bool) : Bool → Trees T → List Tok → Prop where
  | nil (first) : DerivesArgs O tn loose first .nil []
  | cons {first e r s u} : Derives O tn loose 1 e s → DerivesArgs O tn loose false r u →
      DerivesArgs O tn loose first (.cons e r) ((if first then [] else [.p .comma]) ++ s ++ u)
end

/-- Tokens that cannot go on an expression: what may follow a complete expression. -/
def ends (t : Tok) : Bool :=
  match t with
  | .p .rpar | .p .rbrk | .p .rbrace | .p .colon | .p .semi | .eof => true
  | _ => false

end Toycc.Parse
