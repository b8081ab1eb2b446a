import Verif.Stx.Model
/-!
Specification: the grammar of statements (C11 6.8, with GNU's case ranges, computed goto and `asm`), as derivations that relate the scopes before, a
statement, its text and the scopes after. `W` says what the texts of expressions, constants and declarations are.
-/
namespace Toycc.Stx
open Toycc.Parse (Tok P)

/-- `expr a ts e b`: in the scopes `a` the tokens are the expression `e`, and `b` are the scopes after it. Likewise for constants and for
declarations (with their semicolon). -/
structure Words (σ E D : Type) where
  expr : σ → List Tok → E → σ → Prop
  const : σ → List Tok → Int → σ → Prop
  decl : σ → List Tok → D → σ → Prop
  forDecl : σ → List Tok → D → σ → Prop

/-- C11 6.2.1p4: what opens and closes a scope. -/
structure Scoping (σ : Type) where
  enter : σ → σ
  leave : σ → σ

variable {σ E D : Type}

/-- The statement ends with an `if` without `else`: a following `else` belongs to it (C11 6.8.4.1p3). -/
def S.open : S E D → Bool
  | .ifs _ _ => true
  | .ifElse _ _ b => b.open
  | .switch _ s | .case _ _ s | .dflt s | .forS _ _ _ s | .whileS _ s | .label _ s => s.open
  | _ => false

/-- An optional expression. -/
inductive OptExpr (W : Words σ E D) : σ → Option E → List Tok → σ → Prop where
  | none (a) : OptExpr W a none [] a
  | some {a e ts b} : W.expr a ts e b → OptExpr W a (some e) ts b

/-- The first part of a `for`, with its semicolon. -/
inductive ForInit (W : Words σ E D) : σ → D ⊕ Option E → List Tok → σ → Prop where
  | decl {a d ts b} : W.forDecl a ts d b → ForInit W a (.inl d) ts b
  | expr {a o ts b} : OptExpr W a o ts b → ForInit W a (.inr o) (ts ++ [.p .semi]) b

mutual
/-- 6.8: statements. -/
inductive Stmt (W : Words σ E D) (Z : Scoping σ) : σ → S E D → List Tok → σ → Prop where
  | null (a) : Stmt W Z a .null [.p .semi] a
  | expr {a e ts b} : W.expr a ts e b → Stmt W Z a (.expr e) (ts ++ [.p .semi]) b
  | ret {a o ts b} : OptExpr W a o ts b → Stmt W Z a (.ret o) (.kw "return" :: (ts ++ [.p .semi])) b
  | ifs {a c ts b s ss d} : W.expr a ts c b → Stmt W Z b s ss d →
      Stmt W Z a (.ifs c s) (.kw "if" :: .p .lpar :: (ts ++ .p .rpar :: ss)) d
  | ifElse {a c ts b s ss d s' ss' f} : W.expr a ts c b → Stmt W Z b s ss d → s.open = false → Stmt W Z d s' ss' f →
      Stmt W Z a (.ifElse c s s') (.kw "if" :: .p .lpar :: (ts ++ .p .rpar :: (ss ++ .kw "else" :: ss'))) f
  | switch {a c ts b s ss d} : W.expr a ts c b → Stmt W Z b s ss d →
      Stmt W Z a (.switch c s) (.kw "switch" :: .p .lpar :: (ts ++ .p .rpar :: ss)) d
  | case {a v ts b s ss d} : W.const a ts v b → Stmt W Z b s ss d →
      Stmt W Z a (.case v v s) (.kw "case" :: (ts ++ .p .colon :: ss)) d
  | range {a v ts b v' ts' b' s ss d} : W.const a ts v b → W.const b ts' v' b' → v ≤ v' → Stmt W Z b' s ss d →
      Stmt W Z a (.case v v' s) (.kw "case" :: (ts ++ .p .dots :: (ts' ++ .p .colon :: ss))) d
  | dflt {a s ss d} : Stmt W Z a s ss d → Stmt W Z a (.dflt s) (.kw "default" :: .p .colon :: ss) d
  | forS {a i ti b o to c o' to' d s ss f} : ForInit W (Z.enter a) i ti b → OptExpr W b o to c → OptExpr W c o' to' d → Stmt W Z d s ss f →
      Stmt W Z a (.forS i o o' s) (.kw "for" :: .p .lpar :: (ti ++ (to ++ .p .semi :: (to' ++ .p .rpar :: ss)))) (Z.leave f)
  | whileS {a c ts b s ss d} : W.expr a ts c b → Stmt W Z b s ss d →
      Stmt W Z a (.whileS c s) (.kw "while" :: .p .lpar :: (ts ++ .p .rpar :: ss)) d
  | doW {a s ss b c ts d} : Stmt W Z a s ss b → W.expr b ts c d →
      Stmt W Z a (.doW s c) (.kw "do" :: (ss ++ .kw "while" :: .p .lpar :: (ts ++ [.p .rpar, .p .semi]))) d
  | asm (a) {w : List Tok} {t : String} : (∀ x ∈ w, x = .kw "volatile" ∨ x = .ident "inline") →
      Stmt W Z a (.asm t) (.kw "asm" :: (w ++ [.p .lpar, .str t, .p .rpar, .p .semi])) a
  | goto (a) {x : String} : Stmt W Z a (.goto x) [.kw "goto", .ident x, .p .semi] a
  | gotoE {a e ts b} : W.expr a ts e b → Stmt W Z a (.gotoE e) (.kw "goto" :: .p .star :: (ts ++ [.p .semi])) b
  | brk (a) : Stmt W Z a .brk [.kw "break", .p .semi] a
  | cont (a) : Stmt W Z a .cont [.kw "continue", .p .semi] a
  | label {a x s ss d} : Stmt W Z a s ss d → Stmt W Z a (.label x s) (.ident x :: .p .colon :: ss) d
  | block {a i ti b} : Items W Z (Z.enter a) i ti b → Stmt W Z a (.block i) (.p .lbrace :: (ti ++ [.p .rbrace])) (Z.leave b)
/-- 6.8.2: the items of a block. -/
inductive Items (W : Words σ E D) (Z : Scoping σ) : σ → B E D → List Tok → σ → Prop where
  | nil (a) : Items W Z a .nil [] a
  | decl {a d ts b i ti c} : W.decl a ts d b → Items W Z b i ti c → Items W Z a (.decl d i) (ts ++ ti) c
  | stmt {a s ss b i ti c} : Stmt W Z a s ss b → Items W Z b i ti c → Items W Z a (.stmt s i) (ss ++ ti) c
end

mutual
/-- No `asm` statement. -/
def S.plain : S E D → Bool
  | .asm _ => false
  | .ifs _ s | .switch _ s | .case _ _ s | .dflt s | .forS _ _ _ s | .whileS _ s | .doW s _ | .label _ s => s.plain
  | .ifElse _ a b => a.plain && b.plain
  | .block i => i.plain
  | _ => true
def B.plain : B E D → Bool
  | .nil => true
  | .decl _ r => r.plain
  | .stmt s r => s.plain && r.plain
end

/-- The scopes of the parser. -/
def Oracle.scoping (O : Oracle σ E D) : Scoping σ := ⟨O.enter, O.leave⟩

/-- The tokens that follow begin with one of `qs`. -/
def Before (qs : List P) (r : List Tok) : Prop := ∃ q r', q ∈ qs ∧ r = .p q :: r'

/-- A token that begins an expression: not a type name, not a keyword of statements, not `else`, none of `; ) { }`. -/
def Starts (O : Oracle σ E D) (a : σ) (t : Tok) : Prop :=
  O.isType a t = false ∧ (∀ k, t = .kw k → kwOf k = none) ∧ t ≠ .p .semi ∧ t ≠ .p .rpar ∧ t ≠ .p .lbrace ∧ t ≠ .p .rbrace ∧ t ≠ .kw "else"

/-- The texts that the oracles read, whatever follows: before `;` or `)` an expression, before `:` or `...` a constant. An expression does not begin
like a statement, a declaration begins with a type name that is not followed by a colon. -/
def reads (O : Oracle σ E D) : Words σ E D where
  expr a ts e b := (∀ r, Before [.semi, .rpar] r → O.expr a (ts ++ r) = .ok (e, b, r)) ∧ ∃ t r, ts = t :: r ∧ Starts O a t ∧ ∀ r', r ≠ .p .colon :: r'
  const a ts v b := ∀ r, Before [.colon, .dots] r → O.const a (ts ++ r) = .ok (v, b, r)
  decl a ts d b := (∀ r, O.decl a (ts ++ r) = .ok (d, b, r)) ∧ ∃ t u r, ts = t :: u :: r ∧ O.isType a t = true ∧ u ≠ .p .colon
  forDecl a ts d b := (∀ r, O.forDecl a (ts ++ r) = .ok (d, b, r)) ∧ ∃ t r, ts = t :: r ∧ O.isType a t = true

/-- The texts that the oracles read before some tokens. -/
def read (O : Oracle σ E D) : Words σ E D where
  expr a ts e b := ∃ r, O.expr a (ts ++ r) = .ok (e, b, r)
  const a ts v b := ∃ r, O.const a (ts ++ r) = .ok (v, b, r)
  decl a ts d b := ∃ r, O.decl a (ts ++ r) = .ok (d, b, r)
  forDecl a ts d b := ∃ r, O.forDecl a (ts ++ r) = .ok (d, b, r)

/-- Type names begin with an identifier, or a keyword that is not one of statements. -/
def Oracle.Types (O : Oracle σ E D) : Prop := ∀ a t, O.isType a t = true → (∃ x, t = .ident x) ∨ ∃ k, t = .kw k ∧ kwOf k = none ∧ k ≠ "else"

/-- What the oracles leave is the end of what they were given. -/
structure Oracle.Prefix (O : Oracle σ E D) : Prop where
  expr : ∀ a ts e b r, O.expr a ts = .ok (e, b, r) → ∃ pre, ts = pre ++ r
  const : ∀ a ts e b r, O.const a ts = .ok (e, b, r) → ∃ pre, ts = pre ++ r
  decl : ∀ a ts e b r, O.decl a ts = .ok (e, b, r) → ∃ pre, ts = pre ++ r
  forDecl : ∀ a ts e b r, O.forDecl a ts = .ok (e, b, r) → ∃ pre, ts = pre ++ r

end Toycc.Stx
