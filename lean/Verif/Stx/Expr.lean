import Verif.Stx.Sound
import Verif.Parse.Props
/-! The expression parser (Verif.Parse) as the oracle for expressions. -/
namespace Toycc.Stx
open Toycc.Parse (Tok P Tree Trees BOp UOp Derives starter)
variable {T : Type}

/-- The result that a function of the recursion bound has from some bound on. -/
noncomputable def limit {α : Type} (f : Nat → Except Parse.PErr α) : Except SErr α :=
  open Classical in
  if h : ∃ y N, ∀ n, N ≤ n → f n = .ok y then .ok h.choose else .error .other

theorem limit_eq {α : Type} {f : Nat → Except Parse.PErr α} {y : α} (h : ∃ N, ∀ n, N ≤ n → f n = .ok y) : limit f = .ok y := by
  have h' : ∃ y N, ∀ n, N ≤ n → f n = .ok y := ⟨y, h⟩
  rw [limit, dif_pos h']
  obtain ⟨N, hN⟩ := h
  obtain ⟨M, hM⟩ := h'.choose_spec
  have := (hM (max N M) (by omega)).symm.trans (hN (max N M) (by omega))
  rw [Except.ok.inj this]

/-- The first two tokens of an expression: a name, a literal, `sizeof`, `_Alignof`, a parenthesis or an operator; and no colon after it. -/
def Two (ts : List Tok) : Prop :=
  ∃ t r, ts = t :: r ∧ starter t = true ∧ (∀ k, t = .kw k → k = "sizeof" ∨ k = "_Alignof") ∧ ∀ r', r ≠ .p .colon :: r'

theorem Two.app {l : List Tok} (h : Two l) {x : Tok} (hx : x ≠ .p .colon) (r : List Tok) : Two (l ++ x :: r) := by
  obtain ⟨t, u, rfl, h1, h2, h3⟩ := h
  refine ⟨t, u ++ x :: r, rfl, h1, h2, ?_⟩
  intro r' e
  cases u with
  | nil => exact hx (List.cons.inj e).1
  | cons v u => exact h3 u (by rw [(List.cons.inj e).1])

theorem Two.pre {l : List Tok} (h : Two l) {t : Tok} (h1 : starter t = true) (h2 : ∀ k, t = .kw k → k = "sizeof" ∨ k = "_Alignof") (r : List Tok) : Two (t :: (l ++ r)) := by
  obtain ⟨u, v, rfl, h3, _⟩ := h
  refine ⟨t, _, rfl, h1, h2, ?_⟩
  intro r' e
  cases (List.cons.inj e).1
  cases h3

theorem two_tn {O : Parse.Oracle T} {tn : T → List Tok} (hO : O.Good tn) {t : Tok} (h1 : starter t = true)
    (h2 : ∀ k, t = .kw k → k = "sizeof" ∨ k = "_Alignof") (x : T) (r : List Tok) : Two (t :: (tn x ++ r)) := by
  obtain ⟨a, s, e, ha⟩ := hO.starts x
  refine ⟨t, _, rfl, h1, h2, ?_⟩
  rw [e]
  intro r' e
  cases (List.cons.inj e).1
  rcases hO.word _ ha with ⟨_, e⟩ | ⟨_, e, _⟩ <;> cases e

theorem derives_two {O : Parse.Oracle T} {tn : T → List Tok} (hO : O.Good tn) : ∀ {p e s}, Derives O tn false p e s → Two s
  | _, _, _, .outer h _ => derives_two hO h
  | _, _, _, .par h => (derives_two hO h).pre rfl (by intro k e; cases e) _
  | _, _, _, .ident _ => ⟨_, _, rfl, rfl, (by intro k e; cases e), by simp⟩
  | _, _, _, .num _ => ⟨_, _, rfl, rfl, (by intro k e; cases e), by simp⟩
  | _, _, _, .tnum _ _ => ⟨_, _, rfl, rfl, (by intro k e; cases e), by simp⟩
  | _, _, _, .str _ => ⟨_, _, rfl, rfl, (by intro k e; cases e), by simp⟩
  | _, _, _, .bin (op := op) h _ => (derives_two hO h).app (by cases op <;> simp [BOp.tok]) _
  | _, _, _, .assign htk h _ => (derives_two hO h).app (by rintro rfl; cases Parse.assignOp_tok htk) _
  | _, _, _, .cond h _ _ => (derives_two hO h).app (by simp) _
  | _, _, _, .elvis h _ => (derives_two hO h).app (by simp) _
  | _, _, _, .comma h _ => (derives_two hO h).app (by simp) _
  | _, _, _, .un (op := op) h => by
    have := (derives_two hO h).pre (t := op.tok) (by cases op <;> rfl) (by cases op <;> simp [UOp.tok]) []
    simpa only [List.append_nil] using this
  | _, _, _, .cast (t := t) _ => two_tn hO rfl (by intro k e; cases e) t _
  | _, _, _, .sizeofT _ => ⟨_, _, rfl, rfl, by simp, by simp⟩
  | _, _, _, .alignofT _ => ⟨_, _, rfl, rfl, by simp, by simp⟩
  | _, _, _, .labelVal _ => ⟨_, _, rfl, rfl, by simp, by simp⟩
  | _, _, _, .index h _ => (derives_two hO h).app (by simp) _
  | _, _, _, .call h _ => (derives_two hO h).app (by simp) _
  | _, _, _, .member h => (derives_two hO h).app (by simp) _
  | _, _, _, .arrow h => (derives_two hO h).app (by simp) _
  | _, _, _, .postinc h => (derives_two hO h).app (by simp) _
  | _, _, _, .postdec h => (derives_two hO h).app (by simp) _
  | _, _, _, .plus h _ => absurd h (by decide)
  | _, _, _, .assignTo h _ _ _ => absurd h (by decide)
  | _, _, _, .ofExpr h _ _ => absurd h (by decide)
  | _, _, _, .ofType h _ => absurd h (by decide)

variable {σ D : Type}

/-- The oracle with the parser of expressions: expr and conditional (with the value `val` of a constant). Simplification: type names in an expression
declare no tags. -/
noncomputable def withExpr (O : Oracle σ (Tree T) D) (PO : σ → Parse.Oracle T) (val : σ → Tree T → Option Int) : Oracle σ (Tree T) D where
  expr a ts := do
    let (e, r) ← limit fun n => Parse.expr (PO a) n ts
    .ok (e, a, r)
  const a ts := do
    let (e, r) ← limit fun n => Parse.conditional (PO a) n ts
    match val a e with
    | some v => .ok (v, a, r)
    | none => .error .other
  decl := O.decl
  forDecl := O.forDecl
  isType a t := (PO a).isType t
  enter := O.enter
  leave := O.leave

/-- Specification: the texts of expressions and of constants are those of C11 6.5 and 6.6, and the declarations those of `W`. -/
def withText (W : Words σ (Tree T) D) (PO : σ → Parse.Oracle T) (val : σ → Tree T → Option Int) (tn : T → List Tok) : Words σ (Tree T) D where
  expr a ts e b := Derives (PO a) tn false 0 e ts ∧ b = a
  const a ts v b := ∃ e : Tree T, Derives (PO a) tn false 2 e ts ∧ val a e = some v ∧ b = a
  decl := W.decl
  forDecl := W.forDecl

theorem expr_reads (O : Oracle σ (Tree T) D) (PO : σ → Parse.Oracle T) (val : σ → Tree T → Option Int) {tn : T → List Tok} {a : σ} (hO : (PO a).Good tn)
    {e : Tree T} {s : List Tok} (h : Derives (PO a) tn false 0 e s) : (reads (withExpr O PO val)).expr a s e a := by
  refine ⟨?_, ?_⟩
  · rintro r ⟨q, r', hq, rfl⟩
    have := limit_eq (Parse.C43_grammar_partial (PO a) tn hO h (.p q :: r') (by
      intro x y hxy
      cases hxy
      simp only [List.mem_cons, List.not_mem_nil, or_false] at hq
      rcases hq with rfl | rfl <;> rfl))
    simp only [withExpr, this, bind, Except.bind]
  · obtain ⟨t, r, he, h1, h2, h3⟩ := derives_two hO h
    obtain ⟨x, y, he', _, hty⟩ := (Parse.derives_G (PO a) hO (Parse.good_sign (PO a) hO) h).first.head
    cases he.symm.trans he'
    refine ⟨t, r, he, ⟨hty, ?_, ?_, ?_, ?_, ?_, ?_⟩, h3⟩
    · intro k hk
      rcases h2 k hk with rfl | rfl <;> decide
    all_goals rintro rfl
    all_goals first | cases h1 | skip
    rcases h2 _ rfl with h | h <;> revert h <;> decide

theorem const_reads (O : Oracle σ (Tree T) D) (PO : σ → Parse.Oracle T) (val : σ → Tree T → Option Int) {tn : T → List Tok} {a : σ} (hO : (PO a).Good tn)
    {e : Tree T} {s : List Tok} (h : Derives (PO a) tn false 2 e s) {v : Int} (hv : val a e = some v) : (reads (withExpr O PO val)).const a s v a := by
  rintro r ⟨q, r', hq, rfl⟩
  have := limit_eq ((Parse.derives_G (PO a) hO (Parse.good_sign (PO a) hO) h).ps 2 (by omega) (by omega) (.p q :: r') (by
    intro x y hxy j hj
    cases hxy
    simp only [List.mem_cons, List.not_mem_nil, or_false] at hq
    rcases hq with rfl | rfl <;> cases hj))
  simp only [Parse.parseAt] at this
  simp only [show ((2 : Nat) = 0) = False by simp, show ((2 : Nat) = 1) = False by simp, if_false, if_true] at this
  simp only [withExpr, this, bind, Except.bind, hv]

theorem opt_mono {E : Type} {V W : Words σ E D} (h : ∀ a ts e b, V.expr a ts e b → W.expr a ts e b) {a b : σ} {o : Option E} {ts : List Tok} (hs : OptExpr V a o ts b) :
    OptExpr W a o ts b := by
  cases hs with
  | none => exact .none _
  | some hs => exact .some (h _ _ _ _ hs)

theorem init_mono {E : Type} {V W : Words σ E D} (h : ∀ a ts e b, V.expr a ts e b → W.expr a ts e b) (h4 : ∀ a ts e b, V.forDecl a ts e b → W.forDecl a ts e b) {a b : σ}
    {o : D ⊕ Option E} {ts : List Tok} (hs : ForInit V a o ts b) : ForInit W a o ts b := by
  cases hs with
  | decl hs => exact .decl (h4 _ _ _ _ hs)
  | expr hs => exact .expr (opt_mono h hs)

section
variable {E : Type} {V W : Words σ E D} (Z : Scoping σ) (h1 : ∀ a ts e b, V.expr a ts e b → W.expr a ts e b) (h2 : ∀ a ts e b, V.const a ts e b → W.const a ts e b)
  (h3 : ∀ a ts e b, V.decl a ts e b → W.decl a ts e b) (h4 : ∀ a ts e b, V.forDecl a ts e b → W.forDecl a ts e b)
include h1 h2 h3 h4

mutual
theorem stmt_mono {a b : σ} {s : S E D} {ts : List Tok} (h : Stmt V Z a s ts b) : Stmt W Z a s ts b := by
  cases h with
  | null => exact .null _
  | expr h => exact .expr (h1 _ _ _ _ h)
  | ret h => exact .ret (opt_mono h1 h)
  | ifs h k => exact .ifs (h1 _ _ _ _ h) (stmt_mono k)
  | ifElse h k o k' => exact .ifElse (h1 _ _ _ _ h) (stmt_mono k) o (stmt_mono k')
  | switch h k => exact .switch (h1 _ _ _ _ h) (stmt_mono k)
  | case h k => exact .case (h2 _ _ _ _ h) (stmt_mono k)
  | range h h' l k => exact .range (h2 _ _ _ _ h) (h2 _ _ _ _ h') l (stmt_mono k)
  | dflt k => exact .dflt (stmt_mono k)
  | forS i o o' k => exact .forS (init_mono h1 h4 i) (opt_mono h1 o) (opt_mono h1 o') (stmt_mono k)
  | whileS h k => exact .whileS (h1 _ _ _ _ h) (stmt_mono k)
  | doW k h => exact .doW (stmt_mono k) (h1 _ _ _ _ h)
  | asm _ h => exact .asm _ h
  | goto => exact .goto _
  | gotoE h => exact .gotoE (h1 _ _ _ _ h)
  | brk => exact .brk _
  | cont => exact .cont _
  | label k => exact .label (stmt_mono k)
  | block k => exact .block (items_mono k)
theorem items_mono {a b : σ} {s : B E D} {ts : List Tok} (h : Items V Z a s ts b) : Items W Z a s ts b := by
  cases h with
  | nil => exact .nil _
  | decl h k => exact .decl (h3 _ _ _ _ h) (items_mono k)
  | stmt h k => exact .stmt (stmt_mono h) (items_mono k)
end
end

end Toycc.Stx
