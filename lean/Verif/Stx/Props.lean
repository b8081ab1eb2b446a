import Verif.Stx.Expr
/-!
C69: statements are read by the grammar of C11 6.8, and an `else` belongs to the nearest `if`.
-/
namespace Toycc.Stx.Props
open Toycc.Stx
open Toycc.Parse (Tok P Tree)
variable {σ E D : Type}

/-- Every statement of the grammar, of any size, is read to its end as the statement it is, unless an `else` follows that it would take; the scopes are
those of the grammar. Partial: no `asm` (see `asm_leaves_semicolon`). What the texts of expressions, constants and declarations are is taken from the
oracles. -/
theorem C69_statement_partial (O : Oracle σ E D) (hT : O.Types) (a b : σ) (s : S E D) (ts r : List Tok) (h : Stmt (reads O) ⟨O.enter, O.leave⟩ a s ts b)
    (hp : s.plain = true) (hr : s.open = true → ∀ r', r ≠ .kw "else" :: r') :
    ∃ N, ∀ n, N ≤ n → stmt O n a (ts ++ r) = .ok (s, b, r) := by
  refine stmt_ev O hT h hp r fun ho => ?_
  cases hh : isElse r with
  | none => rfl
  | some r' => exact absurd (isElse_inv hh) (hr ho r')

/-- What is accepted is a statement of the grammar and what is left after it. -/
theorem C69_accepted_partial (O : Oracle σ E D) (hO : O.Prefix) (n : Nat) (a b : σ) (s : S E D) (ts r : List Tok) (h : stmt O n a ts = .ok (s, b, r))
    (hp : s.plain = true) : ∃ pre, ts = pre ++ r ∧ Stmt (read O) ⟨O.enter, O.leave⟩ a s pre b ∧ (s.open = true → ∀ r', r ≠ .kw "else" :: r') := by
  obtain ⟨pre, e, k, ho⟩ := (all_sound O hO n).1 a ts s b r h hp
  refine ⟨pre, e, k, fun h r' e' => ?_⟩
  have := ho h
  rw [e'] at this
  cases this

/-- The same with the parser of expressions: every text of a statement, with expressions derived by the grammar of
C11 6.5, is read as that statement. -/
theorem C69_text_partial {T : Type} (O : Oracle σ (Tree T) D) (PO : σ → Parse.Oracle T) (val : σ → Tree T → Option Int) (tn : T → List Tok) (hO : ∀ a, (PO a).Good tn)
    (hT : (withExpr O PO val).Types) (a b : σ) (s : S (Tree T) D) (ts r : List Tok)
    (h : Stmt (withText (reads (withExpr O PO val)) PO val tn) ⟨O.enter, O.leave⟩ a s ts b) (hp : s.plain = true)
    (hr : s.open = true → ∀ r', r ≠ .kw "else" :: r') :
    ∃ N, ∀ n, N ≤ n → stmt (withExpr O PO val) n a (ts ++ r) = .ok (s, b, r) := by
  refine C69_statement_partial (withExpr O PO val) hT a b s ts r (stmt_mono (V := withText (reads (withExpr O PO val)) PO val tn)
    (W := reads (withExpr O PO val)) _ ?_ ?_ (fun _ _ _ _ h => h) (fun _ _ _ _ h => h) h) hp hr
  · rintro a ts e b ⟨ok, rfl⟩
    exact expr_reads O PO val (hO _) ok
  · rintro a ts v b ⟨e, ok, hv, rfl⟩
    exact const_reads O PO val (hO _) ok hv

/-- C11 6.8.4.1p3: in `if (c) if (d) x else y` the `else` belongs to the second `if`, whatever `x` and `y` are. -/
theorem C69_else (O : Oracle σ E D) (hT : O.Types) {a1 a2 a3 a4 a5 : σ} {c d : E} {x y : S E D} {tc td tx ty r : List Tok}
    (hc : (reads O).expr a1 tc c a2) (hd : (reads O).expr a2 td d a3) (hx : Stmt (reads O) ⟨O.enter, O.leave⟩ a3 x tx a4) (hox : x.open = false)
    (hy : Stmt (reads O) ⟨O.enter, O.leave⟩ a4 y ty a5) (hp : x.plain = true ∧ y.plain = true) (hr : ∀ r', r ≠ .kw "else" :: r') :
    ∃ N, ∀ n, N ≤ n → stmt O n a1 (.kw "if" :: .p .lpar :: (tc ++ .p .rpar :: (.kw "if" :: .p .lpar :: (td ++ .p .rpar :: (tx ++ .kw "else" :: ty)))) ++ r) =
      .ok (.ifs c (.ifElse d x y), a5, r) :=
  C69_statement_partial O hT _ _ _ _ r (.ifs hc (.ifElse hd hx hox hy)) (by simp [S.plain, hp]) fun _ => hr

/-- A text has one reading. -/
theorem C69_unique (O : Oracle σ E D) (hT : O.Types) {a b b' : σ} {s s' : S E D} {ts : List Tok} (h : Stmt (reads O) ⟨O.enter, O.leave⟩ a s ts b)
    (h' : Stmt (reads O) ⟨O.enter, O.leave⟩ a s' ts b') (hp : s.plain = true) (hp' : s'.plain = true) : s = s' ∧ b = b' := by
  obtain ⟨N, h1⟩ := C69_statement_partial O hT a b s ts [] h hp (by simp)
  obtain ⟨M, h2⟩ := C69_statement_partial O hT a b' s' ts [] h' hp' (by simp)
  have := Except.ok.inj ((h1 (max N M) (by omega)).symm.trans (h2 (max N M) (by omega)))
  simp only [Prod.mk.injEq] at this
  exact ⟨this.1, this.2.1⟩

/-! ### An instance: expressions are names and numbers, a declaration is `typedef int x ;` or `T x ;`, and the state is the scopes with the typedef names -/

abbrev Sc := List (List String)

def isT (a : Sc) : Tok → Bool
  | .kw s => s == "int" || s == "typedef"
  | .ident x => a.any (·.contains x)
  | _ => false

def ex1 (a : Sc) : List Tok → Except SErr (Tok × Sc × List Tok)
  | .num v :: r => .ok (.num v, a, r)
  | .ident x :: r => if isT a (.ident x) then .error .other else .ok (.ident x, a, r)
  | _ => .error .other

def co1 (a : Sc) : List Tok → Except SErr (Int × Sc × List Tok)
  | .num v :: r => .ok (v, a, r)
  | _ => .error .other

def addT (x : String) : Sc → Sc
  | s :: r => (x :: s) :: r
  | [] => [[x]]

def de1 (a : Sc) : List Tok → Except SErr (List Tok × Sc × List Tok)
  | .kw k :: .kw k' :: .ident x :: .p .semi :: r =>
    if k = "typedef" ∧ k' = "int" then .ok ([.kw "typedef", .kw "int", .ident x], addT x a, r) else .error .other
  | t :: .ident x :: .p .semi :: r => if isT a t then .ok ([t, .ident x], a, r) else .error .other
  | _ => .error .other

def O1 : Oracle Sc Tok (List Tok) := ⟨ex1, co1, de1, de1, isT, ([] :: ·), List.tail⟩

theorem O1_types : O1.Types := by
  intro a t h
  simp only [O1, isT] at h
  split at h
  · rename_i s
    simp only [Bool.or_eq_true, beq_iff_eq] at h
    rcases h with rfl | rfl
    · exact .inr ⟨_, rfl, by decide, by decide⟩
    · exact .inr ⟨_, rfl, by decide, by decide⟩
  · exact .inl ⟨_, rfl⟩
  · cases h

theorem O1_prefix : O1.Prefix := by
  have hd : ∀ (a : Sc) ts e b r, de1 a ts = .ok (e, b, r) → ∃ pre, ts = pre ++ r := by
    intro a ts e b r h
    rw [de1.eq_def] at h
    split at h
    · split at h
      · cases h; exact ⟨[_, _, _, _], rfl⟩
      · cases h
    · split at h
      · cases h; exact ⟨[_, _, _], rfl⟩
      · cases h
    · cases h
  refine ⟨?_, ?_, hd, hd⟩
  · intro a ts e b r h
    simp only [O1] at h
    rw [ex1.eq_def] at h
    split at h
    · cases h; exact ⟨[_], rfl⟩
    · split at h
      · cases h
      · cases h; exact ⟨[_], rfl⟩
    · cases h
  · intro a ts e b r h
    simp only [O1] at h
    rw [co1.eq_def] at h
    split at h
    · cases h; exact ⟨[_], rfl⟩
    · cases h

theorem num1 (a : Sc) (v : Int) : (reads O1).expr a [.num v] (.num v) a :=
  ⟨fun _ _ => rfl, _, _, rfl, ⟨rfl, by simp, by simp, by simp, by simp, by simp, by simp⟩, by simp⟩

theorem id1 {a : Sc} {x : String} (h : isT a (.ident x) = false) : (reads O1).expr a [.ident x] (.ident x) a :=
  ⟨fun _ _ => by simp [O1, ex1, h], _, _, rfl, ⟨h, by simp, by simp, by simp, by simp, by simp, by simp⟩, by simp⟩

theorem const1 (a : Sc) (v : Int) : (reads O1).const a [.num v] v a := fun _ _ => rfl

theorem typedef1 (a : Sc) (x : String) : (reads O1).decl a [.kw "typedef", .kw "int", .ident x, .p .semi] [.kw "typedef", .kw "int", .ident x] (addT x a) :=
  ⟨fun _ => by simp [O1, de1], _, _, _, rfl, by simp [O1, isT], by simp⟩

theorem decl1 {a : Sc} {t x : String} (h : isT a (.ident t) = true) : (reads O1).decl a [.ident t, .ident x, .p .semi] [.ident t, .ident x] a :=
  ⟨fun _ => by simp [O1, de1, h], _, _, _, rfl, h, by simp⟩

/-- `{ { typedef int T; T: T x; } T; }`: inside, `T :` is a label and `T x;` a declaration; outside, `T;` is an expression. -/
def exScope : S Tok (List Tok) :=
  .block (.stmt (.block (.decl [.kw "typedef", .kw "int", .ident "T"] (.stmt (.label "T" .null) (.decl [.ident "T", .ident "x"] .nil)))) (.stmt (.expr (.ident "T")) .nil))

theorem exScope_text : Stmt (reads O1) ⟨O1.enter, O1.leave⟩ [[]] exScope
    [.p .lbrace, .p .lbrace, .kw "typedef", .kw "int", .ident "T", .p .semi, .ident "T", .p .colon, .p .semi, .ident "T", .ident "x", .p .semi, .p .rbrace,
      .ident "T", .p .semi, .p .rbrace] [[]] :=
  by
  have h1 : Items (reads O1) ⟨O1.enter, O1.leave⟩ [[], [], []] _ _ _ :=
    .decl (typedef1 _ "T") (.stmt (.label (x := "T") (.null _)) (.decl (decl1 (t := "T") (x := "x") rfl) (.nil _)))
  have h2 : Items (reads O1) ⟨O1.enter, O1.leave⟩ [[], []] _ _ _ := .stmt (.block (a := [[], []]) h1) (.stmt (.expr (id1 (a := [[], []]) (x := "T") rfl)) (.nil _))
  exact .block (a := [[]]) h2

example : ∃ N, ∀ n, N ≤ n → stmt O1 n [[]] ([.p .lbrace, .p .lbrace, .kw "typedef", .kw "int", .ident "T", .p .semi, .ident "T", .p .colon, .p .semi, .ident "T", .ident "x",
    .p .semi, .p .rbrace, .ident "T", .p .semi, .p .rbrace] ++ [.eof]) = .ok (exScope, [[]], [.eof]) :=
  C69_statement_partial O1 O1_types _ _ _ _ _ exScope_text rfl (by simp)

/-- `for (;;) switch (x) { case 1 ... 3: if (1) break; else do continue; while (2); default: return; }`. -/
def exFor : S Tok (List Tok) :=
  .forS (.inr none) none none (.switch (.ident "x") (.block (.stmt (.case 1 3 (.ifElse (.num 1) .brk (.doW .cont (.num 2)))) (.stmt (.dflt (.ret none)) .nil))))

theorem exFor_text : Stmt (reads O1) ⟨O1.enter, O1.leave⟩ [[]] exFor
    [.kw "for", .p .lpar, .p .semi, .p .semi, .p .rpar, .kw "switch", .p .lpar, .ident "x", .p .rpar, .p .lbrace, .kw "case", .num 1, .p .dots, .num 3, .p .colon,
      .kw "if", .p .lpar, .num 1, .p .rpar, .kw "break", .p .semi, .kw "else", .kw "do", .kw "continue", .p .semi, .kw "while", .p .lpar, .num 2, .p .rpar, .p .semi,
      .kw "default", .p .colon, .kw "return", .p .semi, .p .rbrace] [[]] :=
  by
  have h1 : Items (reads O1) ⟨O1.enter, O1.leave⟩ [[], [], []] _ _ _ :=
    .stmt (.range (const1 _ 1) (const1 _ 3) (by decide) (.ifElse (num1 _ 1) (.brk _) rfl (.doW (.cont _) (num1 _ 2)))) (.stmt (.dflt (.ret (.none _))) (.nil _))
  have h2 : Stmt (reads O1) ⟨O1.enter, O1.leave⟩ [[], []] _ _ _ := .switch (id1 (a := [[], []]) (x := "x") rfl) (.block (a := [[], []]) h1)
  exact .forS (a := [[]]) (.expr (.none _)) (.none _) (.none _) h2

example : exFor.plain = true ∧ exFor.open = false := ⟨rfl, rfl⟩

/-- `if (1) if (2) x; else y;` as an instance of `C69_else`. -/
example : ∃ N, ∀ n, N ≤ n → stmt O1 n [[]] ([.kw "if", .p .lpar, .num 1, .p .rpar, .kw "if", .p .lpar, .num 2, .p .rpar, .ident "x", .p .semi, .kw "else", .ident "y", .p .semi] ++ [.eof]) =
    .ok (.ifs (.num 1) (.ifElse (.num 2) (.expr (.ident "x")) (.expr (.ident "y"))), [[]], [.eof]) :=
  C69_else O1 O1_types (num1 _ 1) (num1 _ 2) (.expr (id1 rfl)) rfl (.expr (id1 rfl)) ⟨rfl, rfl⟩ (by simp)

/-- The text before the colon of `T : x` is not read as a declaration; a reading of the second theorem. -/
example : stmt O1 2 [["T"]] [.ident "T", .p .colon, .num 1, .p .semi, .eof] = .ok (.label "T" (.expr (.num 1)), [["T"]], [.eof]) := by
  simp [stmt, exprS, exprStmt, O1, ex1, skip, bind, Except.bind]

/-! ### An instance with the parser of expressions -/

inductive Ty1 where
  | int
  deriving DecidableEq, Repr

def PO1 : Sc → Parse.Oracle Ty1 := fun a => ⟨isT a, fun
  | .kw s :: r => if s = "int" then .ok (.int, r) else .error .typename
  | _ => .error .typename⟩

def tn1 : Ty1 → List Tok := fun _ => [.kw "int"]

theorem PO1_good (a : Sc) : (PO1 a).Good tn1 := by
  refine ⟨fun t r => ?_, fun t => ⟨_, _, rfl, by simp [PO1, isT]⟩, fun t h => ?_⟩
  · cases t; simp [PO1, tn1]
  · simp only [PO1, isT] at h
    split at h
    · rename_i s
      simp only [Bool.or_eq_true, beq_iff_eq] at h
      rcases h with rfl | rfl
      · exact .inr ⟨_, rfl, by decide, by decide⟩
      · exact .inr ⟨_, rfl, by decide, by decide⟩
    · exact .inl ⟨_, rfl⟩
    · cases h

/-- No declarations. -/
def O0 : Oracle Sc (Tree Ty1) (List Tok) := ⟨fun _ _ => .error .other, fun _ _ => .error .other, de1, de1, fun _ _ => false, ([] :: ·), List.tail⟩

def val1 : Sc → Tree Ty1 → Option Int := fun _ => fun
  | .num v => some v
  | _ => none

/-- `while (x < (int) y) { T z; x = x + 1; }` where `T` is a typedef name. -/
example : ∃ N, ∀ n, N ≤ n → stmt (withExpr O0 PO1 val1) n [["T"]] ([.kw "while", .p .lpar, .ident "x", .p .lt, .p .lpar, .kw "int", .p .rpar, .ident "y", .p .rpar,
    .p .lbrace, .ident "T", .ident "z", .p .semi, .ident "x", .p .eq, .ident "x", .p .plus, .num 1, .p .semi, .p .rbrace] ++ [.eof]) =
    .ok (.whileS (.bin .lt (.ident "x") (.cast .int (.ident "y"))) (.block (.decl [.ident "T", .ident "z"]
      (.stmt (.expr (.assign none (.ident "x") (.bin .add (.ident "x") (.num 1)))) .nil))), [["T"]], [.eof]) := by
  refine C69_text_partial O0 PO1 val1 tn1 PO1_good (fun a t h => O1_types a t h) _ _ _ _ _ ?_ rfl (by simp)
  have h1 : Items (withText (reads (withExpr O0 PO1 val1)) PO1 val1 tn1) ⟨O0.enter, O0.leave⟩ [[], ["T"]] _ _ _ :=
    .decl (b := [[], ["T"]]) (d := [.ident "T", .ident "z"]) (ts := [.ident "T", .ident "z", .p .semi])
      ⟨fun _ => by simp [withExpr, O0, de1, isT], _, _, _, rfl, by simp [withExpr, PO1, isT], by simp⟩
      (.stmt (.expr (e := .assign none (.ident "x") (.bin .add (.ident "x") (.num 1))) ⟨Parse.derives_of_print _ (by simp [Tree.Ok, PO1, isT, Parse.AOp.tok]) rfl (by decide), rfl⟩) (.nil _))
  have h2 : (withText (reads (withExpr O0 PO1 val1)) PO1 val1 tn1).expr [["T"]] [.ident "x", .p .lt, .p .lpar, .kw "int", .p .rpar, .ident "y"]
    (.bin .lt (.ident "x") (.cast .int (.ident "y"))) [["T"]] := ⟨Parse.derives_of_print _ (by simp [Tree.Ok, PO1, isT]) rfl (by decide), rfl⟩
  exact .whileS h2 (.block (a := [["T"]]) h1)

/-! ### Where the property fails -/

/-- asm_stmt does not take the semicolon: `asm("nop");`, with `volatile` and `inline` after `asm` or not, is read up to the semicolon, which is left as a null
statement. -/
theorem asm_leaves_semicolon (O : Oracle σ E D) (a : σ) (w : List Tok) (hw : ∀ x ∈ w, x = .kw "volatile" ∨ x = .ident "inline") (t : String) (n : Nat) (r : List Tok) :
    stmt O (n + 1) a (.kw "asm" :: (w ++ .p .lpar :: .str t :: .p .rpar :: .p .semi :: r)) = .ok (.asm t, a, .p .semi :: r) := by
  have hk : kwOf "asm" = some .asmK := kwOf_word .asmK
  have hd : ∀ r' : List Tok, (w ++ .p .lpar :: r').dropWhile asmWord = .p .lpar :: r' := by
    intro r'
    rw [List.dropWhile_append_of_pos (fun x hx => by rcases hw x hx with rfl | rfl <;> rfl)]
    rfl
  simp [stmt, hk, asmStmt, hd, skip, bind, Except.bind]

/-- So `if (1) asm("nop"); else y;`, a statement of the grammar, is read without its `else`; the rest, which begins with the semicolon, is then an
error. -/
theorem asm_else_rejected :
    Stmt (reads O1) ⟨O1.enter, O1.leave⟩ [[]] (.ifElse (.num 1) (.asm "nop") (.expr (.ident "y")))
      [.kw "if", .p .lpar, .num 1, .p .rpar, .kw "asm", .p .lpar, .str "nop", .p .rpar, .p .semi, .kw "else", .ident "y", .p .semi] [[]] ∧
    stmt O1 5 [[]] [.kw "if", .p .lpar, .num 1, .p .rpar, .kw "asm", .p .lpar, .str "nop", .p .rpar, .p .semi, .kw "else", .ident "y", .p .semi] =
      .ok (.ifs (.num 1) (.asm "nop"), [[]], [.p .semi, .kw "else", .ident "y", .p .semi]) ∧
    stmt O1 9 [[]] [.p .lbrace, .kw "if", .p .lpar, .num 1, .p .rpar, .kw "asm", .p .lpar, .str "nop", .p .rpar, .p .semi, .kw "else", .ident "y", .p .semi, .p .rbrace] =
      .error .other := by
  have hk : kwOf "asm" = some .asmK := kwOf_word .asmK
  have he : kwOf "else" = none := by decide
  refine ⟨.ifElse (num1 _ 1) (.asm (w := []) _ (by simp)) rfl (.expr (id1 rfl)), ?_, ?_⟩
  · simp [stmt, kw_if, hk, asmStmt, asmWord, parenExpr, O1, ex1, isElse, skip, bind, Except.bind]
  · simp [stmt, items, isDecl, isT, exprS, exprStmt, kw_if, hk, he, asmStmt, asmWord, parenExpr, O1, ex1, isElse, skip, bind, Except.bind]

end Toycc.Stx.Props
