import Verif.Parse.Model
/-!
The parser of statements, parser/parser.c:1072-1138 and 1139-1377 with compound_stmt (1547-1589), as a function from tokens to syntax trees. What
the semantic actions build from a tree (labels, the lists of cases) is modelled in Verif.Stm.Model. Expressions (expr, parser.c:1061-1070),
constant expressions (const_expr, parser.c:1010-1014, converted to int) and declarations are oracles; they use and change a state `σ`, the scopes.
-/
namespace Toycc.Stx
open Toycc.Parse (Tok P)

mutual
/-- Statements. `E` are expressions, `D` declarations. -/
inductive S (E D : Type) where
  | null
  | expr (e : E)
  | ret (e : Option E)
  | ifs (c : E) (a : S E D)
  | ifElse (c : E) (a b : S E D)
  | switch (c : E) (s : S E D)
  | case (lo hi : Int) (s : S E D)
  | dflt (s : S E D)
  | forS (init : D ⊕ Option E) (c inc : Option E) (s : S E D)
  | whileS (c : E) (s : S E D)
  | doW (s : S E D) (c : E)
  | asm (t : String)
  | goto (x : String)
  | gotoE (e : E)
  | brk
  | cont
  | label (x : String) (s : S E D)
  | block (b : B E D)
/-- The items of a block. -/
inductive B (E D : Type) where
  | nil
  | decl (d : D) (r : B E D)
  | stmt (s : S E D) (r : B E D)
end

/-- `skip`: a missing punctuator or keyword; `ident`, `range`, `literal`: the diagnostics of parser.c:1097, 1190, 1124; `other`: an error of an oracle;
`eof`: the tokens end. -/
inductive SErr where
  | skip | ident | range | literal | other | eof | fuel
  /-- the behaviour of the compiler itself is undefined -/
  | undefined
  deriving DecidableEq, Repr

/-- `decl`: the declarations of compound_stmt, parser.c:1557-1577, to the end of the declaration; `forDecl`: those of `for`, parser.c:1243-1245.
`enter`, `leave`: enter_scope and leave_scope, parser/scope.c:35-46. `isType`: is_typename, declarator.c:362-404. -/
structure Oracle (σ E D : Type) where
  expr : σ → List Tok → Except SErr (E × σ × List Tok)
  const : σ → List Tok → Except SErr (Int × σ × List Tok)
  decl : σ → List Tok → Except SErr (D × σ × List Tok)
  forDecl : σ → List Tok → Except SErr (D × σ × List Tok)
  isType : σ → Tok → Bool
  enter : σ → σ
  leave : σ → σ

variable {σ E D : Type}

/-- skip, utils.c:92-97. -/
def skip (ts : List Tok) (q : Tok) : Except SErr (List Tok) :=
  match ts with
  | t :: r => if t = q then .ok r else .error .skip
  | [] => .error .skip

/-- expr_stmt, parser.c:1073-1086. -/
def exprStmt (O : Oracle σ E D) (st : σ) (ts : List Tok) : Except SErr (Option E × σ × List Tok) :=
  match ts with
  | .p .semi :: r => .ok (none, st, r)
  | ts => do
    let (e, st, ts) ← O.expr st ts
    let ts ← skip ts (.p .semi)
    .ok (some e, st, ts)

/-- The tests of stmt for keywords. -/
inductive K where
  | ret | ifK | switchK | caseK | dfltK | forK | whileK | doK | asmK | gotoK | brkK | contK
  deriving DecidableEq, Repr

def K.word : K → String
  | .ret => "return" | .ifK => "if" | .switchK => "switch" | .caseK => "case" | .dfltK => "default" | .forK => "for"
  | .whileK => "while" | .doK => "do" | .asmK => "asm" | .gotoK => "goto" | .brkK => "break" | .contK => "continue"

def kwOf (s : String) : Option K :=
  [K.ret, .ifK, .switchK, .caseK, .dfltK, .forK, .whileK, .doK, .asmK, .gotoK, .brkK, .contK].find? (fun k => k.word == s)

/-- `( expr )`, parser.c:1161-1164, 1178-1180, 1271-1274, 1307-1309. -/
def parenExpr (O : Oracle σ E D) (st : σ) (ts : List Tok) : Except SErr (E × σ × List Tok) := do
  let ts ← skip ts (.p .lpar)
  let (e, st, ts) ← O.expr st ts
  let ts ← skip ts (.p .rpar)
  .ok (e, st, ts)

/-- An expression that may be left out before the punctuator `q`, which is skipped; parser.c:1250-1256, and 1143-1147 for `return`. -/
def optExpr (O : Oracle σ E D) (st : σ) (q : P) (ts : List Tok) : Except SErr (Option E × σ × List Tok) :=
  match ts with
  | [] => .error .eof
  | t :: r =>
    if t = .p q then .ok (none, st, r)
    else do
      let (e, st, ts) ← O.expr st (t :: r)
      let ts ← skip ts (.p q)
      .ok (some e, st, ts)

/-- The first part of `for`, parser.c:1243-1248. -/
def forInit (O : Oracle σ E D) (st : σ) (ts : List Tok) : Except SErr ((D ⊕ Option E) × σ × List Tok) :=
  match ts with
  | [] => .error .eof
  | t :: r =>
    if O.isType st t then do
      let (d, st, ts) ← O.forDecl st (t :: r)
      .ok (.inl d, st, ts)
    else do
      let (e, st, ts) ← exprStmt O st (t :: r)
      .ok (.inr e, st, ts)

/-- The parentheses of `for`, parser.c:1234-1257. -/
def forHead (O : Oracle σ E D) (st : σ) (ts : List Tok) : Except SErr ((D ⊕ Option E) × Option E × Option E × σ × List Tok) := do
  let ts ← skip ts (.p .lpar)
  let (i, st, ts) ← forInit O (O.enter st) ts
  let (c, st, ts) ← optExpr O st .semi ts
  let (inc, st, ts) ← optExpr O st .rpar ts
  .ok (i, c, inc, st, ts)

/-- The second constant of a range of cases, parser.c:1199-1206. -/
def caseEnd (O : Oracle σ E D) (lo : Int) (st : σ) (ts : List Tok) : Except SErr (Int × σ × List Tok) :=
  match ts with
  | .p .dots :: r => do
    let (hi, st, ts) ← O.const st r
    if hi < lo then .error .range else .ok (hi, st, ts)
  | ts => .ok (lo, st, ts)

/-- `case`, parser.c:1194-1208. -/
def caseHead (O : Oracle σ E D) (st : σ) (ts : List Tok) : Except SErr (Int × Int × σ × List Tok) := do
  let (lo, st, ts) ← O.const st ts
  let (hi, st, ts) ← caseEnd O lo st ts
  let ts ← skip ts (.p .colon)
  .ok (lo, hi, st, ts)

/-- `else`, parser.c:1167. -/
def isElse : List Tok → Option (List Tok)
  | .kw s :: r => if s = "else" then some r else none
  | _ => none

/-- The words skipped after `asm`, parser.c:1117-1118. -/
def asmWord : Tok → Bool
  | .kw s | .ident s => s == "volatile" || s == "inline"
  | _ => false

/-- asm_stmt, parser.c:1112-1130, after the word `asm`; the literal is taken to be one of characters. -/
def asmStmt (ts : List Tok) : Except SErr (String × List Tok) := do
  let ts ← skip (ts.dropWhile asmWord) (.p .lpar)
  match ts with
  | .str s :: r => do
    let ts ← skip r (.p .rpar)
    .ok (s, ts)
  | _ => .error .literal

/-- The tests of compound_stmt: the end of the block and, parser.c:1555, a declaration. -/
def isDecl (O : Oracle σ E D) (st : σ) : List Tok → Bool
  | _ :: .p .colon :: _ => false
  | t :: _ => O.isType st t
  | [] => false

mutual
/-- stmt, parser.c:1139-1377. -/
def stmt (O : Oracle σ E D) : Nat → σ → List Tok → Except SErr (S E D × σ × List Tok)
  | 0, _, _ => .error .fuel
  | n + 1, st, ts =>
    match ts with
    | .kw s :: r =>
      match kwOf s with
      | some .ret => do
        let (e, st, ts) ← optExpr O st .semi r
        .ok (.ret e, st, ts)
      | some .ifK => do
        let (c, st, ts) ← parenExpr O st r
        let (a, st, ts) ← stmt O n st ts
        match isElse ts with
        | some r => do
          let (b, st, ts) ← stmt O n st r
          .ok (.ifElse c a b, st, ts)
        | none => .ok (.ifs c a, st, ts)
      | some .switchK => do
        let (c, st, ts) ← parenExpr O st r
        let (a, st, ts) ← stmt O n st ts
        .ok (.switch c a, st, ts)
      | some .caseK => do
        let (lo, hi, st, ts) ← caseHead O st r
        let (a, st, ts) ← stmt O n st ts
        .ok (.case lo hi a, st, ts)
      | some .dfltK => do
        let ts ← skip r (.p .colon)
        let (a, st, ts) ← stmt O n st ts
        .ok (.dflt a, st, ts)
      | some .forK => do
        let (i, c, inc, st, ts) ← forHead O st r
        let (a, st, ts) ← stmt O n st ts
        .ok (.forS i c inc a, O.leave st, ts)
      | some .whileK => do
        let (c, st, ts) ← parenExpr O st r
        let (a, st, ts) ← stmt O n st ts
        .ok (.whileS c a, st, ts)
      | some .doK => do
        let (a, st, ts) ← stmt O n st r
        let ts ← skip ts (.kw "while")
        let (c, st, ts) ← parenExpr O st ts
        let ts ← skip ts (.p .semi)
        .ok (.doW a c, st, ts)
      | some .asmK => do
        let (s, ts) ← asmStmt r
        .ok (.asm s, st, ts)
      | some .gotoK =>
        match r with
        | .p .star :: r => do
          let (e, st, ts) ← O.expr st r
          let ts ← skip ts (.p .semi)
          .ok (.gotoE e, st, ts)
        | .ident x :: r => do
          let ts ← skip r (.p .semi)
          .ok (.goto x, st, ts)
        | _ => .error .ident
      | some .brkK => do
        let ts ← skip r (.p .semi)
        .ok (.brk, st, ts)
      | some .contK => do
        let ts ← skip r (.p .semi)
        .ok (.cont, st, ts)
      | none => exprS O st (.kw s :: r)
    | .ident x :: .p .colon :: r => do
      let (a, st, ts) ← stmt O n st r
      .ok (.label x a, st, ts)
    | .p .lbrace :: r => do
      let (b, st, ts) ← items O n (O.enter st) r
      .ok (.block b, O.leave st, ts)
    | ts => exprS O st ts
/-- The loop of compound_stmt, parser.c:1553-1583, to the closing brace. -/
def items (O : Oracle σ E D) : Nat → σ → List Tok → Except SErr (B E D × σ × List Tok)
  | 0, _, _ => .error .fuel
  | n + 1, st, ts =>
    match ts with
    | .p .rbrace :: r => .ok (.nil, st, r)
    | ts =>
      if isDecl O st ts then do
        let (d, st, ts) ← O.decl st ts
        let (b, st, ts) ← items O n st ts
        .ok (.decl d b, st, ts)
      else do
        let (s, st, ts) ← stmt O n st ts
        let (b, st, ts) ← items O n st ts
        .ok (.stmt s b, st, ts)
/-- expr_stmt as a statement. -/
def exprS (O : Oracle σ E D) (st : σ) (ts : List Tok) : Except SErr (S E D × σ × List Tok) := do
  let (e, st, ts) ← exprStmt O st ts
  .ok ((match e with
    | some e => .expr e
    | none => .null), st, ts)
end

end Toycc.Stx
