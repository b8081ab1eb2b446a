import Verif.Lex.Props
import Verif.Lex.NumModel
/-
Model of preprocessor/preprocess.c and of the handlers of preprocessor/predefined_macro.c.

A token list is a Lean list whose last element is the TK_EOF token; the empty list is the null pointer. The code
links and relinks list nodes in place; this is visible in one place only: `subst` calls `preprocess2` on the token
list of a macro argument and keeps the pointer to its first node, so a second use of the argument sees the list as
relinked by the first call. The ghost flag `own` marks the nodes of the list that was given to `preprocess2`;
`pp` also returns the nodes of that list that were consumed before the first of them that was passed through, from
which the relinked list can be computed (`residue`). The ghost flag `tail` marks the nodes of such a relinked list that
have been through `preprocess2` already; it is looked at in strict mode only.
-/
namespace Toycc.Pp
open Toycc.Lex (Kind Payload Host TErr asc)

abbrev Bytes := List UInt8

/-- struct File, toycc.h:65-73: `id` is the identity of a file read by tokenize_file (its #line state is mutable and
kept in `St.lines`), `none` for the files made by new_file for pasted, stringized and predefined tokens. -/
structure FileRef where
  id : Option Nat
  name : Bytes
  deriving DecidableEq, Repr

/-- struct Token, toycc.h:46-63, as far as the preprocessor uses it. `text` is the spelling (loc, len); `origin` is
the file and line of the token at the end of the chain of `origin` pointers. -/
structure PTok where
  kind : Kind
  text : Bytes
  bol : Bool
  sp : Bool
  hs : List Bytes := []
  file : FileRef := ⟨none, []⟩
  line : Nat := 1
  delta : Int := 0
  shown : Bytes := []
  origin : Option (FileRef × Nat) := none
  payload : Payload := .none
  own : Bool := false
  tail : Bool := false
  deriving DecidableEq, Repr

/-- Diagnostics of preprocess.c (error_tok). -/
inductive Diag where
  | prematureEnd | expected (s : Bytes) | hashNotParam | pasteStart | pasteEnd | badPaste
  | macroName | needIdent | noExpression | badExpression | extraToken
  | strayElif | strayElse | strayEndif | unterminated
  | expectedGt | expectedFilename | cannotOpen | badLineMarker | needFilename
  | errorDirective | badDirective | badNumber
  deriving DecidableEq, Repr

/-- Outcomes other than success: a diagnostic (exit status 1), an error of the tokenizer, an access through a null
`next` pointer, and running out of the model's fuel. The last three are reported only by the strict mode (`Env.strict`):
a directive made by macro expansion, an include, and an argument that is used again although its first expansion left
a list that is not inert, or where a macro call in the part to be expanded again runs into the inert part. -/
inductive PErr where
  | diag (d : Diag) | lex (e : TErr) | null | fuel
  | generated | includes | reused
  deriving DecidableEq, Repr

/-- The handlers of predefined_macro.c:19-68. -/
inductive Handler where
  | file | line | counter | timestamp | baseFile
  deriving DecidableEq, Repr

/-- struct Macro, preprocessor.h:6-13. -/
structure Macro where
  name : Bytes
  objlike : Bool
  params : List Bytes := []
  va : Option Bytes := none
  body : List PTok
  handler : Option Handler := none
  deriving DecidableEq, Repr

inductive Ctx where
  | inThen | inElif | inElse
  deriving DecidableEq, Repr

/-- struct CondIncl, preprocess.c:45-50 (the token is only used in the message). -/
structure Cond where
  ctx : Ctx
  included : Bool
  deriving DecidableEq, Repr

/-- The static state of preprocess.c: the hash maps `macros`, `pragma_once`, `include_guards` and `cache` as
association lists (C01-C04 justify this), the stack `cond_incl`, `include_next_idx`, the #line state of the files
read so far, the number of files read, and the counter of __COUNTER__. -/
structure St where
  macros : List (Bytes × Macro) := []
  conds : List Cond := []
  once : List Bytes := []
  guards : List (Bytes × Bytes) := []
  cache : List (Bytes × Bytes) := []
  nextIdx : Nat := 0
  lines : List (Nat × (Bytes × Int)) := []
  nfiles : Nat := 0
  counter : Nat := 0
  deriving DecidableEq, Repr

/-- What the preprocessor gets from outside: the machine, the include directories, the file system, `dirname`, the
constant-expression evaluator of the parser (value and remaining tokens; `none` for a diagnostic), the text of
__TIMESTAMP__ and __BASE_FILE__. `strict` is not in the code: it makes the model stop with an error in the three
situations in which termination is not claimed. -/
structure Env where
  host : Host
  paths : List Bytes := []
  fileExists : Bytes → Bool := fun _ => false
  read : Bytes → Option Bytes := fun _ => none
  dirname : Bytes → Bytes := fun _ => asc "."
  constExpr : List PTok → Option (Int × List PTok)
  stamp : Bytes → Bytes := fun _ => asc "??? ??? ?? ??:??:?? ????"
  base : Bytes := []
  strict : Bool := false

/-- equal, utils.c:14-17. -/
def PTok.is (t : PTok) (s : String) : Bool := t.text == asc s
def PTok.isEof (t : PTok) : Bool := t.kind == .eof

/-- is_hash, preprocess.c:57-60. -/
def isHash (t : PTok) : Bool := t.bol && t.is "#"

/-- skip_line, preprocess.c:64-73: the loop `while (tok->at_bol)` is entered only when its condition is false, so
nothing is ever skipped. -/
def skipLine : List PTok → Except PErr (List PTok)
  | [] => .error .null
  | l => .ok l

/-- skip, utils.c:92-97. -/
def skip (s : String) : List PTok → Except PErr (List PTok)
  | [] => .error .null
  | t :: r => if t.is s then .ok r else .error (.diag (.expected (asc s)))

/-- copy_token, preprocess.c:75-82: a node of its own, not one of the list being processed. -/
def copyTok (t : PTok) : PTok := { t with own := false, tail := false }

/-- new_eof, preprocess.c:102-108. Simplified: the position of the copied token, which is used in messages only, its
spacing and its hide set, which are never looked at in a TK_EOF token, are left out. -/
def newEof (t : PTok) : PTok := { kind := .eof, text := [], bol := t.bol, sp := false, own := t.own }

/-- A copied token (copy_token) that becomes a node of a list to be given to preprocess2. -/
def ownTok (t : PTok) : PTok := { t with own := true }

/-- A node of a list given to preprocess2 that has been through preprocess2 before. -/
def tailTok (t : PTok) : PTok := { t with own := true, tail := true }

/-- The tokens of a list before TK_EOF (the loop condition of append and of many others). -/
def body (l : List PTok) : List PTok := l.takeWhile fun t => !t.isEof

/-- The effect of `(*rest)->at_bol = ...; (*rest)->has_space = ...`. -/
def setFlags (bol sp : Bool) : List PTok → List PTok
  | [] => []
  | t :: r => { t with bol := bol, sp := sp } :: r

/-- copy_line, preprocess.c:113-127. -/
def copyLine : List PTok → Except PErr (List PTok × List PTok)
  | [] => .error .null
  | t :: r =>
    if t.bol then .ok ([ownTok (newEof t)], t :: r)
    else
      match copyLine r with
      | .error e => .error e
      | .ok (l, rest) => .ok (ownTok t :: l, rest)

/-- Tokens of a text as the preprocessor sees them. -/
def ofLex (f : FileRef) (text : Bytes) (t : Lex.Tok) : PTok :=
  { kind := t.kind, text := (text.drop t.loc).take t.len, bol := t.atBol, sp := t.hasSpace, file := f,
    line := t.line, payload := t.payload }

/-- tokenize (tokenize.c:553-727) applied to a new file. -/
def tokens (env : Env) (f : FileRef) (text : Bytes) : Except PErr (List PTok) :=
  match Lex.tokenize env.host text with
  | .error e => .error (.lex e)
  | .ok ts => .ok (ts.map (ofLex f text))

/-- The first token of a text: what remains of the result of `tokenize` when its `next` is overwritten. -/
def firstTok (env : Env) (f : FileRef) (text : Bytes) : Except PErr PTok :=
  match tokens env f text with
  | .error e => .error e
  | .ok [] => .error .null
  | .ok (t :: _) => .ok t

/-- `format("%d", val)`. -/
def decimal (i : Int) : Bytes := asc (toString i)

/-- new_num_token, preprocess.c:129-133. -/
def newNum (env : Env) (v : Int) (tmpl : PTok) : Except PErr PTok := firstTok env ⟨none, tmpl.file.name⟩ (decimal v)

/-- hashmap_get2 on `macros`. -/
def lookup (st : St) (name : Bytes) : Option Macro := (st.macros.find? fun p => p.1 == name).map (·.2)

/-- find_macro, preprocess.c:266-272. -/
def findMacro (st : St) (t : PTok) : Option Macro := if t.kind == .ident then lookup st t.text else none

/-- add_macro, preprocess.c:753-763. -/
def addMacro (st : St) (m : Macro) : St :=
  { st with macros := (m.name, m) :: st.macros.filter fun p => p.1 != m.name }

/-- undef_macro, preprocess.c:765-768. -/
def undefMacro (st : St) (name : Bytes) : St := { st with macros := st.macros.filter fun p => p.1 != name }

/-! ### Hide sets -/

/-- hideset_union, preprocess.c:284-297. -/
def hsUnion (a b : List Bytes) : List Bytes := a ++ b

/-- hideset_contains, preprocess.c:299-306: strlen(name) = len and equal bytes. -/
def hsContains : List Bytes → Bytes → Bool
  | [], _ => false
  | n :: r, s => n == s || hsContains r s

/-- add_hideset, preprocess.c:308-322. -/
def addHideset (l : List PTok) (hs : List Bytes) : List PTok :=
  l.map fun t => { t with hs := hsUnion t.hs hs, own := false }

/-- hideset_intersection, preprocess.c:325-336. -/
def hsInter : List Bytes → List Bytes → List Bytes
  | [], _ => []
  | n :: r, b => if hsContains b n then n :: hsInter r b else hsInter r b

/-! ### Macro arguments -/

/-- struct MacroArg, preprocess.c:38-43. -/
structure Arg where
  name : Bytes
  isVa : Bool := false
  toks : List PTok
  deriving DecidableEq, Repr

/-- read_macro_arg_one, preprocess.c:339-377: the argument (with its TK_EOF) and the list from the terminating `)` or
`,` on. `level` is never negative: a `)` at level 0 ends the loop. -/
def readArg (rest : Bool) : Nat → List PTok → Except PErr (List PTok × List PTok)
  | _, [] => .error .null
  | lvl, t :: r =>
    if lvl == 0 && t.is ")" then .ok ([ownTok (newEof t)], t :: r)
    else if lvl == 0 && !rest && t.is "," then .ok ([ownTok (newEof t)], t :: r)
    else if t.isEof then .error (.diag .prematureEnd)
    else
      match readArg rest (if t.is "(" then lvl + 1 else if t.is ")" then lvl - 1 else lvl) r with
      | .error e => .error e
      | .ok (a, l) => .ok (ownTok t :: a, l)

/-- The loop of read_macro_args over the parameters, preprocess.c:394-403. -/
def readParams : Bool → List Bytes → List PTok → Except PErr (List Arg × List PTok)
  | _, [], l => .ok ([], l)
  | first, p :: ps, l =>
    match (if first then .ok l else skip "," l) with
    | .error e => .error e
    | .ok l1 =>
      match readArg false 0 l1 with
      | .error e => .error e
      | .ok (a, l2) =>
        match readParams false ps l2 with
        | .error e => .error e
        | .ok (as, l3) => .ok ({ name := p, toks := a } :: as, l3)

/-- The variadic argument of read_macro_args, preprocess.c:405-424. -/
def readVa (params : List Bytes) (va : Option Bytes) (l : List PTok) : Except PErr (List Arg × List PTok) :=
  match va with
  | none => .ok ([], l)
  | some name =>
    match l with
    | [] => .error .null
    | t :: _ =>
      if t.is ")" then .ok ([{ name := name, isVa := true, toks := [ownTok (newEof t)] }], l)
      else
        match (if params.isEmpty then .ok l else skip "," l) with
        | .error e => .error e
        | .ok l1 =>
          match readArg true 0 l1 with
          | .error e => .error e
          | .ok (a, l2) => .ok ([{ name := name, isVa := true, toks := a }], l2)

/-- read_macro_args, preprocess.c:379-429, from the token after `(` on: the arguments, the closing parenthesis and
what follows it. The branch "too many arguments" is dead: `pp` is null after the loop. -/
def readArgs (params : List Bytes) (va : Option Bytes) (l : List PTok) : Except PErr (List Arg × PTok × List PTok) :=
  match readParams true params l with
  | .error e => .error e
  | .ok (as, l1) =>
    match readVa params va l1 with
    | .error e => .error e
    | .ok (as2, l2) =>
      match l2 with
      | [] => .error .null
      | t :: r => if t.is ")" then .ok (as ++ as2, t, r) else .error (.diag (.expected (asc ")")))

/-- find_arg, preprocess.c:431-438. -/
def findArg (args : List Arg) (t : PTok) : Option Arg := args.find? fun a => a.name == t.text

/-- join_tokens, preprocess.c:441-465: the spelling of the tokens, one space where there was white space. -/
def joinToks : List PTok → Bytes
  | [] => []
  | t :: r => t.text ++ r.flatMap fun u => (if u.sp then [32] else []) ++ u.text

/-- quote_string, preprocess.c:468-490. -/
def quoteString (s : Bytes) : Bytes := [34] ++ (s.flatMap fun b => if b == 92 || b == 34 then [92, b] else [b]) ++ [34]

/-- new_str_token, preprocess.c:492-496. -/
def newStr (env : Env) (s : Bytes) (tmpl : PTok) : Except PErr PTok :=
  firstTok env ⟨none, tmpl.file.name⟩ (quoteString s)

/-- stringize, preprocess.c:500-508. -/
def stringize (env : Env) (hash : PTok) (arg : List PTok) : Except PErr PTok := newStr env (joinToks (body arg)) hash

/-- paste, preprocess.c:511-523. -/
def paste (env : Env) (lhs rhs : PTok) : Except PErr PTok :=
  match tokens env ⟨none, lhs.file.name⟩ (lhs.text ++ rhs.text) with
  | .error e => .error e
  | .ok (t :: u :: _) => if u.isEof then .ok t else .error (.diag .badPaste)
  | .ok _ => .error .null

/-- has_varargs, preprocess.c:526-535. -/
def hasVarargs (args : List Arg) : Bool :=
  match args.find? fun a => a.name == asc "__VA_ARGS__" with
  | some a => !(a.toks.head?.any PTok.isEof)
  | none => false

/-- Is an argument empty? (`arg->tok->kind == TK_EOF`) -/
def isEmptyArg (a : Arg) : Bool := a.toks.head?.any PTok.isEof

/-- The type of `preprocess2` as called from the other functions: the new state, the output (with its TK_EOF), and
the nodes of the given list that were consumed before the first one passed through. -/
abbrev Rec := St → List PTok → Except PErr (St × List PTok × List PTok)

/-- The argument list as it is linked after `preprocess2` has run on it: the consumed nodes before the first node
that was passed through, then the output from that node on. -/
def residue (pre out : List PTok) : List PTok :=
  pre ++ (out.dropWhile fun t => !t.own).map tailTok

/-- No token of the list would be expanded by `preprocess2`, nor taken for a directive (strict mode only). -/
def inert (st : St) : List PTok → Bool
  | [] => true
  | t :: r =>
    (t.isEof || (!isHash t && (hsContains t.hs t.text ||
      match findMacro st t with
      | none => true
      | some m => m.handler.isNone && !m.objlike && !(r.head?.any fun u => u.is "(")))) && inert st r

/-- Replace the token list of the argument called `name`. -/
def setArg (args : List Arg) (name : Bytes) (l : List PTok) : List Arg :=
  args.map fun a => if a.name == name then { a with toks := l } else a

/-- The state of the loop of `subst`: preprocessor state, arguments, output so far (reversed), rest of the body. -/
structure Sub where
  st : St
  args : List Arg
  acc : List PTok
  rest : List PTok

/-- subst, preprocess.c:577-604: the `##` operator when the left operand is already in the output. -/
def substPaste (env : Env) (s : Sub) (r : List PTok) : Except PErr Sub :=
  match s.acc with
  | [] => .error (.diag .pasteStart)
  | c :: acc =>
    match r with
    | [] => .error .null
    | u :: r2 =>
      if u.isEof then .error (.diag .pasteEnd)
      else
        match findArg s.args u with
        | some a =>
          match a.toks with
          | [] => .error .null
          | f :: more =>
            if f.isEof then .ok { s with rest := r2 }
            else
              match paste env c f with
              | .error e => .error e
              | .ok p => .ok { s with acc := ((body more).map copyTok).reverse ++ p :: acc, rest := r2 }
        | none =>
          match paste env c u with
          | .error e => .error e
          | .ok p => .ok { s with acc := p :: acc, rest := r2 }

/-- subst, preprocess.c:609-633: a parameter followed by `##`; `r` is the list from `##` on. -/
def substLeft (s : Sub) (a : Arg) (r : List PTok) : Except PErr Sub :=
  if isEmptyArg a then
    match r with
    | _ :: rhs :: r2 =>
      match findArg s.args rhs with
      | some a2 => .ok { s with acc := ((body a2.toks).map copyTok).reverse ++ s.acc, rest := r2 }
      | none => .ok { s with acc := copyTok rhs :: s.acc, rest := r2 }
    | _ => .error .null
  else .ok { s with acc := ((body a.toks).map copyTok).reverse ++ s.acc, rest := r }

/-- subst, preprocess.c:635-649: `__VA_OPT__ ( ... )`; `r` is the list after the parenthesis. -/
def substVaOpt (s : Sub) (r : List PTok) : Except PErr Sub :=
  match readArg true 0 r with
  | .error e => .error e
  | .ok (x, r2) =>
    match skip ")" r2 with
    | .error e => .error e
    | .ok r3 => .ok { s with acc := (if hasVarargs s.args then (body x).map copyTok else []).reverse ++ s.acc, rest := r3 }

/-- subst, preprocess.c:651-668: a parameter, replaced by its completely macro-replaced argument. -/
def substArg (env : Env) (rec : Rec) (s : Sub) (a : Arg) (t : PTok) (r : List PTok) : Except PErr Sub :=
  match rec s.st a.toks with
  | .error e => .error e
  | .ok (st', out, pre) =>
    match out with
    | [] => .error .null
    | _ =>
      let out' := setFlags t.bol t.sp out
      if env.strict && r.any (fun u => u.text == a.name) && !inert st' (out'.dropWhile fun t => !t.own) then .error .reused
      else
        .ok { st := st', args := setArg s.args a.name (residue pre out'),
              acc := ((body out').map copyTok).reverse ++ s.acc, rest := r }

/-- `equal(tok->next, s)`. -/
def nextIs (r : List PTok) (s : String) : Bool := r.head?.any fun u => u.is s

/-- One iteration of the loop of subst, preprocess.c:543-675, at the token `t`. -/
def substStep (env : Env) (rec : Rec) (s : Sub) (t : PTok) (r : List PTok) : Except PErr Sub :=
  if t.is "#" then
    match r with
    | [] => .error .null
    | u :: r2 =>
      match findArg s.args u with
      | none => .error (.diag .hashNotParam)
      | some a =>
        match stringize env t a.toks with
        | .error e => .error e
        | .ok x => .ok { s with acc := x :: s.acc, rest := r2 }
  else
    let vaArg := if t.is "," && nextIs r "##" then
        match r with
        | _ :: u :: _ => (findArg s.args u).filter (·.isVa)
        | _ => none
      else none
    match vaArg with
    | some a =>
      if isEmptyArg a then .ok { s with rest := r.drop 2 }
      else .ok { s with acc := copyTok t :: s.acc, rest := r.drop 1 }
    | none =>
      if t.is "##" then substPaste env s r
      else
        match findArg s.args t with
        | some a =>
          if nextIs r "##" then substLeft s a r
          else if t.is "__VA_OPT__" && nextIs r "(" then substVaOpt s (r.drop 1)
          else substArg env rec s a t r
        | none =>
          if t.is "__VA_OPT__" && nextIs r "(" then substVaOpt s (r.drop 1)
          else .ok { s with acc := copyTok t :: s.acc, rest := r }

theorem readArg_len (b : Bool) (lvl : Nat) (l : List PTok) (a r : List PTok) (h : readArg b lvl l = .ok (a, r)) :
    r.length ≤ l.length := by
  induction l generalizing lvl a r with
  | nil => simp [readArg] at h
  | cons t l ih =>
    rw [readArg] at h
    split at h
    · cases h; simp
    · split at h
      · cases h; simp
      · split at h
        · cases h
        · split at h
          · cases h
          · rename_i h2
            cases h
            have := ih _ _ _ h2
            simp; omega

theorem substStep_len (env : Env) (rec : Rec) (s : Sub) (t : PTok) (r : List PTok) (s' : Sub)
    (h : substStep env rec s t r = .ok s') : s'.rest.length ≤ r.length := by
  have hva : ∀ r' s', substVaOpt s r' = .ok s' → s'.rest.length ≤ r'.length := by
    intro r' s' h
    unfold substVaOpt at h
    split at h
    · cases h
    · rename_i x r2 h1
      have h1 := readArg_len _ _ _ _ _ h1
      split at h
      · cases h
      · rename_i r3 h2
        cases h
        cases r2 with
        | nil => simp [skip] at h2
        | cons u r2 =>
          simp only [skip] at h2
          split at h2
          · cases h2; simp at *; omega
          · cases h2
  have hd : ∀ k, (r.drop k).length ≤ r.length := by intro k; simp
  unfold substStep at h
  split at h
  · split at h
    · cases h
    · split at h
      · cases h
      · split at h
        · cases h
        · cases h; simp
  · dsimp only at h
    split at h
    · split at h
      · cases h; exact hd 2
      · cases h; exact hd 1
    · split at h
      · unfold substPaste at h
        split at h
        · cases h
        · split at h
          · cases h
          · split at h
            · cases h
            · split at h
              · split at h
                · cases h
                · split at h
                  · cases h; simp
                  · split at h
                    · cases h
                    · cases h; simp
              · split at h
                · cases h
                · cases h; simp
      · split at h
        · split at h
          · unfold substLeft at h
            split at h
            · split at h
              · split at h
                · cases h; simp; omega
                · cases h; simp; omega
              · cases h
            · cases h; simp
          · split at h
            · exact Nat.le_trans (hva _ _ h) (hd 1)
            · unfold substArg at h
              split at h
              · cases h
              · split at h
                · cases h
                · dsimp only at h
                  split at h
                  · cases h
                  · cases h; simp
        · split at h
          · exact Nat.le_trans (hva _ _ h) (hd 1)
          · cases h; simp

/-- subst, preprocess.c:538-679: the replaced body (with the TK_EOF of the macro's body). -/
def subst (env : Env) (rec : Rec) (s : Sub) : Except PErr (St × List PTok) :=
  match hl : s.rest with
  | [] => .error .null
  | t :: r =>
    if t.isEof then .ok (s.st, s.acc.reverse ++ [t])
    else
      match hs : substStep env rec s t r with
      | .error e => .error e
      | .ok s' => subst env rec s'
termination_by s.rest.length
decreasing_by
  have := substStep_len _ _ _ _ _ _ hs
  rw [hl]; simp; omega

/-- The root of the chain of `origin` pointers of a token (predefined_macro.c:21-22, 28-29). -/
def root (t : PTok) : FileRef × Nat := t.origin.getD (t.file, t.line)

/-- `file->display_name` and `file->line_delta`: as set by new_file until a #line directive changes them. -/
def lineState (st : St) (f : FileRef) : Bytes × Int :=
  match f.id with
  | none => (f.name, 0)
  | some n => match st.lines.find? fun p => p.1 == n with
    | some p => p.2
    | none => (f.name, 0)

/-- The handlers file_macro, line_macro, counter_macro, timestamp_macro and base_file_macro,
predefined_macro.c:19-68: new state and the token that replaces the macro. -/
def runHandler (env : Env) (st : St) (h : Handler) (t : PTok) : Except PErr (St × PTok) :=
  match h with
  | .file => (newStr env (lineState st (root t).1).1 t).map fun x => (st, x)
  | .line => (newNum env (((root t).2 : Int) + (lineState st (root t).1).2) t).map fun x => (st, x)
  | .counter => (newNum env st.counter t).map fun x => ({ st with counter := st.counter + 1 }, x)
  | .timestamp => (newStr env (env.stamp t.file.name) t).map fun x => (st, x)
  | .baseFile => (newStr env env.base t).map fun x => (st, x)

/-- add_hideset, the origin loop and append of expand_macro, preprocess.c:701-713 and 739-748: the body `b` put
before the rest `r`, the first token of the result taking over the flags of the macro token. -/
def place (t : PTok) (hs : List Bytes) (b r : List PTok) : Except PErr (List PTok) :=
  match (body (addHideset b hs)).map (fun u => { u with origin := some (root t) }) ++ r with
  | [] => .error .null
  | l => .ok (setFlags t.bol t.sp l)

/-- expand_macro, preprocess.c:683-751: `none` when the token is not to be expanded. -/
def expandMacro (env : Env) (rec : Rec) (st : St) (t : PTok) (r : List PTok) : Except PErr (Option (St × List PTok)) :=
  if hsContains t.hs t.text then .ok none
  else
    match findMacro st t with
    | none => .ok none
    | some m =>
      match m.handler with
      | some h =>
        match runHandler env st h t with
        | .error e => .error e
        | .ok (st', x) => .ok (some (st', x :: r))
      | none =>
        if m.objlike then
          match place t (hsUnion t.hs [m.name]) m.body r with
          | .error e => .error e
          | .ok l => .ok (some (st, l))
        else
          match r with
          | [] => .error .null
          | u :: r1 =>
            if !u.is "(" then .ok none
            else
              match readArgs m.params m.va r1 with
              | .error e => .error e
              | .ok (args, rparen, r2) =>
                if env.strict && rparen.tail then .error .reused
                else
                  match subst env rec { st := st, args := args, acc := [], rest := m.body } with
                  | .error e => .error e
                  | .ok (st', b) =>
                    match place t (hsUnion (hsInter t.hs rparen.hs) [m.name]) b r2 with
                    | .error e => .error e
                    | .ok l => .ok (some (st', l))

/-! ### Directives -/

/-- read_macro_params, preprocess.c:770-807: parameters, name of the variadic parameter, rest. -/
def readMacroParams : Bool → List PTok → Except PErr (List Bytes × Option Bytes × List PTok)
  | _, [] => .error .null
  | first, t :: r =>
    if t.is ")" then .ok ([], none, r)
    else if first then
      if t.is "..." then (skip ")" r).map fun l => ([], some (asc "__VA_ARGS__"), l)
      else if t.kind != .ident then .error (.diag .needIdent)
      else if nextIs r "..." then (skip ")" (r.drop 1)).map fun l => ([], some t.text, l)
      else
        match readMacroParams false r with
        | .error e => .error e
        | .ok (ps, va, l) => .ok (t.text :: ps, va, l)
    else if t.is "," then
      match r with
      | [] => .error .null
      | t2 :: r2 =>
        if t2.is "..." then (skip ")" r2).map fun l => ([], some (asc "__VA_ARGS__"), l)
        else if t2.kind != .ident then .error (.diag .needIdent)
        else if nextIs r2 "..." then (skip ")" (r2.drop 1)).map fun l => ([], some t2.text, l)
        else
          match readMacroParams false r2 with
          | .error e => .error e
          | .ok (ps, va, l) => .ok (t2.text :: ps, va, l)
    else .error (.diag (.expected (asc ",")))

/-- read_macro_definition, preprocess.c:809-831. -/
def readMacroDefinition (st : St) : List PTok → Except PErr (St × List PTok)
  | [] => .error .null
  | t :: r =>
    if t.kind != .ident then .error (.diag .macroName)
    else
      match r with
      | [] => .error .null
      | u :: r2 =>
        if !u.sp && u.is "(" then
          match readMacroParams true r2 with
          | .error e => .error e
          | .ok (ps, va, l) =>
            match copyLine l with
            | .error e => .error e
            | .ok (b, rest) => .ok (addMacro st { name := t.text, objlike := false, params := ps, va := va, body := b }, rest)
        else
          match copyLine r with
          | .error e => .error e
          | .ok (b, rest) => .ok (addMacro st { name := t.text, objlike := true, body := b }, rest)

/-- The loop of read_const_expr, preprocess.c:144-166. -/
def readConstExpr (env : Env) (st : St) : List PTok → Except PErr (List PTok)
  | [] => .error .null
  | t :: r =>
    if t.isEof then .ok [t]
    else if t.is "defined" then
      match r with
      | [] => .error .null
      | u :: r1 =>
        if u.is "(" then
          match r1 with
          | [] => .error .null
          | v :: r2 =>
            if v.kind != .ident then .error (.diag .macroName)
            else
              match r2 with
              | [] => .error .null
              | w :: r3 =>
                if !w.is ")" then .error (.diag (.expected (asc ")")))
                else
                  match newNum env (if (findMacro st v).isSome then 1 else 0) t with
                  | .error e => .error e
                  | .ok x =>
                    match readConstExpr env st r3 with
                    | .error e => .error e
                    | .ok l => .ok (x :: l)
        else if u.kind != .ident then .error (.diag .macroName)
        else
          match newNum env (if (findMacro st u).isSome then 1 else 0) t with
          | .error e => .error e
          | .ok x =>
            match readConstExpr env st r1 with
            | .error e => .error e
            | .ok l => .ok (x :: l)
    else
      match readConstExpr env st r with
      | .error e => .error e
      | .ok l => .ok (t :: l)

/-- The loop of eval_const_expr that replaces the remaining identifiers by 0, preprocess.c:188-194. -/
def zeroIdents (env : Env) : List PTok → Except PErr (List PTok)
  | [] => .error .null
  | t :: r =>
    if t.isEof then .ok (t :: r)
    else
      match (if t.kind == .ident then newNum env 0 t else .ok t) with
      | .error e => .error e
      | .ok x =>
        match zeroIdents env r with
        | .error e => .error e
        | .ok l => .ok (x :: l)

/-- eval_const_expr, preprocess.c:174-207, from the token after the directive's name on: state, value, rest.
convert_pp_tokens is part of the oracle `constExpr`. -/
def evalConst (env : Env) (rec : Rec) (st : St) (l : List PTok) : Except PErr (St × Int × List PTok) :=
  match copyLine l with
  | .error e => .error e
  | .ok (line, rest) =>
    match readConstExpr env st line with
    | .error e => .error e
    | .ok ex =>
      match rec st (ex.map ownTok) with
      | .error e => .error e
      | .ok (st', out, _) =>
        match out with
        | [] => .error .null
        | t :: _ =>
          if t.isEof then .error (.diag .noExpression)
          else
            match zeroIdents env out with
            | .error e => .error e
            | .ok l2 =>
              match env.constExpr l2 with
              | none => .error (.diag .badExpression)
              | some (v, []) => .ok (st', v, rest)
              | some (v, u :: _) => if u.isEof then .ok (st', v, rest) else .error (.diag .extraToken)

/-- Does the list start with the name of a directive that opens a conditional section? -/
def opensIf (u : PTok) : Bool := u.is "if" || u.is "ifdef" || u.is "ifndef"

/-- skip_cond_incl2, preprocess.c:222-240, whose recursion is rendered by the counter `k` of open inner sections. -/
def skipCond2 : Nat → List PTok → Except PErr (List PTok)
  | _, [] => .error .null
  | k, t :: r =>
    if t.isEof then .ok (t :: r)
    else if isHash t then
      match r with
      | [] => .error .null
      | u :: r2 =>
        if opensIf u then skipCond2 (k + 1) r2
        else if u.is "endif" then
          match k with
          | 0 => .ok r2
          | k + 1 => skipCond2 k r2
        else skipCond2 k (u :: r2)
    else skipCond2 k r

/-- The result of skip_cond_incl2 is not longer than its argument. -/
theorem skipCond2_len (k : Nat) (l l' : List PTok) (h : skipCond2 k l = .ok l') : l'.length ≤ l.length := by
  have key : ∀ n, ∀ l : List PTok, l.length ≤ n → ∀ k l', skipCond2 k l = .ok l' → l'.length ≤ l.length := by
    intro n
    induction n with
    | zero =>
      intro l hl k l' h
      have : l = [] := List.length_eq_zero_iff.mp (by omega)
      subst this; simp [skipCond2] at h
    | succ n ih =>
      intro l hl k l' h
      match l with
      | [] => simp [skipCond2] at h
      | t :: r =>
        rw [skipCond2.eq_def] at h
        dsimp only at h
        split at h
        · cases h; exact Nat.le_refl _
        · split at h
          · match r with
            | [] => cases h
            | u :: r2 =>
              dsimp only at h
              simp only [List.length_cons] at hl ⊢
              split at h
              · have := ih r2 (by omega) _ _ h; omega
              · split at h
                · match k with
                  | 0 => cases h; omega
                  | k + 1 => dsimp only at h; have := ih r2 (by omega) _ _ h; omega
                · have := ih (u :: r2) (by simp only [List.length_cons]; omega) _ _ h
                  simp only [List.length_cons] at this; omega
          · simp only [List.length_cons] at hl ⊢
            have := ih r (by omega) _ _ h; omega
  exact key _ l (Nat.le_refl _) k l' h

/-- skip_cond_incl, preprocess.c:244-264. -/
def skipCond (l : List PTok) : Except PErr (List PTok) :=
  match l with
  | [] => .error .null
  | t :: r =>
    if t.isEof then .ok (t :: r)
    else if isHash t then
      match r with
      | [] => .error .null
      | u :: r2 =>
        if opensIf u then
          match h : skipCond2 0 r2 with
          | .error e => .error e
          | .ok l' => skipCond l'
        else if u.is "elif" || u.is "else" || u.is "endif" then .ok (t :: u :: r2)
        else skipCond (u :: r2)
    else skipCond r
termination_by l.length
decreasing_by
  · have := skipCond2_len _ _ _ h; simp; omega
  · simp
  · simp

/-- read_include_filename, preprocess.c:834-876: name, quoted form, rest; it calls itself on the macro-expanded line
as long as that starts with an identifier. -/
def readIncludeFilename (rec : Rec) : Nat → St → List PTok → Except PErr (St × Bytes × Bool × List PTok)
  | 0, _, _ => .error .fuel
  | _ + 1, _, [] => .error .null
  | n + 1, st, t :: r =>
    if t.kind == .str then
      (skipLine r).map fun l => (st, (t.text.drop 1).take (t.text.length - 2), true, l)
    else if t.is "<" then
      if t.bol then .error (.diag .expectedGt)
      else
        let inner := r.takeWhile fun u => !(u.is ">" || u.bol || u.isEof)
        match r.dropWhile fun u => !(u.is ">" || u.bol || u.isEof) with
        | [] => .error .null
        | u :: r2 =>
          if u.is ">" then (skipLine r2).map fun l => (st, joinToks inner, false, l)
          else .error (.diag .expectedGt)
    else if t.kind == .ident then
      match copyLine (t :: r) with
      | .error e => .error e
      | .ok (line, rest) =>
        match rec st line with
        | .error e => .error e
        | .ok (st', out, _) =>
          (readIncludeFilename rec n st' out).map fun (st2, f, q, _) => (st2, f, q, rest)
    else .error (.diag .expectedFilename)

/-- The loop of detect_include_guard, preprocess.c:911-924. The test `equal(tok, "if")` is made on the `#` token
itself and always fails, so nested sections are not skipped. -/
def guardLoop : List PTok → Except PErr Bool
  | [] => .error .null
  | t :: r =>
    if t.isEof then .ok false
    else if isHash t then
      match r with
      | [] => .error .null
      | u :: r2 => if u.is "endif" && nextEof r2 then .ok true else guardLoop (u :: r2)
    else guardLoop r
where nextEof (l : List PTok) : Bool := l.head?.any PTok.isEof

/-- detect_include_guard, preprocess.c:891-925. -/
def detectIncludeGuard : List PTok → Except PErr (Option Bytes)
  | [] => .error .null
  | t :: r =>
    if !isHash t || !nextIs r "ifndef" then .ok none
    else
      match r.drop 1 with
      | [] => .error .null
      | m :: r2 =>
        if m.kind != .ident then .ok none
        else
          match r2 with
          | [] => .error .null
          | h :: r3 =>
            if !isHash h || !nextIs r3 "define" then .ok none
            else
              match r3.drop 1 with
              | [] => .error .null
              | d :: _ =>
                if d.text != m.text then .ok none
                else (guardLoop r2).map fun b => if b then some m.text else none

/-- tokenize_file, tokenize.c:898-919: read_file to convert_universal_chars (see `Source.loadFile`) and tokenize. -/
def tokenizeFile (env : Env) (st : St) (path : Bytes) : Except PErr (Option (St × List PTok)) :=
  match env.read path with
  | none => .ok none
  | some bytes =>
    match Source.loadFile bytes with
    | .error _ => .error .null
    | .ok buf =>
      match tokens env ⟨some st.nfiles, path⟩ (Source.cstr buf) with
      | .error e => .error e
      | .ok ts => .ok (some ({ st with nfiles := st.nfiles + 1 }, ts))

/-- include_file, preprocess.c:927-952: the new state and the list to go on with. -/
def includeFile (env : Env) (st : St) (path : Bytes) (l : List PTok) : Except PErr (St × List PTok) :=
  if st.once.contains path then .ok (st, l)
  else if ((st.guards.find? fun p => p.1 == path).any fun p => (lookup st p.2).isSome) then .ok (st, l)
  else
    match tokenizeFile env st path with
    | .error e => .error e
    | .ok none => .error (.diag .cannotOpen)
    | .ok (some (st', ts)) =>
      match detectIncludeGuard ts with
      | .error e => .error e
      | .ok g =>
        let st2 := match g with
          | some name => { st' with guards := (path, name) :: st'.guards.filter fun p => p.1 != path }
          | none => st'
        .ok (st2, (body ts).map copyTok ++ l)

/-- The loop of search_include_paths, preprocess.c:965-974, from the `i`-th directory on. -/
def searchPaths (env : Env) (name : Bytes) : Nat → List Bytes → Option (Nat × Bytes)
  | _, [] => none
  | i, d :: ds => if env.fileExists (d ++ [47] ++ name) then some (i, d ++ [47] ++ name) else searchPaths env name (i + 1) ds

/-- search_include_paths, preprocess.c:954-976. -/
def searchIncludePaths (env : Env) (st : St) (name : Bytes) : St × Option Bytes :=
  if name.head? == some 47 then (st, some name)
  else
    match st.cache.find? fun p => p.1 == name with
    | some p => (st, some p.2)
    | none =>
      match searchPaths env name 0 env.paths with
      | some (i, path) => ({ st with cache := (name, path) :: st.cache, nextIdx := i + 1 }, some path)
      | none => (st, none)

/-- search_include_next, preprocess.c:978-988. -/
def searchIncludeNext (env : Env) (st : St) (name : Bytes) : St × Option Bytes :=
  match searchPaths env name st.nextIdx (env.paths.drop st.nextIdx) with
  | some (i, path) => ({ st with nextIdx := i }, some path)
  | none => ({ st with nextIdx := max st.nextIdx env.paths.length }, none)

/-- The value of a line marker: an integer constant of type int (preprocess.c:996). -/
def lineNumber (t : PTok) : Option Int :=
  match t.kind, t.payload with
  | .ppNum, _ =>
    match Lex.convertPpInt t.text t.text.length with
    | some (v, .int) => some (v : Int)
    | _ => none
  | .num, .chr v .int => some v
  | _, _ => none

/-- read_line_marker, preprocess.c:991-1009. The line is processed by `preprocessor`, which reports an unterminated
conditional whenever the directive is inside a conditional section. Joining of adjacent strings is left out. -/
def readLineMarker (rec : Rec) (st : St) (l : List PTok) : Except PErr (St × List PTok) :=
  match l with
  | [] => .error .null
  | start :: _ =>
    match copyLine l with
    | .error e => .error e
    | .ok (line, rest) =>
      match rec st line with
      | .error e => .error e
      | .ok (st', out, _) =>
        if !st'.conds.isEmpty then .error (.diag .unterminated)
        else
          match out with
          | [] => .error .null
          | n :: more =>
            match lineNumber n with
            | none => .error (.diag .badLineMarker)
            | some v =>
              match start.file.id with
              | none => .ok (st', rest)
              | some id =>
                let cur := lineState st' start.file
                let put (s : Bytes) : St :=
                  { st' with lines := (id, (s, v - start.line)) :: st'.lines.filter fun p => p.1 != id }
                match more with
                | [] => .error .null
                | s :: _ =>
                  if s.isEof then .ok (put cur.1, rest)
                  else
                    match s.kind, s.payload with
                    | .str, .str _ units => .ok (put ((units.takeWhile (· ≠ 0)).map UInt8.ofNat), rest)
                    | _, _ => .error (.diag .needFilename)

/-- push_cond_incl, preprocess.c:209-220. -/
def pushCond (st : St) (included : Bool) : St := { st with conds := { ctx := .inThen, included := included } :: st.conds }

/-- The `#pragma` loop, preprocess.c:1164-1169: at least one token is skipped, then up to the end of the line. -/
def skipPragma : List PTok → Except PErr (List PTok)
  | [] => .error .null
  | t :: r => if t.bol then .ok (t :: r) else skipPragma r

/-- `#if`, preprocess.c:1066-1073. -/
def dirIf (env : Env) (rec : Rec) (st : St) (r : List PTok) : Except PErr (St × List PTok) :=
  match evalConst env rec st r with
  | .error e => .error e
  | .ok (st', v, rest) =>
    if v != 0 then .ok (pushCond st' true, rest)
    else (skipCond rest).map fun l => (pushCond st' false, l)

/-- `#ifdef` and `#ifndef`, preprocess.c:1075-1095; `want` is the state of the macro that includes the group. -/
def dirIfdef (st : St) (want : Bool) (r : List PTok) : Except PErr (St × List PTok) :=
  match r with
  | [] => .error .null
  | m :: r2 =>
    let ok := (findMacro st m).isSome == want
    match skipLine r2 with
    | .error e => .error e
    | .ok l => if ok then .ok (pushCond st true, l) else (skipCond l).map fun l' => (pushCond st false, l')

/-- `#elif`, preprocess.c:1097-1108; `tok` is the list from `elif` on. -/
def dirElif (env : Env) (rec : Rec) (st : St) (tok r : List PTok) : Except PErr (St × List PTok) :=
  match st.conds with
  | [] => .error (.diag .strayElif)
  | c :: cs =>
    if c.ctx == .inElse then .error (.diag .strayElif)
    else if c.included then (skipCond tok).map fun l => ({ st with conds := { c with ctx := .inElif } :: cs }, l)
    else
      match evalConst env rec { st with conds := { c with ctx := .inElif } :: cs } r with
      | .error e => .error e
      | .ok (st', v, rest) =>
        if v != 0 then
          match st'.conds with
          | [] => .error .null
          | c' :: cs' => .ok ({ st' with conds := { c' with included := true } :: cs' }, rest)
        else (skipCond rest).map fun l => (st', l)

/-- `#else`, preprocess.c:1110-1121. -/
def dirElse (st : St) (r : List PTok) : Except PErr (St × List PTok) :=
  match st.conds with
  | [] => .error (.diag .strayElse)
  | c :: cs =>
    if c.ctx == .inElse then .error (.diag .strayElse)
    else
      match skipLine r with
      | .error e => .error e
      | .ok l =>
        let st' := { st with conds := { c with ctx := .inElse } :: cs }
        if c.included then (skipCond l).map fun l' => (st', l') else .ok (st', l)

/-- `#include`, preprocess.c:1035-1052; `start` is the `#` token. -/
def dirInclude (env : Env) (rec : Rec) (n : Nat) (st : St) (start : PTok) (r : List PTok) :
    Except PErr (St × List PTok) :=
  match readIncludeFilename rec n st r with
  | .error e => .error e
  | .ok (st', name, quoted, rest) =>
    let here := env.dirname start.file.name ++ [47] ++ name
    if quoted && name.head? != some 47 && env.fileExists here then includeFile env st' here rest
    else
      match searchIncludePaths env st' name with
      | (st2, some path) => includeFile env st2 path rest
      | (st2, none) => includeFile env st2 name rest

/-- `#include_next`, preprocess.c:1054-1061. -/
def dirIncludeNext (env : Env) (rec : Rec) (n : Nat) (st : St) (r : List PTok) : Except PErr (St × List PTok) :=
  match readIncludeFilename rec n st r with
  | .error e => .error e
  | .ok (st', name, _, rest) =>
    match searchIncludeNext env st' name with
    | (st2, some path) => includeFile env st2 path rest
    | (st2, none) => includeFile env st2 name rest

/-- The directives, preprocess.c:1031-1180: `start` is the `#` token, `tok` the list after it. -/
def directive (env : Env) (rec : Rec) (n : Nat) (st : St) (start : PTok) (tok : List PTok) :
    Except PErr (St × List PTok) :=
  match tok with
  | [] => .error .null
  | t :: r =>
    if t.is "include" then if env.strict then .error .includes else dirInclude env rec n st start r
    else if t.is "include_next" then if env.strict then .error .includes else dirIncludeNext env rec n st r
    else if t.is "define" then readMacroDefinition st r
    else if t.is "undef" then
      match r with
      | [] => .error .null
      | m :: r2 =>
        if m.kind != .ident then .error (.diag .macroName)
        else (skipLine r2).map fun l => (undefMacro st m.text, l)
    else if t.is "if" then dirIf env rec st r
    else if t.is "ifdef" then dirIfdef st true r
    else if t.is "ifndef" then dirIfdef st false r
    else if t.is "elif" then dirElif env rec st (t :: r) r
    else if t.is "else" then dirElse st r
    else if t.is "endif" then
      match st.conds with
      | [] => .error (.diag .strayEndif)
      | _ :: cs => (skipLine r).map fun l => ({ st with conds := cs }, l)
    else if t.is "line" then readLineMarker rec st r
    else if t.kind == .ppNum then readLineMarker rec st (t :: r)
    else if t.is "pragma" && nextIs r "once" then
      (skipLine (r.drop 1)).map fun l => ({ st with once := t.file.name :: st.once }, l)
    else if t.is "pragma" then (skipPragma r).map fun l => (st, l)
    else if t.is "error" then .error (.diag .errorDirective)
    else if t.bol then .ok (st, t :: r)
    else .error (.diag .badDirective)

/-- The nodes of the given list that disappear when the working list goes from `l` to `l'`. -/
def consumed (l l' : List PTok) : List PTok :=
  (l.filter (·.own)).take (l.countP (·.own) - l'.countP (·.own))

/-- A token passed through, preprocess.c:1021-1022. -/
def mark (st : St) (t : PTok) : PTok :=
  { t with delta := (lineState st t.file).2, shown := (lineState st t.file).1 }

/-- preprocess2, preprocess.c:1013-1185. The fuel bounds the number of iterations and the depth of the calls;
`top` is true for the call made for a translation unit. -/
def pp (env : Env) : Nat → Bool → St → List PTok → Except PErr (St × List PTok × List PTok)
  | 0, _, _, _ => .error .fuel
  | _ + 1, _, _, [] => .error .null
  | n + 1, top, st, t :: r =>
    if t.isEof then .ok (st, [t], [])
    else
      match expandMacro env (pp env n false) st t r with
      | .error e => .error e
      | .ok (some (st', l')) =>
        match pp env n top st' l' with
        | .error e => .error e
        | .ok (st2, out, pre) => .ok (st2, out, consumed (t :: r) l' ++ pre)
      | .ok none =>
        if !isHash t then
          match pp env n top st r with
          | .error e => .error e
          | .ok (st2, out, pre) => .ok (st2, mark st t :: out, if t.own then [] else pre)
        else if env.strict && !(top && t.own) then .error .generated
        else
          match directive env (pp env n false) n st t r with
          | .error e => .error e
          | .ok (st', l') =>
            match pp env n top st' l' with
            | .error e => .error e
            | .ok (st2, out, pre) => .ok (st2, out, consumed (t :: r) l' ++ pre)

/-- preprocess2 on a translation unit followed by the check of preprocessor, preprocess.c:1296-1300. -/
def preprocess (env : Env) (n : Nat) (st : St) (l : List PTok) : Except PErr (St × List PTok) :=
  match pp env n true st (l.map ownTok) with
  | .error e => .error e
  | .ok (st', out, _) => if st'.conds.isEmpty then .ok (st', out) else .error (.diag .unterminated)

end Toycc.Pp
