import Verif.Common
/-!
The expression parser, parser/parser.c:24-80, 148-302, 524-1070, as a function from tokens to syntax trees. The semantic actions
(new_binary, new_add, new_sub, to_assign, new_inc_dec, new_cast, ...) are the constructors of the tree; what they build is modelled
elsewhere. Type names depend on the scopes and are an oracle. Not modelled (outcome `unmodelled`): statement expressions, compound
literals, `_Generic` and the `__builtin_` forms.
-/
namespace Toycc.Parse

/-- Punctuators (tokenize.c:70-103) that occur in expressions and declarators. -/
inductive P where
  | lpar | rpar | lbrk | rbrk | lbrace | rbrace | dot | arrow | inc | dec
  | plus | minus | star | slash | percent | amp | bar | caret | tilde | bang
  | shl | shr | lt | le | gt | ge | eqeq | ne | ampamp | barbar | quest | colon | comma | semi | dots
  | eq | pluseq | minuseq | stareq | slasheq | percenteq | ampeq | bareq | careteq | shleq | shreq
  deriving DecidableEq, Repr

/-- The types of integer constants other than int (tokenize.c:418-501). -/
inductive NTy where
  | uint | long | ulong
  deriving DecidableEq, Repr

/-- Tokens after preprocessing; `equal(tok, "...")` is equality with a punctuator or keyword. `num` is a constant of type int, `tnum` one of another type. -/
inductive Tok where
  | p (p : P)
  | ident (s : String)
  | kw (s : String)
  | num (v : Int)
  | tnum (t : NTy) (v : Int)
  | str (s : String)
  | eof
  deriving DecidableEq, Repr

/-- Binary operators; `gt` and `ge` stand for ND_LT and ND_LE with exchanged operands (parser.c:864-872), `add` and `sub` for new_add
and new_sub. -/
inductive BOp where
  | mul | div | mod | add | sub | shl | shr | lt | le | gt | ge | eq | ne | band | bxor | bor | land | lor
  deriving DecidableEq, Repr

/-- Assignment operators: `none` is `=`. -/
abbrev AOp := Option BOp

inductive UOp where
  | neg | addr | deref | not | bitnot | preinc | predec | sizeof | alignof
  deriving DecidableEq, Repr

mutual
/-- Syntax trees; `T` is the type of type names. -/
inductive Tree (T : Type) where
  | ident (s : String)
  | num (v : Int)
  | tnum (t : NTy) (v : Int)
  | str (s : String)
  | bin (op : BOp) (l r : Tree T)
  | assign (op : AOp) (l r : Tree T)
  | cond (c a b : Tree T)
  | elvis (c b : Tree T)
  | comma (l r : Tree T)
  | un (op : UOp) (e : Tree T)
  | cast (t : T) (e : Tree T)
  | sizeofT (t : T)
  | alignofT (t : T)
  | labelVal (s : String)
  | index (a i : Tree T)
  | call (f : Tree T) (args : Trees T)
  | member (e : Tree T) (s : String)
  | arrow (e : Tree T) (s : String)
  | postinc (e : Tree T)
  | postdec (e : Tree T)
inductive Trees (T : Type) where
  | nil
  | cons (e : Tree T) (r : Trees T)
end

/-- Outcomes other than a tree: a diagnostic of the parser, or a form that is not modelled. `fuel` is for the recursion bound. -/
inductive PErr where
  | expected | skip | ident | typename | unmodelled | fuel
  deriving DecidableEq, Repr

/-- is_typename (declarator.c:362-404) and typename (declarator.c:343-349). -/
structure Oracle (T : Type) where
  isType : Tok → Bool
  typename : List Tok → Except PErr (T × List Tok)

variable {T : Type} (O : Oracle T)


/-- skip, utils.c:92-97. -/
def skip (ts : List Tok) (q : P) : Except PErr (List Tok) :=
  match ts with
  | t :: r => if t = .p q then .ok r else .error .skip
  | [] => .error .skip

/-- The operators tested in the loops of mul (12), add (11), shift (10), relational (9), equality (8), bitand (7), bitxor (6), bitor
(5), logand (4) and logor (3), parser.c:620-646, 732-752, 826-968. -/
def opAt (k : Nat) (t : Tok) : Option BOp :=
  match k, t with
  | 12, .p .star => some .mul
  | 12, .p .slash => some .div
  | 12, .p .percent => some .mod
  | 11, .p .plus => some .add
  | 11, .p .minus => some .sub
  | 10, .p .shl => some .shl
  | 10, .p .shr => some .shr
  | 9, .p .lt => some .lt
  | 9, .p .le => some .le
  | 9, .p .gt => some .gt
  | 9, .p .ge => some .ge
  | 8, .p .eqeq => some .eq
  | 8, .p .ne => some .ne
  | 7, .p .amp => some .band
  | 6, .p .caret => some .bxor
  | 5, .p .bar => some .bor
  | 4, .p .ampamp => some .land
  | 3, .p .barbar => some .lor
  | _, _ => none

/-- The operators tested in assign, parser.c:1022-1053. -/
def assignOp : Tok → Option AOp
  | .p .eq => some none
  | .p .pluseq => some (some .add)
  | .p .minuseq => some (some .sub)
  | .p .stareq => some (some .mul)
  | .p .slasheq => some (some .div)
  | .p .percenteq => some (some .mod)
  | .p .ampeq => some (some .band)
  | .p .bareq => some (some .bor)
  | .p .careteq => some (some .bxor)
  | .p .shleq => some (some .shl)
  | .p .shreq => some (some .shr)
  | _ => none

/-- The prefix operators of unary followed by a cast expression, parser.c:768-803 (`+` has no action). -/
def prefixCast : Tok → Option (Option UOp)
  | .p .plus => some none
  | .p .minus => some (some .neg)
  | .p .amp => some (some .addr)
  | .p .star => some (some .deref)
  | .p .bang => some (some .not)
  | .p .tilde => some (some .bitnot)
  | _ => none

/-- The prefix operators of unary followed by a unary expression, parser.c:806-813. -/
def prefixUnary : Tok → Option UOp
  | .p .inc => some .preinc
  | .p .dec => some .predec
  | _ => none

def applyU {T : Type} (op : Option UOp) (e : Tree T) : Tree T :=
  match op with
  | some o => .un o e
  | none => e

/-- Does the parenthesis at the head open a type name? (`equal(tok, "(") && is_typename(tok->next)`) -/
def opensType (ts : List Tok) : Bool :=
  match ts with
  | .p .lpar :: t :: _ => O.isType t
  | _ => false

mutual
/-- expr, parser.c:1061-1070. -/
def expr : Nat → List Tok → Except PErr (Tree T × List Tok)
  | 0, _ => .error .fuel
  | f + 1, ts => do
    let (n, ts) ← assign f ts
    match ts with
    | .p .comma :: r =>
      let (m, ts) ← expr f r
      .ok (.comma n m, ts)
    | ts => .ok (n, ts)
/-- assign, parser.c:1019-1058. -/
def assign : Nat → List Tok → Except PErr (Tree T × List Tok)
  | 0, _ => .error .fuel
  | f + 1, ts => do
    let (n, ts) ← conditional f ts
    match ts with
    | t :: r =>
      match assignOp t with
      | some op =>
        let (m, ts) ← assign f r
        .ok (.assign op n m, ts)
      | none => .ok (n, t :: r)
    | [] => .ok (n, [])
/-- conditional, parser.c:971-1008. -/
def conditional : Nat → List Tok → Except PErr (Tree T × List Tok)
  | 0, _ => .error .fuel
  | f + 1, ts => do
    let (c, ts) ← binary f 3 ts
    match ts with
    | .p .quest :: .p .colon :: r =>
      let (b, ts) ← conditional f r
      .ok (.elvis c b, ts)
    | .p .quest :: r =>
      let (a, ts) ← expr f r
      let ts ← skip ts .colon
      let (b, ts) ← conditional f ts
      .ok (.cond c a b, ts)
    | ts => .ok (c, ts)
/-- logor ... mul, see `opAt`. Level 13 is cast. -/
def binary : Nat → Nat → List Tok → Except PErr (Tree T × List Tok)
  | 0, _, _ => .error .fuel
  | f + 1, k, ts =>
    if k ≥ 13 then cast f ts
    else do
      let (n, ts) ← binary f (k + 1) ts
      loop f k n ts
/-- The loops of logor ... mul. -/
def loop : Nat → Nat → Tree T → List Tok → Except PErr (Tree T × List Tok)
  | 0, _, _, _ => .error .fuel
  | f + 1, k, n, ts =>
    match ts with
    | t :: r =>
      match opAt k t with
      | some op => do
        let (m, ts) ← binary f (k + 1) r
        loop f k (.bin op n m) ts
      | none => .ok (n, t :: r)
    | [] => .ok (n, [])
/-- cast, parser.c:600-618. -/
def cast : Nat → List Tok → Except PErr (Tree T × List Tok)
  | 0, _ => .error .fuel
  | f + 1, ts =>
    if opensType O ts then do
      let (t, ts) ← O.typename ts.tail
      let ts ← skip ts .rpar
      if ts.head? = some (.p .lbrace) then .error .unmodelled
      else
        let (e, ts) ← cast f ts
        .ok (.cast t e, ts)
    else unary f ts
/-- unary, parser.c:762-824. -/
def unary : Nat → List Tok → Except PErr (Tree T × List Tok)
  | 0, _ => .error .fuel
  | f + 1, ts =>
    match ts with
    | t :: r =>
      match prefixCast t with
      | some op => do
        let (e, ts) ← cast f r
        .ok (applyU op e, ts)
      | none =>
        match prefixUnary t with
        | some op => do
          let (e, ts) ← unary f r
          .ok (.un op e, ts)
        | none =>
          if t = .p .ampamp then
            match r with
            | .ident s :: r => .ok (.labelVal s, r)
            | _ => .error .ident
          else postfixE f (t :: r)
    | [] => .error .expected
/-- postfix, parser.c:524-597. -/
def postfixE : Nat → List Tok → Except PErr (Tree T × List Tok)
  | 0, _ => .error .fuel
  | f + 1, ts =>
    if opensType O ts then .error .unmodelled
    else do
      let (n, ts) ← primary f ts
      tails f n ts
/-- The loop of postfix, parser.c:550-592. -/
def tails : Nat → Tree T → List Tok → Except PErr (Tree T × List Tok)
  | 0, _, _ => .error .fuel
  | f + 1, n, ts =>
    match ts with
    | .p .lpar :: r => do
      let (as, ts) ← args f true r
      tails f (.call n as) ts
    | .p .lbrk :: r => do
      let (i, ts) ← expr f r
      let ts ← skip ts .rbrk
      tails f (.index n i) ts
    | .p .dot :: .ident s :: r => tails f (.member n s) r
    | .p .arrow :: .ident s :: r => tails f (.arrow n s) r
    | .p .dot :: _ => .error .ident
    | .p .arrow :: _ => .error .ident
    | .p .inc :: r => tails f (.postinc n) r
    | .p .dec :: r => tails f (.postdec n) r
    | ts => .ok (n, ts)
/-- The arguments of a call up to the closing parenthesis, parser.c:38-66. `first` says that no argument has been read. -/
def args : Nat → Bool → List Tok → Except PErr (Trees T × List Tok)
  | 0, _, _ => .error .fuel
  | f + 1, first, ts =>
    if ts.head? = some (.p .rpar) then .ok (.nil, ts.tail)
    else do
      let ts ← if first then .ok ts else skip ts .comma
      let (e, ts) ← assign f ts
      let (es, ts) ← args f false ts
      .ok (.cons e es, ts)
/-- primary, parser.c:148-302. -/
def primary : Nat → List Tok → Except PErr (Tree T × List Tok)
  | 0, _ => .error .fuel
  | f + 1, ts =>
    match ts with
    | .p .lpar :: .p .lbrace :: _ => .error .unmodelled
    | .p .lpar :: r => do
      let (n, ts) ← expr f r
      let ts ← skip ts .rpar
      .ok (n, ts)
    | .kw "sizeof" :: r =>
      if opensType O r then do
        let (t, ts) ← O.typename r.tail
        let ts ← skip ts .rpar
        .ok (.sizeofT t, ts)
      else do
        let (e, ts) ← unary f r
        .ok (.un .sizeof e, ts)
    | .kw "_Alignof" :: r =>
      if opensType O r then do
        let (t, ts) ← O.typename r.tail
        let ts ← skip ts .rpar
        .ok (.alignofT t, ts)
      else do
        let (e, ts) ← unary f r
        .ok (.un .alignof e, ts)
    | .kw _ :: _ => .error .unmodelled
    | .ident s :: r => .ok (.ident s, r)
    | .str s :: r => .ok (.str s, r)
    | .num v :: r => .ok (.num v, r)
    | .tnum t v :: r => .ok (.tnum t v, r)
    | _ => .error .expected
end

end Toycc.Parse
