import Verif.Init.Spec
import Verif.Parse.Model
/-!
The reading of initialisers, parser/initializer.c:5-530: from the tokens to the tree of struct Initializer (`Ini`, Verif.Init.Model). assign
(parser.c:1019-1058) and const_expr (parser.c:1010-1014) are oracles. Flexible array members: Verif.Ip.FlexModel.
-/
namespace Toycc.Ip
open Toycc.Parse (Tok P)
open Toycc.Init (Ini Inis)

mutual
/-- struct Type as far as initialisers are concerned: as `Init.Ty`, with the names of the members. `sc` is a scalar type. -/
inductive ITy where
  | sc (t : Init.Ty)
  | arr (b : ITy) (n : Nat)
  | struc (sz : Nat) (ms : IMems)
  | union (sz : Nat) (ms : IMems)
/-- Members; anonymous structures and unions (declarator.c:33-43) and unnamed bit-fields have no name. -/
inductive IMems where
  | nil
  | cons (name : Option String) (off : Nat) (bits : Option (Nat × Nat)) (t : ITy) (r : IMems)
end

/-- `ty->size`. -/
def ITy.size : ITy → Nat
  | .sc t => t.size
  | .arr b n => b.size * n
  | .struc n _ => n
  | .union n _ => n

/-- The type of the member `mem->idx = k`. -/
def IMems.get? : IMems → Nat → Option ITy
  | .nil, _ => none
  | .cons _ _ _ t _, 0 => some t
  | .cons _ _ _ _ r, k + 1 => r.get? k

/-- `bounds`, `noMember`, `notArray`, `notStruct`, `field`, `range`: the diagnostics of initializer.c:125-137, 147-172, 186, 219. `skip`: a
missing punctuator. `null`: a null pointer is used. `unreach`: unreachable(). `ub`: an access outside `children`. `other`: an error of an
oracle. `fuel`: the bound of the recursion. `unmodelled`. -/
inductive IErr where
  | bounds | noMember | notArray | notStruct | field | range | skip | null | unreach | ub | other | fuel | unmodelled
  deriving DecidableEq, Repr

/-- assign: the expression, whether its type is TY_STRUCT, and the tokens left. const_expr, converted to int. The elements of a string literal,
read with elements of a given size (`tok->str`, `tok->ty->array_len`). -/
structure Oracle (α : Type) where
  assign : List Tok → Except IErr (α × Bool × List Tok)
  const : List Tok → Except IErr (Int × List Tok)
  str : String → Nat → List α

variable {α : Type}

def Inis.replicate : Nat → Ini α → Inis α
  | 0, _ => .nil
  | n + 1, i => .cons i (Inis.replicate n i)

mutual
/-- new_initializer, initializer.c:5-46, with is_flexible false. -/
def blank : ITy → Ini α
  | .sc _ => .mk none none .nil
  | .arr b n => .mk none none (Inis.replicate n (blank b))
  | .struc _ ms => .mk none none (blanks ms)
  | .union _ ms => .mk none none (blanks ms)
def blanks : IMems → Inis α
  | .nil => .nil
  | .cons _ _ _ t r => .cons (blank t) (blanks r)
end

def setI : Inis α → Nat → Ini α → Inis α
  | .nil, _, _ => .nil
  | .cons _ r, 0, x => .cons x r
  | .cons c r, k + 1, x => .cons c (setI r k x)

/-- `init->children[i]`. -/
def child (x : Ini α) (i : Nat) : Except IErr (Ini α) :=
  match x with
  | .mk _ _ cs => match cs.get? i with
    | some c => .ok c
    | none => .error .ub

def setChild (x : Ini α) (i : Nat) (c : Ini α) : Ini α :=
  match x with
  | .mk e m cs => .mk e m (setI cs i c)

def setExpr (x : Ini α) (e : Option α) : Ini α :=
  match x with
  | .mk _ m cs => .mk e m cs

/-- `init->mem = mem`. -/
def setMem (x : Ini α) (k : Nat) : Ini α :=
  match x with
  | .mk e _ cs => .mk e (some k) cs

/-- skip, utils.c:92-97. -/
def skip (ts : List Tok) (q : P) : Except IErr (List Tok) :=
  match ts with
  | t :: r => if t = .p q then .ok r else .error .skip
  | [] => .error .skip

/-- `if (!first) tok = skip(tok, ",")`. -/
def sep (first : Bool) (ts : List Tok) : Except IErr (List Tok) := if first then .ok ts else skip ts .comma

/-- consume_end, parser/common.c:4-17. -/
def consumeEnd : List Tok → Option (List Tok)
  | .p .rbrace :: r => some r
  | .p .comma :: .p .rbrace :: r => some r
  | _ => none

/-- is_end, initializer.c:267-270. -/
def isEnd (ts : List Tok) : Bool := (consumeEnd ts).isSome

/-- The loops of string_initializer, initializer.c:66-89. -/
def fillStr : Inis α → List α → Inis α
  | .cons c r, e :: es => .cons (setExpr c (some e)) (fillStr r es)
  | cs, _ => cs

/-- string_initializer, initializer.c:60-92, for an array that is not flexible. -/
def stringInit (O : Oracle α) (b : ITy) (s : String) (x : Ini α) : Except IErr (Ini α) :=
  match x with
  | .mk e m cs => if b.size = 1 ∨ b.size = 2 ∨ b.size = 4 then .ok (.mk e m (fillStr cs (O.str s b.size))) else .error .unreach

/-- skip_excess_element, initializer.c:48-57. -/
def skipExcess (O : Oracle α) : Nat → List Tok → Except IErr (List Tok)
  | 0, _ => .error .fuel
  | n + 1, ts =>
    match ts with
    | .p .lbrace :: r => do
      let ts ← skipExcess O n r
      skip ts .rbrace
    | ts => do
      let (_, _, r) ← O.assign ts
      .ok r

/-- array_designator, initializer.c:121-139, after the `[`, for an array of `n` elements: first and last index. A negative index, which the code does not
check, is `ub`. -/
def arrayDesignator (O : Oracle α) (n : Nat) (ts : List Tok) : Except IErr (Nat × Nat × List Tok) := do
  let (lo, ts) ← O.const ts
  if lo ≥ n then .error .bounds else
  match ts with
  | .p .dots :: ts => do
    let (hi, ts) ← O.const ts
    if hi ≥ n then .error .bounds else
    if hi < lo then .error .range else
    let ts ← skip ts .rbrk
    if lo < 0 then .error .ub else .ok (lo.toNat, hi.toNat, ts)
  | ts => do
    let ts ← skip ts .rbrk
    if lo < 0 then .error .ub else .ok (lo.toNat, lo.toNat, ts)

/-- get_struct_member, parser.c:305-323, as far as it tells whether there is the member. -/
def hasMember (x : String) : IMems → Except IErr Bool
  | .nil => .ok false
  | .cons none _ _ (.struc _ ms) r => do if ← hasMember x ms then .ok true else hasMember x r
  | .cons none _ _ (.union _ ms) r => do if ← hasMember x ms then .ok true else hasMember x r
  | .cons none _ _ _ _ => .error .null
  | .cons (some y) _ _ _ r => if y = x then .ok true else hasMember x r

/-- The loop of struct_designator, initializer.c:151-170: the index of the member and whether it is an anonymous structure. -/
def findMember (x : String) : IMems → Nat → Except IErr (Nat × ITy × Bool)
  | .nil, _ => .error .noMember
  | .cons none _ _ (.struc sz ms) r, k => do if ← hasMember x ms then .ok (k, .struc sz ms, true) else findMember x r (k + 1)
  | .cons none _ _ _ _, _ => .error .null
  | .cons (some y) _ _ t r, k => if y = x then .ok (k, t, false) else findMember x r (k + 1)

/-- struct_designator, initializer.c:142-173, after the `.`. -/
def structDesignator (ms : IMems) (ts : List Tok) : Except IErr (Nat × ITy × List Tok) :=
  match ts with
  | .ident x :: r => do
    let (k, t, anon) ← findMember x ms 0
    .ok (k, t, if anon then .p .dot :: ts else r)
  | _ => .error .field

/-- The test of initializer.c:324 and 383: a designator. -/
def isDesg : List Tok → Bool
  | .p .lbrk :: _ | .p .dot :: _ => true
  | _ => false

/-- consume(&tok, tok, ","), initializer.c:421. -/
def dropComma : List Tok → List Tok
  | .p .comma :: r => r
  | ts => ts

mutual
/-- initializer2, initializer.c:431-482. -/
def init2 (O : Oracle α) : Nat → ITy → List Tok → Ini α → Except IErr (Ini α × List Tok)
  | 0, _, _, _ => .error .fuel
  | n + 1, .arr b k, ts, x =>
    match ts with
    | .str s :: r => do
      let x ← stringInit O b s x
      .ok (x, r)
    | .p .lbrace :: r => arr1 O n b k true 0 r x
    | ts => arr2 O n b k 0 ts x
  | n + 1, .struc _ ms, ts, x =>
    match ts with
    | .p .lbrace :: r => struct1 O n ms true 0 r x
    | ts => do
      let (e, st, r) ← O.assign ts
      if st then .ok (setExpr x (some e), r) else struct2 O n ms true 0 ts x
  | n + 1, .union _ ms, ts, x => unionI O n ms ts x
  | n + 1, .sc t, ts, x =>
    match ts with
    | .p .lbrace :: r => do
      let (x, ts) ← init2 O n (.sc t) r x
      let ts ← skip ts .rbrace
      .ok (x, ts)
    | ts => do
      let (e, _, r) ← O.assign ts
      .ok (setExpr x (some e), r)
/-- The loop of array_initializer1, initializer.c:284-308, for `k` elements of type `b`, at index `i`. -/
def arr1 (O : Oracle α) : Nat → ITy → Nat → Bool → Nat → List Tok → Ini α → Except IErr (Ini α × List Tok)
  | 0, _, _, _, _, _, _ => .error .fuel
  | n + 1, b, k, first, i, ts, x =>
    match consumeEnd ts with
    | some r => .ok (x, r)
    | none => do
      let ts ← sep first ts
      match ts with
      | .p .lbrk :: r => do
        let (lo, hi, ts) ← arrayDesignator O k r
        let (x, ts) ← range O n b ts lo hi x
        arr1 O n b k false (hi + 1) ts x
      | ts =>
        if i < k then do
          let c ← child x i
          let (c, ts) ← init2 O n b ts c
          arr1 O n b k false (i + 1) ts (setChild x i c)
        else do
          let ts ← skipExcess O n ts
          arr1 O n b k false (i + 1) ts x
/-- The loops over a range of elements, initializer.c:192-194 and 296-298, from `i` to `hi`. -/
def range (O : Oracle α) : Nat → ITy → List Tok → Nat → Nat → Ini α → Except IErr (Ini α × List Tok)
  | 0, _, _, _, _, _ => .error .fuel
  | n + 1, b, ts, i, hi, x => do
    let c ← child x i
    let (c, ts') ← desg O n b ts c
    if i < hi then range O n b ts (i + 1) hi (setChild x i c) else .ok (setChild x i c, ts')
/-- designation, initializer.c:182-228. -/
def desg (O : Oracle α) : Nat → ITy → List Tok → Ini α → Except IErr (Ini α × List Tok)
  | 0, _, _, _ => .error .fuel
  | n + 1, ty, ts, x =>
    match ts with
    | .p .lbrk :: r =>
      match ty with
      | .arr b k => do
        let (lo, hi, ts) ← arrayDesignator O k r
        let (x, ts) ← range O n b ts lo hi x
        arr2 O n b k (hi + 1) ts x
      | _ => .error .notArray
    | .p .dot :: r =>
      match ty with
      | .struc _ ms => do
        let (k, t, ts) ← structDesignator ms r
        let c ← child x k
        let (c, ts) ← desg O n t ts c
        struct2 O n ms true (k + 1) ts (setExpr (setChild x k c) none)
      | .union _ ms => do
        let (k, t, ts) ← structDesignator ms r
        let c ← child x k
        let (c, ts) ← desg O n t ts c
        .ok (setChild (setMem x k) k c, ts)
      | _ => .error .notStruct
    | .p .eq :: r => init2 O n ty r x
    | ts => init2 O n ty ts x
/-- array_initializer2, initializer.c:312-336, for an array that is not flexible. -/
def arr2 (O : Oracle α) : Nat → ITy → Nat → Nat → List Tok → Ini α → Except IErr (Ini α × List Tok)
  | 0, _, _, _, _, _ => .error .fuel
  | n + 1, b, k, i, ts, x =>
    if i < k ∧ isEnd ts = false then do
      let ts' ← sep (i == 0) ts
      if isDesg ts' then .ok (x, ts) else do
        let c ← child x i
        let (c, ts) ← init2 O n b ts' c
        arr2 O n b k (i + 1) ts (setChild x i c)
    else .ok (x, ts)
/-- The loop of struct_initializer1, initializer.c:347-367; `j` is the index of `mem`, and the number of members if `mem` is null. -/
def struct1 (O : Oracle α) : Nat → IMems → Bool → Nat → List Tok → Ini α → Except IErr (Ini α × List Tok)
  | 0, _, _, _, _, _ => .error .fuel
  | n + 1, ms, first, j, ts, x =>
    match consumeEnd ts with
    | some r => .ok (x, r)
    | none => do
      let ts ← sep first ts
      match ts with
      | .p .dot :: r => do
        let (k, t, ts) ← structDesignator ms r
        let c ← child x k
        let (c, ts) ← desg O n t ts c
        struct1 O n ms false (k + 1) ts (setChild x k c)
      | ts =>
        match ms.get? j with
        | some t => do
          let c ← child x j
          let (c, ts) ← init2 O n t ts c
          struct1 O n ms false (j + 1) ts (setChild x j c)
        | none => do
          let ts ← skipExcess O n ts
          struct1 O n ms false j ts x
/-- struct_initializer2, initializer.c:371-393, from the member with index `j` on. -/
def struct2 (O : Oracle α) : Nat → IMems → Bool → Nat → List Tok → Ini α → Except IErr (Ini α × List Tok)
  | 0, _, _, _, _, _ => .error .fuel
  | n + 1, ms, first, j, ts, x =>
    match ms.get? j, isEnd ts with
    | some t, false => do
      let ts' ← sep first ts
      if isDesg ts' then .ok (x, ts) else do
        let c ← child x j
        let (c, ts) ← init2 O n t ts' c
        struct2 O n ms false (j + 1) ts (setChild x j c)
    | _, _ => .ok (x, ts)
/-- union_initializer, initializer.c:398-426. -/
def unionI (O : Oracle α) : Nat → IMems → List Tok → Ini α → Except IErr (Ini α × List Tok)
  | 0, _, _, _ => .error .fuel
  | n + 1, ms, ts, x =>
    match ts with
    | .p .lbrace :: .p .dot :: r => do
      let (k, t, ts) ← structDesignator ms r
      let c ← child x k
      let (c, ts) ← desg O n t ts c
      let ts ← skip ts .rbrace
      .ok (setChild (setMem x k) k c, ts)
    | .p .lbrace :: r =>
      match ms.get? 0 with
      | none => .error .null
      | some t => do
        let c ← child x 0
        let (c, ts) ← init2 O n t r c
        let ts ← skip (dropComma ts) .rbrace
        .ok (setChild (setMem x 0) 0 c, ts)
    | ts =>
      match ms.get? 0 with
      | none => .error .null
      | some t => do
        let c ← child x 0
        let (c, ts) ← init2 O n t ts c
        .ok (setChild (setMem x 0) 0 c, ts)
end

/-- count_array_init_elements, initializer.c:233-265, after the `{`; `i`, `max` and `dummy` as there. `int` is taken to be large enough. -/
def count (O : Oracle α) : Nat → ITy → Bool → Int → Int → Ini α → List Tok → Except IErr Int
  | 0, _, _, _, _, _, _ => .error .fuel
  | n + 1, b, first, i, max, dummy, ts =>
    match consumeEnd ts with
    | some _ => .ok max
    | none => do
      let ts ← sep first ts
      match ts with
      | .p .lbrk :: r => do
        let (i, ts) ← O.const r
        let (i, ts) ← (match ts with
          | .p .dots :: r => O.const r
          | ts => .ok (i, ts))
        let ts ← skip ts .rbrk
        let (dummy, ts) ← desg O n b ts dummy
        count O n b false (i + 1) (if max < i + 1 then i + 1 else max) dummy ts
      | ts => do
        let (dummy, ts) ← init2 O n b ts dummy
        count O n b false (i + 1) (if max < i + 1 then i + 1 else max) dummy ts

/-- initializer, initializer.c:505-530, for a complete type without flexible array member. -/
def initializer (O : Oracle α) (n : Nat) (ty : ITy) (ts : List Tok) : Except IErr (Ini α × List Tok) := init2 O n ty ts (blank ty)

/-- initializer for an array of unknown length (62-63, 279-282): the length, the tree and the tokens left. -/
def initFlex (O : Oracle α) (n : Nat) (b : ITy) (ts : List Tok) : Except IErr (Nat × Ini α × List Tok) :=
  match ts with
  | .str s :: _ => do
    let k := (O.str s b.size).length
    let (x, r) ← init2 O n (.arr b k) ts (blank (.arr b k))
    .ok (k, x, r)
  | .p .lbrace :: r => do
    let k ← count O n b true 0 0 (blank b) r
    let (x, r) ← init2 O n (.arr b k.toNat) ts (blank (.arr b k.toNat))
    .ok (k.toNat, x, r)
  | _ => .error .unmodelled

end Toycc.Ip
