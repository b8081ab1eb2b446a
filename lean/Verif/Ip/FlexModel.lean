import Verif.Ip.Model
/-!
A structure whose last member is a flexible array member (`struct { int n; char s[]; } x = {3, "abc"};`, an extension of GCC): the places where initializer.c treats it
differently. The list must be in braces; a structure with such a member inside another type is not one of them (new_initializer, 35 and 43).
-/
namespace Toycc.Ip
open Toycc.Parse (Tok P)
open Toycc.Init (Ini Inis)
variable {α : Type}

/-- The members `pre`, and a last member `x` at `off`, an array of `k` elements of type `b`. -/
def withLast : IMems → String → Nat → ITy → Nat → IMems
  | .nil, x, off, b, k => .cons (some x) off none (.arr b k) .nil
  | .cons n o f t r, x, off, b, k => .cons n o f t (withLast r x off b k)

def IMems.length : IMems → Nat
  | .nil => 0
  | .cons _ _ _ _ r => r.length + 1

/-- initializer2 (431-482) for the flexible member: string_initializer (62-63), array_initializer1 (279-282), array_initializer2 (315-318) replace the initialiser by one for an
array of the length found: the length, the tree, the tokens left. -/
def memberFlex (O : Oracle α) (n : Nat) (b : ITy) (ts : List Tok) : Except IErr (Nat × Ini α × List Tok) :=
  match ts with
  | .str s :: r => initFlex O n b (.str s :: r)
  | .p .lbrace :: r => initFlex O n b (.p .lbrace :: r)
  | ts => do
    let k ← count O n b true 0 0 (blank b) ts
    let (x, r) ← init2 O n (.arr b k.toNat) ts (blank (.arr b k.toNat))
    .ok (k.toNat, x, r)

/-- designation (182-228) for the flexible member: it is an array of length 0 (declarator.c:71-76), so there is no index in it. -/
def desgFlex (O : Oracle α) : Nat → ITy → List Tok → Except IErr (Nat × Ini α × List Tok)
  | 0, _, _ => .error .fuel
  | n + 1, b, ts =>
    match ts with
    | .p .lbrk :: r => do
      let _ ← arrayDesignator O 0 r
      .error .ub
    | .p .dot :: _ => .error .notStruct
    | .p .eq :: r => memberFlex O n b r
    | ts => memberFlex O n b ts

/-- The loop of struct_initializer1, initializer.c:347-367, while the flexible member has no initialiser; after that it is that of a structure with an array of `k` elements.
Result: `k`, the tree and the tokens left. -/
def struct1F (O : Oracle α) : Nat → IMems → String → Nat → ITy → Bool → Nat → List Tok → Ini α → Except IErr (Nat × Ini α × List Tok)
  | 0, _, _, _, _, _, _, _, _ => .error .fuel
  | n + 1, pre, x, off, b, first, j, ts, t =>
    match consumeEnd ts with
    | some r => .ok (0, t, r)
    | none => do
      let ts ← sep first ts
      match ts with
      | .p .dot :: r => do
        let (i, ty, ts) ← structDesignator (withLast pre x off b 0) r
        if i = pre.length then do
          let (k, c, ts) ← desgFlex O n b ts
          let (t, ts) ← struct1 O n (withLast pre x off b k) false (i + 1) ts (setChild t i c)
          .ok (k, t, ts)
        else do
          let c ← child t i
          let (c, ts) ← desg O n ty ts c
          struct1F O n pre x off b false (i + 1) ts (setChild t i c)
      | ts =>
        if j = pre.length then do
          let (k, c, ts) ← memberFlex O n b ts
          let (t, ts) ← struct1 O n (withLast pre x off b k) false (j + 1) ts (setChild t j c)
          .ok (k, t, ts)
        else match (withLast pre x off b 0).get? j with
        | some ty => do
          let c ← child t j
          let (c, ts) ← init2 O n ty ts c
          struct1F O n pre x off b false (j + 1) ts (setChild t j c)
        | none => do
          let ts ← skipExcess O n ts
          struct1F O n pre x off b false j ts t

/-- initializer, initializer.c:505-530, for such a structure, of size `sz` without the last member, and a list in braces: the size of the object (`ty->size += mem->ty->size`), the length
of the last member, the tree, the tokens left. -/
def initStructFlex (O : Oracle α) (n : Nat) (sz : Nat) (pre : IMems) (x : String) (off : Nat) (b : ITy) (ts : List Tok) : Except IErr (Nat × Nat × Ini α × List Tok) :=
  match ts with
  | .p .lbrace :: r => do
    let (k, t, r) ← struct1F O n pre x off b true 0 r (blank (.struc sz (withLast pre x off b 0)))
    .ok (sz + (ITy.arr b k).size, k, t, r)
  | _ => .error .unmodelled

end Toycc.Ip
