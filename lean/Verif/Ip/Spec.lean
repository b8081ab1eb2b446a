import Verif.Ip.Model
/-!
Specification of initialisers (C11 6.7.9): their syntax, and which subobject each expression initialises, by following the *current subobject* of
6.7.9p17-20 through the object. Subobjects are named by paths: the indices of elements and members.
-/
namespace Toycc.Ip
open Toycc.Parse (Tok P)
open Toycc.Init (Ini Inis)

/-! ### Syntax (6.7.9p1) -/

/-- A designator: a constant index with its tokens, or a member. -/
inductive Des where
  | idx (ts : List Tok) (i : Nat)
  | field (x : String)

mutual
/-- An initialiser: an assignment expression, or a list in braces, perhaps with a comma at the end. An expression comes with its tokens, its value,
whether it is of structure type, and whether it is of the structure or union type `U`. -/
inductive Src (α : Type) where
  | expr (ts : List Tok) (e : α) (st : Bool) (whole : ITy → Bool)
  | list (its : Items α) (comma : Bool)
inductive Items (α : Type) where
  | nil
  | cons (ds : List Des) (s : Src α) (r : Items α)
end

variable {α : Type}

def Des.text : Des → List Tok
  | .idx ts _ => .p .lbrk :: (ts ++ [.p .rbrk])
  | .field x => [.p .dot, .ident x]

def desText : List Des → List Tok
  | [] => []
  | d :: ds => d.text ++ desText ds

/-- The end of a list. -/
def closing (comma : Bool) : List Tok := if comma then [.p .comma, .p .rbrace] else [.p .rbrace]

mutual
def Src.text : Src α → List Tok
  | .expr ts _ _ _ => ts
  | .list its c => .p .lbrace :: (its.text true ++ closing c)
/-- `first`: no comma before. -/
def Items.text (first : Bool) : Items α → List Tok
  | .nil => []
  | .cons ds s r => (if first then [] else [.p .comma]) ++ (desText ds ++ ((if ds.isEmpty then [] else [.p .eq]) ++ (s.text ++ r.text false)))
end

/-- The literal, if the expression is a string literal. -/
def litOf : List Tok → Option String
  | [.str s] => some s
  | _ => none

/-! ### Subobjects -/

abbrev Path := List Nat

/-- Elements or members. -/
def ITy.child? : ITy → Nat → Option ITy
  | .sc _, _ => none
  | .arr b n, i => if i < n then some b else none
  | .struc _ ms, i => ms.get? i
  | .union _ ms, i => ms.get? i

/-- The type of a subobject. -/
def ITy.sub : ITy → Path → Option ITy
  | T, [] => some T
  | T, i :: p => match T.child? i with
    | some U => U.sub p
    | none => none

/-- The subobject that comes after `p`: the next element or member, else what comes after the aggregate. Only one member of a union is initialised. -/
def next : ITy → Path → Option Path
  | _, [] => none
  | T, i :: p => match T.child? i with
    | none => none
    | some U => match next U p with
      | some q => some (i :: q)
      | none => match T with
        | .union _ _ => none
        | _ => if (T.child? (i + 1)).isSome then some [i + 1] else none

/-- The path of a member, also through anonymous structures and unions (6.7.2.1p13). -/
def memberPath (x : String) : IMems → Nat → Option (Path × ITy)
  | .nil, _ => none
  | .cons (some y) _ _ t r, k => if y = x then some ([k], t) else memberPath x r (k + 1)
  | .cons none _ _ (.struc _ ms) r, k => match memberPath x ms 0 with
    | some (p, t) => some (k :: p, t)
    | none => memberPath x r (k + 1)
  | .cons none _ _ (.union _ ms) r, k => match memberPath x ms 0 with
    | some (p, t) => some (k :: p, t)
    | none => memberPath x r (k + 1)
  | .cons none _ _ _ r, k => memberPath x r (k + 1)

/-- The subobject described by a designation (6.7.9p6, p7, p18). -/
def resolve : ITy → List Des → Option Path
  | _, [] => some []
  | .arr b n, .idx _ i :: ds => if i < n then (resolve b ds).map (i :: ·) else none
  | .struc _ ms, .field x :: ds => match memberPath x ms 0 with
    | some (p, t) => (resolve t ds).map (p ++ ·)
    | none => none
  | .union _ ms, .field x :: ds => match memberPath x ms 0 with
    | some (p, t) => (resolve t ds).map (p ++ ·)
    | none => none
  | _, _ => none

/-- The literal may initialise an array of `b` (6.7.9p14, p15). `width` is the size of the elements of a literal. -/
def isChars (width : String → Nat) (b : ITy) (s : String) : Bool :=
  match b with
  | .sc (.scalar t) => t.isInt && t.size == width s
  | _ => false

mutual
/-- The subobject of `U` that an expression initialises when `U` is the current subobject: `U` itself if it is a scalar, if the expression is of this structure or union type, or a literal
for this array of characters; otherwise a subobject of the first element or member (6.7.9p13, p14, p20). -/
def land (width : String → Nat) (lit : Option String) (whole : ITy → Bool) : ITy → Path
  | .sc _ => []
  | .arr b n => match lit with
    | some s => if isChars width b s then [] else 0 :: land width lit whole b
    | none => 0 :: land width lit whole b
  | .struc n ms => if whole (.struc n ms) then [] else 0 :: landM width lit whole ms
  | .union n ms => if whole (.union n ms) then [] else 0 :: landM width lit whole ms
def landM (width : String → Nat) (lit : Option String) (whole : ITy → Bool) : IMems → Path
  | .nil => []
  | .cons _ _ _ t _ => land width lit whole t
end

/-- The same for an initialiser: braces are for the current subobject itself. -/
def Src.land (width : String → Nat) (U : ITy) : Src α → Path
  | .expr ts _ _ w => Ip.land width (litOf ts) w U
  | .list _ _ => []

/-! ### Meaning -/

mutual
/-- Nothing in it has been initialised. -/
def clean : Ini α → Bool
  | .mk e m cs => e.isNone && m.isNone && cleans cs
def cleans : Inis α → Bool
  | .nil => true
  | .cons c r => clean c && cleans r
end

/-- The part of a tree for a subobject. -/
def get : Ini α → Path → Option (Ini α)
  | x, [] => some x
  | .mk _ _ cs, i :: p => match cs.get? i with
    | some c => get c p
    | none => none

/-- Changes the part of a tree for a subobject. A union gets the member. `none`: there is no such subobject; or the subobject is part of a structure
that has been initialised by an expression, or of a union of which another member has been initialised. -/
def put : ITy → Path → (Ini α → Option (Ini α)) → Ini α → Option (Ini α)
  | _, [], f, x => f x
  | .arr b n, i :: p, f, .mk e m cs => if i < n then do
      let c ← cs.get? i
      let c ← put b p f c
      some (.mk e m (setI cs i c))
    else none
  | .struc _ ms, i :: p, f, .mk e m cs => if e.isNone then do
      let t ← ms.get? i
      let c ← cs.get? i
      let c ← put t p f c
      some (.mk e m (setI cs i c))
    else none
  | .union _ ms, i :: p, f, .mk e m cs => if m = none ∨ m = some i then do
      let t ← ms.get? i
      let c ← cs.get? i
      let c ← put t p f c
      some (.mk e (some i) (setI cs i c))
    else none
  | .sc _, _ :: _, _, _ => none

/-- An expression for the object itself; except for scalars the object must not have been initialised before. -/
def setVal (O : Oracle α) (width : String → Nat) (ts : List Tok) (e : α) : ITy → Ini α → Option (Ini α)
  | .sc _, .mk _ m cs => some (.mk (some e) m cs)
  | .arr _ _, .mk e m cs => match litOf ts with
    | some s => if clean (.mk e m cs) then some (.mk e m (fillStr cs (O.str s (width s)))) else none
    | none => none
  | _, .mk e' m cs => if clean (.mk e' m cs) then some (.mk (some e) m cs) else none

mutual
/-- 6.7.9p17-21: the items of a list for an object of type `T`, one after the other; `c` is the current subobject, `none` after the last one. Result: the object's tree. `none`: the list
violates a constraint, or initialises something twice that is not a scalar. -/
def run (O : Oracle α) (width : String → Nat) (T : ITy) : Items α → Option Path → Ini α → Option (Ini α)
  | .nil, _, t => some t
  | .cons ds s r, c, t => do
    let p ← if ds.isEmpty then c else resolve T ds
    let U ← T.sub p
    let t ← place O width T p U s t
    run O width T r (next T (p ++ s.land width U)) t
/-- The initialiser for the current subobject `p`, of type `U`. -/
def place (O : Oracle α) (width : String → Nat) (T : ITy) (p : Path) (U : ITy) : Src α → Ini α → Option (Ini α)
  | .expr ts e st w, t => do
    let V ← U.sub ((Src.expr ts e st w).land width U)
    put T (p ++ (Src.expr ts e st w).land width U) (setVal O width ts e V) t
  | .list its _, t => put T p (fun x => if clean x then bracesFor O width U its x else none) t
/-- A list in braces for an object of type `U`. A scalar takes one expression (6.7.9p11), an array of characters perhaps a literal (p14). -/
def bracesFor (O : Oracle α) (width : String → Nat) (U : ITy) : Items α → Ini α → Option (Ini α)
  | its, x => match U with
    | .sc t => match its with
      | .cons [] (.expr ts e _ _) .nil => setVal O width ts e (.sc t) x
      | _ => none
    | .arr b n => match its with
      | .cons [] (.expr ts e st w) .nil =>
        match litOf ts with
        | some s => if isChars width b s then setVal O width ts e (.arr b n) x else run O width (.arr b n) (.cons [] (.expr ts e st w) .nil) (some [0]) x
        | none => run O width (.arr b n) (.cons [] (.expr ts e st w) .nil) (some [0]) x
      | its => run O width (.arr b n) its (some [0]) x
    | U => run O width U its (some [0]) x
end

/-- The initialiser of an object of type `T` (6.7.9p8, p11, p13, p14, p16). -/
def value (O : Oracle α) (width : String → Nat) (T : ITy) : Src α → Option (Ini α)
  | .expr ts e st w => if (Src.expr ts e st w).land width T = [] then setVal O width ts e T (blank T) else none
  | .list its c => place O width T [] T (.list its c) (blank T)

/-- One more than the largest index of an element of the array `T` that the items initialise, in whole or in part, from the current subobject `c` on. -/
def extent (width : String → Nat) (T : ITy) : Items α → Option Path → Nat
  | .nil, _ => 0
  | .cons ds s r, c => match (if ds.isEmpty then c else resolve T ds) with
    | some (i :: p) => match T.sub (i :: p) with
      | some U => Nat.max (i + 1) (extent width T r (next T ((i :: p) ++ s.land width U)))
      | none => 0
    | _ => 0

/-- The first of the items that is for the member `m` of the structure `T`, or for a part of it: `Q` holds of the subobject of the member and the initialiser. False if there is none. -/
def firstFor (width : String → Nat) (T : ITy) (m : Nat) (Q : Path → Src α → Prop) : Items α → Option Path → Prop
  | .nil, _ => False
  | .cons ds s r, c => match (if ds.isEmpty then c else resolve T ds) with
    | some (i :: p) => match T.sub (i :: p) with
      | some U => if i = m then Q p s else firstFor width T m Q r (next T ((i :: p) ++ s.land width U))
      | none => False
    | _ => False

/-- 6.7.9p14, p22: the initialiser of an array of unknown length, with elements of type `b`, gives it the length `k`. -/
def lengthIs (O : Oracle α) (width : String → Nat) (b : ITy) (k : Nat) : Src α → Prop
  | .expr ts _ _ _ => ∃ s, litOf ts = some s ∧ isChars width b s = true ∧ k = (O.str s (width s)).length
  | .list its _ => k = extent width (.arr b k) its (some [0])

end Toycc.Ip
