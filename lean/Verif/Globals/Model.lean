import Verif.Common
/-!
What is emitted of a translation unit: the removal of redundant tentative definitions (scan_globals, parser/scope.c:160-188) and the marking of live
functions (mark_live, parser/parser.c:1425-1437, with the places that record references).
-/
namespace Toycc.Globals

/-! ### scan_globals -/

/-- struct Obj as far as scan_globals is concerned. The objects are cells, numbered by their position in the list `globals` (the latest declared first);
`is_tentative` implies `is_definition` (parser.c:1528-1541). -/
structure Obj where
  name : String
  tentative : Bool
  isDef : Bool
  deriving DecidableEq, Repr

/-- The `next` fields, `head.next` (uninitialised before it is set) and `cur` (`none` is `&head`). -/
structure Cells where
  next : Nat → Option Nat
  head : Option Nat
  cur : Option Nat

/-- `cur->next = v` -/
def Cells.link (c : Cells) (v : Option Nat) : Cells :=
  match c.cur with
  | none => { c with head := v }
  | some k => { c with next := fun i => if i = k then v else c.next i }

/-- The inner loop, scope.c:172-176: is there another definition of the name of `i`, from `p` on along the `next` fields as they are now? `none`: the
loop does not end within the bound or runs out of the objects. -/
def other (objs : List Obj) (next : Nat → Option Nat) (i : Nat) (name : String) : Nat → Option Nat → Option Bool
  | _, none => some false
  | 0, some _ => none
  | f + 1, some p =>
    match objs[p]? with
    | none => none
    | some o => if p != i && o.isDef && name == o.name then some true else other objs next i name f (next p)

/-- The outer loop, scope.c:165-184; `globals` is cell 0. -/
def scanLoop (objs : List Obj) : Nat → Option Nat → Cells → Option Cells
  | _, none, c => some c
  | 0, some _, _ => none
  | f + 1, some i, c =>
    match objs[i]? with
    | none => none
    | some o =>
      if !o.tentative then
        let c := { c.link (some i) with cur := some i }
        scanLoop objs f (c.next i) c
      else
        match other objs c.next i o.name (objs.length + 1) (if objs.isEmpty then none else some 0) with
        | none => none
        | some true => scanLoop objs f (c.next i) c
        | some false =>
          let c := { c.link (some i) with cur := some i }
          scanLoop objs f (c.next i) c

/-- The list from a cell on. -/
def follow (next : Nat → Option Nat) : Nat → Option Nat → Option (List Nat)
  | _, none => some []
  | 0, some _ => none
  | f + 1, some i => (follow next f (next i)).map (i :: ·)

/-- scan_globals, scope.c:160-188: the resulting list `globals`. -/
def scanGlobals (objs : List Obj) : Option (List Nat) :=
  let next := fun i => if i + 1 < objs.length then some (i + 1) else none
  match scanLoop objs (objs.length + 1) (if objs.isEmpty then none else some 0) ⟨next, none, none⟩ with
  | none => none
  | some c =>
    let c := c.link none
    follow c.next (objs.length + 1) c.head

/-! ### Live functions -/

/-- struct Obj of a function. -/
structure Fn where
  isDef : Bool
  static : Bool
  inl : Bool
  root : Bool
  refs : List String
  deriving DecidableEq, Repr

/-- struct VarAttr, as far as functions are concerned. -/
structure Attr where
  static : Bool := false
  inl : Bool := false
  extern : Bool := false
  deriving DecidableEq, Repr

/-- What occurs in a function body: names that resolve to functions (not hidden by local declarations), and declarations of functions. -/
inductive Occ where
  | ref (f : String)
  | decl (f : String) (a : Attr)
  deriving DecidableEq, Repr

/-- Declarations at file scope: a function that is declared, one that is defined, and anything else that refers to functions (initialisers of global
variables and other expressions outside of functions). -/
inductive Ext where
  | decl (f : String) (a : Attr)
  | defn (f : String) (a : Attr) (body : List Occ)
  | init (refs : List String)
  deriving DecidableEq, Repr

/-- The functions of the file scope, the latest first, `current_fn`, and the names of the functions declared by blocks only (their objects are
in no list that matters: they are not defined, refer to nothing and are not found by find_func). -/
structure Unit where
  fns : List (String × Fn)
  cur : Option String
  blk : List String

inductive GErr where
  | undeclared | redefinition | staticAfter | fuel
  deriving DecidableEq, Repr

/-- find_func, scope.c:69-82. -/
def find (fns : List (String × Fn)) (f : String) : Option Fn := fns.lookup f

/-- Change the object of a function. -/
def update (fns : List (String × Fn)) (f : String) (g : Fn → Fn) : List (String × Fn) :=
  fns.map fun p => if p.1 = f then (p.1, g p.2) else p

/-- function, parser.c:1446-1467. -/
def declare (u : Unit) (f : String) (a : Attr) (isDef : Bool) : Except GErr Unit :=
  match find u.fns f with
  | some fn =>
    if fn.isDef && isDef then .error .redefinition
    else if !fn.static && a.static then .error .staticAfter
    else .ok { u with fns := update u.fns f fun fn => { fn with isDef := fn.isDef || isDef, root := !(fn.static && fn.inl) } }
  | none =>
    let static := a.static || (a.inl && !a.extern)
    .ok { u with fns := (f, ⟨isDef, static, a.inl, !(static && a.inl), []⟩) :: u.fns }

/-- The same inside of a function; a new function is entered in the scope of the block (parser.c:1461). -/
def declareIn (u : Unit) (f : String) (a : Attr) : Except GErr Unit :=
  match find u.fns f with
  | some _ => declare u f a false
  | none => .ok { u with blk := f :: u.blk }

/-- primary, parser.c:255-280: a name that denotes a function. -/
def refer (u : Unit) (f : String) : Except GErr Unit :=
  if (find u.fns f).isNone && !u.blk.contains f then .error .undeclared
  else
    match u.cur with
    | some g => .ok { u with fns := update u.fns g fun fn => { fn with refs := fn.refs ++ [f] } }
    | none => .ok { u with fns := update u.fns f fun fn => { fn with root := true } }

def referAll : List String → Unit → Except GErr Unit
  | [], u => .ok u
  | f :: r, u => do referAll r (← refer u f)

def body : List Occ → Unit → Except GErr Unit
  | [], u => .ok u
  | .ref f :: r, u => do body r (← refer u f)
  | .decl f a :: r, u => do body r (← declareIn u f a)

/-- parser, parser.c:1592-1612: `current_fn` is set by a definition (parser.c:1474) and never reset. -/
def exts : List Ext → Unit → Except GErr Unit
  | [], u => .ok u
  | .decl f a :: r, u => do exts r (← declare u f a false)
  | .defn f a b :: r, u => do
    let u ← declare u f a true
    let u ← body b { u with cur := some f }
    exts r { u with blk := [] }
  | .init refs :: r, u => do exts r (← referAll refs u)

mutual
/-- mark_live, parser.c:1425-1437; the set of live functions is threaded through. -/
def markLive (fns : List (String × Fn)) : Nat → String → List String → Except GErr (List String)
  | 0, _, _ => .error .fuel
  | k + 1, f, live =>
    if f ∈ live then .ok live
    else
      match find fns f with
      | none => .ok live
      | some fn => markAll fns k fn.refs (f :: live)
/-- The loops over references and over roots. -/
def markAll (fns : List (String × Fn)) : Nat → List String → List String → Except GErr (List String)
  | 0, _, _ => .error .fuel
  | _ + 1, [], live => .ok live
  | k + 1, f :: r, live => do markAll fns k r (← markLive fns k f live)
end

/-- parser, parser.c:1614-1616, and the choice of emit_text, codegen.c:2012-2021: the functions for which code is emitted. The bound on the recursion is a
parameter. -/
def emitted (p : List Ext) (k : Nat) : Except GErr (List String) := do
  let u ← exts p ⟨[], none, []⟩
  let live ← markAll u.fns k ((u.fns.filter fun p => p.2.root).map Prod.fst) []
  .ok ((u.fns.filter fun p => p.2.isDef && live.contains p.1).map Prod.fst)

end Toycc.Globals
