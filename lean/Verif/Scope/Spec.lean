import Verif.Scope.Model
/-!
Scopes as in C (C11 6.2.1, 6.2.3, 6.7.2.3, 6.8.4p3, 6.8.5p5). The past is the list of what has happened, the latest first; the meaning of a name is
found by walking it backwards, passing over blocks that have been closed.
-/
namespace Toycc.Scope
open Toycc.HashMap (Key)

inductive Ev where
  /-- a block begins. `soft`: parameter lists and selection and iteration statements other than `for` -/
  | opened (soft : Bool)
  | closed
  | var (x : Key) (i : Ident)
  | param (x : Key) (id : Nat)
  | tag (x : Key) (n : Nat)
  deriving DecidableEq, Repr

/-- The latest event that `f` selects, outside of blocks that have been closed. `d`: how many closed blocks we are inside of. -/
def visible {α : Type} (f : Ev → Option α) : List Ev → Nat → Option α
  | [], _ => none
  | .closed :: r, d => visible f r (d + 1)
  | .opened _ :: r, 0 => visible f r 0
  | .opened _ :: r, d + 1 => visible f r d
  | e :: r, 0 => (f e).or (visible f r 0)
  | _ :: r, d + 1 => visible f r (d + 1)

/-- The same, in the innermost open block only. -/
def here {α : Type} (f : Ev → Option α) : List Ev → Nat → Option α
  | [], _ => none
  | .closed :: r, d => here f r (d + 1)
  | .opened _ :: _, 0 => none
  | .opened _ :: r, d + 1 => here f r d
  | e :: r, 0 => (f e).or (here f r 0)
  | _ :: r, d + 1 => here f r (d + 1)

/-- How many blocks are open. -/
def level : List Ev → Int
  | [] => 0
  | .opened _ :: r => level r + 1
  | .closed :: r => level r - 1
  | _ :: r => level r

/-- The latest event that `f` selects, outside of all blocks. -/
def atFile {α : Type} (f : Ev → Option α) : List Ev → Option α
  | [] => none
  | e :: r => if level r = 0 then (f e).or (atFile f r) else atFile f r

/-- Is the innermost open block soft? -/
def inSoft : List Ev → Nat → Bool
  | [], _ => false
  | .closed :: r, d => inSoft r (d + 1)
  | .opened s :: _, 0 => s
  | .opened _ :: r, d + 1 => inSoft r d
  | _ :: r, d => inSoft r d

/-- Declarations of an ordinary identifier. The flag is set for parameters of a parameter list. -/
def onVar (x : Key) : Ev → Option (Ident × Bool)
  | .var y i => if y = x then some (i, false) else none
  | .param y i => if y = x then some (.obj i, true) else none
  | _ => none

/-- The same, without the parameters of parameter lists. -/
def onDecl (x : Key) : Ev → Option Ident
  | .var y i => if y = x then some i else none
  | _ => none

/-- Declarations of a tag. -/
def onTag (x : Key) : Ev → Option Nat
  | .tag y n => if y = x then some n else none
  | _ => none

/-- Constructs that toycc treats differently from C. -/
inductive Odd where
  /-- something is declared in a parameter list or directly in a selection or iteration statement other than `for` (type definitions
  and first mentions of tags can be) -/
  | softDecl
  /-- the name of a parameter is used in the parameter list -/
  | paramUse
  /-- a function already declared at file scope is declared in a block where its name means something else -/
  | funShadow
  /-- `struct x;` where `x` is declared in an enclosing block but not in this one -/
  | fwdShadow
  /-- `struct x { ... }` mentions the tag `x` although an enclosing block declares that tag, or uses it as
  the tag of an enumeration; or the list of an enumeration mentions its tag (the last two are errors in C) -/
  | selfTag
  /-- a definition of a struct or enumeration contains a statement expression -/
  | blockInType
  /-- an enumeration tag is declared twice in a block (an error in C) -/
  | enumRedef
  deriving DecidableEq, Repr

/-- The past, the number of tags declared, the uses resolved, and the odd constructs met. -/
structure CSt where
  past : List Ev
  next : Nat
  log : List Res
  odd : List Odd

def CSt.add (st : CSt) (e : Ev) : CSt := { st with past := e :: st.past }
def CSt.say (st : CSt) (r : Res) : CSt := { st with log := st.log ++ [r] }
def CSt.oddIf (st : CSt) (b : Bool) (o : Odd) : CSt := if b then { st with odd := st.odd ++ [o] } else st
/-- An ordinary identifier is declared. -/
def CSt.declare (st : CSt) (x : Key) (i : Ident) : CSt := (st.oddIf (inSoft st.past 0) .softDecl).add (.var x i)
/-- A tag is declared. -/
def CSt.newTag (st : CSt) (x : Key) : CSt :=
  { (st.oddIf (inSoft st.past 0) .softDecl).add (.tag x st.next) with next := st.next + 1 }

mutual
/-- Does a tag occur? -/
def Item.mentions (x : Key) : Item → Bool
  | .tagRef y | .tagFwd y | .enumRef y => y == x
  | .tagDef y b | .enumDef y b => y == some x || b.mentions x
  | .fdef _ _ _ b | .proto b | .block b | .forS b | .sel b => b.mentions x
  | _ => false
def Items.mentions (x : Key) : Items → Bool
  | .nil => false
  | .cons i r => i.mentions x || r.mentions x
end

mutual
/-- Is a tag used as that of an enumeration? -/
def Item.mentionsEnum (x : Key) : Item → Bool
  | .enumRef y => y == x
  | .tagDef _ b | .enumDef _ b => b.mentionsEnum x
  | .fdef _ _ _ b | .proto b | .block b | .forS b | .sel b => b.mentionsEnum x
  | _ => false
def Items.mentionsEnum (x : Key) : Items → Bool
  | .nil => false
  | .cons i r => i.mentionsEnum x || r.mentionsEnum x
end

mutual
/-- Is there a block? -/
def Item.hasBlock : Item → Bool
  | .fdef .. | .block _ | .forS _ => true
  | .tagDef _ b | .enumDef _ b | .proto b | .sel b => b.hasBlock
  | _ => false
def Items.hasBlock : Items → Bool
  | .nil => false
  | .cons i r => i.hasBlock || r.hasBlock
end

mutual
/-- What C says. -/
def cItem : Item → CSt → CSt
  /- The innermost declaration that precedes the use. -/
  | .use x, st =>
    let v := visible (onVar x) st.past 0
    (st.say (.var (v.map Prod.fst))).oddIf (v.any Prod.snd) .paramUse
  | .decl x id, st => st.declare x (.obj id)
  /- Variables made up by the compiler do not exist. -/
  | .temp _, st => st
  | .fdecl x, st =>
    (st.oddIf (atFile (onDecl x) st.past == some .fn && (visible (onVar x) st.past 0).map Prod.fst != some .fn) .funShadow).declare
      x .fn
  /- The parameters belong to the block of the body. -/
  | .fdef x ps variadic body, st =>
    let st := (st.oddIf (atFile (onDecl x) st.past == some .fn && (visible (onVar x) st.past 0).map Prod.fst != some .fn)
      .funShadow).declare x .fn
    let st := st.add (.opened false)
    let st := { st with past := (ps.map fun (p : Key × Nat) => Ev.var p.1 (.obj p.2)).reverse ++ st.past }
    let st := { st with past := ((implNames variadic).map fun (p : Key × Ident) => Ev.var p.1 p.2).reverse ++ st.past }
    (cItems body st).add .closed
  | .param x id, st => st.add (.param x id)
  | .proto body, st => (cItems body (st.add (.opened true))).add .closed
  /- The visible declaration of the tag; if there is none, this is one. -/
  | .tagRef x, st =>
    match visible (onTag x) st.past 0 with
    | some n => st.say (.tag (some n))
    | none => (st.newTag x).say (.tag (some st.next))
  /- The declaration of the tag in this block; if there is none, this is one. -/
  | .tagFwd x, st =>
    match here (onTag x) st.past 0 with
    | some n => st.say (.tag (some n))
    | none => ((st.oddIf (visible (onTag x) st.past 0).isSome .fwdShadow).newTag x).say (.tag (some st.next))
  /- The tag is declared by this block or, from before its members on, by this definition. -/
  | .tagDef none body, st => cItems body (st.oddIf body.hasBlock .blockInType)
  | .tagDef (some x) body, st =>
    let st := st.oddIf body.hasBlock .blockInType
    match here (onTag x) st.past 0 with
    | some n => (cItems body (st.oddIf (body.mentionsEnum x) .selfTag)).say (.tag (some n))
    | none =>
      (cItems body ((st.oddIf ((visible (onTag x) st.past 0).isSome && body.mentions x || body.mentionsEnum x) .selfTag).newTag x)).say (.tag (some st.next))
  | .enumRef x, st => st.say (.tag (visible (onTag x) st.past 0))
  | .enumDef none body, st => cItems body (st.oddIf body.hasBlock .blockInType)
  | .enumDef (some x) body, st =>
    let st := st.oddIf body.hasBlock .blockInType
    let st := st.oddIf (here (onTag x) st.past 0).isSome .enumRedef
    (cItems body ((st.oddIf (body.mentions x) .selfTag).newTag x)).say (.tag (some st.next))
  | .block body, st => (cItems body (st.add (.opened false))).add .closed
  | .forS body, st => (cItems body (st.add (.opened false))).add .closed
  | .sel body, st => (cItems body (st.add (.opened true))).add .closed
def cItems : Items → CSt → CSt
  | .nil, st => st
  | .cons i r, st => cItems r (cItem i st)
end

/-- A translation unit. -/
def cUnit (is : Items) : CSt := cItems is ⟨[], 0, [], []⟩

/-- A C identifier is not empty and does not start with a dot. -/
def IsName : Key → Prop
  | [] => False
  | c :: _ => c ≠ 46

mutual
/-- Names are names, and the parameters of a function are different. -/
def Item.Wf : Item → Prop
  | .use x | .decl x _ | .fdecl x | .param x _ => IsName x
  | .temp x => ¬ IsName x
  | .fdef x ps _ b => IsName x ∧ (∀ p ∈ ps, IsName p.1) ∧ (ps.map Prod.fst).Nodup ∧ b.Wf
  | .proto b | .block b | .forS b | .sel b | .tagDef _ b | .enumDef _ b => b.Wf
  | _ => True
def Items.Wf : Items → Prop
  | .nil => True
  | .cons i r => i.Wf ∧ r.Wf
end

/-- Rename the types of a list of resolved uses. -/
def Res.ren (φ : Nat → Option Nat) : Res → Res
  | .var i => .var i
  | .tag t => .tag (t.bind φ)

end Toycc.Scope
