import Verif.Init.Spec
/-!
Initialisers of local variables: the assignments an initialiser is turned into (init_desg_expr, create_lvar_init and lvar_initializer, parser/initializer.c:532-620), for integer and pointer leaves. The value
of the trees is that of Verif.Cg.Sem (C38 is about the code generated for them).
-/
namespace Toycc.Init
open Toycc.Cg Toycc.Low Toycc.Rv

/-- The type of a sub-object as used by the rest of the parser; floating-point types are not modelled there. -/
def Ty.cty : Ty → Option CTy
  | .scalar t => some t
  | .flt | .dbl | .ldbl => none
  | .arr b n => b.cty.map (.arr · n)
  | .struc n _ => some (.struc n)
  | .union n _ => some (.struc n)

/-- struct InitDesg (initializer.h): the variable, an element or a member. -/
inductive Desg
  | var (t : CTy) (off : Int)
  | elem (d : Desg) (idx : Nat)
  | mem (d : Desg) (off : Nat) (bits : Option (Nat × Nat)) (t : CTy)

/-- init_desg_expr, initializer.c:532-546, and add_type on ND_DEREF, type.c:446-455. `none` is a diagnostic. -/
def desgExpr : Desg → Option Node
  | .var t off => some ⟨.var t.low (.loc off), t⟩
  | .mem d off bits t => do
    let n ← desgExpr d
    some ⟨.member ⟨t.low, off, bits⟩ n.e, t⟩
  | .elem d i => do
    let l ← desgExpr d
    let a ← newAdd l (numN i)
    match a.node.ty.base with
    | some b => if b = .void then none else some ⟨.deref b.low a.node.e, b⟩
    | none => none

variable {α : Type}

mutual
/-- create_lvar_init, initializer.c:548-592; `src` is the expression in a leaf. `none`: a diagnostic, a null pointer is used, or a floating-point object is to be assigned to (not modelled). -/
def create (src : α → Node) : Ty → Ini α → Desg → Option Expr
  | .arr b n, .mk _ _ cs, d => createArr src b n cs d 0 .null
  | .struc _ ms, .mk none _ cs, d => createMems src ms cs d .null
  | .union _ ms, .mk _ m cs, d => createNth src (m.getD 0) ms cs d
  | _, .mk none _ _, _ => some .null
  | t, .mk (some e) _ _, d => do
    let _ ← t.cty
    let l ← desgExpr d
    let n ← assignN l (src e)
    some n.e
/-- The loop over the elements, initializer.c:551-563: `n` elements from index `i`. -/
def createArr (src : α → Node) : Ty → Nat → Inis α → Desg → Nat → Expr → Option Expr
  | _, 0, _, _, _, x => some x
  | _, _ + 1, .nil, _, _, _ => none
  | b, n + 1, .cons c r, d, i, x => do
    let y ← create src b c (.elem d i)
    createArr src b n r d (i + 1) (.comma x y)
/-- The loop over the members, initializer.c:565-577. The type of a floating-point member does not matter unless it is assigned to. -/
def createMems (src : α → Node) : Mems → Inis α → Desg → Expr → Option Expr
  | .nil, _, _, x => some x
  | .cons _ _ _ _, .nil, _, _ => none
  | .cons off b t r, .cons c cs, d, x => do
    let y ← create src t c (.mem d off b (t.cty.getD .void))
    createMems src r cs d (.comma x y)
/-- The member of a union, initializer.c:579-584. -/
def createNth (src : α → Node) : Nat → Mems → Inis α → Desg → Option Expr
  | 0, .cons off b t _, .cons c _, d => create src t c (.mem d off b (t.cty.getD .void))
  | k + 1, .cons _ _ _ r, .cons _ cs, d => createNth src k r cs d
  | _, _, _, _ => none
end

/-- lvar_initializer, initializer.c:604-620, for a variable at `off` from fp. -/
def lvarInit (src : α → Node) (ty : Ty) (ini : Ini α) (off : Int) : Option Expr := do
  let t ← ty.cty
  let x ← create src ty ini (.var t off)
  some (.comma (.memzero off ty.size) x)

/-! ### Specification -/

/-- Leaves: an expression and its value. -/
abbrev Leaf := Node × Int

/-- The value of a leaf, converted to the type of the object. -/
def valueMeaning : Meaning Leaf where
  scalar t e := match t with
    | .scalar t => BitVec.ofInt 64 (convC t.low e.2)
    | _ => BitVec.ofInt 64 e.2
  field t w e := BitVec.ofInt 64 (wrapBits t.low w e.2)

mutual
/-- The expressions of an initialiser, in order. -/
def leaves : Ty → Ini α → List α
  | .arr b n, .mk _ _ cs => leavesArr b n cs
  | .struc _ ms, .mk _ _ cs => leavesMems ms cs
  | .union _ _, .mk _ none _ => []
  | .union _ ms, .mk _ (some k) cs => leavesNth k ms cs
  | _, .mk none _ _ => []
  | _, .mk (some e) _ _ => [e]
def leavesArr : Ty → Nat → Inis α → List α
  | _, 0, _ => []
  | _, _ + 1, .nil => []
  | b, n + 1, .cons c r => leaves b c ++ leavesArr b n r
def leavesMems : Mems → Inis α → List α
  | .nil, _ => []
  | .cons _ _ _ _, .nil => []
  | .cons _ _ t r, .cons c cs => leaves t c ++ leavesMems r cs
def leavesNth : Nat → Mems → Inis α → List α
  | 0, .cons _ _ t _, .cons c _ => leaves t c
  | k + 1, .cons _ _ _ r, .cons _ cs => leavesNth k r cs
  | _, _, _ => []
end

/-- Two memories agree outside the object of `n` bytes at `a`. -/
def AgreeOut (a : W) (n : Nat) (m m' : Mem) : Prop := ∀ b, n ≤ (b - a).toNat → m b = m' b

/-- Two memories agree on the object. -/
def AgreeIn (a : W) (n : Nat) (m m' : Mem) : Prop := ∀ b, (b - a).toNat < n → m b = m' b

/-- The initialising expressions, evaluated one after the other from memory `M` to `M'`, have the given values; they neither use nor change the object being initialised (of `n` bytes at `a`). They may have any other
side effects. -/
inductive Evaluate (E : CEnv) (a : W) (n : Nat) : List Leaf → Mem → Mem → Prop
  | nil (M : Mem) : Evaluate E a n [] M M
  | cons {e : Node} {v : Int} {r : List Leaf} {M M1 M' : Mem}
      (h : ∀ d m, AgreeOut a n m M → ∃ m', evalC E false d e.e m = some (v, m') ∧ AgreeOut a n m' M1 ∧ AgreeIn a n m' m) (hr : Evaluate E a n r M1 M') :
      Evaluate E a n ((e, v) :: r) M M'

mutual
/-- Initialisers covered: integer and pointer leaves only; structures and unions are initialised by lists, not by an expression of their type; no member of a union is initialised unless one is chosen. -/
def Listed : Ty → Ini α → Prop
  | .arr b _, .mk _ _ cs => ListedArr b cs
  | .struc _ ms, .mk e _ cs => e = none ∧ ListedMems ms cs
  | .union _ ms, .mk _ m cs => ListedMems ms cs ∧ (m = none → cs.blank = true) ∧ ms.get? 0 ≠ none
  | .scalar _, _ => True
  | _, .mk e _ _ => e = none
def ListedArr : Ty → Inis α → Prop
  | _, .nil => True
  | b, .cons c r => Listed b c ∧ ListedArr b r
def ListedMems : Mems → Inis α → Prop
  | .cons _ _ t r, .cons c cs => Listed t c ∧ ListedMems r cs
  | _, _ => True
end

/-- A bit of the object at `a`. -/
def objBit (m : Mem) (a : W) (n i : Nat) : Bool := decide (i < 8 * n) && (m (a + BitVec.ofNat 64 (i / 8))).getLsbD (i % 8)

end Toycc.Init
