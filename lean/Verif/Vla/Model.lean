import Verif.Low.Model
import Verif.Cg.Alloca
/-!
Variable-length arrays: the dimensions (declarator.c:767-790), the variables that hold the sizes (compute_vla_size, declarator.c:848-872), `sizeof`
(parser.c:165-199), pointer arithmetic on such arrays (parser.c:681-687, 710-720), and the code of the declaration (declarator.c:874-945).
-/
namespace Toycc.Vla
open Toycc.Cg Toycc.Rv Toycc.Low

/-- A declared type as it is written: an object type of constant size, a pointer, or an array that is of variable length (its length is not a constant
expression, or its elements are arrays of variable length). -/
inductive STy
  | obj (t : CTy)
  | ptr (b : STy)
  | arr (b : STy) (len : SExpr)

/-- struct Type with the lengths parsed: vla_of, type.c:275-281. -/
inductive VTy
  | obj (t : CTy)
  | ptr (b : VTy)
  | vla (b : VTy) (len : Node)

/-- The lengths of the dimensions, parsed from left to right: array_dimension, declarator.c:767-790. (With parentheses in the declarator the order is another, and
some lengths are parsed twice; only the numbers of the hidden variables depend on it.) -/
def parseTy (tmp : Nat → Int) : STy → Nat → Option (VTy × Nat)
  | .obj t, k => some (.obj t, k)
  | .ptr b, k => do
    let (b, k) ← parseTy tmp b k
    some (.ptr b, k)
  | .arr b len, k => do
    let (n, k) ← tr tmp len k
    let (b, k) ← parseTy tmp b k
    some (.vla b n, k)

/-- struct Type after compute_vla_size: `size` is the offset of the variable `vla_size`. -/
inductive ATy
  | obj (t : CTy)
  | ptr (b : ATy)
  | vla (b : ATy) (size : Int)

/-- new_var_node of a `vla_size`, which is an unsigned long (declarator.c:864). -/
def sizeVar (off : Int) : Node := ⟨.var (.long true) (.loc off), .long true⟩

/-- base_sz, declarator.c:859-863. -/
def baseSize : ATy → Node
  | .vla _ o => sizeVar o
  | .obj t => numN t.size
  | .ptr _ => numN 8

/-- compute_vla_size on a type without arrays of variable length: declarator.c:850-857. -/
def nulls : CTy → Expr
  | .ptr b => .comma .null (nulls b)
  | .arr b _ => .comma .null (nulls b)
  | _ => .null

/-- compute_vla_size, declarator.c:848-872. -/
def vlaSize (tmp : Nat → Int) : VTy → Nat → Option (Expr × ATy × Nat)
  | .obj t, k => some (nulls t, .obj t, k)
  | .ptr b, k => do
    let (e, b, k) ← vlaSize tmp b k
    some (.comma .null e, .ptr b, k)
  | .vla b len, k => do
    let (e, b, k) ← vlaSize tmp b k
    let a ← assignN (sizeVar (tmp k)) (binN .mul len (baseSize b))
    some (.comma (.comma .null e) a.e, .vla b (tmp k), k + 1)

/-- `sizeof`, parser.c:165-199, of something declared before. -/
def sizeofN : ATy → Node
  | .vla _ o => sizeVar o
  | .obj t => ⟨.num (.long true) t.size, .long true⟩
  | .ptr _ => ⟨.num (.long true) 8, .long true⟩

/-- new_add and new_sub on a pointer `l` to (or array of) elements of type `b` and an integer `r`: parser.c:681-691, 710-726. The type of `l` is some pointer type. -/
def addN (sub : Bool) (l : Node) (b : ATy) (r : Node) : Node :=
  match b with
  | .vla _ o => binN (if sub then .sub else .add) l (binN .mul r (sizeVar o))
  | .obj t => binN (if sub then .sub else .add) l (binN .mul r ⟨.num (.long false) t.size, .long false⟩)
  | .ptr _ => binN (if sub then .sub else .add) l (binN .mul r ⟨.num (.long false) 8, .long false⟩)

/-- new_sub on two pointers to elements of type `b`, parser.c:703-707; the `size` of an array of variable length is 8 (type.c:277). -/
def diffN (l : Node) (b : ATy) (r : Node) : Node :=
  binN .div ⟨.bin .sub (.long false) l.e r.e, .long false⟩ (match b with | .obj t => numN t.size | _ => numN 8)

/-- The declaration of an array of variable length, declarator.c:929-944, as code: `x = alloca(size)`, where the address is kept at `off`, the size at `size`, and alloca_bottom
at `bot` from fp: gen_expr on ND_ASSIGN (codegen.c:1076-1098), gen_addr on ND_VLA_PTR (codegen.c:359-362), the call of alloca (codegen.c:1211-1219), store of a pointer. -/
def declCode (off size bot : Int) (l1 l2 : Label) : List Instr :=
  [.li .a0 off, .op .add .a0 .a0 .fp] ++ pushI .a0 ++ addOffset .fp size ++ [.load .d false .a0 0 .a0] ++ allocaCode bot l1 l2 ++ popI .a1 ++ [.store .d .a0 0 .a1]

end Toycc.Vla
