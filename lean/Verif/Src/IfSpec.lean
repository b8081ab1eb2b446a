import Verif.Src.IfModel
import Verif.Src.MacSpec
import Verif.Parse.Spec
/-!
Specification: the controlling expressions of #if and #elif, C11 6.10.1p4. All arithmetic is in intmax_t (64 bits). Constants of unsigned types are left out.
-/
namespace Toycc.Src
open Toycc.Parse (Tok P Tree BOp Derives)
open Toycc.Lex (asc)

/-- Values of intmax_t; overflow is undefined. -/
def intmax (v : Int) : Option Int := if -(2 ^ 63) ≤ v ∧ v < 2 ^ 63 then some v else none

def truth (b : Bool) : Int := if b then 1 else 0

/-- 6.5.5-6.5.12 on intmax_t; negative numbers are two's complement, and shifted right arithmetically (implementation-defined). -/
def arith : BOp → Int → Int → Option Int
  | .mul, a, b => intmax (a * b)
  | .div, a, b => if b = 0 then none else intmax (a.tdiv b)
  | .mod, a, b => if b = 0 then none else (intmax (a.tdiv b)).map fun _ => a.tmod b
  | .add, a, b => intmax (a + b)
  | .sub, a, b => intmax (a - b)
  | .shl, a, b => if 0 ≤ b ∧ b < 64 ∧ 0 ≤ a then intmax (a * 2 ^ b.toNat) else none
  | .shr, a, b => if 0 ≤ b ∧ b < 64 then some (a / 2 ^ b.toNat) else none
  | .lt, a, b => some (truth (a < b))
  | .le, a, b => some (truth (a ≤ b))
  | .gt, a, b => some (truth (b < a))
  | .ge, a, b => some (truth (b ≤ a))
  | .eq, a, b => some (truth (a = b))
  | .ne, a, b => some (truth (a ≠ b))
  | .band, a, b => some (BitVec.ofInt 64 a &&& BitVec.ofInt 64 b).toInt
  | .bxor, a, b => some (BitVec.ofInt 64 a ^^^ BitVec.ofInt 64 b).toInt
  | .bor, a, b => some (BitVec.ofInt 64 a ||| BitVec.ofInt 64 b).toInt
  | _, _, _ => none

/-- The value of an expression. -/
def ifVal : Tree Empty → Option Int
  | .num v => intmax v
  | .tnum .long v => intmax v
  | .un .neg e => do intmax (-(← ifVal e))
  | .un .not e => do some (truth ((← ifVal e) = 0))
  | .un .bitnot e => do some (-(← ifVal e) - 1)
  | .bin .land l r => do if (← ifVal l) = 0 then some 0 else some (truth ((← ifVal r) ≠ 0))
  | .bin .lor l r => do if (← ifVal l) ≠ 0 then some 1 else some (truth ((← ifVal r) ≠ 0))
  | .bin op l r => do arith op (← ifVal l) (← ifVal r)
  | .cond c a b => do if (← ifVal c) ≠ 0 then ifVal a else ifVal b
  | _ => none

/-- Expressions of signed constants and the operators of conditional-expressions. -/
def Signed : Tree Empty → Prop
  | .num _ => True
  | .tnum .long _ => True
  | .un .neg e | .un .not e | .un .bitnot e => Signed e
  | .bin _ l r => Signed l ∧ Signed r
  | .cond c a b => Signed c ∧ Signed a ∧ Signed b
  | _ => False

/-- Has the expression outside of #if the type long (and not int)? -/
def isLong : Tree Empty → Bool
  | .tnum .long _ => true
  | .un .neg e | .un .bitnot e => isLong e
  | .bin .shl l _ | .bin .shr l _ => isLong l
  | .bin .mul l r | .bin .div l r | .bin .mod l r | .bin .add l r | .bin .sub l r | .bin .band l r | .bin .bxor l r | .bin .bor l r => isLong l || isLong r
  | .cond _ a b => isLong a || isLong b
  | _ => false

/-- The value of the expression, if it has one, is one of the type it has outside of #if. -/
def Small (e : Tree Empty) : Prop := isLong e = true ∨ ∀ v, ifVal e = some v → -(2 ^ 31) ≤ v ∧ v < 2 ^ 31

/-- All parts that are evaluated are. -/
def Fits : Tree Empty → Prop
  | .un op e => Small (.un op e) ∧ Fits e
  | .bin .land l r => Fits l ∧ (ifVal l ≠ some 0 → Fits r)
  | .bin .lor l r => Fits l ∧ (ifVal l = some 0 → Fits r)
  | .bin op l r => Small (.bin op l r) ∧ Fits l ∧ Fits r
  | .cond c a b => Fits c ∧ (ifVal c ≠ some 0 → Fits a) ∧ (ifVal c = some 0 → Fits b)
  | e => Small e

/-- `defined X` and `defined(X)` are 1 if `X` is the name of a macro, and 0 otherwise (6.10.1p1); `defined` stands nowhere else. -/
inductive Reads (isMacro : String → Bool) : List Tok → List Tok → Prop where
  | nil : Reads isMacro [] []
  | keep {t ts us} : t ≠ .ident "defined" → Reads isMacro ts us → Reads isMacro (t :: ts) (t :: us)
  | defd {t x ts us} : t = .ident x ∨ t = .kw x → Reads isMacro ts us → Reads isMacro (.ident "defined" :: t :: ts) (.num (truth (isMacro x)) :: us)
  | defp {t x ts us} : t = .ident x ∨ t = .kw x → Reads isMacro ts us → Reads isMacro (.ident "defined" :: .p .lpar :: t :: .p .rpar :: ts) (.num (truth (isMacro x)) :: us)

/-- Identifiers and keywords left after the expansion of macros are 0 (6.10.1p4). -/
def zeroed : List Tok → List Tok
  | [] => []
  | .ident _ :: r => .num 0 :: zeroed r
  | .kw _ :: r => .num 0 :: zeroed r
  | t :: r => t :: zeroed r

/-- The tokens `s` are a conditional-expression with the tree `e` (6.6, 6.10.1p1); there are no type names. -/
def IfText (e : Tree Empty) (s : List Tok) : Prop := Derives ifO (fun t => nomatch t) false 2 e s

end Toycc.Src
