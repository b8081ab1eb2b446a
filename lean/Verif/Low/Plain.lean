import Verif.Low.Spec
/-! The expressions to which toycc gives the meaning of C. Witnesses that the others are given another one are in Verif.Low.Props. -/
namespace Toycc.Low
open Toycc.Cg

/-- Integer types below int, and enumerated types, count as int. -/
def CTy.wide : CTy → CTy
  | .bool | .char _ | .short _ | .enum => .int false
  | t => t

/-- The type toycc gives to an expression, and that of C, as operands. -/
def relB (t c : CTy) : Bool := t = c || (t.isInt && c.isInt && decide (t.wide = c.wide))

def CTy.isArr : CTy → Bool
  | .arr _ _ => true
  | _ => false

/-- Types narrower than int. -/
def CTy.narrow : CTy → Bool
  | .bool | .char _ | .short _ => true
  | _ => false

def BinOp.cmp : BinOp → Bool
  | .eq | .ne | .lt | .le => true
  | _ => false

/-- Expressions that keep their value in an object of the type toycc gives to them: results of `~`, `<<` and `>>` on operands narrower than int do not. -/
def SExpr.fits : SExpr → Bool
  | .bitnot e => e.fits && (match typeC e with | some t => !t.narrow | none => false)
  | .bin op l _ => if op = .shl ∨ op = .shr then l.fits && (match typeC l with | some t => !t.narrow | none => false) else true
  | .comma _ r => r.fits
  | .member _ _ _ b => b.isNone
  | _ => true

mutual
/-- `rv`: the value of the expression is used (it is not just assigned to, nor its address taken). Excluded are
 * bit-fields of an unsigned or long type narrower than int, as operands;
 * the address of an array;
 * an array compared with an integer (0) on its left, or as the third operand of `?:` after an integer;
 * `++` and `--` after a `_Bool` or a bit-field;
 * `a ?: b` where `a` does not fit the type toycc gives to it. -/
def plain (rv : Bool) : SExpr → Bool
  | .num _ _ => true
  | .var _ _ => true
  | .member e t o b => plain false e && (!rv || relB t ((SExpr.member e t o b).vty t))
  | .deref e => plain true e
  | .addr e => plain false e && (match typeC e with | some t => !t.isArr | none => true)
  | .bin op l r => plain true l && plain true r &&
    (match typeC l, typeC r with | some t1, some t2 => !(BinOp.cmp op && t1.isInt && t2.isArr) | _, _ => true)
  | .neg e => plain true e
  | .not e => plain true e
  | .bitnot e => plain true e
  | .assign l r => plain false l && plain true r
  | .opAssign _ l r => plain true l && plain true r
  | .pre _ l => plain true l
  | .post _ l => plain true l && l.bits.isNone && decide (typeC l ≠ some .bool)
  | .comma l r => plain true l && plain rv r
  | .cast _ e => plain true e
  | .cond c t e => plain true c && plain true t && plain true e &&
    (match typeC t, typeC e with | some t1, some t2 => !(t1.isInt && t2.isArr) | _, _ => true)
  | .elvis a b => plain true a && plain true b && a.fits &&
    (match typeC a, typeC b with | some t1, some t2 => !(t1.isInt && t2.isArr) | _, _ => true)
  | .logand l r => plain true l && plain true r
  | .logor l r => plain true l && plain true r
  | .call f as => plain true f && plainArgs as
def plainArgs : SArgs → Bool
  | .nil => true
  | .cons _ e r => plain true e && plainArgs r
end

/-- The hidden variables and the memory of the program. -/
structure Hidden (S E : CEnv) (tmp : Nat → Int) (N : Nat) : Prop where
  fp : E.fp = S.fp
  sym : E.sym = S.sym
  /-- the hidden variables are objects of the compiled program, not of the source program -/
  valid : ∀ b, S.valid b = true → E.valid b = true
  apart : ∀ b k, S.valid b = true → 8 ≤ (b - (S.fp + BitVec.ofInt 64 (tmp k))).toNat
  slot : ∀ k i, k < N → i < 8 → E.valid (S.fp + BitVec.ofInt 64 (tmp k) + BitVec.ofNat 64 i) = true
  disjoint : ∀ k k' b, k < N → k' < N → k ≠ k' → (b - (S.fp + BitVec.ofInt 64 (tmp k))).toNat < 8 → 8 ≤ (b - (S.fp + BitVec.ofInt 64 (tmp k'))).toNat
  /-- called functions neither read nor write them, and do not depend on the depth of the stack -/
  call : ∀ a d ty vs m m1 v m', (∀ b, (∀ k, 8 ≤ (b - (S.fp + BitVec.ofInt 64 (tmp k))).toNat) → m b = m1 b) → S.call a 0 ty vs m = some (v, m') →
    ∃ m1', E.call a d ty vs m1 = some (v, m1') ∧ (∀ b, (∀ k, 8 ≤ (b - (S.fp + BitVec.ofInt 64 (tmp k))).toNat) → m' b = m1' b) ∧
      ∀ k b, (b - (S.fp + BitVec.ofInt 64 (tmp k))).toNat < 8 → m1' b = m1 b

end Toycc.Low
