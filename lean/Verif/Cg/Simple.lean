import Verif.Cg.StrictLemmas
import Verif.Cg.UnCorrect
/-!
A syntactic class of expressions on which strict evaluation never fails where C evaluation succeeds: the part of the language
outside the known defects of the code generator. Left out: arithmetic on `unsigned int`, `~` and shifts on operands narrower
than int, `<=` on 64-bit unsigned operands and pointers, the casts that emit no code although they change the value, the value
of a bit-field assignment, `_Bool` bit-field reads, calls returning `unsigned int`.
-/
namespace Toycc.Cg
open Toycc.Rv

/-- The expression leaves a usable value in a0 (a void expression or an assignment to a bit-field does not). -/
def usable : Expr → Bool
  | .null => false
  | .memzero _ _ => false
  | .assign _ l _ => l.bitfield.isNone
  | .comma _ r => usable r
  | .cond t _ a b => t != .void && usable a && usable b
  | .cast t _ => t != .void
  | .call t _ _ => t != .void
  | _ => true

/-- Arithmetic is done correctly in these types. -/
def arithTy (t : Ty) : Bool := t == .int false || t == .long false || t == .long true

/-- Casts that are right for every value. -/
def castOk (a t : Ty) : Bool :=
  match t with
  | .void => true
  | .bool => a.scalar || a.hasBase
  | .enum => a == .bool || a == .char true || a == .char false || a == .short true || a == .short false || a == .int false || a == .enum
  | .char false => a.scalar && a != .char true
  | .short false => a.scalar && a != .short true
  | .int false => a.scalar && a != .int true
  | .ptr | .long _ => a.scalar || a.hasBase || a == .func
  | t => t.scalar && a.scalar

def binOk (op : BinOp) (ty l r : Ty) : Bool :=
  match op with
  | .add | .sub | .mul => if l.isLong then arithTy ty && ty.size == 8 || ty.hasBase else ty == .int false
  | .div | .mod => arithTy ty && l == ty && r == ty
  | .and | .or | .xor => (arithTy ty || ty == .int true) && l == ty && r == ty
  | .eq | .ne | .lt => ty == .int false && l == r && l.scalar && promote l == l
  | .le => ty == .int false && l == r && (l == .int false || l == .int true || l == .long false || l == .enum)
  | .shl | .shr => arithTy ty && l == ty

/-- A field that can be read. -/
def fieldOk (f : Field) : Bool :=
  match f.bits with
  | none => f.ty != .void
  | some (o, w) => decide (0 < w ∧ o + w ≤ f.ty.bits) && f.ty != .bool && f.ty.scalar

def assignOk (bf : Option (Field × Nat × Nat)) (t : Ty) : Bool :=
  match bf with
  | some (g, o, w) => decide (0 < w ∧ w < 64 ∧ o + w ≤ g.ty.bits) && g.ty == t && t.scalar
  | none => match t with
    | .struc n => decide (n < 2 ^ 31)
    | t => t.scalar

mutual
/-- The class; `ad`: used as an lvalue. -/
def simple (ad : Bool) : Expr → Bool
  | .null => !ad
  | .num t v => !ad && t.scalar && inRange t v
  | .neg t e => !ad && arithTy t && simple false e && usable e
  | .var _ _ => true
  | .member f e => (ad || fieldOk f) && simple true e && usable e
  | .deref _ e => simple false e && usable e && (e.ty.hasBase || e.ty == .func)
  | .addr e => !ad && simple true e && usable e
  | .assign t l r => (!ad || t.isStruct) && simple true l && usable l && simple false r && usable r && r.ty == t && assignOk l.bitfield t
  | .comma l r => simple false l && simple ad r
  | .cast t e => !ad && simple false e && usable e && castOk e.ty t || (!ad && simple false e && t == .void)
  | .memzero _ n => !ad && decide (n < 2 ^ 31)
  | .cond t c a b => (!ad || t.isStruct) && simple false c && usable c && simple false a && simple false b &&
      ((a.ty == t && b.ty == t) || t == .void)
  | .not e => !ad && simple false e && usable e
  | .bitnot e => !ad && simple false e && usable e && arithTy e.ty
  | .logand l r => !ad && simple false l && usable l && simple false r && usable r
  | .logor l r => !ad && simple false l && usable l && simple false r && usable r
  | .bin op t l r => !ad && simple false l && usable l && simple false r && usable r && binOk op t l.ty r.ty
  | .vlaPtr _ => ad
  | .call t f args => !ad && !isAlloca f && (t == .void || (t.scalar && t != .int true)) && simple false f && usable f && simples args
def simples : Exprs → Bool
  | .nil => true
  | .cons e r => simple false e && usable e && simples r
end

mutual
/-- Number of stack slots evaluation needs. -/
def need : Expr → Nat
  | .null => 0
  | .num _ _ => 0
  | .neg _ e => need e
  | .var _ _ => 0
  | .member _ e => need e
  | .deref _ e => need e
  | .addr e => need e
  | .assign _ l r => max (need l) (need r + 1)
  | .comma l r => max (need l) (need r)
  | .cast _ e => need e
  | .memzero _ _ => 0
  | .cond _ c a b => max (need c) (max (need a) (need b))
  | .not e => need e
  | .bitnot e => need e
  | .logand l r => max (need l) (need r)
  | .logor l r => max (need l) (need r)
  | .bin _ _ l r => max (need r) (need l + 1)
  | .vlaPtr _ => 0
  | .call _ f args => 1 + max (needs args) (args.length + need f)
def needs : Exprs → Nat
  | .nil => 0
  | .cons e r => max (needs r) (r.length + need e)
end

/-- The values of a type (aggregates and functions: their address). -/
def inV (t : Ty) (v : Int) : Prop :=
  match t with
  | .arr _ | .struc _ | .func => 0 ≤ v ∧ v < 2 ^ 64
  | .void => True
  | t => inRange t v = true

theorem inV_scalar {t : Ty} {v : Int} (ht : t.scalar = true) : inV t v ↔ inRange t v = true := by
  cases t <;> simp_all [Ty.scalar, inV]

/-- Called functions return values of their type. -/
def CEnv.CallsTyped (E : CEnv) : Prop :=
  ∀ a k ty vs m v m', E.call a k ty vs m = some (v, m') → ty.scalar = true → inRange ty v = true

theorem range_lt {t : Ty} (ht : t.scalar = true) {v : Int} (h : inRange t v = true) : -(2 ^ 63) ≤ v ∧ v < 2 ^ 64 := by
  cases t with
  | bool => have := of_decide_eq_true h; omega
  | char u => cases u <;> (have := of_decide_eq_true h; simp only [Ty.bits, Ty.size] at this; omega)
  | short u => cases u <;> (have := of_decide_eq_true h; simp only [Ty.bits, Ty.size] at this; omega)
  | int u => cases u <;> (have := of_decide_eq_true h; simp only [Ty.bits, Ty.size] at this; omega)
  | long u => cases u <;> (have := of_decide_eq_true h; simp only [Ty.bits, Ty.size] at this; omega)
  | enum => have := of_decide_eq_true h; simp only [Ty.bits, Ty.size] at this; omega
  | ptr => have := of_decide_eq_true h; simp only [Ty.bits, Ty.size] at this; omega
  | _ => simp [Ty.scalar] at ht

/-- C11 6.3.1.3: conversion gives a value of the type. -/
theorem convC_inRange {t : Ty} (ht : t.scalar = true) (v : Int) : inRange t (convC t v) = true := by
  have key : ∀ (n : Nat), 0 < n → -(2 ^ (n - 1)) ≤ v.bmod (2 ^ n) ∧ v.bmod (2 ^ n) < 2 ^ (n - 1) := by
    intro n hn
    have e : (2 : Nat) ^ n = 2 * 2 ^ (n - 1) := by rw [← Nat.pow_succ']; congr 1; omega
    have e' : ((2 ^ n : Nat) : Int) = 2 * 2 ^ (n - 1) := by rw [e]; simp
    have hp : 0 < 2 ^ n := Nat.two_pow_pos n
    have h1 := Int.le_bmod (x := v) hp
    have h2 := Int.bmod_lt (x := v) hp
    rw [e'] at h1 h2
    omega
  have ku : ∀ (n : Nat), 0 ≤ v % 2 ^ n ∧ v % 2 ^ n < 2 ^ n := fun n =>
    ⟨Int.emod_nonneg _ (by have := Int.pow_pos (n := 2) (m := n) (by decide); omega),
      Int.emod_lt_of_pos _ (Int.pow_pos (by decide))⟩
  cases t with
  | bool => simp only [convC]; split <;> decide
  | char u => cases u; exact decide_eq_true (key 8 (by decide)); exact decide_eq_true (ku 8)
  | short u => cases u; exact decide_eq_true (key 16 (by decide)); exact decide_eq_true (ku 16)
  | int u => cases u; exact decide_eq_true (key 32 (by decide)); exact decide_eq_true (ku 32)
  | long u => cases u; exact decide_eq_true (key 64 (by decide)); exact decide_eq_true (ku 64)
  | enum => exact decide_eq_true (key 32 (by decide))
  | ptr => exact decide_eq_true (ku 64)
  | _ => simp [Ty.scalar] at ht

/-- A value of the type is its own conversion. -/
theorem convC_id {t : Ty} (ht : t.scalar = true) {v : Int} (h : inRange t v = true) : convC t v = v := by
  cases t with
  | bool => have := of_decide_eq_true h; simp only [convC]; split <;> omega
  | char u => cases u
              · have h : -(2 ^ 7) ≤ v ∧ v < 2 ^ 7 := of_decide_eq_true h
                exact Int.bmod_eq_of_le (by show _ ≤ _; simp [Ty.bits, Ty.size]; omega) (by simp [Ty.bits, Ty.size]; omega)
              · have h : 0 ≤ v ∧ v < 2 ^ 8 := of_decide_eq_true h
                exact Int.emod_eq_of_lt h.1 h.2
  | short u => cases u
               · have h : -(2 ^ 15) ≤ v ∧ v < 2 ^ 15 := of_decide_eq_true h
                 exact Int.bmod_eq_of_le (by show _ ≤ _; simp [Ty.bits, Ty.size]; omega) (by simp [Ty.bits, Ty.size]; omega)
               · have h : 0 ≤ v ∧ v < 2 ^ 16 := of_decide_eq_true h
                 exact Int.emod_eq_of_lt h.1 h.2
  | int u => cases u
             · have h : -(2 ^ 31) ≤ v ∧ v < 2 ^ 31 := of_decide_eq_true h
               exact Int.bmod_eq_of_le (by show _ ≤ _; simp [Ty.bits, Ty.size]; omega) (by simp [Ty.bits, Ty.size]; omega)
             · have h : 0 ≤ v ∧ v < 2 ^ 32 := of_decide_eq_true h
               exact Int.emod_eq_of_lt h.1 h.2
  | long u => cases u
              · have h : -(2 ^ 63) ≤ v ∧ v < 2 ^ 63 := of_decide_eq_true h
                exact Int.bmod_eq_of_le (by show _ ≤ _; simp [Ty.bits, Ty.size]; omega) (by simp [Ty.bits, Ty.size]; omega)
              · have h : 0 ≤ v ∧ v < 2 ^ 64 := of_decide_eq_true h
                exact Int.emod_eq_of_lt h.1 h.2
  | enum => have h : -(2 ^ 31) ≤ v ∧ v < 2 ^ 31 := of_decide_eq_true h
            exact Int.bmod_eq_of_le (by show _ ≤ _; simp [Ty.bits, Ty.size]; omega) (by simp [Ty.bits, Ty.size]; omega)
  | ptr => have h : 0 ≤ v ∧ v < 2 ^ 64 := of_decide_eq_true h
           exact Int.emod_eq_of_lt h.1 h.2
  | _ => simp [Ty.scalar] at ht

end Toycc.Cg
