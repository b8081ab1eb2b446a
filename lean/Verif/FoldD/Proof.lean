import Verif.FoldD.Model
import Verif.Fold.Props
import Verif.Fp.Spec
import Verif.Fp.Ieee
/-!
Which constant expressions C84 is about, and the induction over them.
-/
namespace Toycc.FoldD
open Toycc.Rv Toycc.Fp
open Toycc.Fold (FErr castF castF_correct in64 in63)
open Toycc.Cg (BinOp CEnv boolC)

/-- The expression with its constants rounded to their types. -/
def CE.expr {L : Type} (round : (p : Prec) → L → Bits p) : CE L → Expr
  | .int e => .int e
  | .num p f => .lit p (round p f)
  | .neg t e => .neg t (e.expr round)
  | .bin op t l r => .bin op t (l.expr round) (r.expr round)
  | .cond t c a b => .cond t (c.expr round) (a.expr round) (b.expr round)
  | .comma l r => .comma (l.expr round) (r.expr round)
  | .not e => .not (e.expr round)
  | .logand l r => .logand (l.expr round) (r.expr round)
  | .logor l r => .logor (l.expr round) (r.expr round)
  | .cast t e => .cast t (e.expr round)
  | .obj _ e => e

def isInt : Ty → Bool
  | .int _ => true
  | .flt _ => false

/-- Integer types all of whose values are values of `int64_t`. -/
def short63 (t : Cg.Ty) : Bool := t.scalar && t != .long true && t != .ptr

/-- Conversions that are folded correctly. -/
def castPlain : Ty → Ty → Bool
  | .int t, .int _ => t.scalar && t != .bool
  | .flt .d, .flt .d => true
  | .flt .d, .int t => short63 t
  | .int t, .flt .d => short63 t && t != .bool
  | _, _ => false

def binPlain (op : BinOp) : Ty → Ty → Ty → Bool
  | .flt .d, .flt .d, .flt .d => (arithOf op).isSome
  | .int t, .int l, .int r => Fold.binPlain op t l r
  | _, _, _ => false

def negPlain : Ty → Bool
  | .flt .d => true
  | .flt .s => false
  | .int t => Fold.signedTy t

/-- Constant expressions in which (1) all floating nodes have type double, (2) comparisons, `!`, `&&` and `||` have integer operands, as has `?:` with an integer result,
(3) nothing is converted from floating point to `_Bool` or between floating point and `unsigned long`, and (4) integer operators are those of C42. -/
def plain {L : Type} : CE L → Bool
  | .int e => Fold.plain e
  | .num p _ => p == .d
  | .neg t e => negPlain t && e.ty == t && plain e
  | .bin op t l r => binPlain op t l.ty r.ty && plain l && plain r
  | .cond t c a b => (isInt c.ty || t == .flt .d) && plain c && plain a && plain b && a.ty == t && b.ty == t
  | .comma l r => plain l && plain r
  | .not e => isInt e.ty && plain e
  | .logand l r => isInt l.ty && isInt r.ty && plain l && plain r
  | .logor l r => isInt l.ty && isInt r.ty && plain l && plain r
  | .cast t e => castPlain t e.ty && plain e
  | .obj _ _ => false

/-- `v` is a value of type `t`, and `w` is what the compiler has for it. -/
def Is (t : Ty) (v : Val) (w : V) : Prop :=
  match t, v, w with
  | .int t, .int v, .int w => t.scalar = true ∧ Cg.inRange t v = true ∧ w = BitVec.ofInt 64 v
  | .flt .d, .flt .d b, .dbl b' => b' = b
  | _, _, _ => False

theorem is_int {t : Cg.Ty} {v : Val} {w : V} (h : Is (.int t) v w) : ∃ x, v = .int x ∧ w = .int (BitVec.ofInt 64 x) ∧ t.scalar = true ∧ Cg.inRange t x = true := by
  cases v <;> cases w <;> first | exact absurd h id | skip
  obtain ⟨h1, h2, h3⟩ := h
  exact ⟨_, rfl, by rw [h3], h1, h2⟩

theorem is_dbl {v : Val} {w : V} (h : Is (.flt .d) v w) : ∃ b, v = .flt .d b ∧ w = .dbl b := by
  cases v with
  | int => cases w <;> exact absurd h id
  | flt p b =>
    cases p
    · cases w <;> exact absurd h id
    · cases w with
      | int => exact absurd h id
      | dbl b' => cases (show b' = b from h); exact ⟨_, rfl, rfl⟩

theorem is_ty {t : Ty} {v : Val} {w : V} (h : Is t v w) : isInt t = true ∨ t = .flt .d := by
  cases t with
  | int t => exact .inl rfl
  | flt p =>
    cases p
    · cases v <;> cases w <;> exact absurd h id
    · exact .inr rfl

/-- eval_double on a node of integer type. -/
theorem asD_int (F : Fpu) {t : Cg.Ty} {x : Int} (ht : t.scalar = true) (hx : Cg.inRange t x = true) : asD F (.int t) (.int (BitVec.ofInt 64 x)) = F.ofInt .d x := by
  have hr := Cg.range_lt ht hx
  show F.ofInt .d _ = _
  congr 1
  cases hu : t.unsigned
  · rw [if_neg (by decide), BitVec.toInt_ofInt]
    have : -(2 ^ 63) ≤ x ∧ x < 2 ^ 63 := by
      cases t <;> simp [Cg.Ty.unsigned] at hu <;> first | (subst hu) | skip
      all_goals first | (simp [Cg.Ty.scalar] at ht; done) | skip
      all_goals (have h := of_decide_eq_true hx; first | omega | (simp only [Cg.Ty.bits, Cg.Ty.size] at h; omega))
    rw [Int.bmod_def]; omega
  · rw [if_pos rfl, BitVec.toNat_ofInt]
    have : 0 ≤ x := by
      cases t <;> simp [Cg.Ty.unsigned] at hu <;> first | (subst hu) | skip
      all_goals first | (simp [Cg.Ty.scalar] at ht; done) | skip
      all_goals (have h := of_decide_eq_true hx; simp only [Cg.Ty.bits, Cg.Ty.size] at h; omega)
    omega

/-- The integers of such a type are integers of the compiler. -/
theorem short63_range {t : Cg.Ty} (h : short63 t = true) {x : Int} (hx : Cg.inRange t x = true) : t.scalar = true ∧ -(2 ^ 63) ≤ x ∧ x < 2 ^ 63 := by
  unfold short63 at h
  simp only [Bool.and_eq_true, bne_iff_ne, ne_eq] at h
  obtain ⟨⟨ht, h1⟩, h2⟩ := h
  refine ⟨ht, ?_⟩
  cases t <;> first | (simp [Cg.Ty.scalar] at ht; done) | skip
  case bool => have h := of_decide_eq_true hx; omega
  case ptr => exact absurd rfl h2
  case enum => have h := of_decide_eq_true hx; simp only [Cg.Ty.bits, Cg.Ty.size] at h; omega
  case long u => cases u <;> first | exact absurd rfl h1 | (have h := of_decide_eq_true hx; simp only [Cg.Ty.bits, Cg.Ty.size] at h; omega)
  all_goals (rename_i u; cases u <;> (have h := of_decide_eq_true hx; simp only [Cg.Ty.bits, Cg.Ty.size] at h; omega))

theorem i64_ok {z : Int} (h1 : -(2 ^ 63) ≤ z) (h2 : z < 2 ^ 63) : Fold.i64 z = .ok (BitVec.ofInt 64 z) := by
  unfold Fold.i64; rw [if_pos ⟨h1, h2⟩]

theorem toInt_of {z : Int} (h1 : -(2 ^ 63) ≤ z) (h2 : z < 2 ^ 63) : (BitVec.ofInt 64 z).toInt = z := by
  rw [BitVec.toInt_ofInt, Int.bmod_def]; omega

theorem zero_iff {t : Cg.Ty} (ht : t.scalar = true) {x : Int} (hx : Cg.inRange t x = true) : BitVec.ofInt 64 x = 0 ↔ x = 0 :=
  Fold.zero_iff (Fold.in64_of ht hx)

/-- An `Fpu` in which no integer other than 0 is converted to a zero. -/
def Sane (F : Fpu) : Prop := ∀ v, in64 v = true → F.rel .d .eq (F.ofInt .d v) 0 = decide (v = 0)

theorem isZero_ev {F : Fpu} (hF : Sane F) {t : Ty} {v : Val} {w : V} (h : Is t v w) : F.rel .d .eq (asD F t w) 0 = v.isZero F := by
  rcases is_ty h with ht | rfl
  · cases t with
    | flt => cases ht
    | int t =>
      obtain ⟨x, rfl, rfl, h1, h2⟩ := is_int h
      rw [asD_int F h1 h2, hF x (Fold.in64_of h1 h2)]
      rfl
  · obtain ⟨b, rfl, rfl⟩ := is_dbl h
    rfl

theorem asD_is {F : Fpu} {v : Val} {w : V} (h : Is (.flt .d) v w) : .dbl (asD F (.flt .d) w) = w := by
  obtain ⟨b, rfl, rfl⟩ := is_dbl h
  rfl

theorem asI_is {F : Fpu} {t : Cg.Ty} {v : Val} {w : V} (h : Is (.int t) v w) : (asI F w).map V.int = .ok w := by
  obtain ⟨b, rfl, rfl, _⟩ := is_int h
  rfl

variable {H : Host}

theorem main (hF : Sane H.toFpu) (E : CEnv) : ∀ (e : CE H.L) (d : Nat) (m m' : Mem) (v : Val), plain e = true →
    eval H.toFpu E false d (e.expr H.round) m = some (v, m') → ∃ w, ev H e = .ok w ∧ Is e.ty v w
  | .int e, d, m, m', v, hp, h => by
    simp only [CE.expr, eval, Option.map_eq_some_iff, Prod.mk.injEq, Prod.exists] at h
    obtain ⟨x, m1, h, rfl, rfl⟩ := h
    obtain ⟨h1, h2, -⟩ := Fold.C42_fold_partial E e d m m1 x hp h false
    exact ⟨.int (BitVec.ofInt 64 x), by simp [ev, h1, Except.map], Fold.plain_scalar e hp, h2, rfl⟩
  | .num p f, d, m, m', v, hp, h => by
    simp only [plain, beq_iff_eq] at hp
    subst hp
    simp only [CE.expr, eval, Bool.false_eq_true, if_false, Option.some.injEq, Prod.mk.injEq] at h
    obtain ⟨rfl, rfl⟩ := h
    exact ⟨_, rfl, rfl⟩
  | .neg t e, d, m, m', v, hp, h => by
    simp only [plain, Bool.and_eq_true, beq_iff_eq] at hp
    obtain ⟨⟨hn, hty⟩, hp⟩ := hp
    simp only [CE.expr, eval, Bool.false_eq_true, if_false, Option.bind_eq_bind, Option.bind_eq_some_iff, Option.some.injEq, Prod.mk.injEq, Prod.exists] at h
    obtain ⟨x, m1, h, r, hr, rfl, rfl⟩ := h
    obtain ⟨w, hw, hi⟩ := main hF E e d m m1 x hp h
    rw [hty] at hi
    cases t with
    | flt p =>
      cases p
      · cases hn
      obtain ⟨b, rfl, rfl⟩ := is_dbl hi
      simp only [negV, Option.some.injEq] at hr
      subst hr
      exact ⟨.dbl (negBits .d b), by simp only [ev, hw]; rfl, rfl⟩
    | int t =>
      obtain ⟨x, rfl, rfl, h1, h2⟩ := is_int hi
      simp only [negV, Option.map_eq_some_iff] at hr
      obtain ⟨y, hy, rfl⟩ := hr
      have hpr : Cg.promote t = t := by rcases Fold.signedTy_cases hn with rfl | rfl <;> rfl
      have hun : t.unsigned = false := by rcases Fold.signedTy_cases hn with rfl | rfl <;> rfl
      rw [hpr] at hy
      have hyr := Cg.arithC_inRange h1 hy
      have hs : short63 t = true := by rcases Fold.signedTy_cases hn with rfl | rfl <;> rfl
      obtain ⟨-, a1, a2⟩ := short63_range hs h2
      obtain ⟨-, b1, b2⟩ := short63_range hs hyr
      have hyx : y = -x := by
        unfold Cg.arithC at hy
        rw [hun, if_neg (by decide)] at hy
        split at hy <;> cases hy
        rfl
      subst hyx
      refine ⟨.int (BitVec.ofInt 64 (-x)), ?_, h1, hyr, rfl⟩
      simp only [ev, hw]
      show ((Fold.i64 (-(BitVec.ofInt 64 x).toInt)).map V.int : Except FErr V) = _
      rw [toInt_of a1 a2, i64_ok b1 b2]
      rfl
  | .bin op t l r, d, m, m', v, hp, h => by
    simp only [plain, Bool.and_eq_true] at hp
    obtain ⟨⟨hb, hl⟩, hr⟩ := hp
    simp only [CE.expr, eval, Bool.false_eq_true, if_false, Option.bind_eq_bind, Option.bind_eq_some_iff, Option.some.injEq, Prod.mk.injEq, Prod.exists] at h
    obtain ⟨y, m1, hy, x, m2, hx, z, hz, rfl, rfl⟩ := h
    obtain ⟨wy, ey, iy⟩ := main hF E r d m m1 y hr hy
    obtain ⟨wx, ex, ix⟩ := main hF E l (d + 1) m1 m2 x hl hx
    simp only [ev, ex, ey]
    revert hb
    cases t with
    | flt p =>
      intro hb
      have hb' : p = .d ∧ l.ty = .flt .d ∧ r.ty = .flt .d ∧ (arithOf op).isSome = true := by
        unfold binPlain at hb
        split at hb
        · rename_i q1 q2 q3; cases q1; exact ⟨rfl, q2, q3, hb⟩
        · rename_i q1 q2 q3; cases q1
        · cases hb
      obtain ⟨rfl, hlt, hrt, ho⟩ := hb'
      rw [hlt] at ix
      rw [hrt] at iy
      obtain ⟨b1, rfl, rfl⟩ := is_dbl ix
      obtain ⟨b2, rfl, rfl⟩ := is_dbl iy
      simp only [binV] at hz
      cases op <;> first | (cases ho; done) | skip
      all_goals (simp only [arithOf, Option.some.injEq] at hz; subst hz; exact ⟨_, rfl, rfl⟩)
    | int t =>
      intro hb
      have hb' : ∃ t1 t2, l.ty = .int t1 ∧ r.ty = .int t2 ∧ Fold.binPlain op t t1 t2 = true := by
        unfold binPlain at hb
        split at hb
        · rename_i q1 q2 q3; cases q1
        · rename_i q1 q2 q3; cases q1; exact ⟨_, _, q2, q3, hb⟩
        · cases hb
      obtain ⟨t1, t2, hlt, hrt, ho⟩ := hb'
      rw [hlt] at ix
      rw [hrt] at iy
      obtain ⟨a, rfl, rfl, a1, a2⟩ := is_int ix
      obtain ⟨b, rfl, rfl, c1, c2⟩ := is_int iy
      simp only [binV, Option.map_eq_some_iff] at hz
      obtain ⟨c, hc, rfl⟩ := hz
      obtain ⟨k1, k2⟩ := Fold.binK_of_plain ho a2 c2 hc
      have k3 := Fold.binF_correct k1
      refine ⟨.int (BitVec.ofInt 64 c), ?_, ?_, k2, rfl⟩
      · show ((Fold.binF op t (cmpTy l.ty) (BitVec.ofInt 64 a) (BitVec.ofInt 64 b)).map V.int : Except FErr V) = _
        rw [hlt]
        show ((Fold.binF op t t1 (BitVec.ofInt 64 a) (BitVec.ofInt 64 b)).map V.int : Except FErr V) = _
        rw [k3]
        rfl
      · have : t = .int false ∨ t = .long false ∨ t = .int true ∨ t = .long true := by
          cases op <;> simp only [Fold.binPlain, Fold.signedTy, Fold.arithT, Bool.and_eq_true, Bool.or_eq_true, beq_iff_eq] at ho <;> grind
        rcases this with h | h | h | h <;> (subst h; rfl)
  | .cond t c a b, d, m, m', v, hp, h => by
    simp only [plain, Bool.and_eq_true, beq_iff_eq, Bool.or_eq_true] at hp
    obtain ⟨⟨⟨⟨⟨hk, hc⟩, ha⟩, hb⟩, hat⟩, hbt⟩ := hp
    simp only [CE.expr, eval, Bool.false_and, Bool.false_eq_true, if_false, Option.bind_eq_bind, Option.bind_eq_some_iff, Prod.exists] at h
    obtain ⟨x, m1, hx, h⟩ := h
    obtain ⟨wx, ex, ix⟩ := main hF E c d m m1 x hc hx
    simp only [ev, ex]
    cases t with
    | flt p =>
      show ∃ w, (if H.rel .d .eq (asD H.toFpu c.ty wx) 0 = true then (ev H b).map fun v => V.dbl (asD H.toFpu b.ty v)
        else (ev H a).map fun v => V.dbl (asD H.toFpu a.ty v) : Except FErr V) = .ok w ∧ _
      rw [isZero_ev hF ix]
      split at h
      · rename_i hz
        rw [if_pos hz]
        obtain ⟨w, ew, iw⟩ := main hF E b d m1 m' v hb h
        rw [hbt] at iw
        have hpd : p = .d := by rcases is_ty iw with q | q <;> cases q; rfl
        subst hpd
        exact ⟨w, by rw [ew, hbt]; exact congrArg Except.ok (asD_is iw), iw⟩
      · rename_i hz
        rw [if_neg hz]
        obtain ⟨w, ew, iw⟩ := main hF E a d m1 m' v ha h
        rw [hat] at iw
        have hpd : p = .d := by rcases is_ty iw with q | q <;> cases q; rfl
        subst hpd
        exact ⟨w, by rw [ew, hat]; exact congrArg Except.ok (asD_is iw), iw⟩
    | int t =>
      rcases hk with hk | hk
      rotate_left
      · cases hk
      obtain ⟨tc, htc⟩ : ∃ tc, c.ty = .int tc := by
        cases hh : c.ty with
        | int tc => exact ⟨tc, rfl⟩
        | flt => rw [hh] at hk; cases hk
      rw [htc] at ix
      obtain ⟨z, rfl, rfl, z1, z2⟩ := is_int ix
      show ∃ w, (if BitVec.ofInt 64 z = 0 then (ev H b).bind fun v => (asI H.toFpu v).map V.int
        else (ev H a).bind fun v => (asI H.toFpu v).map V.int : Except FErr V) = .ok w ∧ _
      have hzz := zero_iff z1 z2
      by_cases hz : z = 0
      · rw [if_pos (hzz.mpr hz)]
        rw [if_pos (by subst hz; rfl)] at h
        obtain ⟨w, ew, iw⟩ := main hF E b d m1 m' v hb h
        rw [hbt] at iw
        exact ⟨w, by rw [ew]; exact asI_is iw, iw⟩
      · rw [if_neg (fun q => hz (hzz.mp q))]
        rw [if_neg (by simp [Val.isZero, hz])] at h
        obtain ⟨w, ew, iw⟩ := main hF E a d m1 m' v ha h
        rw [hat] at iw
        exact ⟨w, by rw [ew]; exact asI_is iw, iw⟩
  | .comma l r, d, m, m', v, hp, h => by
    simp only [plain, Bool.and_eq_true] at hp
    simp only [CE.expr, eval, Option.bind_eq_bind, Option.bind_eq_some_iff, Prod.exists] at h
    obtain ⟨x, m1, hx, h⟩ := h
    obtain ⟨w, ew, iw⟩ := main hF E r d m1 m' v hp.2 h
    exact ⟨w, by rw [ev]; exact ew, iw⟩
  | .not e, d, m, m', v, hp, h => by
    simp only [plain, Bool.and_eq_true] at hp
    obtain ⟨hk, hp⟩ := hp
    simp only [CE.expr, eval, Bool.false_eq_true, if_false, Option.bind_eq_bind, Option.bind_eq_some_iff, Option.some.injEq, Prod.mk.injEq, Prod.exists] at h
    obtain ⟨x, m1, hx, rfl, rfl⟩ := h
    obtain ⟨w, ew, iw⟩ := main hF E e d m m1 x hp hx
    obtain ⟨t, ht⟩ : ∃ tc, e.ty = .int tc := by
      cases hh : e.ty with
      | int tc => exact ⟨tc, rfl⟩
      | flt => rw [hh] at hk; cases hk
    rw [ht] at iw
    obtain ⟨z, rfl, rfl, z1, z2⟩ := is_int iw
    refine ⟨.int (BitVec.ofInt 64 (boolC (decide (z = 0)))), ?_, rfl, Cg.bool_inRange _, rfl⟩
    simp only [ev, ew]
    show (Except.ok (V.int (Fold.ofB (BitVec.ofInt 64 z == 0))) : Except FErr V) = _
    rw [Fold.ofB_bool, show (BitVec.ofInt 64 z == 0) = decide (z = 0) by
      rw [Bool.eq_iff_iff, beq_iff_eq, decide_eq_true_iff]; exact zero_iff z1 z2]
  | .logand l r, d, m, m', v, hp, h => by
    simp only [plain, Bool.and_eq_true] at hp
    obtain ⟨⟨⟨hkl, hkr⟩, hl⟩, hr⟩ := hp
    simp only [CE.expr, eval, Bool.false_eq_true, if_false, Option.bind_eq_bind, Option.bind_eq_some_iff, Prod.exists] at h
    obtain ⟨x, m1, hx, h⟩ := h
    obtain ⟨w, ew, iw⟩ := main hF E l d m m1 x hl hx
    obtain ⟨t, ht⟩ : ∃ tc, l.ty = .int tc := by
      cases hh : l.ty with
      | int tc => exact ⟨tc, rfl⟩
      | flt => rw [hh] at hkl; cases hkl
    rw [ht] at iw
    obtain ⟨z, rfl, rfl, z1, z2⟩ := is_int iw
    have hzz := zero_iff z1 z2
    simp only [ev, ew]
    show ∃ w, (if BitVec.ofInt 64 z = 0 then Except.ok (V.int 0) else (ev H r).bind fun v => (asI H.toFpu v).map fun b => V.int (Fold.ofB (b != 0)) : Except FErr V) = .ok w ∧ _
    by_cases hz : z = 0
    · rw [if_pos (hzz.mpr hz)]
      rw [if_pos (by subst hz; rfl)] at h
      simp only [Option.some.injEq, Prod.mk.injEq] at h
      obtain ⟨rfl, rfl⟩ := h
      exact ⟨_, rfl, rfl, by decide, rfl⟩
    · rw [if_neg (fun q => hz (hzz.mp q))]
      rw [if_neg (by simp [Val.isZero, hz])] at h
      simp only [Option.bind_eq_some_iff, Option.some.injEq, Prod.mk.injEq, Prod.exists] at h
      obtain ⟨y, m2, hy, rfl, rfl⟩ := h
      obtain ⟨w', ew', iw'⟩ := main hF E r d m1 m2 y hr hy
      obtain ⟨t', ht'⟩ : ∃ tc, r.ty = .int tc := by
        cases hh : r.ty with
        | int tc => exact ⟨tc, rfl⟩
        | flt => rw [hh] at hkr; cases hkr
      rw [ht'] at iw'
      obtain ⟨z', rfl, rfl, y1, y2⟩ := is_int iw'
      refine ⟨.int (BitVec.ofInt 64 (boolC (!decide (z' = 0)))), ?_, rfl, Cg.bool_inRange _, rfl⟩
      rw [ew']
      show (Except.ok (V.int (Fold.ofB (BitVec.ofInt 64 z' != 0))) : Except FErr V) = _
      rw [Fold.ofB_bool, show (BitVec.ofInt 64 z' != 0) = !decide (z' = 0) by
        rw [bne, show (BitVec.ofInt 64 z' == 0) = decide (z' = 0) by
          rw [Bool.eq_iff_iff, beq_iff_eq, decide_eq_true_iff]; exact zero_iff y1 y2]]
  | .logor l r, d, m, m', v, hp, h => by
    simp only [plain, Bool.and_eq_true] at hp
    obtain ⟨⟨⟨hkl, hkr⟩, hl⟩, hr⟩ := hp
    simp only [CE.expr, eval, Bool.false_eq_true, if_false, Option.bind_eq_bind, Option.bind_eq_some_iff, Prod.exists] at h
    obtain ⟨x, m1, hx, h⟩ := h
    obtain ⟨w, ew, iw⟩ := main hF E l d m m1 x hl hx
    obtain ⟨t, ht⟩ : ∃ tc, l.ty = .int tc := by
      cases hh : l.ty with
      | int tc => exact ⟨tc, rfl⟩
      | flt => rw [hh] at hkl; cases hkl
    rw [ht] at iw
    obtain ⟨z, rfl, rfl, z1, z2⟩ := is_int iw
    have hzz := zero_iff z1 z2
    simp only [ev, ew]
    show ∃ w, (if BitVec.ofInt 64 z ≠ 0 then Except.ok (V.int 1) else (ev H r).bind fun v => (asI H.toFpu v).map fun b => V.int (Fold.ofB (b != 0)) : Except FErr V) = .ok w ∧ _
    by_cases hz : z = 0
    · rw [if_neg (fun q => q (hzz.mpr hz))]
      rw [if_pos (by subst hz; rfl)] at h
      simp only [Option.bind_eq_some_iff, Option.some.injEq, Prod.mk.injEq, Prod.exists] at h
      obtain ⟨y, m2, hy, rfl, rfl⟩ := h
      obtain ⟨w', ew', iw'⟩ := main hF E r d m1 m2 y hr hy
      obtain ⟨t', ht'⟩ : ∃ tc, r.ty = .int tc := by
        cases hh : r.ty with
        | int tc => exact ⟨tc, rfl⟩
        | flt => rw [hh] at hkr; cases hkr
      rw [ht'] at iw'
      obtain ⟨z', rfl, rfl, y1, y2⟩ := is_int iw'
      refine ⟨.int (BitVec.ofInt 64 (boolC (!decide (z' = 0)))), ?_, rfl, Cg.bool_inRange _, rfl⟩
      rw [ew']
      show (Except.ok (V.int (Fold.ofB (BitVec.ofInt 64 z' != 0))) : Except FErr V) = _
      rw [Fold.ofB_bool, show (BitVec.ofInt 64 z' != 0) = !decide (z' = 0) by
        rw [bne, show (BitVec.ofInt 64 z' == 0) = decide (z' = 0) by
          rw [Bool.eq_iff_iff, beq_iff_eq, decide_eq_true_iff]; exact zero_iff y1 y2]]
    · rw [if_pos (fun q => hz (hzz.mp q))]
      rw [if_neg (by simp [Val.isZero, hz])] at h
      simp only [Option.some.injEq, Prod.mk.injEq] at h
      obtain ⟨rfl, rfl⟩ := h
      exact ⟨_, rfl, rfl, by decide, rfl⟩
  | .cast t e, d, m, m', v, hp, h => by
    simp only [plain, Bool.and_eq_true] at hp
    obtain ⟨hk, hp⟩ := hp
    simp only [CE.expr, eval, Bool.false_eq_true, if_false, Option.bind_eq_bind, Option.bind_eq_some_iff, Option.some.injEq, Prod.mk.injEq, Prod.exists] at h
    obtain ⟨x, m1, hx, r, hr, rfl, rfl⟩ := h
    obtain ⟨w, ew, iw⟩ := main hF E e d m m1 x hp hx
    simp only [ev, ew]
    generalize hte : e.ty = te at iw hk ⊢
    unfold castPlain at hk
    split at hk
    · -- between integers
      rename_i t t'
      simp only [Bool.and_eq_true, bne_iff_ne, ne_eq] at hk
      obtain ⟨z, rfl, rfl, z1, z2⟩ := is_int iw
      have hr' : r = .int (Cg.convC t z) := by
        cases t <;> simp [conv] at hr <;> first | exact hr.symm | (simp [Cg.Ty.scalar] at hk; done)
      subst hr'
      refine ⟨.int (BitVec.ofInt 64 (Cg.convC t z)), ?_, hk.1, Cg.convC_inRange hk.1 _, rfl⟩
      show (Except.ok (V.int (castF t (BitVec.ofInt 64 z))) : Except FErr V) = _
      rw [castF_correct hk.1 (.inl hk.2)]
    · obtain ⟨b, rfl, rfl⟩ := is_dbl iw
      simp only [conv, Option.some.injEq] at hr
      subst hr
      exact ⟨_, rfl, rfl⟩
    · rename_i t
      obtain ⟨z, rfl, rfl, z1, z2⟩ := is_int iw
      obtain ⟨-, b1, b2⟩ := short63_range hk z2
      simp only [conv, Option.some.injEq] at hr
      subst hr
      refine ⟨.dbl (H.ofInt .d z), ?_, rfl⟩
      show (Except.ok (V.dbl (H.ofInt .d (BitVec.ofInt 64 z).toInt)) : Except FErr V) = _
      rw [toInt_of b1 b2]
    · rename_i t
      simp only [Bool.and_eq_true, bne_iff_ne, ne_eq] at hk
      obtain ⟨b, rfl, rfl⟩ := is_dbl iw
      obtain ⟨z, hz, hs, hzr, rfl⟩ : ∃ z, H.trunc .d b = some z ∧ t.scalar = true ∧ Cg.inRange t z = true ∧ r = .int z := by
        have hr' : ((H.trunc .d b).bind fun z => if t.scalar && Cg.inRange t z then some (Val.int z) else none) = some r := by
          cases t <;> first | exact hr | exact absurd rfl hk.2 | (simp [short63, Cg.Ty.scalar] at hk; done)
        simp only [Option.bind_eq_some_iff] at hr'
        obtain ⟨z, hz, hr'⟩ := hr'
        split at hr'
        · rename_i hc
          simp only [Bool.and_eq_true] at hc
          cases hr'
          exact ⟨z, hz, hc.1, hc.2, rfl⟩
        · cases hr'
      obtain ⟨-, b1, b2⟩ := short63_range hk.1 hzr
      refine ⟨.int (BitVec.ofInt 64 z), ?_, hs, hzr, rfl⟩
      show ((toI64 H.toFpu b).map fun w => V.int (castF t w) : Except FErr V) = _
      unfold toI64
      rw [hz]
      show ((Fold.i64 z).map fun w => V.int (castF t w) : Except FErr V) = _
      rw [i64_ok b1 b2]
      show (Except.ok (V.int (castF t (BitVec.ofInt 64 z))) : Except FErr V) = _
      rw [castF_correct hs (.inl hk.2), Cg.convC_id hs hzr]
    · cases hk
  | .obj _ _, d, m, m', v, hp, h => by cases hp

end Toycc.FoldD
