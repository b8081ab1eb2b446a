import Verif.FoldD.Sane
import Verif.Cg.Props
/-!
C84: floating constants in static initialisers have the value the expression has at run time. That value is `Fp.eval` (Verif/Fp/Spec.lean), the one the compiled code computes (C80).
-/
namespace Toycc.FoldD
open Toycc.Rv Toycc.Fp
open Toycc.Fold (FErr in64)
open Toycc.Cg (BinOp CEnv)

/-- The object representation of a value of type `t`, as a number. -/
def repr (t : Ty) : Val → Nat
  | .int v => (v % 2 ^ (8 * (match t with | .int t => t.size | .flt _ => 0))).toNat
  | .flt _ b => b.toNat

/-- Initialisers of an object of type `t` by an expression of type `te` and value `v` for which the bytes are right. -/
def initOk (F : Fpu) : Ty → Ty → Val → Prop
  | .flt .d, _, _ => True
  | .flt .s, .flt _, _ => True
  -- the integer is converted to double first
  | .flt .s, .int _, .int v => F.narrow (F.ofInt .d v) = F.ofInt .s v
  | .int t, .int _, _ => t.scalar = true ∧ t ≠ .bool
  | .int t, .flt _, _ => short63 t = true ∧ t ≠ .bool
  | _, _, _ => False

variable {H : Host}

/-- **C84**, the value: a constant expression of type double in the class `plain` that has the value `b` at run time, in whatever environment and memory, is folded to `b`. Missing: nodes of type
float, comparisons and logical operators on floating operands, conversions from unsigned long (see below for what goes wrong). -/
theorem C84_double_partial (hF : Sane H.toFpu) (E : CEnv) (e : CE H.L) (hp : plain e = true) (ht : e.ty = .flt .d) (d : Nat) (m m' : Mem) (v : Val)
    (h : eval H.toFpu E false d (e.expr H.round) m = some (v, m')) : ∃ b, v = .flt .d b ∧ ev H e = .ok (.dbl b) := by
  obtain ⟨w, h1, h2⟩ := main hF E e d m m' v hp h
  rw [ht] at h2
  obtain ⟨b, rfl, rfl⟩ := is_dbl h2
  exact ⟨b, rfl, h1⟩

/-- **C84** for integer expressions with floating operands, such as `(int)(2.5 * 4) + 1`. -/
theorem C84_int_partial (hF : Sane H.toFpu) (E : CEnv) (e : CE H.L) (hp : plain e = true) {t : Cg.Ty} (ht : e.ty = .int t) (d : Nat) (m m' : Mem) (v : Val)
    (h : eval H.toFpu E false d (e.expr H.round) m = some (v, m')) : ∃ x, v = .int x ∧ ev H e = .ok (.int (BitVec.ofInt 64 x)) ∧ Cg.inRange t x = true := by
  obtain ⟨w, h1, h2⟩ := main hF E e d m m' v hp h
  rw [ht] at h2
  obtain ⟨x, rfl, rfl, -, h3⟩ := is_int h2
  exact ⟨x, rfl, h1, h3⟩

/-- **C84**, the bytes: a static object of type `t` with such an initialiser holds the value of the initialiser converted to `t`. -/
theorem C84_image_partial (hF : Sane H.toFpu) (E : CEnv) (e : CE H.L) (hp : plain e = true) (t : Ty) (d : Nat) (m m' : Mem) (v u : Val)
    (h : eval H.toFpu E false d (e.expr H.round) m = some (v, m')) (hu : conv H.toFpu t v = some u) (hok : initOk H.toFpu t e.ty v) : image H t e = .ok (repr t u) := by
  obtain ⟨w, h1, h2⟩ := main hF E e d m m' v hp h
  unfold image
  rw [h1]
  rcases is_ty h2 with hte | hte
  · cases hty : e.ty with
    | flt => rw [hty] at hte; cases hte
    | int te =>
      rw [hty] at h2 hok
      obtain ⟨x, rfl, rfl, z1, z2⟩ := is_int h2
      cases t with
      | flt p =>
        cases p
        · simp only [conv, Option.some.injEq] at hu
          subst hu
          show (Except.ok (H.narrow (asD H.toFpu (.int te) (.int (BitVec.ofInt 64 x)))).toNat : Except FErr Nat) = _
          rw [asD_int H.toFpu z1 z2, show H.narrow (H.ofInt .d x) = H.ofInt .s x from hok]
          rfl
        · simp only [conv, Option.some.injEq] at hu
          subst hu
          show (Except.ok (asD H.toFpu (.int te) (.int (BitVec.ofInt 64 x))).toNat : Except FErr Nat) = _
          rw [asD_int H.toFpu z1 z2]
          rfl
      | int t =>
        obtain ⟨k1, k2⟩ := hok
        have hu' : u = .int (Cg.convC t x) := by
          cases t <;> simp [conv] at hu <;> first | exact hu.symm | (simp [Cg.Ty.scalar] at k1; done)
        subst hu'
        show (Except.ok ((BitVec.ofInt 64 x).toNat % 2 ^ (8 * t.size)) : Except FErr Nat) = Except.ok ((Cg.convC t x % 2 ^ (8 * t.size)).toNat)
        congr 1
        rw [BitVec.toNat_ofInt]
        cases t <;> first | (simp [Cg.Ty.scalar] at k1; done) | exact absurd rfl k2 | skip
        case ptr => simp only [Cg.convC, Cg.Ty.bits, Cg.Ty.size, Cg.Ty.unsigned]; simp only [if_true]; omega
        case enum => simp only [Cg.convC, Cg.Ty.bits, Cg.Ty.size, Cg.Ty.unsigned, Int.bmod_def]; simp only [Bool.false_eq_true, if_false]; omega
        all_goals
          rename_i u
          cases u <;> simp only [Cg.convC, Cg.Ty.bits, Cg.Ty.size, Cg.Ty.unsigned, Int.bmod_def, if_true, Bool.false_eq_true, if_false] <;> omega
  · rw [hte] at h2 hok
    obtain ⟨b, rfl, rfl⟩ := is_dbl h2
    cases t with
    | flt p =>
      cases p
      · simp only [conv, Option.some.injEq] at hu
        subst hu
        rfl
      · simp only [conv, Option.some.injEq] at hu
        subst hu
        rfl
    | int t =>
      obtain ⟨k1, k2⟩ := hok
      have hu' : ((H.trunc .d b).bind fun z => if t.scalar && Cg.inRange t z then some (Val.int z) else none) = some u := by
        cases t <;> first | exact hu | exact absurd rfl k2 | (simp [short63, Cg.Ty.scalar] at k1; done)
      simp only [Option.bind_eq_some_iff] at hu'
      obtain ⟨z, hz, hu'⟩ := hu'
      split at hu'
      rotate_left
      · cases hu'
      rename_i hc
      simp only [Bool.and_eq_true] at hc
      cases hu'
      obtain ⟨-, b1, b2⟩ := short63_range k1 hc.2
      show ((toI64 H.toFpu b).map fun w => w.toNat % 2 ^ (8 * t.size) : Except FErr Nat) = _
      unfold toI64
      rw [hz]
      show ((Fold.i64 z).map fun w => w.toNat % 2 ^ (8 * t.size) : Except FErr Nat) = _
      rw [i64_ok b1 b2]
      show (Except.ok ((BitVec.ofInt 64 z).toNat % 2 ^ (8 * t.size)) : Except FErr Nat) = Except.ok ((z % 2 ^ (8 * t.size)).toNat)
      congr 1
      rw [BitVec.toNat_ofInt]
      cases t <;> first | (simp [short63, Cg.Ty.scalar] at k1; done) | exact absurd rfl k2 | skip
      case enum => simp only [Cg.Ty.size]; omega
      all_goals
        simp only [Cg.Ty.size]
        omega

/-- **C84**, diagnosis: an object of floating type in an initialiser of floating type is reported. -/
theorem C84_object (p : Prec) (x : Expr) (op : BinOp) (q : Prec) (l r : CE H.L) (w : V) :
    ev H (.obj p x) = .error .notConst ∧ (ev H l = .ok w → ev H (.bin op (.flt q) l (.obj p x)) = .error .notConst) ∧ ev H (.bin op (.flt q) (.obj p x) r) = .error .notConst := by
  refine ⟨rfl, fun h => ?_, rfl⟩
  simp only [ev, h]
  rfl

/-! ### Examples: the IEEE host -/

/-- long double constants are numbers of any precision. -/
def host : Host := { ieee with L := Float.Model.UnpackedFloat, round := fun p x => packBits p (roundTo p.format x) }

theorem host_sane : Sane host.toFpu := ieee_sane

/-- 0.1, 0.5, 2.5, 0.75 as long doubles -/
def l01 : host.L := .finite .positive 0xCCCCCCCCCCCCCCCD (-67) (by decide)
def l05 : host.L := .finite .positive 1 (-1) (by decide)
def l25 : host.L := .finite .positive 5 (-1) (by decide)
def l075 : host.L := .finite .positive 3 (-2) (by decide)

def ci (v : Int) : CE host.L := .int (.num (.int false) v)

/-- `1 ? 0.1 * (double)4 : -2.5` -/
def ex1 : CE host.L := .cond (.flt .d) (ci 1) (.bin .mul (.flt .d) (.num .d l01) (.cast (.flt .d) (ci 4))) (.neg (.flt .d) (.num .d l25))
/-- `(int)(2.5 * 4.0) + 1` -/
def ex2 : CE host.L := .bin .add (.int (.int false)) (.cast (.int (.int false)) (.bin .mul (.flt .d) (.num .d l25) (.cast (.flt .d) (ci 4)))) (ci 1)

deriving instance DecidableEq for Val

/-- The value, without the memory. -/
def value (o : Option (Val × Mem)) : Option Val := o.map (·.1)

theorem value_some {o : Option (Val × Mem)} {v : Val} (h : value o = some v) : ∃ m, o = some (v, m) := by
  cases o with
  | none => cases h
  | some p => cases h; exact ⟨_, rfl⟩

/-- The hypotheses are met: 0.4 and 11. -/
example : plain ex1 = true ∧ ex1.ty = .flt .d ∧ plain ex2 = true ∧
    value (eval ieee Cg.Props.exE false 0 (ex1.expr host.round) fun _ => 0) = some (.flt .d 0x3FD999999999999A) ∧
    value (eval ieee Cg.Props.exE false 0 (ex2.expr host.round) fun _ => 0) = some (.int 11) := by
  refine ⟨rfl, rfl, rfl, ?_, ?_⟩ <;> decide +kernel

/-- `float x = 3;`, `unsigned char c = 2.5;` -/
example : initOk ieee (.flt .s) (.int (.int false)) (.int 3) ∧ initOk ieee (.int (.char true)) (.flt .d) (.flt .d 0) := by
  refine ⟨?_, rfl, by decide⟩
  show ieee.narrow (ieee.ofInt .d 3) = ieee.ofInt .s 3
  decide +kernel

/-! ### Where the code does not have the property -/

/-- The value an expression has at run time (C80) in the memory of zeros. -/
def atRun (e : CE host.L) : Option Val := value (eval ieee Cg.Props.exE false 0 (e.expr host.round) fun _ => 0)

def folded (e : CE host.L) : Option V := (ev host e).toOption

/-- `0.5 < 0.75` is 1, but folded to 0: both operands are converted to integers. -/
theorem C84_compare_wrong : let e : CE host.L := .bin .lt (.int (.int false)) (.num .d l05) (.num .d l075)
    atRun e = some (.int 1) ∧ folded e = some (.int 0) := by decide +kernel

/-- `!0.5` is 0, but folded to 1; `0.5 && 1` is 1, but folded to 0. -/
theorem C84_logical_wrong : atRun (.not (.num .d l05)) = some (.int 0) ∧ folded (.not (.num .d l05)) = some (.int 1) ∧
    atRun (.logand (.num .d l05) (ci 1)) = some (.int 1) ∧ folded (.logand (.num .d l05) (ci 1)) = some (.int 0) := by decide +kernel

/-- `(_Bool)0.5` is folded to 0. (In C it is 1; the compiled code also has 0, see C80.) -/
theorem C84_bool_wrong : atRun (.cast (.int .bool) (.num .d l05)) = some (.int 1) ∧ folded (.cast (.int .bool) (.num .d l05)) = some (.int 0) := by decide +kernel

/-- Floats are not rounded to float: `(float)0.1` and `0.1f` as initialisers of a double. -/
theorem C84_float_wrong : let e : CE host.L := .cast (.flt .d) (.cast (.flt .s) (.num .d l01))
    let e' : CE host.L := .cast (.flt .d) (.num .s l01)
    atRun e = some (.flt .d 0x3FB99999A0000000) ∧ folded e = some (.dbl 0x3FB999999999999A) ∧ atRun e' = some (.flt .d 0x3FB99999A0000000) ∧ folded e' = some (.dbl 0x3FB999999999999A) := by
  decide +kernel

/-- Arithmetic on floats is done in double: `16777216.0f + 1.0f + 1.0f` is 16777216 at run time and 16777218 in a static initialiser. -/
theorem C84_float_arith_wrong : let one : CE host.L := .num .s (.finite .positive 1 0 (by decide))
    let e : CE host.L := .bin .add (.flt .s) (.bin .add (.flt .s) (.num .s (.finite .positive 16777216 0 (by decide))) one) one
    atRun e = some (.flt .s 0x4B800000) ∧ (image host (.flt .s) e).toOption = some 0x4B800001 := by decide +kernel

/-- `(double)18446744073709551615UL` is folded to -1. -/
theorem C84_unsigned_wrong : let e : CE host.L := .cast (.flt .d) (.int (.num (.long true) 18446744073709551615))
    atRun e = some (.flt .d 0x43F0000000000000) ∧ folded e = some (.dbl 0xBFF0000000000000) := by decide +kernel

/-- `float x = 0x1000001000000001;` is rounded twice: the object holds 2^60 instead of 2^60 + 2^37. -/
theorem C84_rounding_wrong : conv ieee (.flt .s) (.int 0x1000001000000001) = some (.flt .s 0x5D800001) ∧
    (image host (.flt .s) (.int (.num (.long false) 0x1000001000000001))).toOption = some 0x5D800000 := by decide +kernel

end Toycc.FoldD
