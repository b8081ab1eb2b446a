import Verif.Src.IfSpec
import Verif.Fold.Proof
/-!
Proofs for the constant expressions of #if: the value of an expression of signed constants.
-/
namespace Toycc.Src
open Toycc.Rv Toycc.Cg Toycc.Fold
open Toycc.Low (CTy SExpr Node tr common castN binN condN mkBin newAdd newSub)
open Toycc.Parse (Tok P Tree)

abbrev ityOf (b : Bool) : CTy := if b then .long false else .int false

def nodeB (op : Parse.BOp) (l r : Node) : Node :=
  match op with
  | .mul => binN .mul l r
  | .div => binN .div l r
  | .mod => binN .mod l r
  | .add => binN .add l r
  | .sub => binN .sub l r
  | .shl => binN .shl l r
  | .shr => binN .shr l r
  | .lt => binN .lt l r
  | .le => binN .le l r
  | .gt => binN .lt r l
  | .ge => binN .le r l
  | .eq => binN .eq l r
  | .ne => binN .ne l r
  | .band => binN .and l r
  | .bxor => binN .xor l r
  | .bor => binN .or l r
  | .land => ⟨.logand l.e r.e, .int false⟩
  | .lor => ⟨.logor l.e r.e, .int false⟩

def ifNode : Tree Empty → Node
  | .num v => ⟨.num (.int false) v, .int false⟩
  | .tnum t v => ⟨.num (numTy t).low v, numTy t⟩
  | .un .neg e => let t := common (.int false) (ifNode e).ty; ⟨.neg t.low (castN (ifNode e) t).e, t⟩
  | .un .not e => ⟨.not (ifNode e).e, .int false⟩
  | .un .bitnot e => ⟨.bitnot (ifNode e).e, (ifNode e).ty⟩
  | .bin op l r => nodeB op (ifNode l) (ifNode r)
  | .cond c a b => condN (ifNode c) (ifNode a) (ifNode b)
  | _ => ⟨.num (.int false) 0, .int false⟩

theorem common_ity (a b : Bool) : common (ityOf a) (ityOf b) = ityOf (a || b) := by cases a <;> cases b <;> rfl

theorem ifNode_ty : ∀ e, Signed e → (ifNode e).ty = ityOf (isLong e) := by
  intro e
  induction e using ifNode.induct with
  | case1 v => intro _; rfl
  | case2 t v => intro h; cases t <;> first | rfl | exact absurd h id
  | case3 e ih => intro h; simp only [ifNode, isLong, ih h]; exact common_ity false _
  | case4 e ih => intro h; rfl
  | case5 e ih => intro h; simp only [ifNode, isLong, ih h]
  | case6 op l r ih1 ih2 =>
    intro h
    obtain ⟨h1, h2⟩ := h
    cases op <;> simp only [ifNode, nodeB, binN, isLong, ih1 h1, ih2 h2, common_ity] <;> rfl
  | case7 c a b _ ih1 ih2 =>
    intro h
    obtain ⟨_, h1, h2⟩ := h
    have e1 : ¬((ifNode a).ty = .void ∨ (ifNode b).ty = .void) := by
      rw [ih1 h1, ih2 h2]; cases isLong a <;> cases isLong b <;> simp [ityOf]
    simp only [ifNode, condN]
    rw [if_neg e1]
    simp only [isLong, ih1 h1, ih2 h2, common_ity]
  | case8 e => intro h; unfold Signed at h; split at h <;> simp_all

theorem mkBin_ity (op : BinOp) {l r : Node} {a b : Bool} (hl : l.ty = ityOf a) (hr : r.ty = ityOf b) : mkBin op l r = some ⟨op, l, r⟩ := by
  cases op <;> simp only [mkBin, newAdd, newSub, hl, hr] <;> cases a <;> cases b <;> rfl

theorem tr_ifNode (f : Nat → Int) : ∀ e, Signed e → ∃ x, ifExpr e = some x ∧ ∀ k, tr f x k = some (ifNode e, k) := by
  intro e
  induction e using ifNode.induct with
  | case1 v => intro _; exact ⟨_, rfl, fun k => rfl⟩
  | case2 t v => intro _; exact ⟨_, rfl, fun k => rfl⟩
  | case3 e ih => intro h; obtain ⟨x, h1, h2⟩ := ih h; exact ⟨.neg x, by simp [ifExpr, h1], fun k => by simp [tr, h2, ifNode]⟩
  | case4 e ih => intro h; obtain ⟨x, h1, h2⟩ := ih h; exact ⟨.not x, by simp [ifExpr, h1], fun k => by simp [tr, h2, ifNode]⟩
  | case5 e ih => intro h; obtain ⟨x, h1, h2⟩ := ih h; exact ⟨.bitnot x, by simp [ifExpr, h1], fun k => by simp [tr, h2, ifNode]⟩
  | case6 op l r ih1 ih2 =>
    intro h
    obtain ⟨g1, g2⟩ := h
    obtain ⟨x, h1, h2⟩ := ih1 g1
    obtain ⟨y, h3, h4⟩ := ih2 g2
    refine ⟨binX op x y, by simp [ifExpr, h1, h3], fun k => ?_⟩
    have m1 := fun op => mkBin_ity op (ifNode_ty l g1) (ifNode_ty r g2)
    have m2 := fun op => mkBin_ity op (ifNode_ty r g2) (ifNode_ty l g1)
    cases op <;> simp [binX, tr, h2, h4, ifNode, nodeB, m1, m2, Low.Bin.node]
  | case7 c a b ih1 ih2 ih3 =>
    intro h
    obtain ⟨g1, g2, g3⟩ := h
    obtain ⟨x, h1, h2⟩ := ih1 g1
    obtain ⟨y, h3, h4⟩ := ih2 g2
    obtain ⟨z, h5, h6⟩ := ih3 g3
    exact ⟨.cond x y z, by simp [ifExpr, h1, h3, h5], fun k => by simp [tr, h2, h4, h6, ifNode]⟩
  | case8 e => intro h; unfold Signed at h; split at h <;> simp_all

def InI (b : Bool) (v : Int) : Prop := if b then -(2 ^ 63) ≤ v ∧ v < 2 ^ 63 else -(2 ^ 31) ≤ v ∧ v < 2 ^ 31

theorem InI.wide {b v} (h : InI b v) : -(2 ^ 63) ≤ v ∧ v < 2 ^ 63 := by
  cases b
  · simp only [InI, Bool.false_eq_true, if_false] at h; omega
  · simpa only [InI, if_true] using h

theorem InI.conv {a b : Bool} {v} (h : InI a v) : castF (ityOf (a || b)).low (BitVec.ofInt 64 v) = BitVec.ofInt 64 v := by
  rw [castF_correct (by cases a <;> cases b <;> rfl) (.inl (by cases a <;> cases b <;> decide))]
  congr 1
  cases a
  · simp only [InI, Bool.false_eq_true, if_false] at h
    cases b
    · show v.bmod (2 ^ 32) = v
      rw [Int.bmod_def]; omega
    · show v.bmod (2 ^ 64) = v
      rw [Int.bmod_def]; omega
  · simp only [InI, if_true] at h
    show v.bmod (2 ^ 64) = v
    rw [Int.bmod_def]; omega

theorem InI.conv' {a b : Bool} {v} (h : InI b v) : castF (ityOf (a || b)).low (BitVec.ofInt 64 v) = BitVec.ofInt 64 v := by
  rw [Bool.or_comm]; exact h.conv

theorem binF_signed {op ty lt} (h1 : ty.unsigned = false) (h2 : lt.unsigned = false) (a b : W) : binF op ty lt a b = binF op (.long false) (.long false) a b := by
  have h3 : (Ty.long false).unsigned = false := rfl
  cases op <;> simp only [binF, h1, h2, h3, Bool.false_and, Bool.false_eq_true, if_false]

def bopOf : Parse.BOp → Option (BinOp × Bool)
  | .mul => some (.mul, false) | .div => some (.div, false) | .mod => some (.mod, false) | .add => some (.add, false) | .sub => some (.sub, false)
  | .shl => some (.shl, false) | .shr => some (.shr, false) | .lt => some (.lt, false) | .le => some (.le, false) | .gt => some (.lt, true)
  | .ge => some (.le, true) | .eq => some (.eq, false) | .ne => some (.ne, false) | .band => some (.and, false) | .bxor => some (.xor, false)
  | .bor => some (.or, false) | _ => none

theorem inLong {v : Int} : inRange (.long false) v = true ↔ -(2 ^ 63) ≤ v ∧ v < 2 ^ 63 := by
  unfold inRange
  dsimp only
  rw [if_neg (by decide)]
  exact decide_eq_true_iff

theorem intmax_some {v w : Int} (h : intmax v = some w) : w = v ∧ -(2 ^ 63) ≤ v ∧ v < 2 ^ 63 := by
  unfold intmax at h
  split at h
  · cases h; exact ⟨rfl, ‹_›⟩
  · cases h

theorem conv64 {v : Int} (h : -(2 ^ 63) ≤ v ∧ v < 2 ^ 63) : convC (.long false) v = v := by
  show v.bmod (2 ^ 64) = v
  rw [Int.bmod_def]; omega

theorem convBV (x : BitVec 64) : convC (.long false) x.toInt = x.toInt := by
  apply conv64
  have := @BitVec.toInt_lt 64 x
  have := @BitVec.le_toInt 64 x
  omega

theorem arithL {v : Int} (h : -(2 ^ 63) ≤ v ∧ v < 2 ^ 63) : arithC (.long false) v = some v := by
  unfold arithC
  rw [if_neg (by simp [Ty.unsigned]), if_pos (inLong.mpr h)]

theorem truth_boolC (b : Bool) : truth b = boolC b := rfl

theorem binK_arith {op bop : _} {sw : Bool} {a b v : Int} (hop : bopOf op = some (bop, sw)) (h : arith op a b = some v)
    (ha : -(2 ^ 63) ≤ a ∧ a < 2 ^ 63) (hb : -(2 ^ 63) ≤ b ∧ b < 2 ^ 63) :
    binK bop (.long false) (.long false) (if sw then b else a) (if sw then a else b) = some v := by
  have ra := inLong.mpr ha
  have rb := inLong.mpr hb
  have hs : (Ty.long false).scalar = true := rfl
  have hp : (promote (.long false) == .long false) = true := rfl
  have hp' : promote (.long false) = .long false := rfl
  have hu : (Ty.long false).unsigned = false := rfl
  have hbits : (Ty.long false).bits = 64 := rfl
  have ex : ∀ r s, exact (.long false) r s = true := fun _ _ => rfl
  cases op <;> simp only [bopOf, Option.some.injEq, Prod.mk.injEq, reduceCtorEq] at hop <;> obtain ⟨rfl, rfl⟩ := hop <;> simp only [arith] at h <;>
    simp only [Bool.false_eq_true, if_false, if_true, binK, binC, hp']
  case mul | add | sub =>
    obtain ⟨rfl, h'⟩ := intmax_some h
    rw [arithL h']
    simp [ra, rb, hs, ex, hp', Cg.guard]
  case div =>
    by_cases h0 : b = 0
    · rw [if_pos h0] at h; cases h
    · rw [if_neg h0] at h
      obtain ⟨rfl, h'⟩ := intmax_some h
      rw [if_neg h0, arithL h']
      simp [ra, rb, hs, hp', Cg.guard]
  case mod =>
    by_cases h0 : b = 0
    · rw [if_pos h0] at h; cases h
    · rw [if_neg h0] at h
      simp only [Option.map_eq_some_iff] at h
      obtain ⟨w, h, rfl⟩ := h
      obtain ⟨rfl, h'⟩ := intmax_some h
      rw [if_neg h0, arithL h']
      simp [ra, rb, hs, hp', Cg.guard]
  case shl =>
    split at h
    · rename_i hc
      obtain ⟨rfl, h'⟩ := intmax_some h
      rw [if_pos ⟨hc.1, by rw [hbits]; exact hc.2.1⟩, if_neg (by rw [hu]; decide), if_pos hc.2.2, arithL h']
      simp [ra, hs, hu, hp', Cg.guard]
    · cases h
  case shr =>
    split at h
    · rename_i hc
      cases h
      rw [if_pos ⟨hc.1, by rw [hbits]; exact hc.2⟩]
      simp [ra, hs, hp', Cg.guard]
    · cases h
  case band | bxor | bor =>
    cases h
    simp only [bitC, convBV]
    simp [ra, rb, hs, hp', Cg.guard]
  all_goals
    cases h
    simp [ra, rb, hs, Cg.guard, truth, boolC]

theorem binF_arith {op bop : _} {sw : Bool} {a b v : Int} {ty lt : Ty} (hop : bopOf op = some (bop, sw)) (h : arith op a b = some v)
    (ha : -(2 ^ 63) ≤ a ∧ a < 2 ^ 63) (hb : -(2 ^ 63) ≤ b ∧ b < 2 ^ 63) (h1 : ty.unsigned = false) (h2 : lt.unsigned = false) :
    binF bop ty lt (BitVec.ofInt 64 (if sw then b else a)) (BitVec.ofInt 64 (if sw then a else b)) = .ok (BitVec.ofInt 64 v) := by
  rw [binF_signed h1 h2]
  exact binF_correct (binK_arith hop h ha hb)

theorem arith_range {op : Parse.BOp} {a b v : Int} (h : arith op a b = some v) (ha : -(2 ^ 63) ≤ a ∧ a < 2 ^ 63)
    (hb : -(2 ^ 63) ≤ b ∧ b < 2 ^ 63) : -(2 ^ 63) ≤ v ∧ v < 2 ^ 63 := by
  have ht : ∀ p : Bool, -(2 ^ 63) ≤ truth p ∧ truth p < 2 ^ 63 := by decide
  have hv : ∀ x : BitVec 64, -(2 ^ 63) ≤ x.toInt ∧ x.toInt < 2 ^ 63 := fun x => by
    have := @BitVec.toInt_lt 64 x
    have := @BitVec.le_toInt 64 x
    omega
  cases op <;> simp only [arith] at h
  case mul | add | sub => obtain ⟨rfl, h'⟩ := intmax_some h; exact h'
  case div => split at h <;> first | (cases h; done) | (obtain ⟨rfl, h'⟩ := intmax_some h; exact h')
  case mod =>
    split at h
    · cases h
    · rename_i h0
      simp only [Option.map_eq_some_iff] at h
      obtain ⟨w, h, rfl⟩ := h
      have h3 := Int.natAbs_tmod a b
      have : (a.tmod b).natAbs ≤ a.natAbs := by rw [h3]; exact Nat.mod_le _ _
      have h4 : 0 ≤ a → 0 ≤ a.tmod b := Int.tmod_nonneg b
      have h5 : a ≤ 0 → a.tmod b ≤ 0 := fun h => by
        have := Int.tmod_nonneg b (a := -a) (by omega)
        rw [Int.neg_tmod] at this
        omega
      omega
  case shl => split at h <;> first | (cases h; done) | (obtain ⟨rfl, h'⟩ := intmax_some h; exact h')
  case shr =>
    split at h
    · cases h
      have hp : (0 : Int) < 2 ^ b.toNat := Int.pow_pos (by decide)
      constructor
      · apply Int.le_ediv_of_mul_le hp
        have : (1 : Int) ≤ 2 ^ b.toNat := hp
        have : 2 ^ 63 * 1 ≤ (2 ^ 63 : Int) * 2 ^ b.toNat := Int.mul_le_mul_of_nonneg_left this (by decide)
        omega
      · apply Int.ediv_lt_of_lt_mul hp
        have : (1 : Int) ≤ 2 ^ b.toNat := hp
        have : 2 ^ 63 * 1 ≤ (2 ^ 63 : Int) * 2 ^ b.toNat := Int.mul_le_mul_of_nonneg_left this (by decide)
        omega
    · cases h
  case band | bxor | bor => cases h; exact hv _
  case land | lor => cases h
  all_goals (cases h; exact ht _)

theorem ifVal_range : ∀ e v, ifVal e = some v → -(2 ^ 63) ≤ v ∧ v < 2 ^ 63 := by
  have ht : ∀ p : Bool, -(2 ^ 63) ≤ truth p ∧ truth p < 2 ^ 63 := by decide
  intro e
  induction e using ifVal.induct with
  | case1 v => intro w h; simp only [ifVal] at h; obtain ⟨rfl, h'⟩ := intmax_some h; exact h'
  | case2 v => intro w h; simp only [ifVal] at h; obtain ⟨rfl, h'⟩ := intmax_some h; exact h'
  | case3 e ih =>
    intro w h
    simp only [ifVal, Option.bind_eq_bind, Option.bind_eq_some_iff] at h
    obtain ⟨x, hx, h⟩ := h
    obtain ⟨rfl, h'⟩ := intmax_some h; exact h'
  | case4 e ih =>
    intro w h
    simp only [ifVal, Option.bind_eq_bind, Option.bind_eq_some_iff] at h
    obtain ⟨x, hx, h⟩ := h
    cases h; exact ht _
  | case5 e ih =>
    intro w h
    simp only [ifVal, Option.bind_eq_bind, Option.bind_eq_some_iff] at h
    obtain ⟨x, hx, h⟩ := h
    have := ih x hx
    cases h; omega
  | case6 l r ih1 ih2 =>
    intro w h
    simp only [ifVal, Option.bind_eq_bind, Option.bind_eq_some_iff] at h
    obtain ⟨x, hx, h⟩ := h
    split at h
    · cases h; decide
    · simp only [Option.bind_eq_some_iff] at h
      obtain ⟨y, hy, h⟩ := h
      cases h; exact ht _
  | case7 l r ih1 ih2 =>
    intro w h
    simp only [ifVal, Option.bind_eq_bind, Option.bind_eq_some_iff] at h
    obtain ⟨x, hx, h⟩ := h
    split at h
    · cases h; decide
    · simp only [Option.bind_eq_some_iff] at h
      obtain ⟨y, hy, h⟩ := h
      cases h; exact ht _
  | case8 op l r h1 h2 ih1 ih2 =>
    intro w h
    rw [ifVal] at h
    · simp only [Option.bind_eq_bind, Option.bind_eq_some_iff] at h
      obtain ⟨x, hx, y, hy, h⟩ := h
      exact arith_range h (ih1 x hx) (ih2 y hy)
    · exact h1
    · exact h2
  | case9 c a b ih1 ih2 ih3 =>
    intro w h
    simp only [ifVal, Option.bind_eq_bind, Option.bind_eq_some_iff] at h
    obtain ⟨x, hx, h⟩ := h
    split at h
    · exact ih2 w h
    · exact ih3 w h
  | case10 e => intro w h; rw [ifVal] at h <;> simp_all

theorem small_range {e : Tree Empty} {v : Int} (h : Small e) (hv : ifVal e = some v) : InI (isLong e) v := by
  cases hl : isLong e with
  | true => simp only [InI, if_true]; exact ifVal_range e v hv
  | false =>
    simp only [InI, Bool.false_eq_true, if_false]
    rcases h with h | h
    · rw [hl] at h; cases h
    · exact h v hv

theorem zero63 {v : Int} (h : -(2 ^ 63) ≤ v ∧ v < 2 ^ 63) : BitVec.ofInt 64 v = 0 ↔ v = 0 := zero_iff (by
  unfold Fold.in64; apply decide_eq_true; omega)

theorem ofB_truth (b : Bool) : ofB b = BitVec.ofInt 64 (truth b) := by cases b <;> rfl

theorem beq_zero {v : Int} (h : -(2 ^ 63) ≤ v ∧ v < 2 ^ 63) : (BitVec.ofInt 64 v == 0) = decide (v = 0) := by
  by_cases e : v = 0
  · rw [decide_eq_true e, e]; rfl
  · rw [decide_eq_false e]
    exact beq_false_of_ne fun h' => e ((zero63 h).mp h')

theorem truth_int (b : Bool) : InI false (truth b) := by unfold InI; cases b <;> decide

theorem ity_signed (b : Bool) : (ityOf b).low.unsigned = false := by cases b <;> rfl

theorem cast_ty (n : Node) (t : CTy) : (castN n t).e.ty = t.low := rfl

theorem fold_cast {lab : Bool} {n : Node} {t : CTy} {v : Int} (h : fold lab n.e = .ok (BitVec.ofInt 64 v, none)) (hc : castF t.low (BitVec.ofInt 64 v) = BitVec.ofInt 64 v) :
    fold lab (castN n t).e = .ok (BitVec.ofInt 64 v, none) := by
  show fold lab (.cast t.low n.e) = _
  rw [fold, h]
  dsimp only
  rw [hc]

theorem fold_binN {op bop : _} {sw : Bool} {l r : Node} {p q : Bool} {a b v : Int} (hop : bopOf op = some (bop, sw)) (h : arith op a b = some v)
    (hl : l.ty = ityOf p) (hr : r.ty = ityOf q) (ha : InI p a) (hb : InI q b) (fl : fold false l.e = .ok (BitVec.ofInt 64 a, none))
    (fr : fold false r.e = .ok (BitVec.ofInt 64 b, none)) : fold false (nodeB op l r).e = .ok (BitVec.ofInt 64 v, none) := by
  have hF := fun ty lt h1 h2 => binF_arith (ty := ty) (lt := lt) hop h ha.wide hb.wide h1 h2
  have cl := fold_cast (t := ityOf (p || q)) fl ha.conv
  have cr := fold_cast (t := ityOf (p || q)) fr hb.conv'
  have hsh : ∀ o lt a b, o = BinOp.shl ∨ o = .shr → binF o (ityOf p).low lt a b = binF o (ityOf p).low (ityOf p).low a b := by
    rintro o lt a b (rfl | rfl) <;> rfl
  cases op <;> simp only [bopOf, Option.some.injEq, Prod.mk.injEq, reduceCtorEq] at hop <;> obtain ⟨rfl, rfl⟩ := hop <;>
    simp only [nodeB, binN, hl, hr, common_ity, Bool.or_comm q p, fold, cl, cr, fl, fr, cast_ty, Bool.false_and, Bool.false_eq_true, if_false, if_true] at hF ⊢
  case shl => rw [hsh _ _ _ _ (.inl rfl), hF _ _ (ity_signed p) (ity_signed p)]; rfl
  case shr => rw [hsh _ _ _ _ (.inr rfl), hF _ _ (ity_signed p) (ity_signed p)]; rfl
  all_goals first
    | (rw [hF _ _ (ity_signed _) (ity_signed _)]; rfl)
    | (rw [hF _ _ rfl (ity_signed _)]; rfl)

theorem fits_range : ∀ e, Signed e → ∀ v, Fits e → ifVal e = some v → InI (isLong e) v := by
  intro e
  induction e using ifNode.induct with
  | case1 v => intro _ w h hv; exact small_range (by simpa only [Fits] using h) hv
  | case2 t v => intro _ w h hv; exact small_range (by simpa only [Fits] using h) hv
  | case3 e ih => intro _ w h hv; simp only [Fits] at h; exact small_range h.1 hv
  | case4 e ih => intro _ w h hv; simp only [Fits] at h; exact small_range h.1 hv
  | case5 e ih => intro _ w h hv; simp only [Fits] at h; exact small_range h.1 hv
  | case6 op l r ih1 ih2 =>
    intro _ w h hv
    by_cases h1 : op = .land
    · subst h1
      simp only [ifVal, Option.bind_eq_bind, Option.bind_eq_some_iff] at hv
      obtain ⟨x, hx, hv⟩ := hv
      split at hv
      · cases hv; exact truth_int false
      · simp only [Option.bind_eq_some_iff] at hv
        obtain ⟨y, hy, hv⟩ := hv
        cases hv; exact truth_int _
    · by_cases h2 : op = .lor
      · subst h2
        simp only [ifVal, Option.bind_eq_bind, Option.bind_eq_some_iff] at hv
        obtain ⟨x, hx, hv⟩ := hv
        split at hv
        · cases hv; exact truth_int true
        · simp only [Option.bind_eq_some_iff] at hv
          obtain ⟨y, hy, hv⟩ := hv
          cases hv; exact truth_int _
      · rw [Fits] at h
        · exact small_range h.1 hv
        · exact h1
        · exact h2
  | case7 c a b ih1 ih2 ih3 =>
    intro hs w h hv
    obtain ⟨s1, s2, s3⟩ := hs
    simp only [Fits] at h
    simp only [ifVal, Option.bind_eq_bind, Option.bind_eq_some_iff] at hv
    obtain ⟨x, hx, hv⟩ := hv
    rw [hx] at h
    split at hv
    · rename_i h0
      have := ih2 s2 w (h.2.1 (by simpa using h0)) hv
      cases ha : isLong a with
      | true => simp only [isLong, ha, Bool.true_or, InI, if_true]; exact this.wide
      | false =>
        rw [ha] at this
        cases hb : isLong b with
        | true => simp only [isLong, ha, hb, Bool.or_true, InI, if_true]; exact this.wide
        | false => simpa only [isLong, ha, hb, Bool.or_false] using this
    · rename_i h0
      have := ih3 s3 w (h.2.2 (by simp only [Option.some.injEq]; exact Decidable.not_not.mp h0)) hv
      cases hb : isLong b with
      | true => simp only [isLong, hb, Bool.or_true, InI, if_true]; exact this.wide
      | false =>
        rw [hb] at this
        cases ha : isLong a with
        | true => simp only [isLong, ha, hb, Bool.true_or, InI, if_true]; exact this.wide
        | false => simpa only [isLong, ha, hb, Bool.or_false] using this
  | case8 e => intro h; unfold Signed at h; split at h <;> simp_all

theorem isLong_of {e : Tree Empty} {v : Int} (h : InI (isLong e) v) : -(2 ^ 63) ≤ v ∧ v < 2 ^ 63 := h.wide

/-- The evaluator gives the value of the expression. -/
theorem fold_ifNode : ∀ e, Signed e → ∀ v, Fits e → ifVal e = some v → fold false (ifNode e).e = .ok (BitVec.ofInt 64 v, none) := by
  intro e
  induction e using ifNode.induct with
  | case1 v =>
    intro _ w h hv
    simp only [ifVal] at hv
    obtain ⟨rfl, h'⟩ := intmax_some hv
    rfl
  | case2 t v =>
    intro hs w h hv
    cases t with
    | long =>
      simp only [ifVal] at hv
      obtain ⟨rfl, h'⟩ := intmax_some hv
      rfl
    | _ => exact absurd hs id
  | case3 e ih =>
    intro hs w h hv
    simp only [Fits] at h
    simp only [ifVal, Option.bind_eq_bind, Option.bind_eq_some_iff] at hv
    obtain ⟨x, hx, hv⟩ := hv
    obtain ⟨rfl, h'⟩ := intmax_some hv
    have hr := fits_range e hs x h.2 hx
    have e1 : common (.int false) (ifNode e).ty = ityOf (false || isLong e) := by rw [ifNode_ty e hs]; exact common_ity false _
    have hc := fold_cast (t := ityOf (false || isLong e)) (ih hs x h.2 hx) hr.conv'
    simp only [ifNode, e1, fold, hc]
    rw [toInt64 hr.wide.1 hr.wide.2, i64, if_pos h']
    rfl
  | case4 e ih =>
    intro hs w h hv
    simp only [Fits] at h
    simp only [ifVal, Option.bind_eq_bind, Option.bind_eq_some_iff] at hv
    obtain ⟨x, hx, hv⟩ := hv
    cases hv
    have hr := fits_range e hs x h.2 hx
    simp only [ifNode, fold, ih hs x h.2 hx]
    rw [beq_zero hr.wide, ofB_truth]
  | case5 e ih =>
    intro hs w h hv
    simp only [Fits] at h
    simp only [ifVal, Option.bind_eq_bind, Option.bind_eq_some_iff] at hv
    obtain ⟨x, hx, hv⟩ := hv
    cases hv
    have hr := (fits_range e hs x h.2 hx).wide
    simp only [ifNode, fold, ih hs x h.2 hx]
    rw [bitnot_correct (t := .long false) rfl (inLong.mpr hr) (by decide)]
    show Except.ok (BitVec.ofInt 64 (convC (.long false) (-x - 1)), none) = _
    rw [conv64 (by omega)]
  | case6 op l r ih1 ih2 =>
    intro hs w h hv
    obtain ⟨s1, s2⟩ := hs
    by_cases h1 : op = .land
    · subst h1
      simp only [Fits] at h
      simp only [ifVal, Option.bind_eq_bind, Option.bind_eq_some_iff] at hv
      obtain ⟨x, hx, hv⟩ := hv
      have hr := (fits_range l s1 x h.1 hx).wide
      simp only [ifNode, nodeB, fold, ih1 s1 x h.1 hx]
      split at hv
      · rename_i h0
        cases hv
        rw [if_pos ((zero63 hr).mpr h0)]; rfl
      · rename_i h0
        rw [if_neg fun h => h0 ((zero63 hr).mp h)]
        simp only [Option.bind_eq_some_iff] at hv
        obtain ⟨y, hy, hv⟩ := hv
        cases hv
        have hf := h.2 (by rw [hx]; simpa using h0)
        have hr2 := (fits_range r s2 y hf hy).wide
        simp only [ih2 s2 y hf hy]
        rw [bne, beq_zero hr2, ofB_truth]
        simp
    · by_cases h2 : op = .lor
      · subst h2
        simp only [Fits] at h
        simp only [ifVal, Option.bind_eq_bind, Option.bind_eq_some_iff] at hv
        obtain ⟨x, hx, hv⟩ := hv
        have hr := (fits_range l s1 x h.1 hx).wide
        simp only [ifNode, nodeB, fold, ih1 s1 x h.1 hx]
        split at hv
        · rename_i h0
          cases hv
          rw [if_pos fun h => h0 ((zero63 hr).mp h)]; rfl
        · rename_i h0
          have h0 := Decidable.not_not.mp h0
          rw [if_neg (by rw [Decidable.not_not]; exact (zero63 hr).mpr h0)]
          simp only [Option.bind_eq_some_iff] at hv
          obtain ⟨y, hy, hv⟩ := hv
          cases hv
          have hf := h.2 (by rw [hx, h0])
          have hr2 := (fits_range r s2 y hf hy).wide
          simp only [ih2 s2 y hf hy]
          rw [bne, beq_zero hr2, ofB_truth]
          simp
      · rw [Fits] at h
        · rw [ifVal] at hv
          · simp only [Option.bind_eq_bind, Option.bind_eq_some_iff] at hv
            obtain ⟨x, hx, y, hy, hv⟩ := hv
            have hop : ∃ b s, bopOf op = some (b, s) := by
              cases op <;> first | exact ⟨_, _, rfl⟩ | exact absurd rfl h1 | exact absurd rfl h2
            obtain ⟨b, s, hop⟩ := hop
            exact fold_binN hop hv (ifNode_ty l s1) (ifNode_ty r s2) (fits_range l s1 x h.2.1 hx) (fits_range r s2 y h.2.2 hy)
              (ih1 s1 x h.2.1 hx) (ih2 s2 y h.2.2 hy)
          · exact h1
          · exact h2
        · exact h1
        · exact h2
  | case7 c a b ih1 ih2 ih3 =>
    intro hs w h hv
    obtain ⟨s1, s2, s3⟩ := hs
    have e1 : ¬((ifNode a).ty = .void ∨ (ifNode b).ty = .void) := by
      rw [ifNode_ty a s2, ifNode_ty b s3]; cases isLong a <;> cases isLong b <;> simp [ityOf]
    have e2 : common (ifNode a).ty (ifNode b).ty = ityOf (isLong a || isLong b) := by rw [ifNode_ty a s2, ifNode_ty b s3, common_ity]
    simp only [Fits] at h
    simp only [ifVal, Option.bind_eq_bind, Option.bind_eq_some_iff] at hv
    obtain ⟨x, hx, hv⟩ := hv
    have hr := (fits_range c s1 x h.1 hx).wide
    simp only [ifNode, condN]
    rw [if_neg e1]
    simp only [e2, fold, ih1 s1 x h.1 hx]
    rw [hx] at h
    split at hv
    · rename_i h0
      rw [if_pos fun h => h0 ((zero63 hr).mp h)]
      have hf := h.2.1 (by simpa using h0)
      exact fold_cast (ih2 s2 w hf hv) (fits_range a s2 w hf hv).conv
    · rename_i h0
      have h0 := Decidable.not_not.mp h0
      rw [if_neg (by rw [Decidable.not_not]; exact (zero63 hr).mpr h0)]
      have hf := h.2.2 (by rw [h0])
      exact fold_cast (ih3 s3 w hf hv) (fits_range b s3 w hf hv).conv'
  | case8 e => intro h; unfold Signed at h; split at h <;> simp_all

theorem ifEval_val {e : Tree Empty} {v : Int} (hs : Signed e) (hf : Fits e) (hv : ifVal e = some v) : ifEval e = some v := by
  obtain ⟨x, h1, h2⟩ := tr_ifNode (fun _ => 0) e hs
  have hr := ifVal_range e v hv
  simp only [ifEval, h1, h2, fold_ifNode e hs v hf hv, Option.bind_eq_bind, Option.bind_some, Except.toOption]
  rw [toInt64 hr.1 hr.2]

end Toycc.Src
