import Verif.Fold.Proof
/-!
C42: constant folding. `evalC` (Verif/Cg/Sem.lean) is the C value of an expression, the one its compiled code computes (C38).
-/
namespace Toycc.Fold
open Toycc.Rv Toycc.Cg

/-- Types in which signed arithmetic is done. -/
def signedTy (t : Ty) : Bool := t == .int false || t == .long false
def arithT (t : Ty) : Bool := signedTy t || t == .int true || t == .long true

def binPlain (op : BinOp) (t l r : Ty) : Bool :=
  match op with
  | .add | .sub | .mul => signedTy t && l == t && r == t
  | .div | .mod | .and | .or | .xor => arithT t && l == t && r == t
  | .eq | .ne | .lt | .le => t == .int false && l.scalar && l == r
  | .shl => signedTy t && l == t
  | .shr => arithT t && l == t

/-- Integer constant expressions, after the usual arithmetic conversions, without (1) additive, multiplicative or left-shift
operators, unary minus and complement on unsigned types and (2) conversions to `_Bool`. -/
def plain : Expr → Bool
  | .num t v => t.scalar && inRange t v
  | .neg t e => signedTy t && e.ty == t && plain e
  | .bin op t l r => binPlain op t l.ty r.ty && plain l && plain r
  | .cond t c a b => plain c && plain a && plain b && a.ty == t && b.ty == t
  | .comma l r => plain l && plain r
  | .not e => plain e
  | .bitnot e => signedTy e.ty && plain e
  | .logand l r => plain l && plain r
  | .logor l r => plain l && plain r
  | .cast t e => t.scalar && t != .bool && plain e
  | _ => false

theorem plain_scalar : ∀ e, plain e = true → e.ty.scalar = true
  | .num t v, h => by simp [plain] at h; exact h.1
  | .neg t e, h => by simp only [plain, Bool.and_eq_true, signedTy, Bool.or_eq_true, beq_iff_eq] at h; rcases h.1.1 with h | h <;> simp [Expr.ty, h, Ty.scalar]
  | .bin op t l r, h => by
    simp only [plain, Bool.and_eq_true] at h
    have := h.1.1
    have ht : t = .int false ∨ t = .long false ∨ t = .int true ∨ t = .long true := by
      cases op <;> simp only [binPlain, signedTy, arithT, Bool.and_eq_true, Bool.or_eq_true, beq_iff_eq] at this <;> grind
    rcases ht with h | h | h | h <;> simp [Expr.ty, h, Ty.scalar]
  | .cond t c a b, h => by
    simp only [plain, Bool.and_eq_true, beq_iff_eq] at h
    have := plain_scalar a h.1.1.1.2
    rw [h.1.2] at this
    exact this
  | .comma l r, h => by
    simp only [plain, Bool.and_eq_true] at h
    exact plain_scalar r h.2
  | .not e, h => rfl
  | .bitnot e, h => by
    simp only [plain, Bool.and_eq_true] at h
    exact plain_scalar e h.2
  | .logand l r, h => rfl
  | .logor l r, h => rfl
  | .cast t e, h => by simp only [plain, Bool.and_eq_true] at h; exact h.1.1
  | .null, h | .var _ _, h | .member _ _, h | .deref _ _, h | .addr _, h | .assign _ _ _, h | .memzero _ _, h
  | .vlaPtr _, h | .call _ _ _, h => by simp [plain] at h

theorem in64_of {t : Ty} (ht : t.scalar = true) {v : Int} (h : inRange t v = true) : in64 v = true :=
  decide_eq_true (range_lt ht h)

theorem signedTy_cases {t : Ty} (h : signedTy t = true) : t = .int false ∨ t = .long false := by
  simpa [signedTy] using h
theorem arithT_cases {t : Ty} (h : arithT t = true) : t = .int false ∨ t = .long false ∨ t = .int true ∨ t = .long true := by
  simpa [arithT, signedTy, or_assoc] using h

theorem between {t : Ty} (ht : arithT t = true) {x v : Int} (h : inRange t x = true)
    (h1 : 0 ≤ x → 0 ≤ v ∧ v ≤ x) (h2 : x ≤ 0 → x ≤ v ∧ v ≤ 0) : inRange t v = true := by
  rcases Int.le_total 0 x with hx | hx
  · have := h1 hx
    rcases arithT_cases ht with rfl | rfl | rfl | rfl <;> (have h := of_decide_eq_true h; exact decide_eq_true (by omega))
  · have := h2 hx
    rcases arithT_cases ht with rfl | rfl | rfl | rfl <;> (have h := of_decide_eq_true h; exact decide_eq_true (by omega))

theorem binK_of_plain {op t l r x y v} (hp : binPlain op t l r = true) (hx : inRange l x = true) (hy : inRange r y = true)
    (h : binC op t x y = some v) : binK op t l x y = some v ∧ inRange t v = true := by
  have key : ∀ {t : Ty}, arithT t = true → t.scalar = true ∧ promote t = t := by
    intro t ht
    rcases arithT_cases ht with rfl | rfl | rfl | rfl <;> exact ⟨rfl, rfl⟩
  have keys : ∀ {t : Ty}, signedTy t = true → arithT t = true ∧ t.unsigned = false := by
    intro t ht
    rcases signedTy_cases ht with rfl | rfl <;> exact ⟨rfl, rfl⟩
  unfold binK
  simp only [h, bindSome, Option.some.injEq, exists_eq_left']
  unfold binC at h
  cases op <;> simp only [binPlain, Bool.and_eq_true, beq_iff_eq] at hp h ⊢ <;>
    simp only [bindSome, guard_eq, exists_const, Bool.and_eq_true, and_true, exact, beq_iff_eq, Bool.or_eq_true]
  case add =>
    obtain ⟨⟨ht, rfl⟩, rfl⟩ := hp
    obtain ⟨ha, hu⟩ := keys ht
    rw [(key ha).2] at h
    exact ⟨⟨⟨⟨key ha, hx⟩, hy⟩, by rw [hu]; rfl⟩, arithC_inRange (key ha).1 h⟩
  case sub =>
    obtain ⟨⟨ht, rfl⟩, rfl⟩ := hp
    obtain ⟨ha, hu⟩ := keys ht
    rw [(key ha).2] at h
    exact ⟨⟨⟨⟨key ha, hx⟩, hy⟩, by rw [hu]; rfl⟩, arithC_inRange (key ha).1 h⟩
  case mul =>
    obtain ⟨⟨ht, rfl⟩, rfl⟩ := hp
    obtain ⟨ha, hu⟩ := keys ht
    rw [(key ha).2] at h
    exact ⟨⟨⟨⟨key ha, hx⟩, hy⟩, by rw [hu]; rfl⟩, arithC_inRange (key ha).1 h⟩
  case div =>
    obtain ⟨⟨ht, rfl⟩, rfl⟩ := hp
    rw [(key ht).2] at h
    split at h
    · cases h
    · exact ⟨⟨⟨key ht, hx⟩, hy⟩, arithC_inRange (key ht).1 h⟩
  case mod =>
    obtain ⟨⟨ht, rfl⟩, rfl⟩ := hp
    split at h
    · cases h
    · simp only [Option.bind_eq_some_iff, Option.some.injEq] at h
      obtain ⟨_, _, rfl⟩ := h
      exact ⟨⟨⟨key ht, hx⟩, hy⟩, between ht hx (tmod_bounds x y).1 (tmod_bounds x y).2⟩
  case and =>
    obtain ⟨⟨ht, rfl⟩, rfl⟩ := hp
    rw [(key ht).2, Option.some.injEq] at h
    exact ⟨⟨⟨key ht, hx⟩, hy⟩, by rw [← h]; exact convC_inRange (key ht).1 _⟩
  case or =>
    obtain ⟨⟨ht, rfl⟩, rfl⟩ := hp
    rw [(key ht).2, Option.some.injEq] at h
    exact ⟨⟨⟨key ht, hx⟩, hy⟩, by rw [← h]; exact convC_inRange (key ht).1 _⟩
  case xor =>
    obtain ⟨⟨ht, rfl⟩, rfl⟩ := hp
    rw [(key ht).2, Option.some.injEq] at h
    exact ⟨⟨⟨key ht, hx⟩, hy⟩, by rw [← h]; exact convC_inRange (key ht).1 _⟩
  case eq | ne | lt | le =>
    obtain ⟨⟨rfl, ht⟩, rfl⟩ := hp
    rw [Option.some.injEq] at h
    exact ⟨⟨⟨ht, hx⟩, hy⟩, by rw [← h]; exact bool_inRange _⟩
  case shl =>
    obtain ⟨ht, rfl⟩ := hp
    obtain ⟨ha, hu⟩ := keys ht
    rw [(key ha).2] at h
    refine ⟨⟨⟨key ha, hx⟩, .inl (.inl (by rw [hu]; rfl))⟩, ?_⟩
    split at h
    · rw [if_neg (by rw [hu]; decide)] at h
      split at h
      · exact arithC_inRange (key ha).1 h
      · cases h
    · cases h
  case shr =>
    obtain ⟨ha, rfl⟩ := hp
    refine ⟨⟨key ha, hx⟩, ?_⟩
    split at h <;> cases h
    exact between ha hx (shr_bounds x _).1 (shr_bounds x _).2

/-- Plain expressions whose C value is defined are constants in the sense of `kval`, with that value. -/
theorem kval_of_plain (E : CEnv) : ∀ (e : Expr) (d : Nat) (m : Mem) (v : Int) (m' : Mem), plain e = true →
    evalC E false d e m = some (v, m') → kval e = some (none, v) ∧ inRange e.ty v = true
  | .num t w, d, m, v, m', hp, h => by
    simp only [evalC, Bool.false_eq_true, if_false, Option.some.injEq, Prod.mk.injEq] at h
    obtain ⟨rfl, _⟩ := h
    simp only [plain] at hp
    refine ⟨?_, by simp at hp; exact hp.2⟩
    simp only [kval, hp, bindSome]
    exact ⟨(), rfl, trivial⟩
  | .neg t e, d, m, v, m', hp, h => by
    simp only [evalC, Bool.false_eq_true, if_false, bindSome, Option.some.injEq, Prod.mk.injEq] at h
    obtain ⟨⟨x, m1⟩, hx, r, hr, rfl, _⟩ := h
    simp only [plain, Bool.and_eq_true, beq_iff_eq] at hp
    obtain ⟨⟨ht, he⟩, hp⟩ := hp
    obtain ⟨h1, h2⟩ := kval_of_plain E e d m x m1 hp hx
    rw [he] at h2
    have ha : t.scalar = true ∧ promote t = t ∧ t.unsigned = false := by rcases signedTy_cases ht with rfl | rfl <;> exact ⟨rfl, rfl, rfl⟩
    refine ⟨?_, by rw [ha.2.1] at hr; exact arithC_inRange ha.1 hr⟩
    simp only [kval, bindSome, number_eq, guard_eq, exists_const, Option.some.injEq, Bool.and_eq_true, beq_iff_eq]
    exact ⟨x, h1, r, hr, ⟨⟨⟨ha.1, ha.2.1⟩, h2⟩, by simp [exact, ha.2.2]⟩, rfl⟩
  | .bin op t l r, d, m, v, m', hp, h => by
    simp only [evalC, Bool.false_eq_true, if_false, bindSome, Option.some.injEq, Prod.mk.injEq] at h
    obtain ⟨⟨y, m1⟩, hy, ⟨x, m2⟩, hx, w, hw, rfl, _⟩ := h
    simp only [plain, Bool.and_eq_true] at hp
    obtain ⟨⟨hb, hl⟩, hr⟩ := hp
    obtain ⟨y1, y2⟩ := kval_of_plain E r d m y m1 hr hy
    obtain ⟨x1, x2⟩ := kval_of_plain E l (d + 1) m1 x m2 hl hx
    obtain ⟨h1, h2⟩ := binK_of_plain hb x2 y2 hw
    refine ⟨?_, h2⟩
    simp only [kval, bindSome, number_eq, guard_eq, exists_const]
    refine ⟨y, y1, (none, x), x1, ?_⟩
    simp only [bindSome, h1, Option.some.injEq]
    exact ⟨_, rfl, rfl⟩
  | .cond t c a b, d, m, v, m', hp, h => by
    simp only [evalC, Bool.false_and, Bool.false_eq_true, if_false, bindSome] at h
    obtain ⟨⟨x, m1⟩, hx, h⟩ := h
    simp only [plain, Bool.and_eq_true, beq_iff_eq] at hp
    obtain ⟨⟨⟨⟨hc, ha⟩, hb⟩, ta⟩, tb⟩ := hp
    obtain ⟨x1, x2⟩ := kval_of_plain E c d m x m1 hc hx
    simp only [kval, bindSome, number_eq, guard_eq, exists_const, Expr.ty]
    simp only at h
    by_cases h0 : x = 0
    · rw [if_neg (by simpa using h0)] at h
      obtain ⟨b1, b2⟩ := kval_of_plain E b d m1 v m' hb h
      exact ⟨⟨x, x1, in64_of (plain_scalar c hc) x2, by rw [if_neg (by simpa using h0)]; exact b1⟩, by rw [← tb]; exact b2⟩
    · rw [if_pos h0] at h
      obtain ⟨b1, b2⟩ := kval_of_plain E a d m1 v m' ha h
      exact ⟨⟨x, x1, in64_of (plain_scalar c hc) x2, by rw [if_pos h0]; exact b1⟩, by rw [← ta]; exact b2⟩
  | .comma l r, d, m, v, m', hp, h => by
    simp only [evalC, bindSome] at h
    obtain ⟨⟨x, m1⟩, hx, h⟩ := h
    simp only [plain, Bool.and_eq_true] at hp
    obtain ⟨x1, _⟩ := kval_of_plain E l d m x m1 hp.1 hx
    obtain ⟨y1, y2⟩ := kval_of_plain E r d m1 v m' hp.2 h
    simp only [kval, bindSome, x1]
    exact ⟨⟨_, rfl, y1⟩, y2⟩
  | .not e, d, m, v, m', hp, h => by
    simp only [evalC, Bool.false_eq_true, if_false, bindSome, Option.some.injEq, Prod.mk.injEq] at h
    obtain ⟨⟨x, m1⟩, hx, rfl, _⟩ := h
    simp only [plain] at hp
    obtain ⟨x1, x2⟩ := kval_of_plain E e d m x m1 hp hx
    simp only [kval, bindSome, number_eq, guard_eq, exists_const]
    exact ⟨⟨x, x1, in64_of (plain_scalar e hp) x2, rfl⟩, bool_inRange _⟩
  | .bitnot e, d, m, v, m', hp, h => by
    simp only [evalC, Bool.false_eq_true, if_false, bindSome, Option.some.injEq, Prod.mk.injEq] at h
    obtain ⟨⟨x, m1⟩, hx, rfl, _⟩ := h
    simp only [plain, Bool.and_eq_true] at hp
    obtain ⟨x1, x2⟩ := kval_of_plain E e d m x m1 hp.2 hx
    have ha : promote e.ty = e.ty ∧ e.ty.scalar = true ∧ e.ty ≠ .int true := by
      rcases signedTy_cases hp.1 with h | h <;> rw [h] <;> exact ⟨rfl, rfl, by decide⟩
    simp only [kval, bindSome, number_eq, guard_eq, exists_const, Bool.and_eq_true, bne_iff_ne]
    refine ⟨⟨x, x1, ⟨⟨ha.2.1, x2⟩, ha.2.2⟩, rfl⟩, ?_⟩
    simp only [Expr.ty, ha.1]
    exact convC_inRange ha.2.1 _
  | .logand l r, d, m, v, m', hp, h => by
    simp only [evalC, Bool.false_eq_true, if_false, bindSome] at h
    obtain ⟨⟨x, m1⟩, hx, h⟩ := h
    simp only [plain, Bool.and_eq_true] at hp
    obtain ⟨x1, x2⟩ := kval_of_plain E l d m x m1 hp.1 hx
    simp only [kval, bindSome, number_eq, guard_eq, exists_const, Expr.ty]
    simp only at h
    by_cases h0 : x = 0
    · rw [if_pos h0] at h
      simp only [Option.some.injEq, Prod.mk.injEq] at h
      obtain ⟨rfl, _⟩ := h
      exact ⟨⟨x, x1, in64_of (plain_scalar l hp.1) x2, by rw [if_pos h0]⟩, by decide⟩
    · rw [if_neg h0] at h
      simp only [bindSome, Option.some.injEq, Prod.mk.injEq] at h
      obtain ⟨⟨y, m2⟩, hy, rfl, _⟩ := h
      obtain ⟨y1, y2⟩ := kval_of_plain E r d m1 y m2 hp.2 hy
      refine ⟨⟨x, x1, in64_of (plain_scalar l hp.1) x2, ?_⟩, bool_inRange _⟩
      rw [if_neg h0]
      simp only [bindSome, number_eq, guard_eq, exists_const]
      exact ⟨y, y1, in64_of (plain_scalar r hp.2) y2, rfl⟩
  | .logor l r, d, m, v, m', hp, h => by
    simp only [evalC, Bool.false_eq_true, if_false, bindSome] at h
    obtain ⟨⟨x, m1⟩, hx, h⟩ := h
    simp only [plain, Bool.and_eq_true] at hp
    obtain ⟨x1, x2⟩ := kval_of_plain E l d m x m1 hp.1 hx
    simp only [kval, bindSome, number_eq, guard_eq, exists_const, Expr.ty]
    simp only at h
    by_cases h0 : x = 0
    · rw [if_neg (by simpa using h0)] at h
      simp only [bindSome, Option.some.injEq, Prod.mk.injEq] at h
      obtain ⟨⟨y, m2⟩, hy, rfl, _⟩ := h
      obtain ⟨y1, y2⟩ := kval_of_plain E r d m1 y m2 hp.2 hy
      refine ⟨⟨x, x1, in64_of (plain_scalar l hp.1) x2, ?_⟩, bool_inRange _⟩
      rw [if_neg (by simpa using h0)]
      simp only [bindSome, number_eq, guard_eq, exists_const]
      exact ⟨y, y1, in64_of (plain_scalar r hp.2) y2, rfl⟩
    · rw [if_pos h0] at h
      simp only [Option.some.injEq, Prod.mk.injEq] at h
      obtain ⟨rfl, _⟩ := h
      exact ⟨⟨x, x1, in64_of (plain_scalar l hp.1) x2, by rw [if_pos h0]⟩, by decide⟩
  | .cast t e, d, m, v, m', hp, h => by
    simp only [evalC, Bool.false_eq_true, if_false, bindSome, Option.some.injEq, Prod.mk.injEq] at h
    obtain ⟨⟨x, m1⟩, hx, rfl, _⟩ := h
    simp only [plain, Bool.and_eq_true, bne_iff_ne] at hp
    obtain ⟨⟨ht, hb⟩, hp⟩ := hp
    obtain ⟨x1, x2⟩ := kval_of_plain E e d m x m1 hp hx
    have hv : t ≠ .void := by rintro rfl; simp [Ty.scalar] at ht
    rw [if_neg hv]
    refine ⟨?_, convC_inRange ht _⟩
    simp only [kval, bindSome]
    refine ⟨(none, x), x1, ?_⟩
    simp only [bindSome, guard_eq, exists_const, Bool.and_eq_true, Bool.or_eq_true, bne_iff_ne]
    exact ⟨⟨ht, .inl (.inl hb)⟩, trivial⟩
  | .null, _, _, _, _, h, _ | .var _ _, _, _, _, _, h, _ | .member _ _, _, _, _, _, h, _ | .deref _ _, _, _, _, _, h, _
  | .addr _, _, _, _, _, h, _ | .assign _ _ _, _, _, _, _, h, _ | .memzero _ _, _, _, _, _, h, _
  | .vlaPtr _, _, _, _, _, h, _ | .call _ _ _, _, _, _, _, h, _ => by simp [plain] at h

/-- C42: a plain integer constant expression that has a C value `v` folds to `v` in two's complement, without a label; `v` is a value
of its type. The same expression evaluated at run time, in any environment and memory, has the value `v` (last clause, with C38).
Missing: `unsigned` arithmetic that wraps and conversions to `_Bool` (`C42_unsigned_wrong`, `C42_complement_wrong`, `C42_bool_wrong`
are counterexamples), and the diagnosis of undefined operations (`C42_zero_wrong`). -/
theorem C42_fold_partial (E : CEnv) (e : Expr) (d : Nat) (m m' : Mem) (v : Int) (hp : plain e = true)
    (h : evalC E false d e m = some (v, m')) (lab : Bool) :
    fold lab e = .ok (BitVec.ofInt 64 v, none) ∧ inRange e.ty v = true ∧
    ∀ E' d' m'', evalC E' false d' e m'' = some (v, m'') := by
  obtain ⟨h1, h2⟩ := kval_of_plain E e d m v m' hp h
  exact ⟨fold_kval e lab none v (.inr rfl) h1, h2, fun E' d' m'' => eval_kval E' e _ d' m'' h1⟩

/-- C42 for static initialisers: the number or the symbol-plus-offset found by the evaluator is the run-time value, for every
expression in the domain of `kval` (Verif/Fold/Sem.lean: constants, including addresses of globals, members, array elements,
whose arithmetic does not wrap). -/
theorem C42_address (e : Expr) (n : Option String) (a : Int) (h : kval e = some (n, a)) :
    fold true e = .ok (BitVec.ofInt 64 a, n) ∧
    ∀ E d m, evalC E false d e m = some (match n with
      | none => a
      | some s => ((E.sym (.sym s) + BitVec.ofInt 64 a).toNat : Int), m) := by
  refine ⟨fold_kval e true n a (.inl rfl) h, fun E d m => ?_⟩
  have := eval_kval E e _ d m h
  rw [this]
  cases n <;> rfl

/-- `sizeof`-like arithmetic: `(10 * 4 + 2) % 5 == 2 ? 1 << 4 : -1`. -/
def exConst : Expr :=
  let k := Expr.num (.int false)
  .cond (.int false) (.bin .eq (.int false) (.bin .mod (.int false) (.bin .add (.int false) (.bin .mul (.int false) (k 10) (k 4)) (k 2)) (k 5)) (k 2))
    (.bin .shl (.int false) (k 1) (k 4)) (.neg (.int false) (k 1))
example : plain exConst = true ∧ fold false exConst = .ok (16, none) ∧ kval exConst = some (none, 16) := by decide +kernel
/-- `0xffffffffu / 2`, `(unsigned char)-1`. -/
example : plain (.bin .div (.int true) (.num (.int true) 0xffffffff) (.num (.int true) 2)) = true
    ∧ kval (.bin .div (.int true) (.num (.int true) 0xffffffff) (.num (.int true) 2)) = some (none, 0x7fffffff)
    ∧ plain (.cast (.char true) (.neg (.int false) (.num (.int false) 1))) = true
    ∧ fold false (.cast (.char true) (.neg (.int false) (.num (.int false) 1))) = .ok (255, none) := by decide +kernel
/-- `&a.m[3]`, `arr + 2` (scaled by the parser), `(long)&x`. -/
example : kval (.bin .add .ptr (.member ⟨.arr 16, 8, none⟩ (.var (.struc 24) (.glob "a"))) (.num (.long false) 12)) = some (some "a", 20)
    ∧ kval (.bin .sub .ptr (.var (.arr 40) (.glob "arr")) (.num (.long false) 8)) = some (some "arr", -8)
    ∧ fold true (.bin .add .ptr (.member ⟨.arr 16, 8, none⟩ (.var (.struc 24) (.glob "a"))) (.num (.long false) 12)) = .ok (20, some "a") := by
  decide +kernel

/-- Violated: `0xffffffffu + 1u` is 0 in C and folds to 2^32. -/
def wrapAdd : Expr := .bin .add (.int true) (.num (.int true) 0xffffffff) (.num (.int true) 1)
theorem C42_unsigned_wrong : ∃ e, (∀ E d m, evalC E false d e m = some (0, m)) ∧ fold false e = .ok (0x100000000, none) :=
  ⟨wrapAdd, fun _ _ _ => rfl, by decide +kernel⟩

/-- Violated: `~0u >> 1` is 0x7fffffff in C and folds to -1. -/
theorem C42_complement_wrong : ∃ e, (∀ E d m, evalC E false d e m = some (0x7fffffff, m)) ∧ fold false e = .ok (-1, none) :=
  ⟨.bin .shr (.int true) (.bitnot (.num (.int true) 0)) (.num (.int false) 1), fun _ _ _ => rfl, by decide +kernel⟩

/-- Violated: `(_Bool)2` is 1 in C and folds to 2; `(_Bool)256` folds to 0. -/
theorem C42_bool_wrong : ∃ e e', (∀ E d m, evalC E false d e m = some (1, m) ∧ evalC E false d e' m = some (1, m)) ∧
    fold false e = .ok (2, none) ∧ fold false e' = .ok (0, none) :=
  ⟨.cast .bool (.num (.int false) 2), .cast .bool (.num (.int false) 256), fun _ _ _ => ⟨rfl, rfl⟩, by decide +kernel, by decide +kernel⟩

/-- Violated: a division by zero in a constant expression is not diagnosed; the compiler executes it. -/
theorem C42_zero_wrong : ∃ e, plain e = true ∧ (∀ E d m, evalC E false d e m = none) ∧ fold false e = .error .trap :=
  ⟨.bin .div (.int false) (.num (.int false) 1) (.num (.int false) 0), by decide +kernel, fun _ _ _ => rfl, by decide +kernel⟩

/-- What is not constant is diagnosed: a variable, an assignment, a call. -/
theorem C42_not_constant (lab : Bool) (t : Ty) (v : Var) (l r : Expr) (as : Exprs) :
    fold false (.var t v) = .error .notConst ∧ fold lab (.assign t l r) = .error .notConst ∧ fold lab (.call t l as) = .error .notConst ∧
    fold lab (.deref t l) = .error .notConst :=
  ⟨rfl, rfl, rfl, rfl⟩

end Toycc.Fold
