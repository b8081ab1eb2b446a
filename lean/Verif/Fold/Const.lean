import Verif.Fold.Props
/-!
C70: which array lengths are constants. Model of is_const_expr and of what array_dimension does with its length expression; the
specification; the theorems.
-/
namespace Toycc.Fold
open Toycc.Rv Toycc.Cg

/-- The binary operators is_const_expr lists, declarator.c:725-738. ND_MOD is not among them. -/
def listed : BinOp → Bool
  | .add | .sub | .mul | .div | .and | .or | .xor | .shl | .shr | .eq | .ne | .lt | .le => true
  | .mod => false

/-- `is_const_expr(a) && is_const_expr(b)` with the C order of evaluation. -/
def both (a b : Except FErr Bool) : Except FErr Bool :=
  match a with
  | .ok true => b
  | x => x

/-- is_const_expr, declarator.c:720-765. The errors are those of the `eval` of conditions, line 746. -/
def isConst : Expr → Except FErr Bool
  | .bin op _ l r => if listed op then both (isConst l) (isConst r) else .ok false
  | .logand l r => both (isConst l) (isConst r)
  | .logor l r => both (isConst l) (isConst r)
  | .cond _ c t e =>
    match isConst c with
    | .ok true =>
      match fold false c with
      | .error x => .error x
      | .ok (a, _) => if a ≠ 0 then isConst t else isConst e
    | x => x
  | .comma _ r => isConst r
  | .neg _ e => isConst e
  | .not e => isConst e
  | .bitnot e => isConst e
  | .cast _ e => isConst e
  | .num _ _ => .ok true
  | _ => .ok false

/-- What `[expr]` makes of an element type: an array of a length (array_of has an `int` parameter, type.c:267), or a
variable-length array whose length is computed when the declaration is reached (vla_of). -/
inductive Dim where
  | arr (len : Int)
  | vla (len : Expr)

/-- declarator.c:785-789; `v`: the element type is itself a VLA. -/
def dimension (v : Bool) (e : Expr) : Except FErr Dim :=
  if v then .ok (.vla e)
  else
    match isConst e with
    | .error x => .error x
    | .ok false => .ok (.vla e)
    | .ok true =>
      match fold false e with
      | .error x => .error x
      | .ok (a, _) => .ok (.arr (a.setWidth 32).toInt)

/-! ### Specification -/

/-- No `%` operator occurs in the expression. -/
def noMod : Expr → Bool
  | .bin op _ l r => op != .mod && noMod l && noMod r
  | .logand l r | .logor l r | .comma l r => noMod l && noMod r
  | .cond _ c t e => noMod c && noMod t && noMod e
  | .neg _ e | .not e | .bitnot e | .cast _ e => noMod e
  | _ => true

/-- The value of the expression is found by looking at an object, calling a function or storing something: such an operation
occurs in it, at a place that is neither the left operand of a comma operator nor a branch of a conditional expression. -/
inductive Looks : Expr → Prop where
  | var (t v) : Looks (.var t v)
  | member (f e) : Looks (.member f e)
  | deref (t e) : Looks (.deref t e)
  | addr (e) : Looks (.addr e)
  | assign (t l r) : Looks (.assign t l r)
  | call (t f as) : Looks (.call t f as)
  | binL {op t l r} : Looks l → Looks (.bin op t l r)
  | binR {op t l r} : Looks r → Looks (.bin op t l r)
  | andL {l r} : Looks l → Looks (.logand l r)
  | andR {l r} : Looks r → Looks (.logand l r)
  | orL {l r} : Looks l → Looks (.logor l r)
  | orR {l r} : Looks r → Looks (.logor l r)
  | cond {t c a b} : Looks c → Looks (.cond t c a b)
  | comma {l r} : Looks r → Looks (.comma l r)
  | neg {t e} : Looks e → Looks (.neg t e)
  | not {e} : Looks e → Looks (.not e)
  | bitnot {e} : Looks e → Looks (.bitnot e)
  | cast {t e} : Looks e → Looks (.cast t e)

/-- What the evaluator does to an expression it has taken to be constant: a number, or the compiler's own arithmetic is undefined. -/
def Fine : Except FErr (W × Option String) → Prop
  | .ok (_, n) => n = none
  | .error x => x = .ub ∨ x = .trap

/-! ### Lemmas -/

theorem both_true {a b : Except FErr Bool} : both a b = .ok true ↔ a = .ok true ∧ b = .ok true := by
  cases a with
  | error x => simp [both]
  | ok v => cases v <;> simp [both]

theorem i64_fine {r : Int} {n : Option String} (h : n = none) : Fine ((i64 r).map fun v => (v, n)) := by
  unfold i64
  split
  · exact h
  · exact .inl rfl

theorem binF_err {op ty lt a b x} (h : binF op ty lt a b = .error x) : x = .ub ∨ x = .trap := by
  have hi : ∀ r, i64 r = .error x → x = .ub := by
    intro r h
    unfold i64 at h
    split at h <;> cases h
    rfl
  have ha : ∀ (f : Nat → W), (amount b).map f = .error x → x = .ub := by
    intro f h
    unfold amount at h
    split at h
    · cases h
    · cases h; rfl
  cases op <;> simp only [binF] at h
  case add | sub | mul => exact .inl (hi _ h)
  case shl | shr => exact .inl (ha _ h)
  case div | mod =>
    split at h
    · cases h; exact .inr rfl
    · split at h
      · cases h
      · split at h <;> cases h
        exact .inr rfl
  all_goals cases h

theorem fold_fine (lab : Bool) : ∀ e, isConst e = .ok true → Fine (fold lab e)
  | .num _ _, _ => rfl
  | .neg _ e, h => by
    have ih := fold_fine false e h
    simp only [fold]
    revert ih
    rcases fold false e with x | ⟨a, n⟩
    · exact id
    · intro _; exact i64_fine rfl
  | .not e, h => by
    have ih := fold_fine false e h
    simp only [fold]
    revert ih
    rcases fold false e with x | ⟨a, n⟩
    · exact id
    · intro _; exact rfl
  | .bitnot e, h => by
    have ih := fold_fine false e h
    simp only [fold]
    revert ih
    rcases fold false e with x | ⟨a, n⟩
    · exact id
    · intro _; exact rfl
  | .cast t e, h => by
    have ih := fold_fine lab e h
    simp only [fold]
    revert ih
    rcases fold lab e with x | ⟨a, n⟩ <;> exact id
  | .comma l r, h => by
    simp only [fold]
    exact fold_fine lab r h
  | .bin op t l r, h => by
    simp only [isConst] at h
    split at h
    · obtain ⟨hl, hr⟩ := both_true.1 h
      have il := fold_fine (lab && (op == .add || op == .sub)) l hl
      have ir := fold_fine false r hr
      simp only [fold]
      revert il ir
      rcases fold (lab && (op == .add || op == .sub)) l with x | ⟨a, n⟩
      · exact fun h _ => h
      · rcases fold false r with x | ⟨b, k⟩
        · exact fun _ h => h
        · intro h _
          dsimp only
          cases hb : binF op t l.ty a b with
          | error x => exact binF_err hb
          | ok v => exact h
    · cases h
  | .logand l r, h => by
    obtain ⟨hl, hr⟩ := both_true.1 h
    have il := fold_fine false l hl
    have ir := fold_fine false r hr
    simp only [fold]
    revert il ir
    rcases fold false l with x | ⟨a, n⟩
    · exact fun h _ => h
    · intro _
      dsimp only
      split
      · exact fun _ => rfl
      · rcases fold false r with x | ⟨b, k⟩
        · exact id
        · exact fun _ => rfl
  | .logor l r, h => by
    obtain ⟨hl, hr⟩ := both_true.1 h
    have il := fold_fine false l hl
    have ir := fold_fine false r hr
    simp only [fold]
    revert il ir
    rcases fold false l with x | ⟨a, n⟩
    · exact fun h _ => h
    · intro _
      dsimp only
      split
      · exact fun _ => rfl
      · rcases fold false r with x | ⟨b, k⟩
        · exact id
        · exact fun _ => rfl
  | .cond t c a b, h => by
    simp only [isConst] at h
    simp only [fold]
    rcases hc : fold false c with x | ⟨v, n⟩
    · rw [hc] at h
      split at h
      · cases h
      · rename_i h'; exact absurd h h'
    · rw [hc] at h
      dsimp only at h ⊢
      split at h
      · split at h
        · rename_i h0
          rw [if_pos h0]
          exact fold_fine lab a h
        · rename_i h0
          rw [if_neg h0]
          exact fold_fine lab b h
      · rename_i h'; exact absurd h h'
  | .null, h | .var _ _, h | .member _ _, h | .deref _ _, h | .addr _, h | .assign _ _ _, h | .memzero _ _, h
  | .vlaPtr _, h | .call _ _ _, h => by cases h

/-- The conditional expressions that occur in it have conditions with a C value (no `1 / 0 ? 2 : 3`). -/
def CondsDefined : Expr → Prop
  | .bin _ _ l r | .logand l r | .logor l r | .comma l r => CondsDefined l ∧ CondsDefined r
  | .cond _ c t e => (∃ E d m v m', evalC E false d c m = some (v, m')) ∧ CondsDefined c ∧ CondsDefined t ∧ CondsDefined e
  | .neg _ e | .not e | .bitnot e | .cast _ e => CondsDefined e
  | _ => True

theorem isConst_of_plain : ∀ e, plain e = true → noMod e = true → CondsDefined e → isConst e = .ok true
  | .num _ _, _, _, _ => rfl
  | .neg _ e, hp, hm, hd => by
    simp only [plain, Bool.and_eq_true] at hp
    exact isConst_of_plain e hp.2 hm hd
  | .not e, hp, hm, hd => isConst_of_plain e hp hm hd
  | .bitnot e, hp, hm, hd => by
    simp only [plain, Bool.and_eq_true] at hp
    exact isConst_of_plain e hp.2 hm hd
  | .cast _ e, hp, hm, hd => by
    simp only [plain, Bool.and_eq_true] at hp
    exact isConst_of_plain e hp.2 hm hd
  | .comma l r, hp, hm, hd => by
    simp only [plain, Bool.and_eq_true] at hp
    simp only [noMod, Bool.and_eq_true] at hm
    exact isConst_of_plain r hp.2 hm.2 hd.2
  | .bin op t l r, hp, hm, hd => by
    simp only [plain, Bool.and_eq_true] at hp
    simp only [noMod, Bool.and_eq_true, bne_iff_ne] at hm
    have hl : listed op = true := by cases op <;> first | rfl | exact absurd rfl hm.1.1
    simp only [isConst, hl, if_true]
    exact both_true.2 ⟨isConst_of_plain l hp.1.2 hm.1.2 hd.1, isConst_of_plain r hp.2 hm.2 hd.2⟩
  | .logand l r, hp, hm, hd => by
    simp only [plain, Bool.and_eq_true] at hp
    simp only [noMod, Bool.and_eq_true] at hm
    exact both_true.2 ⟨isConst_of_plain l hp.1 hm.1 hd.1, isConst_of_plain r hp.2 hm.2 hd.2⟩
  | .logor l r, hp, hm, hd => by
    simp only [plain, Bool.and_eq_true] at hp
    simp only [noMod, Bool.and_eq_true] at hm
    exact both_true.2 ⟨isConst_of_plain l hp.1 hm.1 hd.1, isConst_of_plain r hp.2 hm.2 hd.2⟩
  | .cond t c a b, hp, hm, hd => by
    simp only [plain, Bool.and_eq_true] at hp
    simp only [noMod, Bool.and_eq_true] at hm
    obtain ⟨⟨E, d, m, v, m', hv⟩, dc, da, db⟩ := hd
    obtain ⟨hf, _⟩ := C42_fold_partial E c d m m' v hp.1.1.1.1 hv false
    simp only [isConst, isConst_of_plain c hp.1.1.1.1 hm.1.1 dc, hf]
    split
    · exact isConst_of_plain a hp.1.1.1.2 hm.1.2 da
    · exact isConst_of_plain b hp.1.1.2 hm.2 db
  | .null, h, _, _ | .var _ _, h, _, _ | .member _ _, h, _, _ | .deref _ _, h, _, _ | .addr _, h, _, _
  | .assign _ _ _, h, _, _ | .memzero _ _, h, _, _ | .vlaPtr _, h, _, _ | .call _ _ _, h, _, _ => by simp [plain] at h

theorem isConst_looks : ∀ {e}, Looks e → isConst e ≠ .ok true
  | _, .var .., h | _, .member .., h | _, .deref .., h | _, .addr .., h | _, .assign .., h | _, .call .., h => by cases h
  | _, .binL k, h => by
    simp only [isConst] at h
    split at h
    · exact isConst_looks k (both_true.1 h).1
    · cases h
  | _, .binR k, h => by
    simp only [isConst] at h
    split at h
    · exact isConst_looks k (both_true.1 h).2
    · cases h
  | _, .andL k, h | _, .orL k, h => isConst_looks k (both_true.1 h).1
  | _, .andR k, h | _, .orR k, h => isConst_looks k (both_true.1 h).2
  | _, .cond k, h => by
    simp only [isConst] at h
    split at h
    · rename_i hc; exact isConst_looks k hc
    · rename_i h'; exact h' h
  | _, .comma k, h => isConst_looks k h
  | _, .neg k, h => isConst_looks k h
  | _, .not k, h => isConst_looks k h
  | _, .bitnot k, h => isConst_looks k h
  | _, .cast k, h => isConst_looks k h

/-! ### Property theorems -/

/-- C70: an array whose length is a plain integer constant expression (`plain`, as in C42) without `%`, of C value `n` between 0 and
the largest `int`, is an array of length `n` and not a variable-length array. Missing: `%` (`C70_modulo_wrong`), the unsigned and
`_Bool` operations that C42 leaves out, lengths beyond `int` (`C70_long_wrong`), floating-point operands. -/
theorem C70_length_partial (E : CEnv) (e : Expr) (d : Nat) (m m' : Mem) (n : Int) (hp : plain e = true) (hm : noMod e = true)
    (hd : CondsDefined e) (h : evalC E false d e m = some (n, m')) (h0 : 0 ≤ n) (h1 : n < 2 ^ 31) :
    dimension false e = .ok (.arr n) := by
  obtain ⟨hf, _⟩ := C42_fold_partial E e d m m' n hp h false
  simp only [dimension, isConst_of_plain e hp hm hd, hf, Bool.false_eq_true, if_false]
  have : ((BitVec.ofInt 64 n).setWidth 32).toInt = n := by
    rw [BitVec.toInt_eq_toNat_bmod, BitVec.toNat_setWidth, BitVec.toNat_ofInt]
    rw [Int.bmod_def]
    omega
  rw [this]

/-- C70: an array whose length looks at objects or calls functions is never given a constant length: it is a variable-length array,
unless the compiler's evaluation of a condition in it is undefined. -/
theorem C70_variable (v : Bool) (e : Expr) (h : Looks e) :
    dimension v e = .ok (.vla e) ∨ ∃ x, isConst e = .error x := by
  cases v
  · rcases hc : isConst e with x | b
    · exact .inr ⟨x, rfl⟩
    · cases b
      · exact .inl (by simp [dimension, hc])
      · exact absurd hc (isConst_looks h)
  · exact .inl rfl

theorem isConst_err : ∀ e x, isConst e = .error x → x = .ub ∨ x = .trap
  | .num _ _, x, h => by cases h
  | .neg _ e, x, h => isConst_err e x h
  | .not e, x, h => isConst_err e x h
  | .bitnot e, x, h => isConst_err e x h
  | .cast _ e, x, h => isConst_err e x h
  | .comma _ e, x, h => isConst_err e x h
  | .bin op _ l r, x, h => by
    simp only [isConst] at h
    split at h
    · revert h
      rcases hl : isConst l with y | b
      · intro h; cases h; exact isConst_err l _ hl
      · cases b
        · intro h; cases h
        · intro h; exact isConst_err r x h
    · cases h
  | .logand l r, x, h | .logor l r, x, h => by
    simp only [isConst] at h
    revert h
    rcases hl : isConst l with y | b
    · intro h; cases h; exact isConst_err l _ hl
    · cases b
      · intro h; cases h
      · intro h; exact isConst_err r x h
  | .cond _ c a b, x, h => by
    simp only [isConst] at h
    revert h
    rcases hl : isConst c with y | k
    · intro h; cases h; exact isConst_err c _ hl
    · cases k
      · intro h; cases h
      · have hf := fold_fine false c hl
        revert hf
        rcases fold false c with y | ⟨w, n⟩
        · intro hf h; cases h; exact hf
        · intro _ h
          dsimp only at h
          split at h
          · exact isConst_err a x h
          · exact isConst_err b x h
  | .null, x, h | .var _ _, x, h | .member _ _, x, h | .deref _ _, x, h | .addr _, x, h | .assign _ _ _, x, h
  | .memzero _ _, x, h | .vlaPtr _, x, h | .call _ _ _, x, h => by cases h

/-- C70: no length is rejected as "not a compile-time constant" or "invalid initializer": every declaration of an array becomes an
array or a variable-length array, except where the compiler's own 64-bit arithmetic is undefined or traps (`int a[1 / 0]`). -/
theorem C70_no_diagnosis (v : Bool) (e : Expr) (x : FErr) (h : dimension v e = .error x) : x = .ub ∨ x = .trap := by
  unfold dimension at h
  split at h
  · cases h
  · rcases hc : isConst e with y | b
    · rw [hc] at h; cases h; exact isConst_err e _ hc
    · rw [hc] at h
      cases b
      · cases h
      · have hf := fold_fine false e hc
        revert hf h
        rcases fold false e with y | ⟨w, n⟩
        · intro h hf; cases h; exact hf
        · intro h _; cases h

/-- An element type that is a variable-length array makes a variable-length array, whatever the length. -/
theorem C70_inner (e : Expr) : dimension true e = .ok (.vla e) := rfl

/-- `int a[3 > 2 ? 4 * 5 : 6]`. -/
def exLen : Expr :=
  let k := Expr.num (.int false)
  .cond (.int false) (.bin .lt (.int false) (k 2) (k 3)) (.bin .mul (.int false) (k 4) (k 5)) (k 6)
example : plain exLen = true ∧ noMod exLen = true ∧ CondsDefined exLen ∧
    (∀ E d m, evalC E false d exLen m = some (20, m)) ∧ dimension false exLen = .ok (.arr 20) := by
  refine ⟨by decide +kernel, by decide +kernel, ⟨⟨⟨0, fun _ => 0, fun _ => true, fun _ _ _ _ _ => none, 0⟩, 0, fun _ => 0, 1, fun _ => 0, rfl⟩, ⟨trivial, trivial⟩, ⟨trivial, trivial⟩, trivial⟩,
    fun _ _ _ => rfl, rfl⟩

/-- `int a[n + 1]`. -/
example : Looks (.bin .add (.int false) (.var (.int false) (.loc (-24))) (.num (.int false) 1)) ∧
    dimension false (.bin .add (.int false) (.var (.int false) (.loc (-24))) (.num (.int false) 1)) =
      .ok (.vla (.bin .add (.int false) (.var (.int false) (.loc (-24))) (.num (.int false) 1))) :=
  ⟨.binL (.var ..), rfl⟩

/-- Violated: `10 % 4` is an integer constant expression of value 2, but `int a[10 % 4]` is a variable-length array (which cannot
have an initialiser, nor static storage). -/
theorem C70_modulo_wrong : ∃ e, plain e = true ∧ (∀ E d m, evalC E false d e m = some (2, m)) ∧ fold false e = .ok (2, none) ∧
    dimension false e = .ok (.vla e) :=
  ⟨.bin .mod (.int false) (.num (.int false) 10) (.num (.int false) 4), by decide +kernel, fun _ _ _ => rfl, by decide +kernel, rfl⟩

/-- Violated: the length is cut to an `int`. `char a[0x100000003]` is an array of 3 elements, and `char a[0xffffffff]` and
`char a[-1]` are arrays of unknown length (`array_len` is -1), whose length an initialiser may then supply. -/
theorem C70_long_wrong :
    dimension false (.num (.long false) 0x100000003) = .ok (.arr 3) ∧ dimension false (.num (.int true) 0xffffffff) = .ok (.arr (-1)) ∧
    dimension false (.neg (.int false) (.num (.int false) 1)) = .ok (.arr (-1)) := ⟨rfl, rfl, rfl⟩

/-- Violated: with a comma operator the length is not an integer constant expression, but it is taken for one, and its left operand
is not evaluated: after `int a[(n = 7, 3)]` the variable has not been set. -/
theorem C70_comma_wrong (l : Expr) : dimension false (.comma l (.num (.int false) 3)) = .ok (.arr 3) := rfl

/-- Violated: `0 && (1 / 0 ? 1 : 2)` has the value 0 and the evaluator finds it, but is_const_expr divides by zero first. -/
theorem C70_unevaluated_wrong : ∃ e, (∀ E d m, evalC E false d e m = some (0, m)) ∧ fold false e = .ok (0, none) ∧
    dimension false e = .error .trap :=
  ⟨.logand (.num (.int false) 0) (.cond (.int false) (.bin .div (.int false) (.num (.int false) 1) (.num (.int false) 0))
    (.num (.int false) 1) (.num (.int false) 2)), fun _ _ _ => rfl, by decide +kernel, rfl⟩

end Toycc.Fold
