import Verif.Low.Assign
/-! to_assign: `A op= B` as `tmp = &A, *tmp = *tmp op B`. -/
namespace Toycc.Low
open Toycc.Cg Toycc.Rv

variable {S E : CEnv} {tmp : Nat → Int} {N : Nat}

/-- The tree computes what the expression means, using hidden variables from `k` to `k'`. -/
def Sim (S E : CEnv) (tmp : Nat → Int) (N : Nat) (e : SExpr) (x : Expr) (k k' : Nat) : Prop :=
  k' ≤ N → ∀ (ad : Bool) (d : Nat) (m m1 : Mem) (v : Int) (m' : Mem), Agree S tmp m m1 → evalX S ad e m = some (v, m') →
    ∃ m1', evalC E ad d x m1 = some (v, m1') ∧ Agree S tmp m' m1' ∧ Kept S tmp N k k' m1 m1'

theorem Sim.mono {e : SExpr} {x : Expr} {a b k k' : Nat} (h : Sim S E tmp N e x a b) (h1 : k ≤ a) (h2 : b ≤ k') : Sim S E tmp N e x k k' := by
  intro hN ad d m m1 v m' ha he
  obtain ⟨m1', r1, r2, r3⟩ := h (by omega) ad d m m1 v m' ha he
  exact ⟨m1', r1, r2, r3.mono h1 h2⟩

/-- Lvalues are members of something, or not member nodes at all. -/
def Shape (S E : CEnv) (tmp : Nat → Int) (N : Nat) (e : SExpr) (x : Expr) (k k' : Nat) : Prop :=
  match e with
  | .member e0 t o b => ∃ a, x = .member ⟨t.low, o, b⟩ a ∧ Sim S E tmp N e0 a k k'
  | _ => ∀ f a, x ≠ .member f a

theorem Shape.mono {e : SExpr} {x : Expr} {a b k k' : Nat} (h : Shape S E tmp N e x a b) (h1 : k ≤ a) (h2 : b ≤ k') : Shape S E tmp N e x k k' := by
  cases e <;> first | exact h | (obtain ⟨y, r1, r2⟩ := h; exact ⟨y, r1, r2.mono h1 h2⟩)

theorem bits_shape {e : SExpr} {x : Expr} {k k' : Nat} {t : CTy} (h : Shape S E tmp N e x k k') (ht : ∀ e0 t' o b, e = .member e0 t' o b → t' = t) :
    SameBits t e.bits x.bitfield := by
  cases e with
  | member e0 t' o b =>
    obtain ⟨a, rfl, -⟩ := h
    have := ht _ _ _ _ rfl
    subst this
    cases b with
    | none => simp [SameBits, SExpr.bits, Expr.bitfield]
    | some p => obtain ⟨o', w⟩ := p; simp [SameBits, SExpr.bits, Expr.bitfield]
  | _ =>
    have hx : x.bitfield = none := by
      cases x <;> first | rfl | exact absurd rfl (h _ _)
    rw [hx]
    simp [SameBits, SExpr.bits]

theorem adr_mod (v : Int) : adr (v % 2 ^ 64) = adr v := by
  unfold adr
  apply BitVec.eq_of_toInt_eq
  rw [BitVec.toInt_ofInt, BitVec.toInt_ofInt]
  exact Int.emod_bmod v (2 ^ 64)

theorem adr_toNat (a : W) : adr (a.toNat : Int) = a := by
  unfold adr; rw [BitVec.ofInt_natCast, BitVec.ofNat_toNat, BitVec.setWidth_eq]

/-- The object designated through a pointer `v`. -/
def via (v : Expr) (L : Node) : Expr :=
  match L.e with
  | .member f a => .member f (.deref a.ty v)
  | _ => .deref L.ty.low v

/-- What the pointer points to. -/
def target (x : Expr) : Expr :=
  match x with
  | .member _ a => a
  | x => x

theorem toAssign_eq (off : Int) (B : Bin) (h : B.l.ty.scalar = true) :
    toAssign off B = some ⟨.comma (.assign .ptr (.var .ptr (.loc off)) (.cast .ptr (.addr (target B.l.e))))
      (.assign B.l.ty.low (via (.var .ptr (.loc off)) B.l) (.cast B.l.ty.low (binN B.op ⟨via (.var .ptr (.loc off)) B.l, B.l.ty⟩ B.r).e)), B.l.ty⟩ := by
  have ha : ∀ (x : Expr) (r : Node), assignN ⟨x, B.l.ty⟩ r = some ⟨.assign B.l.ty.low x (.cast B.l.ty.low r.e), B.l.ty⟩ := by
    intro x r
    unfold assignN
    cases ht : B.l.ty <;> rw [ht] at h <;> first | rfl | cases h
  have hv : B.l.ty ≠ .void := (scalar_low h).2.2
  unfold toAssign via target
  cases hx : B.l.e <;> simp only [hv, if_false] <;> rw [ha] <;> rfl

/-- The pointer gives access to the lvalue. -/
theorem via_ok {l : SExpr} {L : Node} {t : CTy} {k k' : Nat} (ht : ∀ e0 t' o b, l = .member e0 t' o b → t' = t) (hL : L.ty = t)
    (hlv : l.bits = none ∨ l.lv = true) (hs : Shape S E tmp N l L.e k k')
    (hsim : Sim S E tmp N l L.e k k') (hN : k' ≤ N) {m m1 : Mem} (hag : Agree S tmp m m1) {a : Int} {m' : Mem} (d : Nat) (he : evalX S true l m = some (a, m')) :
    ∃ (p : Int) (m1' : Mem), evalC E true d (target L.e) m1 = some (p, m1') ∧ Agree S tmp m' m1' ∧ Kept S tmp N k k' m1 m1' ∧
      ∀ (v : Expr), (∀ d m2, evalC E false d v m2 = some (p % 2 ^ 64, m2) →
        (∃ q, evalC E true d (via v L) m2 = some (q, m2) ∧ adr q = adr a) ∧
        ∀ x, loadL E t l.bits m2 (adr a) = some x → evalC E false d (via v L) m2 = some (x, m2)) ∧ SameBits t l.bits (via v L).bitfield := by
  have plainCase : (∀ f y, L.e ≠ .member f y) → l.bits = none → ∃ (p : Int) (m1' : Mem), evalC E true d (target L.e) m1 = some (p, m1') ∧ Agree S tmp m' m1' ∧
      Kept S tmp N k k' m1 m1' ∧ ∀ (v : Expr), (∀ d m2, evalC E false d v m2 = some (p % 2 ^ 64, m2) →
        (∃ q, evalC E true d (via v L) m2 = some (q, m2) ∧ adr q = adr a) ∧
        ∀ x, loadL E t l.bits m2 (adr a) = some x → evalC E false d (via v L) m2 = some (x, m2)) ∧ SameBits t l.bits (via v L).bitfield := by
    intro hn hb
    obtain ⟨m1', r1, r2, r3⟩ := hsim hN true d m m1 a m' hag he
    have htg : target L.e = L.e := by
      unfold target
      cases hx : L.e <;> first | rfl | exact absurd hx (hn _ _)
    have hvia : ∀ v, via v L = .deref L.ty.low v := by
      intro v
      unfold via
      cases hx : L.e <;> first | rfl | exact absurd hx (hn _ _)
    refine ⟨a, m1', by rw [htg]; exact r1, r2, r3, fun v => ⟨fun d m2 hv => ⟨?_, ?_⟩, ?_⟩⟩
    · rw [hvia]
      exact ⟨a % 2 ^ 64, by simp [evalC, hv], adr_mod a⟩
    · intro x hx
      rw [hb] at hx
      have hx : loadC E t.low m2 (adr a) = some x := hx
      rw [hvia, hL]
      simp only [evalC, hv, Option.bind_eq_bind, Option.bind_some, Bool.false_eq_true, if_false, if_true, adr_mod, hx]
    · rw [hvia, hb]
      trivial
  cases l with
  | member e0 t' o b =>
    have := ht _ _ _ _ rfl
    subst this
    obtain ⟨y, hx, hy⟩ := hs
    simp only [evalX, bindSome] at he
    obtain ⟨⟨a0, m0⟩, he, hr⟩ := he
    simp only [if_true, Option.some.injEq, Prod.mk.injEq] at hr
    obtain ⟨rfl, rfl⟩ := hr
    obtain ⟨m1', r1, r2, r3⟩ := hy hN true d m m1 a0 m0 hag he
    have htg : target L.e = y := by unfold target; rw [hx]
    have hvia : ∀ v, via v L = .member ⟨t'.low, o, b⟩ (.deref y.ty v) := by intro v; unfold via; rw [hx]
    refine ⟨a0, m1', by rw [htg]; exact r1, r2, r3, fun v => ⟨fun d m2 hv => ⟨?_, ?_⟩, ?_⟩⟩
    · rw [hvia]
      refine ⟨((adr a0 + BitVec.ofInt 64 o).toNat : Int), ?_, rfl⟩
      simp only [evalC, hv, Option.bind_eq_bind, Option.bind_some, Bool.false_eq_true, if_false, if_true, adr_mod]
    · intro x hx
      rw [adr_toNat] at hx
      rw [hvia]
      have hf : fieldC E ⟨t'.low, o, b⟩ m2 (adr a0 + BitVec.ofInt 64 o) = some x := by
        unfold fieldC
        cases b with
        | none => exact hx
        | some p => exact hx
      simp only [evalC, hv, Option.bind_eq_bind, Option.bind_some, Bool.false_eq_true, if_false, if_true, adr_mod, hf]
    · rw [hvia]
      cases b with
      | none => simp [SameBits, SExpr.bits, Expr.bitfield]
      | some p => obtain ⟨o', w⟩ := p; simp [SameBits, SExpr.bits, Expr.bitfield]
  | _ => exact plainCase hs rfl

/-- Compound assignment. -/
theorem toAssign_sim (H : Hidden S E tmp N) {l : SExpr} {t : CTy} {L : Node} {k k1 k2 : Nat} (ht : typeC l = some t)
    (htm : ∀ e0 t' o b, l = .member e0 t' o b → t' = t) (hlv : l.lv = true) (hsc : t.scalar = true) (hL : L.ty = t)
    (hs : Shape S E tmp N l L.e k k1) (hsim : Sim S E tmp N l L.e k k1) (hk : k ≤ k1) (hk2 : k1 ≤ k2) (B : Bin) (hB : B.l = L)
    (evR : Mem → Option (Int × Mem)) (RE : Expr) (δ : Nat)
    (hR : k2 ≤ N → ∀ d m m1 y m', Agree S tmp m m1 → evR m = some (y, m') → ∃ m1', evalC E false d RE m1 = some (y, m1') ∧ Agree S tmp m' m1' ∧ Kept S tmp N k1 k2 m1 m1')
    (opf : Int → Int → Option Int)
    (hop : ∀ L2 : Node, L2.ty = L.ty → ∀ d m m1 m2 x y z, evalC E false (d + δ) RE m = some (y, m1) → evalC E false (d + 1) L2.e m1 = some (x, m2) →
      opf x y = some z → evalC E false d (binN B.op L2 B.r).e m = some (z, m2)) :
    ∃ n, toAssign (tmp k2) B = some n ∧ n.ty = t ∧ n.e.ty = t.low ∧ (∀ f y, n.e ≠ .member f y) ∧ (k2 + 1 ≤ N → 
      ∀ d m m1 a ma y mb x z v m', Agree S tmp m m1 → evalX S true l m = some (a, ma) → evR ma = some (y, mb) →
        loadL S t l.bits mb (adr a) = some x → opf x y = some z → storeL S t l.bits (adr a) z mb = some (v, m') →
        ∃ m1', evalC E false d n.e m1 = some (v, m1') ∧ Agree S tmp m' m1' ∧ Kept S tmp N k (k2 + 1) m1 m1') := by
  subst hB
  have hsc' := hsc
  rw [← hL] at hsc'
  refine ⟨_, toAssign_eq (tmp k2) B hsc', hL, by show B.l.ty.low = _; rw [hL], (by intro f y h; cases h), ?_⟩
  intro hN d m m1 a ma y mb x z v m' hag hel heR hx hz hst
  -- the address
  obtain ⟨p, mA, e1, agA, kA, hvia⟩ := via_ok (E := E) htm hL (.inr hlv) hs hsim (by omega) hag (d + 1) hel
  have ec : evalC E false (d + 1) (.cast .ptr (.addr (target B.l.e))) m1 = some (p % 2 ^ 64, mA) := by
    simp only [evalC, Bool.false_eq_true, if_false]
    rw [e1]; rfl
  have hp : inRange .ptr (p % 2 ^ 64) = true := by
    refine decide_eq_true (p := 0 ≤ p % 2 ^ 64 ∧ p % 2 ^ 64 < 2 ^ 64) ?_
    have := Int.emod_nonneg p (show (2 : Int) ^ 64 ≠ 0 by decide)
    have := Int.emod_lt_of_pos p (show (0 : Int) < 2 ^ 64 by decide)
    omega
  obtain ⟨mB, eB, agB, kB, rB⟩ := hidden_store H (t := .ptr) rfl hp (k := k2) ec agA kA (by omega) (by omega) (by omega)
  -- the right operand
  have hv := hvia (.var .ptr (.loc (tmp k2)))
  obtain ⟨⟨q, eq, hq⟩, -⟩ := hv.1 d mB (hidden_load H rfl hp (by omega) rB)
  obtain ⟨mC, eC, agC, kC⟩ := hR (by omega) (d + 1 + δ) ma mB y mb agB heR
  have rC : readN mC (slotA S tmp k2) Ty.ptr.size = rep (p % 2 ^ 64) % 2 ^ (8 * Ty.ptr.size) := by
    rw [slot_kept kC (by omega) (.inr (Nat.le_refl _)) (by simp [Ty.size])]; exact rB
  have eX := (hv.1 (d + 1 + 1) mC (hidden_load H rfl hp (by omega) rC)).2 x (loadL_agree H agC hx)
  have eO := hop ⟨via (.var .ptr (.loc (tmp k2))) B.l, B.l.ty⟩ rfl (d + 1) mB mC mC x y z eC eX hz
  -- the assignment
  obtain ⟨mD, eD, agD, kD⟩ := storeL_agree H agC hst k (k2 + 1)
  refine ⟨mD, ?_, agD, ?_⟩
  · simp only [evalC]
    simp only [evalC] at eB
    rw [eB, bindSome]
    refine ⟨_, rfl, ?_⟩
    simp only [Bool.false_and, Bool.false_eq_true, if_false]
    rw [eq, bindSome]
    refine ⟨_, rfl, ?_⟩
    have hlow : B.l.ty.low ≠ .void := (scalar_low hsc').2.1
    dsimp only
    rw [eO]
    simp only [bindSome, Option.some.injEq, exists_eq_left']
    rw [if_neg hlow, hq, hL, assignC_same hv.2, storeL_conv hsc]
    · exact eD
    · intro p hb
      exact (bits_int ht hb).2.2
  · refine (kB.trans kC (lo := k) (hi := k2 + 1) (by omega) (by omega) (by omega) (by omega)).trans kD ?_ ?_ ?_ ?_ <;> omega

end Toycc.Low
