import Verif.Low.All
import Verif.Cg.Props
/-!
C53 (compound assignment, `++`, `--`) and C54 (pointer arithmetic): the trees the parser makes of these operators mean what C prescribes. The parser stores the
address of the operand in a hidden variable, so the statements speak of two memories: that of the source program, and that of the compiled program, which
agree outside the hidden variables (`Agree`). The environments are related by `Hidden`: the compiled program has up to `N` hidden variables, apart from
all objects of the source program.
-/
namespace Toycc.Low.Props
open Toycc.Cg Toycc.Rv Toycc.Low

variable {S E : CEnv} {tmp : Nat → Int} {N : Nat}

/-- The tree `x` computes the value `v`, and takes the memory `m` of the source program to `m'`. -/
def Does (S E : CEnv) (tmp : Nat → Int) (x : Expr) (m : Mem) (v : Int) (m' : Mem) : Prop :=
  ∀ (d : Nat) (m1 : Mem), Agree S tmp m m1 → ∃ m1', evalC E false d x m1 = some (v, m1') ∧ Agree S tmp m' m1'

/-- The parser accepts every plain expression C accepts, and its tree computes what C prescribes. -/
theorem rewritten_expression_partial (H : Hidden S E tmp N) (hS : S.CallsTyped) (e : SExpr) (t : CTy) (hp : plain true e = true)
    (ht : typeC e = some t) (k : Nat) :
    ∃ n k', tr tmp e k = some (n, k') ∧ (k' ≤ N → ∀ m v m', evalX S false e m = some (v, m') → Does S E tmp n.e m v m') := by
  obtain ⟨n, k', h1, g⟩ := good H hS e true t k hp ht
  refine ⟨n, k', h1, fun hN m v m' he d m1 ha => ?_⟩
  obtain ⟨m1', r1, r2, -⟩ := g.sim hN false d m m1 v m' ha he
  exact ⟨m1', r1, r2⟩

/-! ### C53 -/

/-- **C53** for `l op= r`: the lvalue is evaluated once (to the address `a`), then the right operand once (to `y`), then the object is read, the operator applied
to it, and the result converted and stored at the same address. -/
theorem compound_assignment_once_partial (H : Hidden S E tmp N) (hS : S.CallsTyped) (op : BinOp) (l r : SExpr) (t1 t2 : CTy) (h1 : typeC l = some t1)
    (h2 : typeC r = some t2) (hp : plain true (.opAssign op l r) = true) (ht : typeC (.opAssign op l r) = some t1) (k : Nat) :
    ∃ n k', tr tmp (.opAssign op l r) k = some (n, k') ∧ (k' ≤ N → ∀ m a ma y mb x z v m',
      evalX S true l m = some (a, ma) → evalX S false r ma = some (y, mb) → loadL S t1 l.bits mb (adr a) = some x →
      opC op (l.vty t1) (r.vty t2) x y = some z → storeL S t1 l.bits (adr a) z mb = some (v, m') → Does S E tmp n.e m v m') := by
  obtain ⟨n, k', e1, g⟩ := rewritten_expression_partial H hS _ t1 hp ht k
  refine ⟨n, k', e1, fun hN m a ma y mb x z v m' ha hy hx hz hs => g hN m v m' ?_⟩
  simp [evalX, h1, h2, ha, hy, hx, hz, hs]

/-- **C53** for `++l` and `--l`. -/
theorem prefix_step_once_partial (H : Hidden S E tmp N) (hS : S.CallsTyped) (up : Bool) (l : SExpr) (t : CTy) (h1 : typeC l = some t)
    (hp : plain true (.pre up l) = true) (ht : typeC (.pre up l) = some t) (k : Nat) :
    ∃ n k', tr tmp (.pre up l) k = some (n, k') ∧ (k' ≤ N → ∀ m a ma x z v m',
      evalX S true l m = some (a, ma) → loadL S t l.bits ma (adr a) = some x →
      opC (if up then .add else .sub) (l.vty t) (.int false) x 1 = some z → storeL S t l.bits (adr a) z ma = some (v, m') → Does S E tmp n.e m v m') := by
  obtain ⟨n, k', e1, g⟩ := rewritten_expression_partial H hS _ t hp ht k
  refine ⟨n, k', e1, fun hN m a ma x z v m' ha hx hz hs => g hN m v m' ?_⟩
  simp [evalX, h1, ha, hx, hz, hs]

/-- **C53** for `l++` and `l--`: as `++l` and `--l`, but the value is the old one. (`plain` excludes objects of type _Bool and bit-fields here.) -/
theorem postfix_step_once_partial (H : Hidden S E tmp N) (hS : S.CallsTyped) (up : Bool) (l : SExpr) (t : CTy) (h1 : typeC l = some t)
    (hp : plain true (.post up l) = true) (ht : typeC (.post up l) = some t) (k : Nat) :
    ∃ n k', tr tmp (.post up l) k = some (n, k') ∧ (k' ≤ N → ∀ m a ma x z v m',
      evalX S true l m = some (a, ma) → loadL S t l.bits ma (adr a) = some x →
      opC (if up then .add else .sub) (l.vty t) (.int false) x 1 = some z → storeL S t l.bits (adr a) z ma = some (v, m') → Does S E tmp n.e m x m') := by
  obtain ⟨n, k', e1, g⟩ := rewritten_expression_partial H hS _ t hp ht k
  refine ⟨n, k', e1, fun hN m a ma x z v m' ha hx hz hs => g hN m x m' ?_⟩
  simp [evalX, h1, ha, hx, hz, hs]

/-! ### C54 -/

/-- `y` elements of `size` bytes beyond the address `x` is within the address space. -/
def InSpace (x y : Int) (size : Nat) : Prop := -(2 ^ 63) < y * size ∧ y * size < 2 ^ 63 ∧ 0 ≤ x + y * size ∧ x + y * size < 2 ^ 64

theorem vty_ptr {e : SExpr} {t b : CTy} (h : typeC e = some t) (hb : t.decay = .ptr b) : (e.vty t).decay = .ptr b := by
  rw [vty_nonint h (by cases t <;> first | rfl | cases hb), hb]

theorem vty_decay_int {e : SExpr} {t : CTy} (h : typeC e = some t) (hi : t.isInt = true) : (e.vty t).decay = e.vty t ∧ (e.vty t).isInt = true := by
  have : (e.vty t).isInt = true := by rw [vty_int h]; exact hi
  exact ⟨decay_int this, this⟩

/-- **C54** for `p + n` and `n + p`, `p` a pointer (or an array) and `n` an integer: the address `n` elements beyond that in `p`. -/
theorem pointer_plus_scales_partial (H : Hidden S E tmp N) (hS : S.CallsTyped) (p n : SExpr) (tp tn b : CTy) (h1 : typeC p = some tp) (h2 : typeC n = some tn)
    (hb : tp.decay = .ptr b) (ho : b.object = true) (hn : tn.isInt = true) (hp : plain true p = true) (hq : plain true n = true) (k : Nat) :
    (∃ nd k', tr tmp (.bin .add p n) k = some (nd, k') ∧ nd.ty = .ptr b ∧ (k' ≤ N → ∀ m y m2 x m', evalX S false n m = some (y, m2) →
      evalX S false p m2 = some (x, m') → InSpace x y b.size → Does S E tmp nd.e m (x + y * b.size) m')) ∧
    (∃ nd k', tr tmp (.bin .add n p) k = some (nd, k') ∧ nd.ty = .ptr b ∧ (k' ≤ N → ∀ m y m2 x m', evalX S false n m = some (y, m2) →
      evalX S false p m2 = some (x, m') → InSpace x y b.size → Does S E tmp nd.e m (x + y * b.size) m')) := by
  have v1 := vty_ptr h1 hb
  obtain ⟨v2, i2⟩ := vty_decay_int h2 hn
  have hni : tp.isInt = false := by cases tp <;> first | rfl | cases hb
  have lf1 : leftFirst .add tp tn = false := by simp [leftFirst, hni]
  have ebase : ∀ t : CTy, t.decay = .ptr b → b.object = true → t.base.isSome = true := by
    intro t h hob
    cases t <;> first | rfl | (cases h; done) | (cases h; cases hob)
  have lf2 : leftFirst .add tn tp = true := by simp [leftFirst, hn, ebase tp hb ho]
  have pt : ∀ {t : CTy}, t.isInt = true → opT .add (p.vty tp) t = some (.ptr b) ∧ opT .add t (p.vty tp) = some (.ptr b) := by
    intro t hi
    simp only [opT, v1, decay_int hi, hi, ho]
    constructor
    · rfl
    · cases t <;> first | (cases hi; done) | (dsimp only; rw [if_pos (by rw [ho]; rfl)])
  have pc : ∀ {t : CTy}, t.isInt = true → ∀ x y, opC .add (p.vty tp) t x y = ptrAdd x y b.size ∧ opC .add t (p.vty tp) y x = ptrAdd x y b.size := by
    intro t hi x y
    simp only [opC, v1, decay_int hi]
    constructor
    · trivial
    · cases t <;> first | rfl | cases hi
  constructor
  · obtain ⟨nd, k', e1, g⟩ := good H hS (.bin .add p n) true (.ptr b) k (by simp [plain, hp, hq, h1, h2, BinOp.cmp]) (by simp [typeC, h1, h2, (pt i2).1])
    refine ⟨nd, k', e1, (g.rel rfl).eq (.inr rfl), fun hN m y m2 x m' hy hx hin d m1 ha => ?_⟩
    obtain ⟨m1', r1, r2, -⟩ := g.sim hN false d m m1 (x + y * b.size) m' ha (by
      simp [evalX, h1, h2, lf1, hx, hy, (pc i2 x y).1, ptrAdd]
      exact hin)
    exact ⟨m1', r1, r2⟩
  · obtain ⟨nd, k', e1, g⟩ := good H hS (.bin .add n p) true (.ptr b) k (by simp [plain, hp, hq, h1, h2, BinOp.cmp]) (by simp [typeC, h1, h2, (pt i2).2])
    refine ⟨nd, k', e1, (g.rel rfl).eq (.inr rfl), fun hN m y m2 x m' hy hx hin d m1 ha => ?_⟩
    obtain ⟨m1', r1, r2, -⟩ := g.sim hN false d m m1 (x + y * b.size) m' ha (by
      simp [evalX, h1, h2, lf2, hx, hy, (pc i2 x y).2, ptrAdd]
      exact hin)
    exact ⟨m1', r1, r2⟩

/-- **C54** for `p - n`. -/
theorem pointer_minus_scales_partial (H : Hidden S E tmp N) (hS : S.CallsTyped) (p n : SExpr) (tp tn b : CTy) (h1 : typeC p = some tp) (h2 : typeC n = some tn)
    (hb : tp.decay = .ptr b) (ho : b.object = true) (hn : tn.isInt = true) (hp : plain true p = true) (hq : plain true n = true) (k : Nat) :
    ∃ nd k', tr tmp (.bin .sub p n) k = some (nd, k') ∧ nd.ty = .ptr b ∧ (k' ≤ N → ∀ m y m2 x m', evalX S false n m = some (y, m2) →
      evalX S false p m2 = some (x, m') → InSpace x (-y) b.size → Does S E tmp nd.e m (x - y * b.size) m') := by
  have v1 := vty_ptr h1 hb
  obtain ⟨v2, i2⟩ := vty_decay_int h2 hn
  have pt : ∀ {t : CTy}, t.isInt = true → opT .sub (p.vty tp) t = some (.ptr b) := by
    intro t hi
    simp only [opT, v1, decay_int hi]
    cases t <;> first | (simp only [CTy.isInt, ho]; rfl) | cases hi
  have pc : ∀ {t : CTy}, t.isInt = true → ∀ x y, opC .sub (p.vty tp) t x y = ptrAdd x (-y) b.size := by
    intro t hi x y
    simp only [opC, v1, decay_int hi]
    cases t <;> first | rfl | cases hi
  obtain ⟨nd, k', e1, g⟩ := good H hS (.bin .sub p n) true (.ptr b) k (by simp [plain, hp, hq, h1, h2, BinOp.cmp]) (by simp [typeC, h1, h2, pt i2])
  refine ⟨nd, k', e1, (g.rel rfl).eq (.inr rfl), fun hN m y m2 x m' hy hx hin d m1 ha => ?_⟩
  have e : x - y * b.size = x + -y * b.size := by rw [Int.neg_mul]; omega
  obtain ⟨m1', r1, r2, -⟩ := g.sim hN false d m m1 (x - y * b.size) m' ha (by
    simp only [evalX, Bool.false_eq_true, if_false, h1, h2, Option.bind_eq_bind, Option.bind_some, leftFirst, decide_false, Bool.false_and, reduceCtorEq, hx, hy, pc i2 x y, ptrAdd]
    rw [if_pos (by exact hin), e]
    rfl)
  exact ⟨m1', r1, r2⟩

/-- **C54** for `p - q`, where `p` is `n` elements beyond `q`: `n`, of type long. -/
theorem pointer_difference_partial (H : Hidden S E tmp N) (hS : S.CallsTyped) (p q : SExpr) (tp tq b : CTy) (h1 : typeC p = some tp) (h2 : typeC q = some tq)
    (hb : tp.decay = .ptr b) (hb2 : tq.decay = .ptr b) (ho : b.object = true) (hs : 0 < b.size ∧ b.size < 2 ^ 63) (hp : plain true p = true) (hq : plain true q = true) (k : Nat) :
    ∃ nd k', tr tmp (.bin .sub p q) k = some (nd, k') ∧ (k' ≤ N → ∀ m y m2 x m' (n : Int), evalX S false q m = some (y, m2) →
      evalX S false p m2 = some (x, m') → x = y + n * b.size → -(2 ^ 63) ≤ n * b.size → n * b.size < 2 ^ 63 → Does S E tmp nd.e m n m') := by
  have v1 := vty_ptr h1 hb
  have v2 := vty_ptr h2 hb2
  have pt : opT .sub (p.vty tp) (q.vty tq) = some (.long false) := by
    simp only [opT, v1, v2, ho, and_self, if_true]
  obtain ⟨nd, k', e1, g⟩ := rewritten_expression_partial H hS (.bin .sub p q) (.long false) (by simp [plain, hp, hq, h1, h2, BinOp.cmp]) (by simp [typeC, h1, h2, pt]) k
  refine ⟨nd, k', e1, fun hN m y m2 x m' n hy hx hin l1 l2 => g hN m n m' ?_⟩
  have e : x - y = n * b.size := by omega
  have hpc : opC .sub (p.vty tp) (q.vty tq) x y = some n := by
    simp only [opC, v1, v2, ptrDiff]
    rw [e, if_pos ⟨by omega, hs.2, l1, l2, Int.dvd_mul_left _ _⟩, Int.mul_ediv_cancel _ (by omega)]
  simp [evalX, h1, h2, leftFirst, hx, hy, hpc]

/-! ### Down to the machine -/

/-- A plain expression of the source whose tree is in the simple class of C38 (Verif.Cg.Simple): the parser and the code generator accept it, and its code leaves
the value C prescribes in a0, and the memory of the source program as C prescribes. -/
theorem compiled_source_expression_partial (H : Hidden S E tmp N) (hS : S.CallsTyped) (hE : E.CallsTyped) {B : W} {env : Env} {P : Prog} (hw : World E B env P)
    (hv : ∀ b, E.valid b = true → S.valid b = true ∨ ∃ k, (b - (S.fp + BitVec.ofInt 64 (tmp k))).toNat < 8)
    (e : SExpr) (t : CTy) (hp : plain true e = true) (ht : typeC e = some t) (k : Nat) :
    ∃ n k', tr tmp e k = some (n, k') ∧ (k' ≤ N → simple false n.e = true → usable n.e = true → ∀ gs : GS, gs.depth + need n.e ≤ E.room →
      ∃ c gs', gen false n.e gs = some (c, gs') ∧ gs'.depth = gs.depth ∧
        ∀ m v m' pc s, evalX S false e m = some (v, m') → CodeAt P pc c → s.r .sp = B - BitVec.ofNat 64 (8 * gs.depth) → s.r .fp = E.fp →
          (∀ b, S.valid b = true → s.mem b = m b) →
          ∃ s', Runs P env (pc, s) (pc + c.length, s') ∧ s'.r .a0 = BitVec.ofInt 64 v ∧ s'.r .sp = s.r .sp ∧ s'.r .fp = s.r .fp ∧
            (∀ b, S.valid b = true → s'.mem b = m' b)) := by
  obtain ⟨n, k', e1, g⟩ := rewritten_expression_partial H hS e t hp ht k
  refine ⟨n, k', e1, fun hN hsi hu gs hr => ?_⟩
  obtain ⟨c, gs', c1, c2, c3⟩ := Cg.Props.compiled_expression_value_partial hw hE n.e hsi hu gs hr
  refine ⟨c, gs', c1, c2, fun m v m' pc s hev hc hsp hfp hm => ?_⟩
  classical
  let m1 : Mem := fun b => if ∃ k, (b - (S.fp + BitVec.ofInt 64 (tmp k))).toNat < 8 then s.mem b else m b
  have hag : Agree S tmp m m1 := by
    intro b hb
    show m b = if _ then _ else _
    rw [if_neg]
    rintro ⟨j, hj⟩
    have := hb j
    unfold slotA at this
    omega
  obtain ⟨m1', r1, r2⟩ := g hN m v m' hev gs.depth m1 hag
  have hmt : Match E B gs.depth m1 s := by
    refine ⟨hsp, hfp, fun b hb => ?_⟩
    show s.mem b = if _ then _ else _
    split
    · rfl
    · rename_i hn
      rcases hv b hb with h | h
      · exact hm b h
      · exact absurd h hn
  obtain ⟨s', q1, q2, q3, q4, q5, -⟩ := c3 m1 v m1' pc s r1 hc hmt
  refine ⟨s', q1, q2, q3, q4, fun b hb => ?_⟩
  rw [q5 b (H.valid b hb)]
  exact (r2 b fun k => H.apart b k hb).symm

/-! ### Examples -/

/-- Two objects of 8 bytes at fp-8 and fp-16, as in Verif.Cg.Props; no functions. -/
def exS : CEnv := Cg.Props.exE
/-- The compiled program has two hidden variables, at fp and fp+8. -/
def exC : CEnv := { Cg.Props.exE with valid := fun b => decide (1008 ≤ b.toNat ∧ b.toNat < 1040) }
def exTmp : Nat → Int := fun k => if k = 0 then 0 else 8

theorem ex_slot (k : Nat) (b : W) : (b - (exS.fp + BitVec.ofInt 64 (exTmp k))).toNat < 8 ↔
    if k = 0 then 1024 ≤ b.toNat ∧ b.toNat < 1032 else 1032 ≤ b.toNat ∧ b.toNat < 1040 := by
  have h1 : exS.fp = 1024#64 := rfl
  have := b.isLt
  by_cases hk : k = 0
  · subst hk
    rw [h1, show BitVec.ofInt 64 (exTmp 0) = 0#64 from rfl, if_pos rfl]
    simp only [BitVec.toNat_sub, BitVec.toNat_add, BitVec.toNat_ofNat]
    omega
  · rw [h1, show BitVec.ofInt 64 (exTmp k) = 8#64 by unfold exTmp; rw [if_neg hk]; rfl, if_neg hk]
    simp only [BitVec.toNat_sub, BitVec.toNat_add, BitVec.toNat_ofNat]
    omega

theorem ex_hidden : Hidden exS exC exTmp 2 := by
  have hval : ∀ b, exS.valid b = true ↔ 1008 ≤ b.toNat ∧ b.toNat < 1024 := fun b => by simp [exS, Cg.Props.exE]
  have hvalE : ∀ b, exC.valid b = true ↔ 1008 ≤ b.toNat ∧ b.toNat < 1040 := fun b => by simp [exC]
  refine ⟨rfl, rfl, fun b h => ?_, fun b k h => ?_, fun k i _ hi => ?_, fun k k' b h1 h2 hne hb => ?_, fun a d ty vs m m1 v m' _ h => by simp [exS, Cg.Props.exE] at h⟩
  · rw [hval] at h; rw [hvalE]; omega
  · rw [hval] at h
    have := mt (ex_slot k b).mp (by split <;> omega)
    omega
  · rw [hvalE]
    have h := (ex_slot k (exS.fp + BitVec.ofInt 64 (exTmp k) + BitVec.ofNat 64 i)).mp (by rw [slot_idx _ hi]; exact hi)
    split at h <;> omega
  · have h := (ex_slot k b).mp hb
    have := mt (ex_slot k' b).mp (by split at h <;> split <;> omega)
    omega

theorem ex_typed : exS.CallsTyped := by
  intro a k ty vs m v m' h; simp [exS, Cg.Props.exE] at h

theorem ex_typedC : exC.CallsTyped := by
  intro a k ty vs m v m' h; simp [exC, Cg.Props.exE] at h

theorem ex_cover : ∀ b, exC.valid b = true → exS.valid b = true ∨ ∃ k, (b - (exS.fp + BitVec.ofInt 64 (exTmp k))).toNat < 8 := by
  intro b h
  have h : 1008 ≤ b.toNat ∧ b.toNat < 1040 := by simpa [exC] using h
  by_cases h1 : b.toNat < 1024
  · exact .inl (by simp [exS, Cg.Props.exE]; omega)
  · by_cases h2 : b.toNat < 1032
    · exact .inr ⟨0, (ex_slot 0 b).mpr (by rw [if_pos rfl]; omega)⟩
    · exact .inr ⟨1, (ex_slot 1 b).mpr (by rw [if_neg (by decide)]; omega)⟩

/-- `long x` -/
def sx : SExpr := .var (.long false) (.loc (-8))
/-- `long *p` -/
def sp : SExpr := .var (.ptr (.long false)) (.loc (-16))
/-- x = 5, p = &x -/
def exM : Mem := writeN (writeN (fun _ => 0) 1016 8 5) 1008 8 1016
/-- `*p++ += 3` -/
def once : SExpr := .opAssign .add (.deref (.post true sp)) (.num (.int false) 3)

/-- `*p++ += 3` meets the hypotheses: the operand has a side effect, which happens once: x is 8 and p is 1024 at the end, not 1032. -/
example : plain true once = true ∧ typeC once = some (.long false) ∧ (∃ n, tr exTmp once 0 = some (n, 2) ∧ simple false n.e = true ∧ usable n.e = true ∧ need n.e ≤ exC.room) ∧
    ∃ m', evalX exS false once exM = some (8, m') ∧ readN m' 1016 8 = 8 ∧ readN m' 1008 8 = 1024 := by
  refine ⟨by decide +kernel, by decide +kernel, ?_, ((evalX exS false once exM).get (by decide +kernel)).2, ?_⟩
  · refine ⟨((tr exTmp once 0).get (by decide +kernel)).1, ?_, by decide +kernel, by decide +kernel, by decide +kernel⟩
    have h : ((tr exTmp once 0).get (by decide +kernel)).2 = 2 := by decide +kernel
    conv => lhs; rw [← Option.some_get (x := tr exTmp once 0) (by decide +kernel)]
    exact congrArg some (Prod.ext rfl h)
  · refine ⟨?_, by decide +kernel, by decide +kernel⟩
    have h : ((evalX exS false once exM).get (by decide +kernel)).1 = 8 := by decide +kernel
    conv => lhs; rw [← Option.some_get (x := evalX exS false once exM) (by decide +kernel)]
    exact congrArg some (Prod.ext h rfl)

/-- All surroundings of `compiled_source_expression_partial` exist for it. -/
example : ∃ n k' c gs', tr exTmp once 0 = some (n, k') ∧ gen false n.e ⟨0, 0⟩ = some (c, gs') ∧ World exC 1008 Cg.Props.nullEnv c := by
  have ht : (tr exTmp once 0).isSome = true := by decide +kernel
  obtain ⟨p, hp⟩ := Option.isSome_iff_exists.mp ht
  have hs : simple false p.1.e = true := by
    have h : ((tr exTmp once 0).map fun p => simple false p.1.e) = some true := by decide +kernel
    rw [hp] at h
    exact Option.some.inj h
  obtain ⟨c, gs', hg⟩ := gen_total p.1.e false ⟨0, 0⟩ hs
  refine ⟨p.1, p.2, c, gs', hp, hg, Cg.Props.world_of_expr hg (by decide) ?_ (fun _ => rfl) (fun _ _ _ _ _ => rfl)⟩
  intro b h
  simp only [idx, exC, Cg.Props.exE, BitVec.toNat_sub, BitVec.toNat_ofNat, BitVec.ofNat_eq_ofNat] at h
  simp only [exC, decide_eq_false_iff_not]
  have := b.isLt
  omega

/-- `--x`, `x--` on a long; `s.f++` on a bit-field is not plain, `++s.f` is. -/
example : plain true (.pre false sx) = true ∧ typeC (.pre false sx) = some (.long false) ∧ plain true (.post false sx) = true ∧
    (evalX exS false (.pre false sx) exM).map (·.1) = some 4 ∧ (evalX exS false (.post false sx) exM).map (·.1) = some 5 ∧
    plain true (.pre true (.member (.var (.struc 8) (.loc (-8))) (.int false) 0 (some (3, 5)))) = true ∧
    (evalX exS false (.pre true (.member (.var (.struc 8) (.loc (-8))) (.int false) 0 (some (3, 5)))) (writeN (fun _ => 0) 1016 8 0x7f)).map (·.1) = some (-16) := by
  decide +kernel

/-- C54: `p + 2`, `2 + p`, `p - 2`, `&x - p` with p = &x: all meet the hypotheses. -/
example : typeC sp = some (.ptr (.long false)) ∧ (CTy.long false).object = true ∧ plain true sp = true ∧ plain true (.addr sx) = true ∧
    typeC (.addr sx) = some (.ptr (.long false)) ∧
    (evalX exS false (.bin .add sp (.num (.int false) 2)) exM).map (·.1) = some 1032 ∧
    (evalX exS false (.bin .add (.num (.int false) 2) sp) exM).map (·.1) = some 1032 ∧
    (evalX exS false (.bin .sub sp (.num (.int false) 2)) exM).map (·.1) = some 1000 ∧
    (evalX exS false (.bin .sub (.bin .add sp (.num (.int false) 2)) (.addr sx)) exM).map (·.1) = some 2 := by
  decide +kernel

/-! ### What is not plain -/

/-- The code of the tree the parser makes, run from the start of Verif.Cg.Props, leaves `r` in a0. -/
def CompiledTo (e : SExpr) (m : Mem) (r : W) : Prop := ∃ n k', tr exTmp e 0 = some (n, k') ∧ Cg.Props.Computes n.e m r

theorem compiledTo_of {e : SExpr} {m : Mem} {r : W} (n : Nat) (h : ((tr exTmp e 0).bind fun p => Cg.Props.computes p.1.e m n) = some r) : CompiledTo e m r := by
  rw [Option.bind_eq_some_iff] at h
  obtain ⟨⟨n', k'⟩, h1, h2⟩ := h
  exact ⟨n', k', h1, Cg.Props.computes_sound h2⟩

/-- A violation of C53: `_Bool b = 1; b++` is 1 in C; the code computes 0, because the old value is recovered by subtracting 1 from the new one. -/
theorem bool_postincrement_wrong :
    let e := SExpr.post true (.var .bool (.loc (-8)))
    let m := writeN (fun _ => 0) 1016 1 1
    (evalX exS false e m).map (·.1) = some 1 ∧ CompiledTo e m 0 :=
  ⟨by decide +kernel, compiledTo_of 35 (by decide +kernel)⟩

/-- A violation of C54: `long a[2]; &a + 1` is 16 bytes beyond `a` in C; the code computes the address 8 bytes beyond: `&a` gets the type `long *`. -/
theorem address_of_array_plus_one_wrong :
    let e := SExpr.bin .add (.addr (.var (.arr (.long false) 2) (.loc (-16)))) (.num (.int false) 1)
    (evalX exS false e (fun _ => 0)).map (·.1) = some 1024 ∧ CompiledTo e (fun _ => 0) 1016 :=
  ⟨by decide +kernel, compiledTo_of 13 (by decide +kernel)⟩

/-- `1 - p` is not C (6.5.6p3); the parser accepts it. -/
theorem integer_minus_pointer_accepted : typeC (.bin .sub (.num (.int false) 1) sp) = none ∧ (tr exTmp (.bin .sub (.num (.int false) 1) sp) 0).isSome = true := by
  decide +kernel

/-- `x += p` with an integer x and a pointer p is not C (6.5.16.2p1); the parser accepts it, and the code assigns to p, not to x: p becomes 1016 + 5 * 8. -/
theorem integer_plus_assign_pointer_accepted :
    let e := SExpr.opAssign .add sx sp
    typeC e = none ∧ CompiledTo e exM 1056 :=
  ⟨by decide +kernel, compiledTo_of 30 (by decide +kernel)⟩

/-- A violation of the usual conversions (C38): with `unsigned s : 3` holding 0, `s - 1 < 0` is 1 in C, where the bit-field is an int; the code computes 0. -/
theorem bitfield_not_promoted_wrong :
    let e := SExpr.bin .lt (.bin .sub (.member (.var (.struc 8) (.loc (-8))) (.int true) 0 (some (0, 3))) (.num (.int false) 1)) (.num (.int false) 0)
    (evalX exS false e (fun _ => 0)).map (·.1) = some 1 ∧ CompiledTo e (fun _ => 0) 0 :=
  ⟨by decide +kernel, compiledTo_of 21 (by decide +kernel)⟩

/-- `~c ?: 5` with `unsigned char c = 255`: -256 in C; the hidden variable has type unsigned char, so the code computes 5. -/
theorem elvis_narrow_wrong :
    let e := SExpr.elvis (.bitnot (.var (.char true) (.loc (-8)))) (.num (.int false) 5)
    let m := writeN (fun _ => 0) 1016 1 255
    (evalX exS false e m).map (·.1) = some (-256) ∧ CompiledTo e m 5 :=
  ⟨by decide +kernel, compiledTo_of 16 (by decide +kernel)⟩

end Toycc.Low.Props
