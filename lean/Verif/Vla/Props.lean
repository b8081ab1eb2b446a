import Verif.Vla.Proof
import Verif.Vla.Decl
import Verif.Low.Props
/-!
C83: arrays of variable length have the sizes C prescribes, `sizeof` and pointer arithmetic use them, and a declaration allocates that many bytes. The specification is in Verif.Vla.Spec.
-/
namespace Toycc.Vla.Props
open Toycc.Cg Toycc.Rv Toycc.Low Toycc.Vla

variable {S E : CEnv} {tmp : Nat → Int} {N : Nat}

/-- **C83**, the sizes. The parser accepts every declared type with lengths of the kind C53 and C54 are about. The expression it makes evaluates each length once, has no other effect on the
source program, and leaves the size of each array in the variable for it. -/
theorem C83_sizes_partial (H : Hidden S E tmp N) (hS : S.CallsTyped) (st : STy) (hst : st.ok) (k : Nat) :
    ∃ vt k1 e at' k2, parseTy tmp st k = some (vt, k1) ∧ vlaSize tmp vt k1 = some (e, at', k2) ∧ k ≤ k2 ∧
      (k2 ≤ N → ∀ m r m', Elab S st m r m' → st.Fits r → ∀ d m1, Agree S tmp m m1 →
        ∃ v m1', evalC E false d e m1 = some (v, m1') ∧ Agree S tmp m' m1' ∧ Stored S m1' at' r ∧
          -- whatever the program evaluates later, the sizes stay
          ∀ x t k3, plain true x = true → typeC x = some t → k2 ≤ k3 → ∃ n k4, tr tmp x k3 = some (n, k4) ∧ (k4 ≤ N → ∀ m2 w m3 d2 m4, Agree S tmp m2 m4 → Stored S m4 at' r →
            evalX S false x m2 = some (w, m3) → ∃ m5, evalC E false d2 n.e m4 = some (w, m5) ∧ Agree S tmp m3 m5 ∧ Stored S m5 at' r)) := by
  obtain ⟨vt, k1, h1, h2, hp⟩ := parse H hS st k hst
  obtain ⟨e, at', k2, h3, h4, h5, h6⟩ := sizes H hp k1 (Nat.le_refl _)
  refine ⟨vt, k1, e, at', k2, h1, h3, by omega, fun hN m r m' he hf d m1 ha => ?_⟩
  obtain ⟨v, m1', q1, q2, -, q4⟩ := h6 hN m r m' he hf d m1 ha
  refine ⟨v, m1', q1, q2, q4, fun x t k3 hx ht hk => ?_⟩
  obtain ⟨n, k4, e1, g⟩ := good H hS x true t k3 hx ht
  refine ⟨n, k4, e1, fun hN4 m2 w m3 d2 m4 ha4 hst4 hev => ?_⟩
  obtain ⟨m5, z1, z2, z3⟩ := g.sim hN4 false d2 m2 m4 w m3 ha4 hev
  exact ⟨m5, z1, z2, stored_kept h5 hN hst4 z3 (.inl hk)⟩

/-- The variables of an annotated type are hidden variables. -/
def Slots (tmp : Nat → Int) (N : Nat) (a : ATy) : Prop := Within tmp 0 N a

/-- They are, for every type compute_vla_size has seen. -/
theorem C83_slots {vt : VTy} {k : Nat} {e : Expr} {a : ATy} {k' : Nat} (h : vlaSize tmp vt k = some (e, a, k')) (hN : k' ≤ N) : Slots tmp N a := by
  have key : ∀ (vt : VTy) (k : Nat) (e : Expr) (a : ATy) (k' : Nat), vlaSize tmp vt k = some (e, a, k') → k ≤ k' ∧ Within tmp k k' a := by
    intro vt
    induction vt with
    | obj t =>
      intro k e a k' h
      simp only [vlaSize, Option.some.injEq, Prod.mk.injEq] at h
      obtain ⟨-, rfl, rfl⟩ := h
      exact ⟨Nat.le_refl _, .obj⟩
    | ptr b ih =>
      intro k e a k' h
      simp only [vlaSize, Option.bind_eq_bind, Option.bind_eq_some_iff, Option.some.injEq, Prod.mk.injEq, Prod.exists] at h
      obtain ⟨e1, a1, k1, h1, -, rfl, rfl⟩ := h
      obtain ⟨q1, q2⟩ := ih _ _ _ _ h1
      exact ⟨q1, .ptr q2⟩
    | vla b n ih =>
      intro k e a k' h
      simp only [vlaSize, Option.bind_eq_bind, Option.bind_eq_some_iff, Option.some.injEq, Prod.mk.injEq, Prod.exists] at h
      obtain ⟨e1, a1, k1, h1, _, -, -, rfl, rfl⟩ := h
      obtain ⟨q1, q2⟩ := ih _ _ _ _ h1
      exact ⟨by omega, .vla (q2.mono (Nat.le_refl _) (by omega)) q1 (by omega)⟩
  exact (key _ _ _ _ _ h).2.mono (Nat.zero_le _) hN

/-- **C83**, `sizeof`: the value is the size of the type, and nothing is evaluated again. -/
theorem C83_sizeof (H : Hidden S E tmp N) {a : ATy} {r : RTy} {m : Mem} (ha : Slots tmp N a) (h : Stored S m a r) (d : Nat) :
    evalC E false d (sizeofN a).e m = some ((r.size : Int), m) := by
  cases ha with
  | obj =>
    cases r with
    | obj t => cases h; exact ev_num
    | _ => exact absurd h id
  | ptr =>
    cases r with
    | ptr b => exact ev_num
    | _ => exact absurd h id
  | vla _ h1 h2 =>
    cases r with
    | arr b n =>
      rw [sizeofN, ev_sizeVar H (by omega)]
      exact congrArg (fun z : Nat => some ((z : Int), m)) h.1
    | _ => exact absurd h id

/-- **C83**, pointer arithmetic and subscripts: with an address `x` and an integer `y`, `x + y` and `x - y` are `y` elements further, where the elements may be arrays of variable length. -/
theorem C83_arith (H : Hidden S E tmp N) (sub : Bool) {a : ATy} {r : RTy} {m : Mem} (ha : Slots tmp N a) (h : Stored S m a r) (L R : Node) (b c : CTy) (hL : L.ty = .ptr b)
    (hR : Rel R.ty c) (hc : c.isInt = true) {d : Nat} {m1 m2 : Mem} {x y z : Int} (hy : evalC E false (d + 1) R.e m = some (y, m1))
    (hx : evalC E false (d + 1) L.e m1 = some (x, m2)) (hz : ptrAdd x (if sub then -y else y) r.size = some z) :
    evalC E false d (addN sub L a R).e m = some (z, m2) := by
  unfold ptrAdd at hz
  by_cases hcnd : -(2 ^ 63) < (if sub then -y else y) * (r.size : Int) ∧ (if sub then -y else y) * (r.size : Int) < 2 ^ 63 ∧
      0 ≤ x + (if sub then -y else y) * (r.size : Int) ∧ x + (if sub then -y else y) * (r.size : Int) < 2 ^ 64
  rotate_left
  · rw [if_neg hcnd] at hz; cases hz
  rw [if_pos hcnd] at hz
  obtain ⟨a1, a2, a3, a4⟩ := hcnd
  have hz := Option.some.inj hz
  have hzz : z = if sub then x - y * r.size else x + y * r.size := by
    subst hz
    cases sub
    · simp
    · simp [Int.neg_mul, Int.sub_eq_add_neg]
  have hb : -(2 ^ 63) < y * r.size ∧ y * r.size < 2 ^ 63 := by
    cases sub
    · exact ⟨by simpa using a1, by simpa using a2⟩
    · simp only [if_true, Int.neg_mul] at a1 a2; omega
  cases ha with
  | obj =>
    cases r with
    | obj t' =>
      cases h
      obtain ⟨s, hs, he⟩ := scaled R c hR hc _ d m m1 y hy hb.1 hb.2
      exact add_bytes sub L _ b hL he hx hs hzz (by omega) (by omega)
    | _ => exact absurd h id
  | ptr =>
    cases r with
    | ptr t =>
      obtain ⟨s, hs, he⟩ := scaled R c hR hc 8 d m m1 y hy hb.1 hb.2
      exact add_bytes sub L _ b hL he hx hs hzz (by omega) (by omega)
    | _ => exact absurd h id
  | @vla b' k _ h1 h2 =>
    cases r with
    | arr t n =>
      obtain ⟨s, hs, he⟩ := scaledVar H h2 R c hR hc h.1 hy
      exact add_bytes sub L _ b hL he hx hs hzz (by omega) (by omega)
    | _ => exact absurd h id

/-- **C83**, the declaration of an array. From any history (C64) with room for the array and one saved register: the code runs to its end, a block of the size is allocated, and the variable
holds its address. By C64 the block overlaps no other block, none of the saved values and nothing below the stack pointer, and what was stored before is unchanged outside the variable. -/
theorem C83_declared {a : Alloca.Area} (ok : a.Ok) {env : Env} {s : St} {A : Alloca.Abs} (h : Alloca.Hist env a s A) {off size : Int} {n : Nat}
    (hn : readN s.mem (a.fp + BitVec.ofInt 64 size) 8 = n)
    (hs : ∀ i, i < 8 → ¬ a.inStack (a.fp + BitVec.ofInt 64 size + BitVec.ofNat 64 i))
    (hv : ∀ i, i < 8 → ¬ a.inStack (a.fp + BitVec.ofInt 64 off + BitVec.ofNat 64 i) ∧ ¬ a.inSlot (a.fp + BitVec.ofInt 64 off + BitVec.ofNat 64 i))
    (room : (n + 7) / 8 * 8 + 8 ≤ (s.r .sp - a.lo).toNat) {P : Prog} (hu : UniqueLabels P) {l1 l2 : Label} {pc : Nat}
    (hc : CodeAt P pc (declCode off size a.off l1 l2)) :
    ∃ s' A' b, Runs P env (pc, s) (pc + (declCode off size a.off l1 l2).length, s') ∧ Alloca.Hist env a s' A' ∧ A'.temps = A.temps ∧ A'.blocks = (b, n) :: A.blocks ∧
      readN s'.mem (a.fp + BitVec.ofInt 64 off) 8 = b.toNat ∧ (∀ y, 8 ≤ (y - (a.fp + BitVec.ofInt 64 off)).toNat → A'.known y = A.known y) ∧ Alloca.Holds a s' A' := by
  obtain ⟨s', b, h1, h2, h3⟩ := decl_runs ok h hn hs hv room hu hc
  refine ⟨s', _, b, h1, h2, rfl, rfl, h3, fun y hy => ?_, Alloca.C64_alloca_partial ok h2⟩
  show (if _ then _ else _) = _
  rw [if_neg (by omega)]

/-! ### On the machine -/

theorem stored_congr {a : ATy} {r : RTy} {m m' : Mem} (hw : Within tmp 0 N a) (hm : ∀ k b, k < N → (b - slotA S tmp k).toNat < 8 → m' b = m b) (h : Stored S m a r) : Stored S m' a r :=
  stored_kept hw (Nat.le_refl N) h (a := N) (b := N) (fun k hk _ b hb => hm k b hk hb) (.inl (Nat.le_refl _))

/-- **C83**, the code. If the expression is in the simple class of C38, its code runs to its end, leaves the memory of the source program as evaluating the lengths once does, and the sizes in their
variables. -/
theorem C83_compiled_partial (H : Hidden S E tmp N) (hS : S.CallsTyped) (hE : E.CallsTyped) {B : W} {env : Env} {P : Prog} (hw : World E B env P)
    (hv : ∀ b, E.valid b = true → S.valid b = true ∨ ∃ k, (b - (S.fp + BitVec.ofInt 64 (tmp k))).toNat < 8) (st : STy) (hst : st.ok) (k : Nat) :
    ∃ vt k1 e at' k2, parseTy tmp st k = some (vt, k1) ∧ vlaSize tmp vt k1 = some (e, at', k2) ∧
      (k2 ≤ N → simple false e = true → usable e = true → ∀ gs : GS, gs.depth + need e ≤ E.room →
        ∃ c gs', gen false e gs = some (c, gs') ∧ gs'.depth = gs.depth ∧
          ∀ m r m' pc s, Elab S st m r m' → st.Fits r → CodeAt P pc c → s.r .sp = B - BitVec.ofNat 64 (8 * gs.depth) → s.r .fp = E.fp → (∀ b, S.valid b = true → s.mem b = m b) →
            ∃ s', Runs P env (pc, s) (pc + c.length, s') ∧ s'.r .sp = s.r .sp ∧ s'.r .fp = s.r .fp ∧ (∀ b, S.valid b = true → s'.mem b = m' b) ∧ Stored S s'.mem at' r) := by
  obtain ⟨vt, k1, e, at', k2, h1, h2, -, g⟩ := C83_sizes_partial H hS st hst k
  refine ⟨vt, k1, e, at', k2, h1, h2, fun hN hsi hu gs hr => ?_⟩
  obtain ⟨c, gs', c1, c2, c3⟩ := Cg.Props.compiled_expression_value_partial hw hE e hsi hu gs hr
  refine ⟨c, gs', c1, c2, fun m r m' pc s hev hf hc hsp hfp hm => ?_⟩
  classical
  let m1 : Mem := fun b => if ∃ k, (b - (S.fp + BitVec.ofInt 64 (tmp k))).toNat < 8 then s.mem b else m b
  have hag : Agree S tmp m m1 := by
    intro b hb
    show m b = if _ then _ else _
    rw [if_neg]
    rintro ⟨j, hj⟩
    have := hb j
    unfold slotA at this
    omega
  obtain ⟨v, m1', r1, r2, r3, -⟩ := g hN m r m' hev hf gs.depth m1 hag
  have hmt : Match E B gs.depth m1 s := by
    refine ⟨hsp, hfp, fun b hb => ?_⟩
    show s.mem b = if _ then _ else _
    split
    · rfl
    · rename_i hn
      rcases hv b hb with h | h
      · exact hm b h
      · exact absurd h hn
  obtain ⟨s', q1, -, q3, q4, q5, -⟩ := c3 m1 v m1' pc s r1 hc hmt
  refine ⟨s', q1, q3, q4, fun b hb => ?_, ?_⟩
  · rw [q5 b (H.valid b hb)]
    exact (r2 b fun k => H.apart b k hb).symm
  · refine stored_congr (C83_slots h2 hN) (fun k b hk hb => q5 b ?_) r3
    obtain ⟨i, hi, rfl⟩ := in_block hb
    exact H.slot k i hk hi

/-! ### Examples -/

theorem get_eq {o : Option (Int × Mem)} (h : o.isSome = true) {n : Int} (e : (o.get h).1 = n) : o = some (n, (o.get h).2) := by
  cases o with
  | none => cases h
  | some p => cases e; rfl

/-- `int a[x][x = x + 1]`, with `long x` -/
def exT : STy := .arr (.arr (.obj (.int false)) (.assign Low.Props.sx (.bin .add Low.Props.sx (.num (.int false) 1)))) Low.Props.sx

/-- The hypotheses are met; the length of the rows is evaluated once, before that of `a`: with x = 5, `a` has 6 rows of 6 ints, 144 bytes. -/
example : exT.ok ∧ (∃ m', Elab Low.Props.exS exT Low.Props.exM (.arr (.arr (.obj (.int false)) 6) 6) m' ∧ readN m' 1016 8 = 6) ∧
    exT.Fits (.arr (.arr (.obj (.int false)) 6) 6) ∧ (RTy.arr (.arr (.obj (.int false)) 6) 6).size = 144 ∧
    ∃ vt k1 e a, parseTy Low.Props.exTmp exT 0 = some (vt, k1) ∧ vlaSize Low.Props.exTmp vt k1 = some (e, a, 2) ∧ simple false e = true ∧ usable e = true ∧ need e ≤ Low.Props.exC.room := by
  refine ⟨⟨⟨trivial, by decide +kernel, _, rfl, by decide +kernel⟩, by decide +kernel, _, rfl, by decide +kernel⟩, ?_, ?_, by decide, ?_⟩
  · refine ⟨((evalX Low.Props.exS false (.assign Low.Props.sx (.bin .add Low.Props.sx (.num (.int false) 1))) Low.Props.exM).get (by decide +kernel)).2, ?_, by decide +kernel⟩
    refine .arr (.arr (n := 6) .obj (m'' := ((evalX Low.Props.exS false (.assign Low.Props.sx (.bin .add Low.Props.sx (.num (.int false) 1))) Low.Props.exM).get (by decide +kernel)).2) ?_ (by decide)) (n := 6) ?_ (by decide)
    · have e1 : ((evalX Low.Props.exS false (.assign Low.Props.sx (.bin .add Low.Props.sx (.num (.int false) 1))) Low.Props.exM).get (by decide +kernel)).1 = 6 := by decide +kernel
      exact get_eq _ e1
    · generalize hm : ((evalX Low.Props.exS false (.assign Low.Props.sx (.bin .add Low.Props.sx (.num (.int false) 1))) Low.Props.exM).get (by decide +kernel)).2 = m'
      have h6 : readN m' 1016 8 = 6 := by rw [← hm]; decide +kernel
      have h7 : readN m' (Low.Props.exS.fp + BitVec.ofInt 64 (-8)) 8 = 6 := by rw [show Low.Props.exS.fp + BitVec.ofInt 64 (-8) = 1016 by decide]; exact h6
      have hok : Low.Props.exS.ok (Low.Props.exS.fp + BitVec.ofInt 64 (-8)) 8 = true := by decide +kernel
      simp only [Low.Props.sx, evalX, varAddrC, Option.bind_eq_bind, Option.bind_some, Bool.false_eq_true, if_false, CTy.low, loadC, Ty.size, hok, if_true, Ty.unsigned, h7, Ty.bits]
      rfl
  · refine ⟨⟨trivial, fun t c ht hc => ?_⟩, by decide⟩
    cases ht
    cases hc
    decide +kernel
  · refine ⟨_, _, _, _, rfl, rfl, by decide +kernel, by decide +kernel, by decide +kernel⟩

/-- `a` at fp-16, its size, 24, at fp-8, alloca_bottom at fp-24 -/
def exSt : St := ⟨fun r => if r = .sp then 0x7ff00000 else if r = .fp then 0x7ff00100 else 0, writeN (writeN (fun _ => 0) 0x7ff000e8 8 0x7ff00000) 0x7ff000f8 8 24⟩

def labelOf : Option Instr → Option Label
  | some (.label l) => some l
  | _ => none

theorem unique_of {P : Prog} (h : ∀ i, i < P.length → ∀ j, j < P.length → labelOf P[i]? ≠ none → labelOf P[i]? = labelOf P[j]? → i = j) : UniqueLabels P := by
  intro i j l hi hj
  exact h i (List.getElem?_eq_some_iff.mp hi).1 j (List.getElem?_eq_some_iff.mp hj).1 (by rw [hi]; simp [labelOf]) (by rw [hi, hj])

/-- The hypotheses of C83_declared are met: 24 bytes are allocated. -/
example : ∃ s A b, Alloca.Hist nullEnv Alloca.exArea s A ∧ A.blocks = [(b, 24)] ∧ readN s.mem 0x7ff000f0 8 = b.toNat := by
  have h0 : Alloca.Hist nullEnv Alloca.exArea exSt ⟨[], [], fun _ => none⟩ := by
    refine .start rfl rfl ?_
    rw [show Alloca.exArea.slot = (0x7ff000e8 : W) from by decide]
    decide +kernel
  obtain ⟨s', A, b, -, h2, -, h3, h4, -⟩ := C83_declared (P := declCode (-16) (-8) (-24) (.uniq 1) (.uniq 2)) (pc := 0) (off := -16) (size := -8) (n := 24) Alloca.exArea_ok h0 (by decide +kernel)
    (by intro i hi; unfold Alloca.Area.inStack; revert i; decide +kernel)
    (by intro i hi; unfold Alloca.Area.inStack Alloca.Area.inSlot; revert i; decide +kernel)
    (by decide +kernel) (unique_of (by decide +kernel)) (codeAt_self _)
  exact ⟨s', A, b, h2, h3, h4⟩

/-- The hypotheses of C83_arith and C83_sizeof are met: with rows of 6 ints, 1000 + 3 is 1072, and the size of a row is 24. -/
example : evalC Low.Props.exC false 0 (addN false ⟨.num (.long true) 1000, .ptr (.int false)⟩ (.vla (.obj (.int false)) 0) ⟨.num (.int false) 3, .int false⟩).e (writeN (fun _ => 0) 1024 8 24)
      = some (1072, writeN (fun _ => 0) 1024 8 24) ∧
    evalC Low.Props.exC false 0 (sizeofN (.vla (.obj (.int false)) 0)).e (writeN (fun _ => 0) 1024 8 24) = some (24, writeN (fun _ => 0) 1024 8 24) := by
  have ha : Slots Low.Props.exTmp 2 (.vla (.obj (.int false)) 0) := .vla (k := 0) .obj (Nat.le_refl _) (by decide)
  have hs : Stored Low.Props.exS (writeN (fun _ => 0) 1024 8 24) (.vla (.obj (.int false)) 0) (.arr (.obj (.int false)) 6) := ⟨by decide +kernel, rfl⟩
  exact ⟨C83_arith Low.Props.ex_hidden false ha hs _ _ (.int false) (.int false) rfl (.refl _) rfl ev_num ev_num (by decide), C83_sizeof Low.Props.ex_hidden ha hs 0⟩

/-! ### Where the code does not have the property -/

/-- A violation of C83: `int n = 1 << 29; int a[n]` has 2 GiB in C; the size is computed as an int, and the code computes -2 GiB. -/
theorem C83_int_product_wrong :
    let st := STy.arr (.obj (.int false)) (.var (.int false) (.loc (-8)))
    let m := writeN (fun _ => 0) 1016 8 (2 ^ 29)
    Elab Low.Props.exS st m (.arr (.obj (.int false)) (2 ^ 29)) m ∧ (RTy.arr (.obj (.int false)) (2 ^ 29)).size = 2 ^ 31 ∧
      ∃ vt k1 e a k2, parseTy Low.Props.exTmp st 0 = some (vt, k1) ∧ vlaSize Low.Props.exTmp vt k1 = some (e, a, k2) ∧ Cg.Props.Computes e m (BitVec.ofInt 64 (-(2 ^ 31))) := by
  refine ⟨.arr .obj ?_ (by decide), by decide, _, _, _, _, _, rfl, rfl, Cg.Props.computes_sound (n := 14) (by decide +kernel)⟩
  have h7 : readN (writeN (fun _ => 0) 1016 8 (2 ^ 29)) (Low.Props.exS.fp + BitVec.ofInt 64 (-8)) 4 = 2 ^ 29 := by decide +kernel
  have hok : Low.Props.exS.ok (Low.Props.exS.fp + BitVec.ofInt 64 (-8)) 4 = true := by decide +kernel
  simp only [evalX, varAddrC, Option.bind_eq_bind, Option.bind_some, Bool.false_eq_true, if_false, CTy.low, loadC, Ty.size, hok, if_true, Ty.unsigned, h7, Ty.bits]
  rfl

/-- A violation of C83: the difference of two pointers to arrays of variable length is the number of bytes divided by 8, whatever the size of the arrays. -/
theorem C83_difference_wrong {b : ATy} {o : Int} {L R : Node} {d : Nat} {m m1 m2 : Mem} {x y : Int} (hy : evalC E false (d + 1) R.e m = some (y, m1))
    (hx : evalC E false (d + 1 + 1) L.e m1 = some (x, m2)) (h1 : -(2 ^ 62) < x - y) (h2 : x - y < 2 ^ 62) :
    evalC E false d (diffN L (.vla b o) R).e m = some ((x - y).tdiv 8, m2) := by
  have e8 : convC (.long false) 8 = 8 := by decide
  have hrg : ∀ v : Int, -(2 ^ 62) < v → v < 2 ^ 62 → inRange (.long false) v = true := by
    intro v h1 h2
    have : inRange (.long false) v = decide (-(2 ^ 63) ≤ v ∧ v < 2 ^ 63) := rfl
    rw [this]
    exact decide_eq_true (by omega)
  have hsub : evalC E false (d + 1) (.bin .sub (.long false) L.e R.e) m = some (x - y, m2) := by
    refine ev_bin hy hx ?_
    simp only [binC, promote, arithC, Ty.unsigned, Bool.false_eq_true, if_false, hrg _ h1 h2, if_true]
  have hr : evalC E false d (.cast (.long false) (.num (.int false) 8)) m = some (8, m) := by
    have := ev_cast (E := E) (d := d) (t := .long false) (ev_num (t := .int false) (v := 8) (m := m)) (by simp)
    rwa [e8] at this
  have hl := ev_cast (t := .long false) hsub (by simp)
  rw [convC_id rfl (hrg _ h1 h2)] at hl
  refine ev_bin hr hl ?_
  have h8 : -(2 ^ 62) < (x - y).tdiv 8 ∧ (x - y).tdiv 8 < 2 ^ 62 := by
    rcases Int.le_total 0 (x - y) with h | h
    · rw [Int.tdiv_eq_ediv_of_nonneg h]; omega
    · have : (x - y).tdiv 8 = -((-(x - y)) / 8) := by
        rw [← Int.tdiv_eq_ediv_of_nonneg (by omega), Int.neg_tdiv]; omega
      rw [this]; omega
  show (if (8 : Int) = 0 then none else arithC (.long false) ((x - y).tdiv 8)) = _
  rw [if_neg (by decide)]
  simp only [arithC, Ty.unsigned, Bool.false_eq_true, if_false, hrg _ h8.1 h8.2, if_true]

/-- For instance with rows of 24 bytes: `&a[1] - &a[0]` is 1 in C, and 3 here. -/
example : ptrDiff 1024 1000 24 = some 1 ∧ (1024 - 1000 : Int).tdiv 8 = 3 := by decide

end Toycc.Vla.Props
