import Verif.Src.ProgProps
/-! An example for C73: `long f(long n) { long y = 0; if (n) { y += n; y += f(n - 1); } return y; }` -/
namespace Toycc.Src.Props.Ex73
open Toycc.Rv Toycc.Cg Toycc.Low Toycc.Src
open Toycc.Stm (Out Res Tgt End)
open Toycc.Frame hiding St
open Toycc.Whole (Func inObjs bindArgs)


def lg : CTy := .long false
def v8 : Frame.Var := ⟨.int, 8, 8⟩
def n : SExpr := .var lg (.loc (-40))
def y : SExpr := .var lg (.loc (-24))
def rec1 : SExpr := .call (.var (.func lg) (.glob "f")) (.cons lg (.bin .sub n (.num (.int false) 1)) .nil)
def body : XStmt :=
  .seq (.items [.ini lg (-24) (.num (.int false) 0)])
    (.seq (.ifs n (.seq (.items [.expr (.opAssign .add y n)]) (.seq (.items [.expr (.opAssign .add y rec1)]) .skip)) .skip) (.seq (.ret (some y)) .skip))
/-- The two compound assignments make a hidden variable each. -/
def f : XFunc := ⟨"f", lg, [lg], [(v8, true), (v8, true), (v8, false), (v8, true)], body⟩
def fr : Frame := ⟨[-8, -16, -24, -32, -40], 40⟩

theorem lay : f.lay = some fr := by decide +kernel

theorem wf : f.Wf := ⟨by decide +kernel, by decide +kernel, by decide +kernel⟩
theorem objs : f.objs fr = [(-24, v8), (-40, v8)] := by decide +kernel

theorem slots : f.slots fr = [(.long false, -40)] := by decide +kernel

/-- Addresses of the two objects. -/
def ya (fp : W) : W := fp + BitVec.ofInt 64 (-24)
def na (fp : W) : W := fp + BitVec.ofInt 64 (-40)

theorem in_objs (fp b : W) : inObjs fp (f.objs fr) b = true ↔ (b - ya fp).toNat < 8 ∨ (b - na fp).toNat < 8 := by
  rw [objs]
  show (decide ((b - ya fp).toNat < 8) || (decide ((b - na fp).toNat < 8) || false)) = true ↔ _
  rw [Bool.or_false, Bool.or_eq_true, decide_eq_true_eq, decide_eq_true_eq]

theorem ya_na {fp b : W} (h : (b - ya fp).toNat < 8) : ¬ (b - na fp).toNat < 8 := by
  have e : b - na fp = (b - ya fp) + 16 := by
    unfold ya na
    have : BitVec.ofInt 64 (-24) = BitVec.ofInt 64 (-40) + 16 := by decide
    rw [this]
    generalize BitVec.ofInt 64 (-40) = o
    bv_omega
  rw [e, BitVec.toNat_add]
  have : BitVec.toNat (16 : W) = 16 := rfl
  omega

theorem na_ya {fp b : W} (h : (b - na fp).toNat < 8) : ¬ (b - ya fp).toNat < 8 := fun h' => ya_na h' h

variable {S : CEnv} {m : Mem}


/-- Both objects are live. -/
def Live (S : CEnv) : Prop := S.ok (ya S.fp) 8 = true ∧ S.ok (na S.fp) 8 = true

def Is (S : CEnv) (m : Mem) (a : W) (v : Int) : Prop := loadC S (.long false) m a = some v

theorem is_write {a : W} {k : Nat} (hk : k < 2 ^ 63) (hv : S.ok a 8 = true) : Is S (writeN m a 8 (rep k)) a k := Whole.Props.load_n hk hv

theorem readN_congr {m1 m2 : Mem} {a : W} : ∀ (k : Nat), k ≤ 8 → (∀ b, (b - a).toNat < 8 → m1 b = m2 b) → readN m1 a k = readN m2 a k
  | 0, _, _ => rfl
  | k + 1, hk, h => by
    have e : a + BitVec.ofNat 64 k - a = BitVec.ofNat 64 k := by rw [BitVec.add_comm, BitVec.add_sub_cancel]
    rw [readN, readN, readN_congr k (by omega) h, h (a + BitVec.ofNat 64 k) (by rw [e, BitVec.toNat_ofNat]; omega)]

theorem is_congr {m1 m2 : Mem} {a : W} {v : Int} (h : ∀ b, (b - a).toNat < 8 → m1 b = m2 b) (hi : Is S m1 a v) : Is S m2 a v := by
  unfold Is loadC at *
  dsimp only [Ty.size] at *
  rw [← readN_congr 8 (Nat.le_refl _) h]
  exact hi

theorem is_n {v : Int} {x : Nat} (h : Is S m (na S.fp) v) : Is S (writeN m (ya S.fp) 8 x) (na S.fp) v := by
  refine is_congr (fun b hb => ?_) h
  rw [writeN, if_neg (na_ya hb)]

theorem low_lg : lg.low = .long false := rfl

theorem eval_n {v : Int} (h : Is S m (na S.fp) v) : evalX S false n m = some (v, m) := by
  rw [n, evalX]
  simp only [varAddrC, Option.bind_eq_bind, Option.bind_some, Bool.false_eq_true, if_false]
  rw [low_lg]
  unfold Is na at h
  rw [h, Option.map_some]

theorem eval_y {v : Int} (h : Is S m (ya S.fp) v) : evalX S false y m = some (v, m) := by
  rw [y, evalX]
  simp only [varAddrC, Option.bind_eq_bind, Option.bind_some, Bool.false_eq_true, if_false]
  rw [low_lg]
  unfold Is ya at h
  rw [h, Option.map_some]

theorem conv {k : Nat} (hk : k < 2 ^ 63) : convC (.long false) (k : Int) = k := by
  simp only [convC, Ty.unsigned, Ty.bits, Ty.size, Bool.false_eq_true, if_false]
  exact Whole.Props.bmod_id hk

theorem adr_nat (a : W) : adr (a.toNat : Int) = a := by simp [adr]

theorem bin_add (x z : Int) : binC .add (.long false) x z = arithC Whole.Props.long (x + z) := by
  simp only [binC, promote, Whole.Props.long]

theorem bin_sub (x z : Int) : binC .sub (.long false) x z = arithC Whole.Props.long (x - z) := by
  simp only [binC, promote, Whole.Props.long]

theorem usual_ll : usual (.long false) (.long false) = some lg := by decide
theorem usual_li : usual (.long false) (.int false) = some lg := by decide

theorem op_ll (x z : Int) : opC .add lg lg x z = (usual (.long false) (.long false)).bind fun t => binC .add t.low (convC t.low x) (convC t.low z) := by
  unfold opC; rfl

theorem op_li (x z : Int) : opC .sub lg (.int false) x z = (usual (.long false) (.int false)).bind fun t => binC .sub t.low (convC t.low x) (convC t.low z) := by
  unfold opC; rfl

theorem op_add {x z : Nat} (hs : x + z < 2 ^ 63) : opC .add lg lg x z = some ((x + z : Nat) : Int) := by
  rw [op_ll, usual_ll, Option.bind_some, low_lg, conv (by omega), conv (by omega), bin_add, Whole.Props.arith_long (by omega), Int.natCast_add]

theorem op_sub {k : Nat} (hk : k < 2 ^ 62) : opC .sub lg (.int false) ((k + 1 : Nat) : Int) ((1 : Nat) : Int) = some (k : Int) := by
  rw [op_li, usual_li, Option.bind_some, low_lg, conv (by omega), conv (by omega), bin_sub, Whole.Props.arith_long (by omega)]
  exact congrArg some (by omega)

theorem store_y {x : Nat} (hl : Live S) (hx : x < 2 ^ 63) : storeL S lg none (ya S.fp) (x : Int) m = some ((x : Int), writeN m (ya S.fp) 8 (rep (x : Int))) := by
  rw [storeL, low_lg]
  simp only [Option.map_none, assignC, Ty.scalar, Ty.size, hl.1, Bool.and_self, if_true, conv hx]

theorem addr_y : evalX S true y m = some (((ya S.fp).toNat : Int), m) := by
  rw [y, evalX]
  simp only [varAddrC, Option.bind_eq_bind, Option.bind_some, if_true]
  rfl

theorem ty_y : typeC y = some lg := by decide
theorem ty_n : typeC n = some lg := by decide
theorem ty_1 : typeC (.num (.int false) 1) = some (.int false) := by decide
theorem ty_f : typeC (.var (.func lg) (.glob "f")) = some (.func lg) := by decide

theorem opAssign_eq {e : SExpr} (ht : typeC e = some lg) (hb : e.bits = none) : evalX S false (.opAssign .add y e) m =
    (evalX S true y m).bind fun p => (evalX S false e p.2).bind fun q => (loadL S lg none q.2 (adr p.1)).bind fun x => (opC .add lg lg x q.1).bind fun z => storeL S lg none (adr p.1) z q.2 := by
  have hv : e.vty lg = lg := by unfold SExpr.vty; rw [hb]
  have hvy : y.vty lg = lg := rfl
  have hyb : y.bits = none := rfl
  rw [evalX, ty_y, ht, hyb]
  simp only [Option.bind_eq_bind, Option.bind_some, Bool.false_eq_true, if_false, hv, hvy]

/-- `y += e`. -/
theorem eval_add {e : SExpr} {x z : Nat} (hl : Live S) (ht : typeC e = some lg) (hb : e.bits = none) (hx : Is S m (ya S.fp) x) (he : evalX S false e m = some ((z : Int), m)) (hs : x + z < 2 ^ 63) :
    evI S (.expr (.opAssign .add y e)) m = some (writeN m (ya S.fp) 8 (rep ((x + z : Nat) : Int))) := by
  have hx' : loadL S lg none m (ya S.fp) = some (x : Int) := by rw [loadL, low_lg]; exact hx
  rw [evI, opAssign_eq ht hb, addr_y, Option.bind_some, he, Option.bind_some, adr_nat, hx', Option.bind_some, op_add hs, Option.bind_some, store_y hl hs, Option.map_some]

theorem assign_eq {e : SExpr} : evalX S false (.assign y e) m = (evalX S true y m).bind fun p => (evalX S false e p.2).bind fun q => storeL S lg none (adr p.1) q.1 q.2 := by
  have hyb : y.bits = none := rfl
  rw [evalX, ty_y, hyb]
  simp only [Option.bind_eq_bind, Option.bind_some, Bool.false_and, Bool.false_eq_true, if_false]

theorem ini_eq {e : SExpr} : evI S (.ini lg (-24) e) m = if S.ok (ya S.fp) 8 then (evalX S false (.assign y e) (writeN m (ya S.fp) 8 0)).map (·.2) else none := by
  have h8 : lg.size = 8 := rfl
  rw [evI, h8, ya, y]

theorem num_eq (t : CTy) (v : Int) : evalX S false (.num t v) m = some (v, m) := by
  rw [evalX]
  simp only [Bool.false_eq_true, if_false]

/-- `long y = 0;`. -/
theorem eval_ini (hl : Live S) : evI S (.ini lg (-24) (.num (.int false) 0)) m = some (writeN (writeN m (ya S.fp) 8 0) (ya S.fp) 8 (rep ((0 : Nat) : Int))) := by
  have h0 : (0 : Int) = ((0 : Nat) : Int) := rfl
  rw [ini_eq, if_pos hl.1, assign_eq, addr_y, Option.bind_some, num_eq, Option.bind_some, adr_nat, h0, store_y hl (by decide), Option.map_some]

/-- Equal but for the two objects. -/
def Rest (fp : W) (m m' : Mem) : Prop := ∀ b, inObjs fp (f.objs fr) b = false → m' b = m b

theorem rest_y {fp : W} {m m' : Mem} {x : Nat} (h : Rest fp m m') : Rest fp m (writeN m' (ya fp) 8 x) := by
  intro b hb
  rw [writeN, if_neg, h b hb]
  intro hy
  have := (in_objs fp b).mpr (.inl hy)
  rw [hb] at this
  cases this

theorem rest_n {fp : W} {m m' : Mem} {x : Nat} (h : Rest fp m m') : Rest fp m (writeN m' (na fp) 8 x) := by
  intro b hb
  rw [writeN, if_neg, h b hb]
  intro hy
  have := (in_objs fp b).mpr (.inr hy)
  rw [hb] at this
  cases this

theorem ret_y {it : Nat} {x : Nat} (hx : x < 2 ^ 63) (h : Is S m (ya S.fp) x) : execX S lg it .void none (.ret (some y)) m = .done (.ret (some (x : Int))) m := by
  rw [execX]
  have : evalX S false (.cast lg y) m = some ((x : Int), m) := by
    rw [evalX]
    simp only [eval_y h, Option.bind_eq_bind, Option.bind_some, Bool.false_eq_true, if_false]
    have : convC lg.low (x : Int) = x := by rw [low_lg]; exact conv hx
    rw [this]
    rfl
  rw [this]

theorem run_zero {it : Nat} (hl : Live S) (hn : Is S m (na S.fp) 0) : ∃ m', runX S lg it none body m = .done (.ret (some 0)) m' ∧ Rest S.fp m m' := by
  refine ⟨writeN (writeN m (ya S.fp) 8 0) (ya S.fp) 8 (rep ((0 : Nat) : Int)), ?_, rest_y (rest_y fun _ _ => rfl)⟩
  have h1 := eval_ini (m := m) hl
  have h2 := eval_n (is_n (x := rep ((0 : Nat) : Int)) (is_n (x := 0) hn))
  have h3 := ret_y (it := it) (x := 0) (by decide) (is_write (m := writeN m (ya S.fp) 8 0) (k := 0) (by decide) hl.1)
  have : execX S lg it .void none body m = .done (.ret (some 0)) (writeN (writeN m (ya S.fp) 8 0) (ya S.fp) 8 (rep ((0 : Nat) : Int))) := by
    simp only [body, execX, evIs, h1, Option.bind_some, Res.andThen, h2]
    rw [execX] at h3
    simp only [ne_eq, not_true_eq_false, if_false]
    rw [h3]
    rfl
  rw [runX.eq_def, this]

theorem sub_eq : evalX S false (.bin .sub n (.num (.int false) 1)) m =
    (evalX S false (.num (.int false) 1) m).bind fun q => (evalX S false n q.2).bind fun p => (opC .sub lg (.int false) p.1 q.1).map (·, p.2) := by
  have hlf : leftFirst .sub lg (.int false) = false := rfl
  have hv1 : n.vty lg = lg := rfl
  have hv2 : (SExpr.num (.int false) 1).vty (.int false) = .int false := rfl
  conv => lhs; rw [evalX]
  rw [ty_n, ty_1]
  simp only [hlf, hv1, hv2, Option.bind_eq_bind, Option.bind_some, Bool.false_eq_true, if_false]

theorem call_eq {as : SArgs} : evalX S false (.call (.var (.func lg) (.glob "f")) as) m =
    (evalArgsX S as m).bind fun p => (evalX S false (.var (.func lg) (.glob "f")) p.2).bind fun q => S.call (adr q.1) 0 lg.low p.1 q.2 := by
  rw [evalX, ty_f]
  simp only [CTy.ret, Option.bind_eq_bind, Option.bind_some, Bool.false_eq_true, if_false]

theorem arg_eq {e : SExpr} : evalArgsX S (.cons lg e .nil) m = (evalX S false e m).map fun p => ([(lg.low, convC lg.low p.1)], p.2) := by
  rw [evalArgsX, evalArgsX]
  cases h : evalX S false e m <;> simp only [Option.bind_eq_bind, Option.bind_some, Option.bind_none, h, Option.map_some, Option.map_none]

theorem fun_eq : evalX S false (.var (.func lg) (.glob "f")) m = some (((S.sym (.sym "f")).toNat : Int), m) := by
  rw [evalX]
  simp only [varAddrC, CTy.low, loadC, Option.bind_eq_bind, Option.bind_some, Bool.false_eq_true, if_false, Option.map_some]

theorem eval_rec {k : Nat} {r : Int} (hk : k < 2 ^ 62) (hn : Is S m (na S.fp) (k + 1 : Nat)) (hc : S.call (S.sym (.sym "f")) 0 (.long false) [(.long false, (k : Int))] m = some (r, m)) :
    evalX S false rec1 m = some (r, m) := by
  have h1 : (1 : Int) = ((1 : Nat) : Int) := rfl
  rw [rec1, call_eq, arg_eq, sub_eq, num_eq, Option.bind_some, eval_n hn, Option.bind_some, h1, op_sub hk, Option.map_some, Option.map_some, Option.bind_some, fun_eq, Option.bind_some, adr_nat,
    low_lg, conv (by omega)]
  exact hc

theorem run_succ {it k r : Nat} (hl : Live S) (hk : k < 2 ^ 61) (hr : r < 2 ^ 61) (hn : Is S m (na S.fp) (k + 1 : Nat))
    (hc : ∀ m, S.call (S.sym (.sym "f")) 0 (.long false) [(.long false, (k : Int))] m = some ((r : Int), m)) :
    ∃ m', runX S lg it none body m = .done (.ret (some ((k + 1 + r : Nat) : Int))) m' ∧ Rest S.fp m m' := by
  let m1 := writeN (writeN m (ya S.fp) 8 0) (ya S.fp) 8 (rep ((0 : Nat) : Int))
  let m2 := writeN m1 (ya S.fp) 8 (rep ((0 + (k + 1) : Nat) : Int))
  let m3 := writeN m2 (ya S.fp) 8 (rep ((0 + (k + 1) + r : Nat) : Int))
  refine ⟨m3, ?_, rest_y (rest_y (rest_y (rest_y fun _ _ => rfl)))⟩
  have n1 : Is S m1 (na S.fp) (k + 1 : Nat) := is_n (is_n hn)
  have n2 : Is S m2 (na S.fp) (k + 1 : Nat) := is_n n1
  have y1 : Is S m1 (ya S.fp) (0 : Nat) := is_write (by decide) hl.1
  have y2 : Is S m2 (ya S.fp) (0 + (k + 1) : Nat) := is_write (by omega) hl.1
  have y3 : Is S m3 (ya S.fp) (0 + (k + 1) + r : Nat) := is_write (by omega) hl.1
  have h1 : evI S (.ini lg (-24) (.num (.int false) 0)) m = some m1 := eval_ini hl
  have h2 := eval_n n1
  have h3 : evI S (.expr (.opAssign .add y n)) m1 = some m2 := eval_add hl (by decide) rfl y1 h2 (by omega)
  have h4 : evI S (.expr (.opAssign .add y rec1)) m2 = some m3 := eval_add hl (by decide) rfl y2 (eval_rec (by omega) n2 (hc m2)) (by omega)
  have h5 := ret_y (it := it) (by omega) y3
  have : execX S lg it .void none body m = .done (.ret (some ((0 + (k + 1) + r : Nat) : Int))) m3 := by
    simp only [body, execX, evIs, h1, Option.bind_some, Res.andThen, h2, h3, h4]
    have hne : ((k + 1 : Nat) : Int) ≠ 0 := by omega
    rw [execX] at h5
    simp only [hne, ne_eq, not_false_eq_true, if_true]
    rw [h5]
  rw [runX.eq_def, this, Nat.zero_add]

/-! ### Room for the objects of calls, wherever those of other calls are -/

/-- There are blocks of 40 bytes without live bytes, 16 for each of `r` further calls and one more. -/
def Free (lo hi : Nat) (valid : W → Bool) (r : Nat) : Prop :=
  ∃ L : List Nat, L.Nodup ∧ 16 * r < L.length ∧ ∀ i ∈ L, lo + 40 * i + 40 ≤ hi ∧ ∀ b : W, lo + 40 * i ≤ b.toNat → b.toNat < lo + 40 * i + 40 → valid b = false

theorem without : ∀ (H L : List Nat), L.Nodup → ∃ L' : List Nat, L'.Nodup ∧ L.length ≤ L'.length + H.length ∧ ∀ i ∈ L', i ∈ L ∧ i ∉ H
  | [], L, h => ⟨L, h, Nat.le_refl _, fun i hi => ⟨hi, by simp⟩⟩
  | a :: H, L, h => by
    obtain ⟨L', h1, h2, h3⟩ := without H (L.erase a) (h.erase a)
    refine ⟨L', h1, ?_, fun i hi => ?_⟩
    · have := List.length_erase (a := a) (l := L)
      rw [List.length_cons]
      split at this <;> omega
    · obtain ⟨p, q⟩ := h3 i hi
      rw [h.mem_erase_iff] at p
      refine ⟨p.2, ?_⟩
      rw [List.mem_cons]
      rintro (r | r)
      · exact p.1 r
      · exact q r

/-- The bytes of the two objects. -/
def bytes (fp : W) : List W := (List.range 8).map (fun j => ya fp + BitVec.ofNat 64 j) ++ (List.range 8).map (fun j => na fp + BitVec.ofNat 64 j)

theorem mem_bytes {fp b : W} (h : inObjs fp (f.objs fr) b = true) : b ∈ bytes fp := by
  have key : ∀ a : W, (b - a).toNat < 8 → b ∈ (List.range 8).map (fun j => a + BitVec.ofNat 64 j) := by
    intro a ha
    rw [List.mem_map]
    refine ⟨(b - a).toNat, List.mem_range.mpr ha, ?_⟩
    rw [BitVec.ofNat_toNat, BitVec.setWidth_eq, BitVec.add_comm, BitVec.sub_add_cancel]
  unfold bytes
  rw [List.mem_append]
  rcases (in_objs fp b).mp h with h | h
  · exact .inl (key _ h)
  · exact .inr (key _ h)

theorem free_step {lo hi r : Nat} {valid : W → Bool} {fp : W} (h : Free lo hi valid (r + 1)) : Free lo hi (fun b => valid b || inObjs fp (f.objs fr) b) r := by
  obtain ⟨L, h1, h2, h3⟩ := h
  obtain ⟨L', g1, g2, g3⟩ := without ((bytes fp).map fun b => (b.toNat - lo) / 40) L h1
  have hlen : ((bytes fp).map fun b => (b.toNat - lo) / 40).length = 16 := by simp [bytes]
  refine ⟨L', g1, by omega, fun i hi => ?_⟩
  obtain ⟨p, q⟩ := g3 i hi
  obtain ⟨c1, c2⟩ := h3 i p
  refine ⟨c1, fun b hb1 hb2 => ?_⟩
  dsimp only
  rw [c2 b hb1 hb2, Bool.false_or]
  cases ho : inObjs fp (f.objs fr) b with
  | false => rfl
  | true =>
    exfalso
    apply q
    rw [List.mem_map]
    exact ⟨b, mem_bytes ho, by omega⟩

theorem down (x o : Nat) : BitVec.ofNat 64 (x + o) + BitVec.ofInt 64 (-(o : Int)) = BitVec.ofNat 64 x := by
  rw [BitVec.ofInt_neg, BitVec.ofInt_natCast, BitVec.ofNat_add, BitVec.add_neg_eq_sub, BitVec.add_sub_cancel]

theorem free_place {lo hi r : Nat} {valid : W → Bool} (hhi : hi < 2 ^ 64) (h : Free lo hi valid r) : ∃ fp, Placed lo hi valid (f.objs fr) fp := by
  obtain ⟨L, h1, h2, h3⟩ := h
  cases L with
  | nil => simp at h2
  | cons i L =>
    obtain ⟨c1, c2⟩ := h3 i List.mem_cons_self
    refine ⟨BitVec.ofNat 64 (lo + 40 * i + 40), fun b hb => ?_⟩
    have key : lo + 40 * i ≤ b.toNat ∧ b.toNat < lo + 40 * i + 40 := by
      have e1 : ya (BitVec.ofNat 64 (lo + 40 * i + 40)) = BitVec.ofNat 64 (lo + 40 * i + 16) := down _ 24
      have e2 : na (BitVec.ofNat 64 (lo + 40 * i + 40)) = BitVec.ofNat 64 (lo + 40 * i) := down _ 40
      have := b.isLt
      rcases (in_objs _ b).mp hb with h | h
      · rw [e1, BitVec.toNat_sub, BitVec.toNat_ofNat] at h
        omega
      · rw [e2, BitVec.toNat_sub, BitVec.toNat_ofNat] at h
        omega
    exact ⟨c2 b key.1 key.2, by omega, by omega⟩

/-! ### The C meaning -/

theorem live_of {sym : Label → W} {fp : W} {valid : W → Bool} {c : W → Ty → List (Ty × Int) → Mem → Option (Int × Mem)} :
    Live (envX sym fp (fun b => valid b || inObjs fp (f.objs fr) b) c) := by
  have key : ∀ a : W, (∀ b : W, (b - a).toNat < 8 → inObjs fp (f.objs fr) b = true) → (envX sym fp (fun b => valid b || inObjs fp (f.objs fr) b) c).ok a 8 = true := by
    intro a h
    rw [CEnv.ok, List.all_eq_true]
    intro i hi
    show (valid _ || inObjs fp (f.objs fr) _) = true
    rw [Bool.or_eq_true]
    right
    apply h
    rw [BitVec.add_comm, BitVec.add_sub_cancel, BitVec.toNat_ofNat]
    have := List.mem_range.mp hi
    omega
  exact ⟨key _ fun b hb => (in_objs fp b).mpr (.inl hb), key _ fun b hb => (in_objs fp b).mpr (.inr hb)⟩

/-- The sum of the numbers up to `k`. -/
def sum : Nat → Nat
  | 0 => 0
  | k + 1 => k + 1 + sum k

theorem sum_lt : ∀ k, k < 2 ^ 30 → sum k ≤ k * 2 ^ 30
  | 0, _ => Nat.le_refl _
  | k + 1, h => by
    have := sum_lt k (by omega)
    rw [sum, Nat.succ_mul]
    omega

theorem in_range {x : Int} (h : -(2 ^ 63) ≤ x ∧ x < 2 ^ 63) : inRange (.long false) x = true := decide_eq_true h

theorem call_step {sym : Label → W} {lo hi it D k r : Nat} {Y : ExtX} {valid : W → Bool} {m : Mem} (hr : r < 2 ^ 62) (hhi : hi < 2 ^ 64) (hfree : ∃ q, Free lo hi valid q)
    (h : ∀ fp base, ∃ m', runX (envX sym fp (fun b => valid b || inObjs fp (f.objs fr) b) (callsX [f] Y sym lo hi it D fun b => valid b || inObjs fp (f.objs fr) b)) lg it none body
      (writeN base (na fp) 8 (rep (k : Int))) = .done (.ret (some (r : Int))) m' ∧ Rest fp (writeN base (na fp) 8 (rep (k : Int))) m') :
    callsX [f] Y sym lo hi it (D + 1) valid (sym (.sym "f")) (.long false) [(.long false, (k : Int))] m = some ((r : Int), m) := by
  have hfind : [f].find? (fun f => decide (sym (.sym f.name) = sym (.sym "f"))) = some f := by simp [List.find?, f]
  rw [callsX]
  dsimp only
  rw [hfind]
  dsimp only
  rw [lay]
  dsimp only
  rw [if_pos ⟨rfl, rfl⟩]
  obtain ⟨_, hq⟩ := hfree
  obtain ⟨fp0, hp0⟩ := free_place hhi hq
  unfold callX
  apply agreed_some ⟨(fp0, m), hp0⟩
  intro p hp
  obtain ⟨m', e1, e2⟩ := h p.1 (fun b => if valid b then m b else p.2 b)
  have hb : ∀ base, bindArgs p.1 (f.slots fr) [(k : Int)] base = writeN base (na p.1) 8 (rep (k : Int)) := by
    intro base
    rw [slots, bindArgs, na]
    rfl
  have hfr : f.ret = lg := rfl
  have hfb : f.body = body := rfl
  rw [List.map_cons, List.map_nil, hb, hfr, hfb]
  dsimp only
  rw [e1]
  dsimp only
  have hres : f.result (.ret (some (r : Int))) = some (r : Int) := by
    show (if (true && inRange lg.low (r : Int)) = true then some (r : Int) else none) = some (r : Int)
    rw [if_pos]
    rw [Bool.true_and, low_lg]
    exact in_range (by omega)
  rw [hres, Option.map_some]
  suffices hm : (fun b => if valid b = true then m' b else m b) = m by rw [hm]
  funext b
  cases hv : valid b with
  | false => rfl
  | true =>
    rw [if_pos rfl]
    have ho : inObjs p.1 (f.objs fr) b = false := by
      cases ho : inObjs p.1 (f.objs fr) b with
      | false => rfl
      | true => rw [(hp b ho).1] at hv; cases hv
    rw [e2 b ho, writeN, if_neg, if_pos hv]
    intro hn
    rw [(in_objs p.1 b).mpr (.inr hn)] at ho
    cases ho

theorem sum_call (sym : Label → W) (Y : ExtX) (lo hi it : Nat) (hhi : hi < 2 ^ 64) : ∀ (k : Nat) (valid : W → Bool) (m : Mem), k < 2 ^ 30 → Free lo hi valid (k + 1) →
    callsX [f] Y sym lo hi it (k + 1) valid (sym (.sym "f")) (.long false) [(.long false, (k : Int))] m = some ((sum k : Int), m) := by
  intro k
  induction k with
  | zero =>
    intro valid m hk hfree
    refine call_step (r := 0) (by decide) hhi ⟨_, hfree⟩ fun fp base => ?_
    exact run_zero live_of (is_write (by decide) live_of.2)
  | succ k ih =>
    intro valid m hk hfree
    have hs := sum_lt k (by omega)
    refine call_step (r := k + 1 + sum k) (by omega) hhi ⟨_, hfree⟩ fun fp base => ?_
    refine run_succ live_of (by omega) (by omega) (is_write (by omega) live_of.2) fun m => ?_
    exact ih _ m (by omega) (free_step hfree)

/-! ### The machine: the code of `f` is loaded at address 4096; no other code is there -/

def g : Func := (f.low).getD ⟨"", .void, [], [], .skip⟩
theorem low : f.low = some g := by
  have : f.low.isSome = true := by decide +kernel
  unfold g
  cases h : f.low with
  | none => rw [h] at this; cases this
  | some x => rfl

def st : Stm.Stmt := ((Stm.elabBody 0 g.body).map (·.1)).getD .skip
def P : Prog := ((Whole.emitFns [(g, st)] ⟨0, 0⟩).map (·.1)).getD []

def env : Env where
  sym _ := 4096
  addr i := BitVec.ofNat 64 (4096 + i)
  index a := if 4096 ≤ a.toNat ∧ a.toNat ≤ 4096 + 200 then some (a.toNat - 4096) else none
  ext _ _ := none

theorem parse : Whole.parseFns 0 [g] = some ([(g, st)], 2) := by rfl
theorem emit : ∃ gs', Whole.emitFns [(g, st)] ⟨0, 0⟩ = some (P, gs') := ⟨_, rfl⟩
theorem short : P.length ≤ 200 := by decide +kernel

theorem wf_low : Whole.Wf g where
  few := by decide +kernel
  scalar := by decide +kernel
  last := by decide +kernel
  aligned := by decide +kernel
  body := ⟨by decide +kernel, by decide +kernel, by decide +kernel, by decide +kernel, by decide +kernel⟩

theorem loaded : Whole.Loaded P env (fun _ => 4096) [g] where
  syms _ := rfl
  fns := by
    intro f h
    rw [List.mem_singleton.mp h]
    decide +kernel
  back := by
    intro i hi
    have := short
    have e : (BitVec.ofNat 64 (4096 + i)).toNat = 4096 + i := by rw [BitVec.toNat_ofNat]; omega
    show (if _ ∧ _ then _ else _) = _
    simp only [env, e]
    rw [if_pos (by omega), Nat.add_sub_cancel_left]

theorem needs : ∀ h ∈ [g], ∀ fr, h.lay = some fr → Func.bytes fr / 8 + h.temps ≤ 10 := by
  intro h hh fr' hl
  rw [List.mem_singleton.mp hh] at hl ⊢
  have e := low_lay low
  rw [lay] at e
  rw [hl] at e
  cases e
  decide +kernel

/-- All hypotheses of `C73_program_partial` are met: for every `k` below a million the compiled function, called with `k` and enough stack, returns with the sum of the numbers up to `k`. -/
theorem runs (k : Nat) (hk : k < 1000000) (s : St) (hsp : 2000 * (k + 2) ≤ (s.r .sp).toNat) (ha : s.r .a0 = BitVec.ofNat 64 k) (hra : s.r .ra = BitVec.ofNat 64 (4096 + P.length)) :
    ∃ s', Runs P env (0, s) (P.length, s') ∧ s'.r .sp = s.r .sp ∧ s'.r .fp = s.r .fp ∧ s'.r .a0 = BitVec.ofNat 64 (sum k) := by
  obtain ⟨gs', he⟩ := emit
  have hlen := short
  have hlt := (s.r .sp).isLt
  have hfree : Free 0 (s.r .sp).toNat (fun _ => false) (k + 1) := by
    refine ⟨List.range (16 * (k + 1) + 1), List.nodup_range, by simp, fun i hi => ⟨?_, fun _ _ _ => rfl⟩⟩
    have := List.mem_range.mp hi
    omega
  have hc := sum_call (fun _ => 4096) (fun _ _ _ _ _ => none) 0 (s.r .sp).toNat 0 hlt k (fun _ => false) s.mem (by omega) hfree
  obtain ⟨pos, h1, s', h2, h3, h4, _, h5, _⟩ := C73_program_partial (P := P) (Xe := [f]) (f := f) (vs := [(k : Int)]) (t := P.length) (R := 0) (C := 10) (Y := fun _ _ _ _ _ => none)
    (D := k + 1) (it := 0) (lo := 0) (hi := (s.r .sp).toNat) parse (.rev (List.Sublist.refl _)) he rfl
    (by simp) (fun f hf => by rw [List.mem_singleton.mp hf]; exact wf_low) (by rw [List.mapM_cons, low]; rfl) (fun f hf => by rw [List.mem_singleton.mp hf]; exact wf)
    (X := fun _ _ _ _ _ _ => none) loaded (by intro _ _ _ _ _ _ _ _ h; cases h) ⟨fun _ _ _ _ _ _ _ h => (by cases h), fun _ _ _ _ _ _ _ h => (by cases h), fun _ _ _ _ _ _ _ _ h => (by cases h)⟩
    (by decide) needs (room := (k + 2) * 10) (sp := s.r .sp) (valid := fun _ => false) (Nat.le_refl _) (by omega) (Nat.le_refl _) (fun _ _ => rfl) (List.mem_singleton.mpr rfl) hc rfl
    (by intro b hb; cases hb) (by
      intro i t x h1 h2
      match i with
      | 0 =>
        cases h1; cases h2
        show ArgRep (.long false) (k : Int) (s.r .a0)
        rw [ha]
        simp [ArgRep, Ty.size]
      | i + 1 => simp [f] at h1) (by
      rw [hra]
      have e : (BitVec.ofNat 64 (4096 + P.length)).toNat = 4096 + P.length := by rw [BitVec.toNat_ofNat]; omega
      simp only [env, e]
      rw [if_pos (by omega), Nat.add_sub_cancel_left])
  have h0 : find P (.sym f.name) = some 0 := by decide +kernel
  rw [h0] at h1
  cases h1
  refine ⟨s', h2, h3, h4, ?_⟩
  have := h5.1
  rw [BitVec.ofInt_natCast] at this
  exact this

end Toycc.Src.Props.Ex73
