import Verif.Init.LocalMain
import Verif.Cg.Props
/-! For C52: the assignments of an initialiser are in the class of expressions that are compiled correctly. -/
namespace Toycc.Init
open Toycc.Cg Toycc.Low Toycc.Rv

mutual
/-- What is asked of the leaves and the type besides `Listed`: the initialising expressions are of the class of C38 and so is their conversion; indices are below 2^31; bit-fields are narrower than 64 bits. -/
def Ready : Ty → Ini Leaf → Prop
  | .arr b k, .mk _ _ cs => k ≤ 2 ^ 31 ∧ b.size < 2 ^ 63 ∧ ReadyArr b cs
  | .struc _ ms, .mk _ _ cs => ReadyMems ms cs
  | .union _ ms, .mk _ _ cs => ReadyMems ms cs
  | .scalar t, .mk (some e) _ _ => simple false e.1.e = true ∧ usable e.1.e = true ∧ castOk e.1.e.ty t.low = true
  | _, _ => True
def ReadyArr : Ty → Inis Leaf → Prop
  | _, .nil => True
  | b, .cons c r => Ready b c ∧ ReadyArr b r
def ReadyMems : Mems → Inis Leaf → Prop
  | .cons _ b t r, .cons c cs => (∀ bo bw, b = some (bo, bw) → bw < 64) ∧ Ready t c ∧ ReadyMems r cs
  | _, _ => True
end

/-- The node of a designator is of the class. -/
def DesgS (d : Desg) (c : CTy) : Prop := ∀ nd, desgExpr d = some nd → nd.ty = c ∧ nd.e.ty = c.low ∧ simple true nd.e = true ∧ usable nd.e = true ∧
  ((∃ b k, c = .arr b k) → simple false nd.e = true) ∧ (c.scalar = true → assignOk nd.e.bitfield c.low = true)

theorem low_ne_void {c : CTy} (h : c ≠ .void) : c.low ≠ .void := by cases c <;> simp_all [CTy.low]

theorem assignOk_none {c : CTy} (h : c.scalar = true) : assignOk none c.low = true := by
  cases c <;> simp_all [CTy.scalar, CTy.isInt, CTy.low, assignOk, Cg.Ty.scalar]

theorem desgS_var (c : CTy) (off : Int) : DesgS (.var c off) c := by
  intro nd h
  cases h
  exact ⟨rfl, rfl, rfl, rfl, fun _ => rfl, assignOk_none⟩

theorem desgS_mem {d : Desg} {k off : Nat} {b : Option (Nat × Nat)} {c : CTy} (h : DesgS d (.struc k)) (hc : c ≠ .void)
    (hb : ∀ bo bw, b = some (bo, bw) → 0 < bw ∧ bw < 64 ∧ bo + bw ≤ 8 * c.size ∧ c.scalar = true) : DesgS (.mem d off b c) c := by
  intro nd he
  simp only [desgExpr, Option.bind_eq_bind, Option.bind_eq_some_iff] at he
  obtain ⟨n, h1, h2⟩ := he
  cases h2
  obtain ⟨g1, g2, g3, g4, -, -⟩ := h n h1
  refine ⟨rfl, rfl, by simp [simple, g3, g4], rfl, ?_, ?_⟩
  · rintro ⟨b', k', rfl⟩
    have : b = none := by
      cases b with
      | none => rfl
      | some p => have := (hb p.1 p.2 rfl).2.2.2; simp [CTy.scalar, CTy.isInt] at this
    subst this
    simp [simple, g3, g4, fieldOk, CTy.low]
  · intro hs
    cases b with
    | none => exact assignOk_none hs
    | some p =>
      obtain ⟨bo, bw⟩ := p
      obtain ⟨h1, h2, h3, -⟩ := hb bo bw rfl
      have hsz := (low_size_eq hs).2
      have hls := (scalar_low hs).1
      simp [Expr.bitfield, assignOk, hls]
      omega

theorem desgS_elem {d : Desg} {b : CTy} {k i : Nat} (h : DesgS d (.arr b k)) (hv : b ≠ .void) (hi : i < 2 ^ 31) (hb : b.size < 2 ^ 63) : DesgS (.elem d i) b := by
  intro nd he
  simp only [desgExpr, Option.bind_eq_bind, Option.bind_eq_some_iff] at he
  obtain ⟨n, h1, s, h2, h3⟩ := he
  obtain ⟨g1, g2, g3, g4, g5, -⟩ := h n h1
  have hadd : newAdd n (numN i) = some ⟨.add, n, binN .mul (numN i) ⟨.num (.long false) b.size, .long false⟩⟩ := by
    simp [newAdd, g1, numN, CTy.isInt, CTy.base]
  rw [hadd] at h2
  cases h2
  have hnode : Bin.node ⟨.add, n, binN .mul (numN i) ⟨.num (.long false) b.size, .long false⟩⟩ =
      ⟨.bin .add .ptr (.cast .ptr n.e) (.cast .ptr (.bin .mul (.long false) (.cast (.long false) (.num (.int false) i)) (.cast (.long false) (.num (.long false) b.size)))), .ptr b⟩ := by
    simp [Bin.node, binN, g1, common, CTy.base, castN, CTy.low, numN, CTy.size]
  rw [hnode] at h3
  simp only [CTy.base, hv, if_false] at h3
  cases h3
  have r1 : inRange (.int false) (i : Int) = true := by
    simp only [inRange, Cg.Ty.unsigned, Cg.Ty.bits, Cg.Ty.size, Bool.false_eq_true, if_false, Nat.reduceMul, Nat.reduceSub]
    apply decide_eq_true; omega
  have r2 : inRange (.long false) (b.size : Int) = true := by
    simp only [inRange, Cg.Ty.unsigned, Cg.Ty.bits, Cg.Ty.size, Bool.false_eq_true, if_false, Nat.reduceMul, Nat.reduceSub]
    apply decide_eq_true; omega
  have hs : simple false (.bin .add .ptr (.cast .ptr n.e) (.cast .ptr (.bin .mul (.long false) (.cast (.long false) (.num (.int false) i)) (.cast (.long false) (.num (.long false) b.size))))) = true := by
    simp [simple, usable, r1, r2, g5 ⟨b, k, rfl⟩, g4, g2, castOk, binOk, CTy.low, Expr.ty, Cg.Ty.scalar, Cg.Ty.hasBase, Cg.Ty.isLong, arithTy, Cg.Ty.size]
  refine ⟨rfl, rfl, ?_, rfl, fun _ => ?_, assignOk_none⟩ <;>
  · rw [simple, hs]
    simp [usable, Expr.ty, Cg.Ty.hasBase]

theorem leaf_simple {t : CTy} {e : Leaf} {j : Option Nat} {cs : Inis Leaf} {d : Desg} {x : Expr} (ht : t.scalar = true) (hd : DesgS d t)
    (hr : simple false e.1.e = true ∧ usable e.1.e = true ∧ castOk e.1.e.ty t.low = true) (hx : create Prod.fst (.scalar t) (.mk (some e) j cs) d = some x) : simple false x = true := by
  simp only [create, Ty.cty, Option.bind_eq_bind, Option.bind_some, Option.bind_eq_some_iff] at hx
  obtain ⟨l, h1, nn, h2, h3⟩ := hx
  cases h3
  obtain ⟨g1, g2, g3, g4, -, g6⟩ := hd l h1
  have ha : assignN l e.1 = some ⟨.assign t.low l.e (.cast t.low e.1.e), t⟩ := by
    unfold assignN
    rw [g1]
    cases t <;> simp_all [CTy.scalar, CTy.isInt, castN]
  rw [ha] at h2
  cases h2
  have := (scalar_low ht).2.1
  simp [simple, g3, g4, hr.1, hr.2.1, hr.2.2, usable, this, g6 ht, Expr.ty]

mutual
theorem create_simple : ∀ (i : Ini Leaf) (t : Ty) (d : Desg) (x : Expr), t.Wf → Listed t i → Ready t i → (∀ c, t.cty = some c → DesgS d c) → create Prod.fst t i d = some x → simple false x = true
  | .mk y m cs, .arr b k, d, x, hw, hl, hr, hd, hx =>
    createArr_simple cs b k 0 k d .null x hw hl hr.2.2 (by omega) hr.1 (fun c hc i hi => desgS_elem (hd (.arr c k) (by simp [Ty.cty, hc])) (cty_ne_void (t := b) hw hc) hi (by rw [cty_size hc]; exact hr.2.1)) rfl hx
  | .mk y m cs, .struc k ms, d, x, hw, hl, hr, hd, hx => by
    obtain ⟨rfl, hl⟩ := hl
    exact createMems_simple cs ms k 0 d .null x hw hl hr (hd _ rfl) rfl hx
  | .mk y m cs, .union k ms, d, x, hw, hl, hr, hd, hx => createNth_simple cs (m.getD 0) ms k d x hw hl.1 hr (hd _ rfl) hx
  | .mk none m cs, .scalar t, d, x, hw, hl, hr, hd, hx => by cases hx; rfl
  | .mk none m cs, .flt, d, x, hw, hl, hr, hd, hx => by cases hx; rfl
  | .mk none m cs, .dbl, d, x, hw, hl, hr, hd, hx => by cases hx; rfl
  | .mk none m cs, .ldbl, d, x, hw, hl, hr, hd, hx => by cases hx; rfl
  | .mk (some e) m cs, .scalar t, d, x, hw, hl, hr, hd, hx => leaf_simple hw (hd _ rfl) hr hx
  | .mk (some e) m cs, .flt, d, x, hw, hl, hr, hd, hx => by cases hl
  | .mk (some e) m cs, .dbl, d, x, hw, hl, hr, hd, hx => by cases hl
  | .mk (some e) m cs, .ldbl, d, x, hw, hl, hr, hd, hx => by cases hl
theorem createArr_simple : ∀ (cs : Inis Leaf) (b : Ty) (k j K : Nat) (d : Desg) (x y : Expr), b.Wf → ListedArr b cs → ReadyArr b cs → j + k ≤ K → K ≤ 2 ^ 31 →
    (∀ c, b.cty = some c → ∀ i, i < 2 ^ 31 → DesgS (.elem d i) c) → simple false x = true → createArr Prod.fst b k cs d j x = some y → simple false y = true
  | _, b, 0, j, K, d, x, y, hw, hl, hr, hK, hB, hd, hx, hy => by
    simp only [createArr, Option.some.injEq] at hy; subst hy; exact hx
  | .nil, b, k + 1, j, K, d, x, y, hw, hl, hr, hK, hB, hd, hx, hy => by cases hy
  | .cons c r, b, k + 1, j, K, d, x, y, hw, hl, hr, hK, hB, hd, hx, hy => by
    simp only [createArr, Option.bind_eq_bind, Option.bind_eq_some_iff] at hy
    obtain ⟨z, h1, h2⟩ := hy
    have hz := create_simple c b (.elem d j) z hw hl.1 hr.1 (fun c' hc' => hd c' hc' j (by omega)) h1
    exact createArr_simple r b k (j + 1) K d (.comma x z) y hw hl.2 hr.2 (by omega) hB hd (by simp [simple, hx, hz]) h2
theorem createMems_simple : ∀ (cs : Inis Leaf) (ms : Mems) (k cur : Nat) (d : Desg) (x y : Expr), ms.Wf k cur → ListedMems ms cs → ReadyMems ms cs → DesgS d (.struc k) →
    simple false x = true → createMems Prod.fst ms cs d x = some y → simple false y = true
  | cs, .nil, k, cur, d, x, y, hw, hl, hr, hd, hx, hy => by
    simp only [createMems, Option.some.injEq] at hy; subst hy; exact hx
  | .nil, .cons _ _ _ _, k, cur, d, x, y, hw, hl, hr, hd, hx, hy => by cases hy
  | .cons c cs, .cons off none t r, k, cur, d, x, y, hw, hl, hr, hd, hx, hy => by
    obtain ⟨w1, w2, w3, w4⟩ := hw
    simp only [createMems, Option.bind_eq_bind, Option.bind_eq_some_iff] at hy
    obtain ⟨z, h1, h2⟩ := hy
    have hz := create_simple c t _ z w2 hl.1 hr.2.1 (fun c' hc' => by rw [hc']; exact desgS_mem hd (cty_ne_void w2 hc') (by simp)) h1
    exact createMems_simple cs r k _ d (.comma x z) y w4 hl.2 hr.2.2 hd (by simp [simple, hx, hz]) h2
  | .cons c cs, .cons off (some (bo, bw)) t r, k, cur, d, x, y, hw, hl, hr, hd, hx, hy => by
    obtain ⟨w1, w2, ⟨ct, rfl, hint⟩, w4, w5, w6, w7⟩ := hw
    simp only [Ty.size] at w4 w6
    simp only [createMems, Option.bind_eq_bind, Option.bind_eq_some_iff] at hy
    obtain ⟨z, h1, h2⟩ := hy
    have hz := create_simple c (.scalar ct) _ z w2 hl.1 hr.2.1 (fun c' hc' => by
      cases hc'
      exact desgS_mem hd (scalar_low w2).2.2 (fun bo' bw' h => by cases h; exact ⟨w5, hr.1 bo bw rfl, w6, w2⟩)) h1
    exact createMems_simple cs r k _ d (.comma x z) y w7 hl.2 hr.2.2 hd (by simp [simple, hx, hz]) h2
theorem createNth_simple : ∀ (cs : Inis Leaf) (j : Nat) (ms : Mems) (k : Nat) (d : Desg) (y : Expr), ms.WfU k → ListedMems ms cs → ReadyMems ms cs → DesgS d (.struc k) →
    createNth Prod.fst j ms cs d = some y → simple false y = true
  | cs, j, .nil, k, d, y, hw, hl, hr, hd, hy => by cases j <;> simp [createNth] at hy
  | .nil, j, .cons _ _ _ _, k, d, y, hw, hl, hr, hd, hy => by cases j <;> simp [createNth] at hy
  | .cons c cs, 0, .cons off b t r, k, d, y, hw, hl, hr, hd, hy => by
    obtain ⟨rfl, w2, w3, w4, -⟩ := hw
    exact create_simple c t _ y w2 hl.1 hr.2.1 (fun c' hc' => by
      rw [hc', Option.getD_some]
      refine desgS_mem hd (cty_ne_void w2 hc') (fun bo bw h => ?_)
      obtain ⟨h1, h2, h3, ct, rfl, -⟩ := w4 bo bw h
      cases hc'
      simp only [Ty.size] at h3
      exact ⟨h2, hr.1 bo bw h, by omega, w2⟩) hy
  | .cons c cs, j + 1, .cons off b t r, k, d, y, hw, hl, hr, hd, hy => createNth_simple cs j r k d y hw.2.2.2.2 hl.2 hr.2.2 hd hy
end

/-- The effect on memory of the code of an expression whose value is not used. -/
theorem compiled_effect {E : CEnv} {B : W} {env : Env} {P : Prog} (hw : World E B env P) (ht : E.CallsTyped)
    (e : Expr) (hs : simple false e = true) (gs : GS) (hr : gs.depth + need e ≤ E.room) :
    ∃ c gs', gen false e gs = some (c, gs') ∧ gs'.depth = gs.depth ∧
      ∀ m v m' pc s, evalC E false gs.depth e m = some (v, m') → CodeAt P pc c → Match E B gs.depth m s →
        ∃ s', Runs P env (pc, s) (pc + c.length, s') ∧ Match E B gs.depth m' s' := by
  obtain ⟨c, gs', hg⟩ := gen_total e false gs hs
  refine ⟨c, gs', hg, (gen_depth e _ _ _ _ hg).1, ?_⟩
  intro m v m' pc s hev hc hm
  obtain ⟨f, h1, -⟩ := evalS_of_evalC ht e false _ _ _ _ hs hr hev
  obtain ⟨s', h1, h2, h3, h4⟩ := gen_good hw e false gs c gs' m v f m' pc s hg h1 hc hm
  exact ⟨s', h1, h2⟩

end Toycc.Init
