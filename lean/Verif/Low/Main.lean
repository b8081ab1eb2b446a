import Verif.Low.Parts
/-! The trees made by the parser compute what C says. -/
namespace Toycc.Low
open Toycc.Cg Toycc.Rv

variable {S E : CEnv} {tmp : Nat → Int} {N : Nat}

structure Good (S E : CEnv) (tmp : Nat → Int) (N : Nat) (rv : Bool) (e : SExpr) (c : CTy) (k : Nat) (n : Node) (k' : Nat) : Prop where
  le : k ≤ k'
  rel : rv = true → Rel n.ty (e.vty c)
  lv : e.lv = true → n.ty = c
  str : c.isStruc = true → n.ty = c
  low : n.e.ty = n.ty.low
  shape : e.lv = true → Shape S E tmp N e n.e k k'
  fits : e.fits = true → n.ty = c ∨ n.ty.narrow = false
  sim : Sim S E tmp N e n.e k k'

/-- Expressions that are not lvalues. -/
theorem Good.of {rv : Bool} {e : SExpr} {c : CTy} {k : Nat} {n : Node} {k' : Nat} (he : e.lv = false) (hb : e.bits = none) (le : k ≤ k')
    (rel : rv = true → Rel n.ty c) (str : c.isStruc = true → n.ty = c) (low : n.e.ty = n.ty.low)
    (fits : e.fits = true → n.ty = c ∨ n.ty.narrow = false) (sim : Sim S E tmp N e n.e k k') : Good S E tmp N rv e c k n k' :=
  ⟨le, by rw [vty_none c hb]; exact rel, by rw [he]; simp, str, low, by rw [he]; simp, fits, sim⟩

/-- Value-only expressions. -/
theorem Sim.of {e : SExpr} {x : Expr} {k k' : Nat} (h0 : ∀ m, evalX S true e m = none)
    (h : k' ≤ N → ∀ (d : Nat) (m m1 : Mem) (v : Int) (m' : Mem), Agree S tmp m m1 → evalX S false e m = some (v, m') →
      ∃ m1', evalC E false d x m1 = some (v, m1') ∧ Agree S tmp m' m1' ∧ Kept S tmp N k k' m1 m1') : Sim S E tmp N e x k k' := by
  intro hN ad d m m1 v m' ha he
  cases ad
  · exact h hN d m m1 v m' ha he
  · rw [h0] at he; cases he

theorem good_num (rv : Bool) (t : CTy) (v : Int) (c : CTy) (k : Nat) (ht : typeC (.num t v) = some c) :
    ∃ n k', tr tmp (.num t v) k = some (n, k') ∧ Good S E tmp N rv (.num t v) c k n k' := by
  simp only [typeC] at ht
  split at ht
  · cases ht
    refine ⟨_, _, rfl, Good.of rfl rfl (Nat.le_refl _) (fun _ => .inl rfl) (fun _ => rfl) rfl (fun _ => .inl rfl) ?_⟩
    refine Sim.of (fun m => by simp [evalX]) ?_
    intro hN d m m1 x m' ha he
    simp only [evalX, Bool.false_eq_true, if_false, Option.some.injEq, Prod.mk.injEq] at he
    obtain ⟨rfl, rfl⟩ := he
    exact ⟨m1, ev_num, ha, Kept.refl _ _ _⟩
  · cases ht

theorem varAddr_agree (H : Hidden S E tmp N) {v : Var} {m m1 : Mem} (ha : Agree S tmp m m1) {a : W} (h : varAddrC S v m = some a) : varAddrC E v m1 = some a := by
  cases v with
  | loc off => simpa [varAddrC, H.fp] using h
  | glob n => simpa [varAddrC, H.sym] using h
  | vla off =>
    simp only [varAddrC] at h ⊢
    split at h
    · rename_i hc
      rw [H.fp, if_pos (ok_of H hc), ← readN_agree H ha hc]
      exact h
    · cases h

theorem good_var (H : Hidden S E tmp N) (rv : Bool) (t : CTy) (v : Var) (c : CTy) (k : Nat) (ht : typeC (.var t v) = some c) :
    ∃ n k', tr tmp (.var t v) k = some (n, k') ∧ Good S E tmp N rv (.var t v) c k n k' := by
  simp only [typeC] at ht
  split at ht
  · cases ht
  · cases ht
    refine ⟨_, _, rfl, Nat.le_refl _, fun _ => .inl rfl, fun _ => rfl, fun _ => rfl, rfl, fun _ => ?_, fun _ => .inl rfl, ?_⟩
    · intro f a h; cases h
    · intro hN ad d m m1 x m' ha he
      simp only [evalX, bindSome] at he
      obtain ⟨a, h1, h2⟩ := he
      have h1' := varAddr_agree H ha h1
      cases ad
      · simp only [Bool.false_eq_true, if_false, Option.map_eq_some_iff, Prod.mk.injEq] at h2
        obtain ⟨w, hw, rfl, rfl⟩ := h2
        refine ⟨m1, ?_, ha, Kept.refl _ _ _⟩
        simp [evalC, h1', loadC_agree H ha hw]
      · simp only [if_true, Option.some.injEq, Prod.mk.injEq] at h2
        obtain ⟨rfl, rfl⟩ := h2
        exact ⟨m1, by simp [evalC, h1'], ha, Kept.refl _ _ _⟩

theorem member_type {e : SExpr} {t : CTy} {o : Int} {b : Option (Nat × Nat)} {c : CTy} (ht : typeC (.member e t o b) = some c) :
    c = t ∧ ∃ s, typeC e = some (.struc s) := by
  simp only [typeC, bindSome] at ht
  obtain ⟨s, h1, ht⟩ := ht
  cases s <;> simp only [reduceCtorEq] at ht
  cases b with
  | none =>
    dsimp only at ht
    split at ht
    · cases ht
    · exact ⟨(Option.some.inj ht).symm, _, h1⟩
  | some p =>
    dsimp only at ht
    split at ht
    · exact ⟨(Option.some.inj ht).symm, _, h1⟩
    · cases ht

theorem good_member (H : Hidden S E tmp N) (rv : Bool) (e : SExpr) (t : CTy) (o : Int) (b : Option (Nat × Nat)) (c : CTy) (k : Nat)
    (hp : plain rv (.member e t o b) = true) (ht : typeC (.member e t o b) = some c)
    (ih : ∀ c k, plain false e = true → typeC e = some c → ∃ n k', tr tmp e k = some (n, k') ∧ Good S E tmp N false e c k n k') :
    ∃ n k', tr tmp (.member e t o b) k = some (n, k') ∧ Good S E tmp N rv (.member e t o b) c k n k' := by
  obtain ⟨rfl, s, hs⟩ := member_type ht
  simp only [plain, Bool.and_eq_true, Bool.or_eq_true, Bool.not_eq_true'] at hp
  obtain ⟨n, k', h1, g⟩ := ih _ k hp.1 hs
  have q_g := g.le
  have hn : n.ty = .struc s := g.str rfl
  refine ⟨⟨.member ⟨c.low, o, b⟩ n.e, c⟩, k', ?_, g.le, ?_, fun _ => rfl, fun _ => rfl, rfl, fun _ => ⟨n.e, rfl, g.sim⟩, fun _ => .inl rfl, ?_⟩
  · simp [tr, h1, hn]
  · intro hr
    rcases hp.2 with h | h
    · rw [hr] at h; cases h
    · exact relB_iff.mp h
  · intro hN ad d m m1 x m' ha he
    simp only [evalX, bindSome] at he
    obtain ⟨⟨a, m2⟩, h1, h2⟩ := he
    obtain ⟨m1', r1, r2, r3⟩ := g.sim (by omega) true d m m1 a m2 ha h1
    cases ad
    · simp only [Bool.false_eq_true, if_false, Option.map_eq_some_iff, Prod.mk.injEq] at h2
      obtain ⟨w, hw, rfl, rfl⟩ := h2
      refine ⟨m1', ?_, r2, r3⟩
      have hf : fieldC E ⟨c.low, o, b⟩ m1' (adr a + BitVec.ofInt 64 o) = some w := by
        have := loadL_agree H r2 hw
        cases b with
        | none => exact this
        | some p => exact this
      simp [evalC, r1, hf]
    · simp only [if_true, Option.some.injEq, Prod.mk.injEq] at h2
      obtain ⟨rfl, rfl⟩ := h2
      exact ⟨m1', by simp [evalC, r1], r2, r3⟩

theorem good_deref (H : Hidden S E tmp N) (rv : Bool) (e : SExpr) (c : CTy) (k : Nat) (hp : plain rv (.deref e) = true) (ht : typeC (.deref e) = some c)
    (ih : ∀ c k, plain true e = true → typeC e = some c → ∃ n k', tr tmp e k = some (n, k') ∧ Good S E tmp N true e c k n k') :
    ∃ n k', tr tmp (.deref e) k = some (n, k') ∧ Good S E tmp N rv (.deref e) c k n k' := by
  simp only [plain] at hp
  simp only [typeC, bindSome] at ht
  obtain ⟨t, ht, b, hb, hc⟩ := ht
  split at hc
  · cases hc
  · rename_i hv
    cases hc
    obtain ⟨n, k', h1, g⟩ := ih _ k hp ht
    have q_g := g.le
    have hti : t.isInt = false := by cases t <;> first | rfl | cases hb
    have hn : n.ty = t := by
      have := g.rel rfl
      rw [vty_nonint ht hti] at this
      exact this.eq (.inr hti)
    refine ⟨⟨.deref c.low n.e, c⟩, k', ?_, g.le, fun _ => .inl rfl, fun _ => rfl, fun _ => rfl, rfl, fun _ => ?_, fun _ => .inl rfl, ?_⟩
    · simp only [tr, h1, Option.bind_eq_bind, Option.bind_some, hn]
      cases t <;> simp only [CTy.base, reduceCtorEq, Option.some.injEq] at hb <;> subst hb <;> simp [CTy.base, hv]
    · intro f a h; cases h
    · intro hN ad d m m1 x m' ha he
      simp only [evalX, bindSome] at he
      obtain ⟨t', ht', b', hb', ⟨a, m2⟩, h1, h2⟩ := he
      rw [ht] at ht'
      cases ht'
      rw [hb] at hb'
      cases hb'
      obtain ⟨m1', r1, r2, r3⟩ := g.sim (by omega) false d m m1 a m2 ha h1
      cases ad
      · simp only [Bool.false_eq_true, if_false, Option.map_eq_some_iff, Prod.mk.injEq] at h2
        obtain ⟨w, hw, rfl, rfl⟩ := h2
        exact ⟨m1', by simp [evalC, r1, loadC_agree H r2 hw], r2, r3⟩
      · simp only [if_true, Option.some.injEq, Prod.mk.injEq] at h2
        obtain ⟨rfl, rfl⟩ := h2
        exact ⟨m1', by simp [evalC, r1], r2, r3⟩

theorem good_addr (rv : Bool) (e : SExpr) (c : CTy) (k : Nat) (hp : plain rv (.addr e) = true) (ht : typeC (.addr e) = some c)
    (ih : ∀ c k, plain false e = true → typeC e = some c → ∃ n k', tr tmp e k = some (n, k') ∧ Good S E tmp N false e c k n k') :
    ∃ n k', tr tmp (.addr e) k = some (n, k') ∧ Good S E tmp N rv (.addr e) c k n k' := by
  simp only [plain, Bool.and_eq_true] at hp
  simp only [typeC, bindSome] at ht
  obtain ⟨t, ht, hc⟩ := ht
  split at hc
  · rename_i hlv
    cases hc
    rw [Bool.and_eq_true] at hlv
    rw [ht] at hp
    simp only [Bool.not_eq_true'] at hp
    obtain ⟨n, k', h1, g⟩ := ih _ k hp.1 ht
    have q_g := g.le
    have hn := g.lv hlv.1
    refine ⟨⟨.addr n.e, .ptr t⟩, k', ?_, Good.of rfl rfl g.le (fun _ => .inl rfl) (fun _ => rfl) rfl (fun _ => .inl rfl) ?_⟩
    · have hsh := g.shape hlv.1
      have hty : (match n.ty with | .arr b _ => some (⟨Expr.addr n.e, .ptr b⟩, k') | t => some ((⟨.addr n.e, .ptr t⟩ : Node), k')) = some (⟨.addr n.e, .ptr t⟩, k') := by
        rw [hn]
        cases t <;> first | rfl | cases hp.2
      simp only [tr, h1, Option.bind_eq_bind, Option.bind_some]
      split
      · rename_i hx
        cases e with
        | member e0 t0 o b =>
          obtain ⟨a, ha, -⟩ := hsh
          rw [ha] at hx
          cases hx
          have := hlv.2
          simp [SExpr.bits] at this
        | _ => exact absurd hx (hsh _ _)
      · exact hty
    · refine Sim.of (fun m => by simp [evalX]) ?_
      intro hN d m m1 x m' ha he
      simp only [evalX, Bool.false_eq_true, if_false] at he
      obtain ⟨m1', r1, r2, r3⟩ := g.sim (by omega) true d m m1 x m' ha he
      exact ⟨m1', by simp [evalC, r1], r2, r3⟩
  · cases hc

theorem tr_bin {op : BinOp} {l r : SExpr} {k k1 k2 : Nat} {L R : Node} {B : Bin} (h1 : tr tmp l k = some (L, k1)) (h2 : tr tmp r k1 = some (R, k2))
    (hB : mkBin op L R = some B) : tr tmp (.bin op l r) k = some (B.node, k2) := by
  simp [tr, h1, h2, hB]

/-- Right operand first. -/
theorem sim_bin {op : BinOp} {l r : SExpr} {k k1 k2 : Nat} {L R : Node} {t1 t2 : CTy} {x : Expr} (h1 : typeC l = some t1) (h2 : typeC r = some t2)
    (hf : leftFirst op t1 t2 = false) (gl : Sim S E tmp N l L.e k k1) (gr : Sim S E tmp N r R.e k1 k2) (hk : k ≤ k1) (hk2 : k1 ≤ k2) (δ δ' : Nat)
    (h : ∀ d m m1 m2 u v z, evalC E false (d + δ) R.e m = some (v, m1) → evalC E false (d + δ') L.e m1 = some (u, m2) →
      opC op (l.vty t1) (r.vty t2) u v = some z → evalC E false d x m = some (z, m2)) : Sim S E tmp N (.bin op l r) x k k2 := by
  refine Sim.of (fun m => by simp [evalX]) ?_
  intro hN d m m1 v m' ha he
  simp only [evalX, Bool.false_eq_true, if_false, bindSome, h1, h2, Option.some.injEq, exists_eq_left', hf] at he
  obtain ⟨⟨y, ma⟩, hy, ⟨w, mb⟩, hw, he⟩ := he
  simp only [Option.map_eq_some_iff, Prod.mk.injEq] at he
  obtain ⟨z, hz, rfl, rfl⟩ := he
  obtain ⟨mc, r1, r2, r3⟩ := gr (by omega) false (d + δ) m m1 y ma ha hy
  obtain ⟨md, s1, s2, s3⟩ := gl (by omega) false (d + δ') ma mc w mb r2 hw
  exact ⟨md, h d m1 mc md w y z r1 s1 hz, s2, r3.trans s3 hk (Nat.le_refl _) (Nat.le_refl _) hk2⟩

/-- Left operand first. -/
theorem sim_bin' {op : BinOp} {l r : SExpr} {k k1 k2 : Nat} {L R : Node} {t1 t2 : CTy} {x : Expr} (h1 : typeC l = some t1) (h2 : typeC r = some t2)
    (hf : leftFirst op t1 t2 = true) (gl : Sim S E tmp N l L.e k k1) (gr : Sim S E tmp N r R.e k1 k2) (hk : k ≤ k1) (hk2 : k1 ≤ k2) (δ δ' : Nat)
    (h : ∀ d m m1 m2 u v z, evalC E false (d + δ) L.e m = some (u, m1) → evalC E false (d + δ') R.e m1 = some (v, m2) →
      opC op (l.vty t1) (r.vty t2) u v = some z → evalC E false d x m = some (z, m2)) : Sim S E tmp N (.bin op l r) x k k2 := by
  refine Sim.of (fun m => by simp [evalX]) ?_
  intro hN d m m1 v m' ha he
  simp only [evalX, Bool.false_eq_true, if_false, bindSome, h1, h2, Option.some.injEq, exists_eq_left', hf, if_true] at he
  obtain ⟨⟨y, ma⟩, hy, ⟨w, mb⟩, hw, he⟩ := he
  simp only [Option.map_eq_some_iff, Prod.mk.injEq] at he
  obtain ⟨z, hz, rfl, rfl⟩ := he
  obtain ⟨mc, r1, r2, r3⟩ := gl (by omega) false (d + δ) m m1 y ma ha hy
  obtain ⟨md, s1, s2, s3⟩ := gr (by omega) false (d + δ') ma mc w mb r2 hw
  exact ⟨md, h d m1 mc md y w z r1 s1 hz, s2, r3.trans s3 (Nat.le_refl _) hk2 hk (Nat.le_refl _)⟩

theorem leftFirst_false {op : BinOp} {t1 t2 : CTy} (h : t1.isInt = false ∨ t2.base = none ∨ op ≠ .add) : leftFirst op t1 t2 = false := by
  unfold leftFirst
  rcases h with h | h | h
  · simp [h]
  · simp [h]
  · simp [h]

theorem binN_low (op : BinOp) (L R : Node) (h : op = .shl ∨ op = .shr → L.e.ty = L.ty.low) : (binN op L R).e.ty = (binN op L R).ty.low := by
  cases op <;> rfl

theorem binN_fits {op : BinOp} {L R : Node} (h : op ≠ .shl ∧ op ≠ .shr) {c : CTy} (hc : (common L.ty R.ty).narrow = false) :
    (binN op L R).ty = c ∨ (binN op L R).ty.narrow = false := by
  right
  cases op <;> first | exact hc | rfl | exact absurd rfl h.1 | exact absurd rfl h.2

theorem good_bin (rv : Bool) (op : BinOp) (l r : SExpr) (c : CTy) (k : Nat) (hp : plain rv (.bin op l r) = true) (ht : typeC (.bin op l r) = some c)
    (ih1 : ∀ c k, plain true l = true → typeC l = some c → ∃ n k', tr tmp l k = some (n, k') ∧ Good S E tmp N true l c k n k')
    (ih2 : ∀ c k, plain true r = true → typeC r = some c → ∃ n k', tr tmp r k = some (n, k') ∧ Good S E tmp N true r c k n k') :
    ∃ n k', tr tmp (.bin op l r) k = some (n, k') ∧ Good S E tmp N rv (.bin op l r) c k n k' := by
  simp only [plain, Bool.and_eq_true] at hp
  obtain ⟨⟨hp1, hp2⟩, hp3⟩ := hp
  simp only [typeC, bindSome] at ht
  obtain ⟨t1, h1, t2, h2, hc⟩ := ht
  simp only [h1, h2, Bool.not_eq_true', Bool.and_eq_false_iff] at hp3
  obtain ⟨L, k1, e1, g1⟩ := ih1 t1 k hp1 h1
  have q_g1 := g1.le
  obtain ⟨R, k2, e2, g2⟩ := ih2 t2 k1 hp2 h2
  have q_g2 := g2.le
  have q1 := g1.rel rfl
  have q2 := g2.rel rfl
  have hle := Nat.le_trans g1.le g2.le
  by_cases i1 : (l.vty t1).isInt = true
  · by_cases i2 : (r.vty t2).isInt = true
    · -- integers
      obtain ⟨r1, r2⟩ := bin_int (E := E) op L R _ _ c q1 q2 i1 i2 hc
      have r2 := r2 L rfl
      have hb : t2.base = none := by rw [vty_int h2] at i2; exact base_int i2
      refine ⟨_, k2, tr_bin e1 e2 r1, Good.of rfl rfl hle (fun _ => r2.1) ?_ (binN_low _ _ _ fun _ => g1.low) ?_
        (sim_bin h1 h2 (leftFirst_false (.inr (.inl hb))) g1.sim g2.sim g1.le g2.le 0 1 r2.2)⟩
      · intro hs
        have := r2.1.eq (.inr (by cases c <;> first | rfl | cases hs))
        exact this
      · intro hf
        simp only [SExpr.fits, h1] at hf
        split at hf
        · rename_i ho
          rw [Bool.and_eq_true, Bool.not_eq_true'] at hf
          have hnn : L.ty.narrow = false := by
            rcases g1.fits hf.1 with h | h
            · rw [h]; exact hf.2
            · exact h
          right
          rcases ho with rfl | rfl <;> exact hnn
        · rename_i ho
          have j1 : L.ty.isInt = true := by rw [q1.int]; exact i1
          have j2 : R.ty.isInt = true := by rw [q2.int]; exact i2
          exact binN_fits (by simpa using ho) (common_ints _ (mem_ints j1) _ (mem_ints j2)).2.2
    · -- integer and pointer
      have n2 : t2.isInt = false := by rw [← vty_int h2]; simpa using i2
      have v2 := vty_nonint h2 n2
      rw [v2] at q2 hc i2
      have hR : R.ty = t2 := q2.eq (.inr n2)
      have j1 : L.ty.isInt = true := by rw [q1.int]; exact i1
      have hd1 := decay_int i1
      by_cases hcm : BinOp.cmp op = true
      · have harr : t2.isArr = false := by
          rcases hp3 with h | h
          · rcases h with h | h
            · rw [h] at hcm; cases hcm
            · rw [vty_int h1] at i1; rw [h] at i1; cases i1
          · exact h
        have ho : opT op (l.vty t1) t2 = if (l.vty t1).decay.scalar && t2.decay.scalar then some (.int false) else none := by
          cases op <;> first | rfl | cases hcm
        rw [ho] at hc
        split at hc
        · rename_i hs
          cases hc
          rw [Bool.and_eq_true] at hs
          have hcom : ∃ b, t2.decay = .ptr b ∧ common L.ty R.ty = .ptr b := by
            rw [hR]
            rcases decay_scalar hs.2 with h | ⟨b, rfl⟩ | ⟨b, n, rfl⟩ | ⟨q, rfl⟩
            · rw [h] at n2; cases n2
            · exact ⟨b, rfl, common_int_ptr j1⟩
            · cases harr
            · exact ⟨_, rfl, common_int_func j1⟩
          obtain ⟨b, hdb, hcom⟩ := hcom
          obtain ⟨r1, r2, r3⟩ := bin_cmp (E := E) op hcm L R b hcom
          refine ⟨_, k2, tr_bin e1 e2 r1, Good.of rfl rfl hle (fun _ => .inl r2) (fun _ => r2) (binN_low _ _ _ fun _ => g1.low) (fun _ => .inl r2)
            (sim_bin h1 h2 (leftFirst_false (.inr (.inr (by rintro rfl; cases hcm)))) g1.sim g2.sim g1.le g2.le 0 1 ?_)⟩
          intro d m m1 m2 u v z hr hl hz
          refine r3 d m m1 m2 u v z hr hl ?_
          have e : opC op (l.vty t1) t2 u v = binC op .ptr (convC .ptr u) (convC .ptr v) := by
            generalize l.vty t1 = c1 at i1
            cases op <;> first
              | (cases hcm; done)
              | (simp only [opC, hdb]; cases c1 <;> first | rfl | cases i1)
          rw [v2, e] at hz
          exact hz
        · cases hc
      · by_cases ha : op = .add
        · subst ha
          have : ∃ b, t2.base = some b ∧ t2.decay = .ptr b ∧ c = .ptr b := by
            simp only [opT, hd1] at hc
            generalize l.vty t1 = c1 at i1 hc
            cases t2 <;> first
              | (cases n2; done)
              | (exfalso; cases c1 <;> first | (cases i1; done) | (simp [CTy.decay, usual, CTy.arith] at hc; done))
              | (refine ⟨_, rfl, rfl, ?_⟩
                 cases c1 <;> first
                   | (cases i1; done)
                   | (dsimp only [CTy.decay] at hc
                      split at hc
                      · exact (Option.some.inj hc).symm
                      · cases hc))
              | (exfalso
                 cases c1 <;> first
                   | (cases i1; done)
                   | (simp [CTy.decay, CTy.object] at hc; done))
          obtain ⟨b, hb, hdb, rfl⟩ := this
          obtain ⟨-, r1, -, r2⟩ := bin_ptr (E := E) false R L b _ (by rw [hR]; exact hb) q1 i1
          have r2 := r2 R rfl
          have hlf : leftFirst .add t1 t2 = true := by
            unfold leftFirst
            rw [hb, ← vty_int h1, i1]; rfl
          refine ⟨_, k2, tr_bin e1 e2 (r1 rfl), Good.of rfl rfl hle (fun _ => .inl r2.1) (fun _ => r2.1) (binN_low _ _ _ (by simp)) (fun _ => .inl r2.1)
            (sim_bin' h1 h2 hlf g1.sim g2.sim g1.le g2.le 1 1 ?_)⟩
          intro d m m1 m2 u v z hr hl hz
          refine r2.2 d m m1 m2 v u z hr hl ?_
          have e : opC .add (l.vty t1) t2 u v = ptrAdd v u b.size := by
            generalize l.vty t1 = c1 at i1
            simp only [opC, hdb]; cases c1 <;> first | rfl | cases i1
          rw [v2, e] at hz
          exact hz
        · exfalso
          have nu : ∀ {c}, usual (l.vty t1).decay t2.decay = some c → False := by
            intro c h
            have := (usual_some h).2.1
            cases t2 <;> first | (cases n2; done) | cases this
          cases op with
          | add => exact ha rfl
          | eq | ne | lt | le => exact hcm rfl
          | shl | shr =>
            simp only [opT] at hc
            split at hc
            · rename_i h
              cases t2 <;> first | (cases n2; done) | cases h
            · cases hc
          | sub =>
            simp only [opT, hd1] at hc
            generalize l.vty t1 = c1 at i1 hc nu hd1
            rw [hd1] at nu
            cases c1 <;> first | (cases i1; done) | exact nu hc
          | _ => exact nu hc
  · -- pointer on the left
    have n1 : t1.isInt = false := by rw [← vty_int h1]; simpa using i1
    have v1 := vty_nonint h1 n1
    rw [v1] at q1 hc
    have hL : L.ty = t1 := q1.eq (.inr n1)
    have hlf : leftFirst op t1 t2 = false := leftFirst_false (.inl n1)
    by_cases hcm : BinOp.cmp op = true
    · have ho : opT op t1 (r.vty t2) = if t1.decay.scalar && (r.vty t2).decay.scalar then some (.int false) else none := by
        cases op <;> first | rfl | cases hcm
      rw [ho] at hc
      split at hc
      · rename_i hs
        cases hc
        rw [Bool.and_eq_true] at hs
        have hcom : ∃ b, t1.decay = .ptr b ∧ common L.ty R.ty = .ptr b := by
          rw [hL]
          rcases decay_scalar hs.1 with h | ⟨b, rfl⟩ | ⟨b, n, rfl⟩ | ⟨q, rfl⟩
          · rw [h] at n1; cases n1
          · exact ⟨b, rfl, common_base rfl⟩
          · exact ⟨b, rfl, common_base rfl⟩
          · exact ⟨_, rfl, common_func⟩
        obtain ⟨b, hdb, hcom⟩ := hcom
        obtain ⟨r1, r2, r3⟩ := bin_cmp (E := E) op hcm L R b hcom
        refine ⟨_, k2, tr_bin e1 e2 r1, Good.of rfl rfl hle (fun _ => .inl r2) (fun _ => r2) (binN_low _ _ _ fun _ => g1.low) (fun _ => .inl r2)
          (sim_bin h1 h2 hlf g1.sim g2.sim g1.le g2.le 0 1 ?_)⟩
        intro d m m1 m2 u v z hr hl hz
        refine r3 d m m1 m2 u v z hr hl ?_
        have e : opC op t1 (r.vty t2) u v = binC op .ptr (convC .ptr u) (convC .ptr v) := by
          cases op <;> first
            | (cases hcm; done)
            | (simp only [opC, hdb]; done)
        rw [v1, e] at hz
        exact hz
      · cases hc
    · have nu : ∀ {c}, usual t1.decay (r.vty t2).decay = some c → False := by
        intro c h
        have := (usual_some h).1
        cases t1 <;> first | (cases n1; done) | cases this
      have base : ∀ b, t1.decay = .ptr b → b.object = true → t1.base = some b := by
        intro b h hb
        cases t1 <;> simp only [CTy.decay, reduceCtorEq, CTy.ptr.injEq] at h <;> subst h
        · rfl
        · rfl
        · cases hb
      cases op with
      | eq | ne | lt | le => exact absurd rfl hcm
      | shl | shr =>
        exfalso
        simp only [opT] at hc
        split at hc
        · have := (prom_some hc).1
          cases t1 <;> first | (cases n1; done) | cases this
        · cases hc
      | add =>
        have : ∃ b, t1.decay = .ptr b ∧ (r.vty t2).isInt = true ∧ b.object = true ∧ c = .ptr b := by
          simp only [opT] at hc
          generalize r.vty t2 = c2 at hc nu
          cases hd : t1.decay with
          | ptr b =>
            rw [hd] at hc
            dsimp only at hc
            split at hc
            · rename_i h
              rw [Bool.and_eq_true] at h
              refine ⟨b, rfl, ?_, h.2, (Option.some.inj hc).symm⟩
              cases c2 <;> first | rfl | (have := h.1; cases this; done)
            · cases hc
          | void | struc _ =>
            rw [hd] at hc nu
            exfalso
            cases hd2 : c2.decay <;> rw [hd2] at hc nu <;> first | exact nu hc | (simp [CTy.isInt] at hc; done)
          | _ => exfalso; cases t1 <;> first | (cases n1; done) | cases hd
        obtain ⟨b, hd, i2, hob, rfl⟩ := this
        obtain ⟨r1, -, -, r2⟩ := bin_ptr (E := E) false L R b _ (by rw [hL]; exact base b hd hob) q2 i2
        have r2 := r2 L rfl
        refine ⟨_, k2, tr_bin e1 e2 (r1 rfl), Good.of rfl rfl hle (fun _ => .inl r2.1) (fun _ => r2.1) (binN_low _ _ _ (by simp)) (fun _ => .inl r2.1)
          (sim_bin h1 h2 hlf g1.sim g2.sim g1.le g2.le 1 1 ?_)⟩
        intro d m m1 m2 u v z hr hl hz
        refine r2.2 d m m1 m2 u v z hr hl ?_
        have e : opC .add t1 (r.vty t2) u v = ptrAdd u v b.size := by simp only [opC, hd]
        rw [v1, e] at hz
        exact hz
      | sub =>
        have : ∃ b, t1.decay = .ptr b ∧ b.object = true ∧ (((r.vty t2).isInt = true ∧ c = .ptr b) ∨ ((r.vty t2).decay = .ptr b ∧ c = .long false)) := by
          simp only [opT] at hc
          generalize r.vty t2 = c2 at hc nu
          cases hd : t1.decay with
          | ptr b =>
            rw [hd] at hc
            refine ⟨b, rfl, ?_⟩
            cases hd2 : c2.decay with
            | ptr q =>
              rw [hd2] at hc
              dsimp only at hc
              split at hc
              · rename_i h
                exact ⟨h.2, .inr ⟨by rw [h.1], (Option.some.inj hc).symm⟩⟩
              · cases hc
            | _ =>
              rw [hd2] at hc
              dsimp only at hc
              split at hc
              · rename_i h
                rw [Bool.and_eq_true] at h
                refine ⟨h.2, .inl ⟨?_, (Option.some.inj hc).symm⟩⟩
                rw [← hd2] at h
                cases c2 <;> first | rfl | (have := h.1; cases this; done)
              · cases hc
          | void | struc _ => rw [hd] at hc nu; exact (nu hc).elim
          | _ => exfalso; cases t1 <;> first | (cases n1; done) | cases hd
        obtain ⟨b, hd, hob, ⟨i2, rfl⟩ | ⟨hd2, rfl⟩⟩ := this
        · obtain ⟨-, -, r1, r2⟩ := bin_ptr (E := E) true L R b _ (by rw [hL]; exact base b hd hob) q2 i2
          have r2 := r2 L rfl
          refine ⟨_, k2, tr_bin e1 e2 (r1 rfl), Good.of rfl rfl hle (fun _ => .inl r2.1) (fun _ => r2.1) (binN_low _ _ _ (by simp)) (fun _ => .inl r2.1)
            (sim_bin h1 h2 hlf g1.sim g2.sim g1.le g2.le 1 1 ?_)⟩
          intro d m m1 m2 u v z hr hl hz
          refine r2.2 d m m1 m2 u v z hr hl ?_
          have e : opC .sub t1 (r.vty t2) u v = ptrAdd u (-v) b.size := by
            simp only [opC, hd]
            generalize r.vty t2 = c2 at i2
            cases c2 <;> first | rfl | cases i2
          rw [v1, e] at hz
          exact hz
        · have n2 : (r.vty t2).isInt = false := by
            cases h : (r.vty t2).isInt with
            | false => rfl
            | true => rw [decay_int h] at hd2; rw [hd2] at h; cases h
          have hR : R.ty = r.vty t2 := q2.eq (.inr n2)
          have hb2 : R.ty.base = some b := by
            rw [hR]
            generalize r.vty t2 = c2 at hd2
            cases c2 <;> simp only [CTy.decay, reduceCtorEq, CTy.ptr.injEq] at hd2 <;> subst hd2
            · rfl
            · rfl
            · cases hob
          obtain ⟨B, r1, r2, r3⟩ := bin_diff (E := E) L R b b (by rw [hL]; exact base b hd hob) hb2
          refine ⟨_, k2, tr_bin e1 e2 r1, Good.of rfl rfl hle (fun _ => .inl r2) (fun _ => r2) ?_ (fun _ => .inl r2)
            (sim_bin h1 h2 hlf g1.sim g2.sim g1.le g2.le 1 2 ?_)⟩
          · unfold newSub at r1
            have : L.ty.isInt = false := by rw [hL]; exact n1
            rw [this] at r1
            simp only [Bool.and_false, Bool.false_eq_true, if_false] at r1
            rw [hb2, show L.ty.base = some b by rw [hL]; exact base b hd hob] at r1
            cases r1
            rfl
          · intro d m m1 m2 u v z hr hl hz
            refine r3 d m m1 m2 u v z hr hl ?_
            have e : opC .sub t1 (r.vty t2) u v = ptrDiff u v b.size := by simp only [opC, hd, hd2]
            rw [v1, e] at hz
            exact hz
      | _ => exact (nu hc).elim

end Toycc.Low
