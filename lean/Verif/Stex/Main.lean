import Verif.Stex.Proof
/-! Lemmas for C95: the compiled code does what the source says. -/
namespace Toycc.Stex
variable {σ : Type}
variable {prog : List (Instr σ)} {qr n : Nat}

theorem Steps.to {s : St σ} {q q' : Nat} {a : Int} {stk : List Int} {m : σ} (h : Steps prog s ⟨q, a, stk, m⟩) (e : q = q') : Steps prog s ⟨q', a, stk, m⟩ := e ▸ h

macro "len" : tactic => `(tactic| ((try simp only [List.length_append, List.length_cons, List.length_nil]) <;> omega))

theorem sim_e (hn : (labels prog).Nodup) (ih : Sim prog qr n) : ∀ e m r m', evalE (n + 1) e m = some (r, m') → ∀ b d, CalmE b d e → ∀ k B C pc a stk, At prog pc (genE k B C e) →
    Land prog qr b d B C ⟨pc, a, stk, m⟩ (FinV prog ⟨pc, a, stk, m⟩ (pc + (genE k B C e).length) stk) stk r m'
  | .leaf g, m, r, m', h, b, d, _, k, B, C, pc, a, stk, hat => by
    simp only [evalE, Option.some.injEq, Prod.mk.injEq] at h
    obtain ⟨rfl, rfl⟩ := h
    simp only [genE] at hat ⊢
    exact s_prim hat
  | .una f e, m, r, m', h, b, d, hc, k, B, C, pc, a, stk, hat => by
    rw [evalE] at h
    rw [CalmE] at hc
    simp only [genE] at hat ⊢
    refine land_then h (fun r1 m1 h1 => ih.e e m r1 m1 h1 b d hc k B C pc a stk hat.left) (fun hb => ⟨hb, rfl, rfl⟩) (fun hb => ⟨hb, rfl, rfl⟩) ?_
    intro v m1 hfin h2
    simp only [Option.some.injEq, Prod.mk.injEq] at h2
    obtain ⟨rfl, rfl⟩ := h2
    have := Steps.trans hfin (s_un hat.right)
    exact this.to (by len)
  | .rl f l r0, m, r, m', h, b, d, hc, k, B, C, pc, a, stk, hat => by
    rw [evalE] at h
    rw [CalmE] at hc
    simp only [genE] at hat ⊢
    refine land_then h (fun r1 m1 h1 => ih.e r0 m r1 m1 h1 b d hc.1 k B C pc a stk hat.left) (fun hb => ⟨hb, rfl, rfl⟩) (fun hb => ⟨hb, rfl, rfl⟩) ?_
    intro v m1 hfin h2
    have s1 := Steps.trans hfin (s_push hat.right.left)
    refine land_then h2 (fun r1 m2 h1 => land_pre s1 (fun a m hh => Steps.trans s1 hh) (ih.e l m1 r1 m2 h1 false false hc.2 (k + cntE r0) B C _ v (v :: stk) hat.right.right.left)) (fun hb => nomatch hb) (fun hb => nomatch hb) ?_
    intro u m2 hfin2 h3
    simp only [Option.some.injEq, Prod.mk.injEq] at h3
    obtain ⟨rfl, rfl⟩ := h3
    have := Steps.trans hfin2 (s_pop hat.right.right.right)
    exact this.to (by len)
  | .lr f l r0, m, r, m', h, b, d, hc, k, B, C, pc, a, stk, hat => by
    rw [evalE] at h
    rw [CalmE] at hc
    simp only [genE] at hat ⊢
    refine land_then h (fun r1 m1 h1 => ih.e l m r1 m1 h1 b d hc.1 k B C pc a stk hat.left) (fun hb => ⟨hb, rfl, rfl⟩) (fun hb => ⟨hb, rfl, rfl⟩) ?_
    intro v m1 hfin h2
    have s1 := Steps.trans hfin (s_push hat.right.left)
    refine land_then h2 (fun r1 m2 h1 => land_pre s1 (fun a m hh => Steps.trans s1 hh) (ih.e r0 m1 r1 m2 h1 false false hc.2 (k + cntE l) B C _ v (v :: stk) hat.right.right.left)) (fun hb => nomatch hb) (fun hb => nomatch hb) ?_
    intro u m2 hfin2 h3
    simp only [Option.some.injEq, Prod.mk.injEq] at h3
    obtain ⟨rfl, rfl⟩ := h3
    have := Steps.trans hfin2 (s_pop hat.right.right.right)
    exact this.to (by len)
  | .cond c x y, m, r, m', h, b, d, hc, k, B, C, pc, a, stk, hat => by
    rw [evalE] at h
    rw [CalmE] at hc
    simp only [genE] at hat ⊢
    refine land_then h (fun r1 m1 h1 => ih.e c m r1 m1 h1 b d hc.1 (k + 1) B C pc a stk hat.left) (fun hb => ⟨hb, rfl, rfl⟩) (fun hb => ⟨hb, rfl, rfl⟩) ?_
    intro v m1 hfin h2
    have a1 := hat.right
    have a2 := a1.right
    have a3 := a2.right
    have a4 := a3.right
    have a5 := a4.right
    have a6 := a5.right
    by_cases hv : v = 0
    · rw [if_pos hv] at h2
      have s1 := Steps.trans (Steps.trans hfin (s_jz a1.left hv (a4.left.find hn))) (s_label a4.left)
      refine land_pre s1 ?_ (ih.e y m1 r m' h2 b d hc.2.2 _ B C _ v stk a5.left)
      intro u m2 hh
      have := Steps.trans (Steps.trans s1 hh) (s_label a6)
      exact this.to (by len)
    · rw [if_neg hv] at h2
      have s1 := Steps.trans hfin (s_nz a1.left hv)
      refine land_pre s1 ?_ (ih.e x m1 r m' h2 b d hc.2.1 _ B C _ v stk a2.left)
      intro u m2 hh
      have := Steps.trans (Steps.trans (Steps.trans s1 hh) (s_j a3.left (a6.find hn))) (s_label a6)
      exact this.to (by len)
  | .stx ss, m, r, m', h, b, d, hc, k, B, C, pc, a, stk, hat => by
    rw [evalE] at h
    rw [CalmE] at hc
    simp only [genE] at hat ⊢
    exact ih.l ss m r m' h b d hc k B C pc a stk hat

theorem sim_l (ih : Sim prog qr n) : ∀ ss m r m', evalLast (n + 1) ss m = some (r, m') → ∀ b d, CalmSS b d ss → ∀ k B C pc a stk, At prog pc (genSS k B C ss) →
    Land prog qr b d B C ⟨pc, a, stk, m⟩ (FinV prog ⟨pc, a, stk, m⟩ (pc + (genSS k B C ss).length) stk) stk r m' := by
  intro ss m r m' h b d hc k B C pc a stk hat
  cases ss with
  | nil => rw [evalLast] at h; cases h
  | cons s rest =>
    rw [CalmSS] at hc
    cases rest with
    | nil =>
      cases s with
      | expr e =>
        rw [evalLast] at h
        rw [CalmS] at hc
        simp only [genSS, genS, List.append_nil] at hat ⊢
        exact ih.e e m r m' h b d hc.1 k B C pc a stk hat
      | block _ => simp [evalLast] at h
      | ite _ _ _ => simp [evalLast] at h
      | loop _ _ _ _ => simp [evalLast] at h
      | dow _ _ => simp [evalLast] at h
      | sw _ _ => simp [evalLast] at h
      | brk => simp [evalLast] at h
      | cont => simp [evalLast] at h
      | ret _ => simp [evalLast] at h
    | cons s' r' =>
      have h' : andThen (execS n s m) (fun _ m => evalLast n (.cons s' r') m) = some (r, m') := by
        cases s <;> simpa [evalLast] using h
      rw [genSS] at hat ⊢
      refine land_then h' (fun r1 m1 h1 => ih.s s m r1 m1 h1 b d hc.1 k B C pc a stk hat.left) (fun hb => ⟨hb, rfl, rfl⟩) (fun hb => ⟨hb, rfl, rfl⟩) ?_
      intro _ m1 hfin h2
      obtain ⟨a1, hfin⟩ := hfin
      refine land_pre hfin ?_ (ih.l (.cons s' r') m1 r m' h2 b d hc.2 _ B C _ a1 stk hat.right)
      intro u m2 hh
      have := Steps.trans hfin hh
      exact this.to (by len)

theorem sim_ss (ih : Sim prog qr n) : ∀ ss m r m', execSS (n + 1) ss m = some (r, m') → ∀ b d, CalmSS b d ss → ∀ k B C pc a stk, At prog pc (genSS k B C ss) →
    Land prog qr b d B C ⟨pc, a, stk, m⟩ (FinU prog ⟨pc, a, stk, m⟩ (pc + (genSS k B C ss).length) stk) stk r m' := by
  intro ss m r m' h b d hc k B C pc a stk hat
  cases ss with
  | nil =>
    simp only [execSS, Option.some.injEq, Prod.mk.injEq] at h
    obtain ⟨rfl, rfl⟩ := h
    exact ⟨a, .refl _⟩
  | cons s rest =>
    rw [CalmSS] at hc
    rw [execSS] at h
    rw [genSS] at hat ⊢
    refine land_then h (fun r1 m1 h1 => ih.s s m r1 m1 h1 b d hc.1 k B C pc a stk hat.left) (fun hb => ⟨hb, rfl, rfl⟩) (fun hb => ⟨hb, rfl, rfl⟩) ?_
    intro _ m1 hfin h2
    obtain ⟨a1, hfin⟩ := hfin
    refine land_pre hfin ?_ (ih.ss rest m1 r m' h2 b d hc.2 _ B C _ a1 stk hat.right)
    intro u m2 hh
    obtain ⟨a2, hh⟩ := hh
    refine ⟨a2, ?_⟩
    have := Steps.trans hfin hh
    exact this.to (by len)

theorem sim_expr (ih : Sim prog qr n) (e : Expr σ) (m : σ) (r : R Unit) (m' : σ) (h : andThen (evalE n e m) (fun _ m => some (.done (), m)) = some (r, m')) (b d : Bool) (hc : CalmE b d e) (k : Nat)
    (B C : Lbl) (pc : Nat) (a : Int) (stk : List Int) (hat : At prog pc (genE k B C e)) :
    Land prog qr b d B C ⟨pc, a, stk, m⟩ (FinU prog ⟨pc, a, stk, m⟩ (pc + (genE k B C e).length) stk) stk r m' := by
  refine land_then h (fun r1 m1 h1 => ih.e e m r1 m1 h1 b d hc k B C pc a stk hat) (fun hb => ⟨hb, rfl, rfl⟩) (fun hb => ⟨hb, rfl, rfl⟩) ?_
  intro v m1 hfin h2
  simp only [Option.some.injEq, Prod.mk.injEq] at h2
  obtain ⟨rfl, rfl⟩ := h2
  exact ⟨v, hfin⟩

/-- No case has the value. -/
theorem disp_none (k : Nat) {a : Int} {stk : List Int} {m : σ} : ∀ (cs : Cases σ) (i pc : Nat), from? (some a) cs = none → At prog pc (disp k cs i) →
    Steps prog ⟨pc, a, stk, m⟩ ⟨pc + (disp k cs i).length, a, stk, m⟩
  | .nil, _, _, _, _ => .refl _
  | .cons none ss r, i, pc, h, hat => by
    rw [from?, if_neg (fun e => nomatch e)] at h
    rw [disp] at hat ⊢
    exact disp_none k r (i + 1) pc h hat
  | .cons (some v) ss r, i, pc, h, hat => by
    rw [from?] at h
    by_cases e : some v = some a
    · rw [if_pos e] at h; cases h
    · rw [if_neg e] at h
      rw [disp] at hat ⊢
      have := Steps.trans (disp_none k (stk := stk) (m := m) r (i + 1) pc h hat.left) (s_ne hat.right (fun e' => e (by rw [e'])))
      exact this.to (by len)

theorem from_none {v : Option Int} : ∀ {cs : Cases σ}, v ∉ caseLabels cs → from? v cs = none
  | .nil, _ => rfl
  | .cons u ss r, h => by
    rw [caseLabels, List.mem_cons, not_or] at h
    rw [from?, if_neg (fun e => h.1 e.symm)]
    exact from_none h.2

/-- One case has the value. -/
theorem disp_some (k : Nat) {a : Int} {stk : List Int} {m : σ} : ∀ (cs : Cases σ) (i pc j q : Nat), (caseLabels cs).Nodup → caseIdx (some a) cs i = some j → At prog pc (disp k cs i) →
    find (.case k j) prog 0 = some q → Steps prog ⟨pc, a, stk, m⟩ ⟨q, a, stk, m⟩
  | .nil, _, _, _, _, _, h, _, _ => nomatch h
  | .cons none ss r, i, pc, j, q, hd, h, hat, hq => by
    rw [caseIdx, if_neg (fun e => nomatch e)] at h
    rw [disp] at hat
    rw [caseLabels, List.nodup_cons] at hd
    exact disp_some k r (i + 1) pc j q hd.2 h hat hq
  | .cons (some v) ss r, i, pc, j, q, hd, h, hat, hq => by
    rw [caseLabels, List.nodup_cons] at hd
    rw [caseIdx] at h
    rw [disp] at hat
    by_cases e : some v = some a
    · rw [if_pos e] at h
      cases h
      cases e
      exact Steps.trans (disp_none k r (i + 1) pc (from_none hd.1) hat.left) (s_jeq hat.right rfl hq)
    · rw [if_neg e] at h
      exact disp_some k r (i + 1) pc j q hd.2 h hat.left hq

theorem caseIdx_none {v : Option Int} : ∀ {cs : Cases σ} {i : Nat}, from? v cs = none → caseIdx v cs i = none
  | .nil, _, _ => rfl
  | .cons u ss r, i, h => by
    rw [from?] at h
    by_cases e : u = v
    · rw [if_pos e] at h; cases h
    · rw [if_neg e] at h
      rw [caseIdx, if_neg e]
      exact caseIdx_none h

/-- Where the code of a label and what follows is. -/
theorem case_at (k : Nat) {v : Option Int} {C : Lbl} : ∀ (cs c : Cases σ) (i k' pc : Nat), from? v cs = some c → At prog pc (genC k i k' C cs) →
    ∃ j k1 pc1, caseIdx v cs i = some j ∧ At prog pc1 (genC k j k1 C c) ∧ At prog pc1 [.label (.case k j)] ∧ pc1 + (genC k j k1 C c).length = pc + (genC k i k' C cs).length
  | .nil, _, _, _, _, h, _ => nomatch h
  | .cons u ss r, c, i, k', pc, h, hat => by
    rw [from?] at h
    by_cases e : u = v
    · rw [if_pos e] at h
      cases h
      refine ⟨i, k', pc, by rw [caseIdx, if_pos e], hat, ?_, rfl⟩
      rw [genC] at hat
      exact hat.left
    · rw [if_neg e] at h
      rw [genC] at hat
      obtain ⟨j, k1, pc1, h1, h2, h3, h4⟩ := case_at k r c (i + 1) _ _ h hat.right.right
      refine ⟨j, k1, pc1, by rw [caseIdx, if_neg e]; exact h1, h2, h3, ?_⟩
      rw [h4, genC]
      len

theorem calm_from {v : Option Int} {d : Bool} : ∀ {cs c : Cases σ}, from? v cs = some c → CalmC d cs → CalmC d c
  | .nil, _, h, _ => nomatch h
  | .cons u ss r, c, h, hc => by
    rw [from?] at h
    by_cases e : u = v
    · rw [if_pos e] at h; cases h; exact hc
    · rw [if_neg e] at h
      rw [CalmC] at hc
      exact calm_from h hc.2

theorem sim_c (ih : Sim prog qr n) : ∀ cs m r m', execC (n + 1) cs m = some (r, m') → ∀ d, CalmC d cs → ∀ k i k' C pc a stk, At prog pc (genC k i k' C cs) →
    Land prog qr true d (.brk k) C ⟨pc, a, stk, m⟩ (FinU prog ⟨pc, a, stk, m⟩ (pc + (genC k i k' C cs).length) stk) stk r m' := by
  intro cs m r m' h d hc k i k' C pc a stk hat
  cases cs with
  | nil =>
    simp only [execC, Option.some.injEq, Prod.mk.injEq] at h
    obtain ⟨rfl, rfl⟩ := h
    exact ⟨a, .refl _⟩
  | cons v ss rest =>
    rw [CalmC] at hc
    rw [execC] at h
    rw [genC] at hat ⊢
    have s0 : Steps prog ⟨pc, a, stk, m⟩ ⟨pc + 1, a, stk, m⟩ := s_label hat.left
    have hl : ∀ r1 m1, execSS n ss m = some (r1, m1) → Land prog qr true d (.brk k) C ⟨pc, a, stk, m⟩ (FinU prog ⟨pc, a, stk, m⟩ (pc + 1 + (genSS k' (.brk k) C ss).length) stk) stk r1 m1 := by
      intro r1 m1 h1
      refine land_pre s0 ?_ (ih.ss ss m r1 m1 h1 true d hc.1 k' (.brk k) C _ a stk hat.right.left)
      intro u m2 hh
      obtain ⟨a2, hh⟩ := hh
      exact ⟨a2, Steps.trans s0 hh⟩
    refine land_then h hl (fun hb => ⟨hb, rfl, rfl⟩) (fun hb => ⟨hb, rfl, rfl⟩) ?_
    intro _ m1 hfin h2
    obtain ⟨a1, hfin⟩ := hfin
    refine land_pre hfin ?_ (ih.c rest m1 r m' h2 d hc.2 k (i + 1) _ C _ a1 stk hat.right.right)
    intro u m2 hh
    obtain ⟨a2, hh⟩ := hh
    refine ⟨a2, ?_⟩
    have := Steps.trans hfin hh
    exact this.to (by len)

theorem sim_s (hn : (labels prog).Nodup) (hr : find .ret prog 0 = some qr) (ih : Sim prog qr n) : ∀ s m r m', execS (n + 1) s m = some (r, m') → ∀ b d, CalmS b d s →
    ∀ k B C pc a stk, At prog pc (genS k B C s) → Land prog qr b d B C ⟨pc, a, stk, m⟩ (FinU prog ⟨pc, a, stk, m⟩ (pc + (genS k B C s).length) stk) stk r m'
  | .expr e, m, r, m', h, b, d, hc, k, B, C, pc, a, stk, hat => by
    rw [CalmS] at hc
    rw [genS] at hat ⊢
    cases e with
    | stx ss =>
      rw [execS] at h
      rw [CalmE] at hc
      rw [genE] at hat ⊢
      exact ih.ss ss m r m' h b d hc k B C pc a stk hat
    | leaf _ => exact sim_expr ih _ m r m' (by simpa [execS] using h) b d hc k B C pc a stk hat
    | una _ _ => exact sim_expr ih _ m r m' (by simpa [execS] using h) b d hc k B C pc a stk hat
    | rl _ _ _ => exact sim_expr ih _ m r m' (by simpa [execS] using h) b d hc k B C pc a stk hat
    | lr _ _ _ => exact sim_expr ih _ m r m' (by simpa [execS] using h) b d hc k B C pc a stk hat
    | cond _ _ _ => exact sim_expr ih _ m r m' (by simpa [execS] using h) b d hc k B C pc a stk hat
  | .block ss, m, r, m', h, b, d, hc, k, B, C, pc, a, stk, hat => by
    rw [CalmS] at hc
    rw [execS] at h
    rw [genS] at hat ⊢
    exact ih.ss ss m r m' h b d hc k B C pc a stk hat
  | .ite c x y, m, r, m', h, b, d, hc, k, B, C, pc, a, stk, hat => by
    rw [execS] at h
    rw [CalmS] at hc
    simp only [genS] at hat ⊢
    refine land_then h (fun r1 m1 h1 => ih.e c m r1 m1 h1 b d hc.1 (k + 1) B C pc a stk hat.left) (fun hb => ⟨hb, rfl, rfl⟩) (fun hb => ⟨hb, rfl, rfl⟩) ?_
    intro v m1 hfin h2
    have a1 := hat.right
    have a2 := a1.right
    have a3 := a2.right
    have a4 := a3.right
    have a5 := a4.right
    have a6 := a5.right
    by_cases hv : v = 0
    · rw [if_pos hv] at h2
      have s1 := Steps.trans (Steps.trans hfin (s_jz a1.left hv (a4.left.find hn))) (s_label a4.left)
      refine land_pre s1 ?_ (ih.s y m1 r m' h2 b d hc.2.2 _ B C _ v stk a5.left)
      intro u m2 hh
      obtain ⟨a', hh⟩ := hh
      have := Steps.trans (Steps.trans s1 hh) (s_label a6)
      exact ⟨a', this.to (by len)⟩
    · rw [if_neg hv] at h2
      have s1 := Steps.trans hfin (s_nz a1.left hv)
      refine land_pre s1 ?_ (ih.s x m1 r m' h2 b d hc.2.1 _ B C _ v stk a2.left)
      intro u m2 hh
      obtain ⟨a', hh⟩ := hh
      have := Steps.trans (Steps.trans (Steps.trans s1 hh) (s_j a3.left (a6.find hn))) (s_label a6)
      exact ⟨a', this.to (by len)⟩
  | .loop w c s i, m, r, m', h, b, d, hc, k, B, C, pc, a, stk, hat => by
    rw [execS] at h
    have hc0 := hc
    rw [CalmS] at hc
    have hat0 := hat
    have hlen : (genS k B C (.loop w c s i)).length = 1 + ((genE (k + 1) (if w then B else .brk k) (if w then C else .cont k) c).length + (1 + ((genS (k + 1 + cntE c) (.brk k) (.cont k) s).length +
        (1 + ((genE (k + 1 + cntE c + cntS s) (if w then B else .brk k) (if w then C else .cont k) i).length + (1 + 1)))))) := by
      rw [genS]
      simp only [List.length_append, List.length_cons, List.length_nil, Nat.zero_add]
    rw [genS] at hat
    have a0 := hat.left
    have a1 := hat.right
    have a2 := a1.right
    have a3 := a2.right
    have a4 := a3.right
    have a5 := a4.right
    have a6 := a5.right
    have a7 := a6.right
    have s0 : Steps prog ⟨pc, a, stk, m⟩ ⟨pc + 1, a, stk, m⟩ := s_label a0
    have hw : (w && b) = true → b = true ∧ stk = stk ∧ (if w then B else .brk k) = B := by
      intro hb
      cases w with
      | true => exact ⟨by simpa using hb, rfl, rfl⟩
      | false => cases hb
    have hw' : (w && d) = true → d = true ∧ stk = stk ∧ (if w then C else .cont k) = C := by
      intro hb
      cases w with
      | true => exact ⟨by simpa using hb, rfl, rfl⟩
      | false => cases hb
    refine land_then h (fun r1 m1 h1 => land_pre s0 (fun v m hh => Steps.trans s0 hh) (ih.e c m r1 m1 h1 (w && b) (w && d) hc.1 (k + 1) _ _ _ a stk a1.left)) hw hw' ?_
    intro v m1 hfin h2
    -- the increment and the next round
    have again : ∀ (a' : Int) (m2 : σ), Steps prog ⟨pc, a, stk, m⟩ ⟨pc + 1 + (genE (k + 1) (if w then B else .brk k) (if w then C else .cont k) c).length + 1 +
          (genS (k + 1 + cntE c) (.brk k) (.cont k) s).length, a', stk, m2⟩ →
        andThen (evalE n i m2) (fun _ m => execS n (.loop w c s i) m) = some (r, m') →
        Land prog qr b d B C ⟨pc, a, stk, m⟩ (FinU prog ⟨pc, a, stk, m⟩ (pc + (genS k B C (.loop w c s i)).length) stk) stk r m' := by
      intro a' m2 hs h3
      have s1 := Steps.trans hs (s_label a4.left)
      refine land_then h3 (fun r1 m3 h1 => land_pre s1 (fun v m hh => Steps.trans s1 hh) (ih.e i m2 r1 m3 h1 (w && b) (w && d) hc.2.2 _ _ _ _ a' stk a5.left)) hw hw' ?_
      intro u m3 hfin3 h4
      have s2 := Steps.trans hfin3 (s_j a6.left (a0.find hn))
      refine land_pre s2 ?_ (ih.s (.loop w c s i) m3 r m' h4 b d hc0 k B C pc u stk hat0)
      intro _ m4 hh
      obtain ⟨a'', hh⟩ := hh
      exact ⟨a'', Steps.trans s2 hh⟩
    by_cases hv : v = 0
    · rw [if_pos hv] at h2
      simp only [Option.some.injEq, Prod.mk.injEq] at h2
      obtain ⟨rfl, rfl⟩ := h2
      have := Steps.trans (Steps.trans hfin (s_jz a2.left hv (a7.find hn))) (s_label a7)
      refine ⟨v, ?_⟩
      rw [hlen]
      exact this.to (by len)
    · rw [if_neg hv] at h2
      have s1 := Steps.trans hfin (s_nz a2.left hv)
      cases hb : execS n s m1 with
      | none => rw [hb] at h2; cases h2
      | some p =>
        obtain ⟨rb, mb⟩ := p
        have hl := ih.s s m1 rb mb hb true true hc.2.1 _ (.brk k) (.cont k) _ v stk a3.left
        rw [hb] at h2
        cases rb with
        | done u =>
          obtain ⟨a', hl⟩ := hl
          exact again a' mb ((Steps.trans s1 hl).to (by len)) h2
        | cont =>
          obtain ⟨a', hl⟩ := hl.2 _ (a4.left.find hn)
          exact again a' mb ((Steps.trans s1 hl).to (by len)) h2
        | brk =>
          simp only [Option.some.injEq, Prod.mk.injEq] at h2
          obtain ⟨rfl, rfl⟩ := h2
          obtain ⟨a', hl⟩ := hl.2 _ (a7.find hn)
          have := Steps.trans (Steps.trans s1 hl) (s_label a7)
          refine ⟨a', ?_⟩
          rw [hlen]
          exact this.to (by len)
        | ret u =>
          simp only [Option.some.injEq, Prod.mk.injEq] at h2
          obtain ⟨rfl, rfl⟩ := h2
          obtain ⟨k', hl⟩ := hl
          exact ⟨k', Steps.trans s1 hl⟩
  | .dow s c, m, r, m', h, b, d, hc, k, B, C, pc, a, stk, hat => by
    rw [execS] at h
    have hc0 := hc
    rw [CalmS] at hc
    have hat0 := hat
    have hlen : (genS k B C (.dow s c)).length = 1 + ((genS (k + 1) (.brk k) (.cont k) s).length + (1 + ((genE (k + 1 + cntS s) B C c).length + (1 + 1)))) := by
      rw [genS]
      simp only [List.length_append, List.length_cons, List.length_nil, Nat.zero_add]
    rw [genS] at hat
    have a0 := hat.left
    have a1 := hat.right
    have a2 := a1.right
    have a3 := a2.right
    have a4 := a3.right
    have a5 := a4.right
    have s0 : Steps prog ⟨pc, a, stk, m⟩ ⟨pc + 1, a, stk, m⟩ := s_label a0
    -- the condition and the next round
    have again : ∀ (a' : Int) (m2 : σ), Steps prog ⟨pc, a, stk, m⟩ ⟨pc + 1 + (genS (k + 1) (.brk k) (.cont k) s).length, a', stk, m2⟩ →
        andThen (evalE n c m2) (fun v m => if v = 0 then some (.done (), m) else execS n (.dow s c) m) = some (r, m') →
        Land prog qr b d B C ⟨pc, a, stk, m⟩ (FinU prog ⟨pc, a, stk, m⟩ (pc + (genS k B C (.dow s c)).length) stk) stk r m' := by
      intro a' m2 hs h3
      have s1 := Steps.trans hs (s_label a2.left)
      refine land_then h3 (fun r1 m3 h1 => land_pre s1 (fun v m hh => Steps.trans s1 hh) (ih.e c m2 r1 m3 h1 b d hc.2 _ _ _ _ a' stk a3.left)) (fun hb => ⟨hb, rfl, rfl⟩) (fun hb => ⟨hb, rfl, rfl⟩) ?_
      intro u m3 hfin3 h4
      by_cases hu : u = 0
      · rw [if_pos hu] at h4
        simp only [Option.some.injEq, Prod.mk.injEq] at h4
        obtain ⟨rfl, rfl⟩ := h4
        have := Steps.trans (Steps.trans hfin3 (s_z a4.left hu)) (s_label a5)
        refine ⟨u, ?_⟩
        rw [hlen]
        exact this.to (by len)
      · rw [if_neg hu] at h4
        have s2 := Steps.trans hfin3 (s_jnz a4.left hu (a0.find hn))
        refine land_pre s2 ?_ (ih.s (.dow s c) m3 r m' h4 b d hc0 k B C pc u stk hat0)
        intro _ m4 hh
        obtain ⟨a'', hh⟩ := hh
        exact ⟨a'', Steps.trans s2 hh⟩
    cases hb : execS n s m with
    | none => rw [hb] at h; cases h
    | some p =>
      obtain ⟨rb, mb⟩ := p
      have hl := ih.s s m rb mb hb true true hc.1 _ (.brk k) (.cont k) _ a stk a1.left
      rw [hb] at h
      cases rb with
      | done u =>
        obtain ⟨a', hl⟩ := hl
        exact again a' mb ((Steps.trans s0 hl).to (by len)) h
      | cont =>
        obtain ⟨a', hl⟩ := hl.2 _ (a2.left.find hn)
        exact again a' mb ((Steps.trans s0 hl).to (by len)) h
      | brk =>
        simp only [Option.some.injEq, Prod.mk.injEq] at h
        obtain ⟨rfl, rfl⟩ := h
        obtain ⟨a', hl⟩ := hl.2 _ (a5.find hn)
        have := Steps.trans (Steps.trans s0 hl) (s_label a5)
        refine ⟨a', ?_⟩
        rw [hlen]
        exact this.to (by len)
      | ret u =>
        simp only [Option.some.injEq, Prod.mk.injEq] at h
        obtain ⟨rfl, rfl⟩ := h
        obtain ⟨k', hl⟩ := hl
        exact ⟨k', Steps.trans s0 hl⟩
  | .sw e cs, m, r, m', h, b, d, hc, k, B, C, pc, a, stk, hat => by
    rw [execS] at h
    rw [CalmS] at hc
    have hlen : (genS k B C (.sw e cs)).length = (genE (k + 1) B C e).length + ((disp k cs 0).length + ((other k cs).length + ((genC k 0 (k + 1 + cntE e) C cs).length + 1))) := by
      rw [genS]
      simp only [List.length_append, List.length_cons, List.length_nil, Nat.zero_add]
    rw [genS] at hat
    have a1 := hat.right
    have a2 := a1.right
    have a3 := a2.right
    have a4 := a3.right
    refine land_then h (fun r1 m1 h1 => ih.e e m r1 m1 h1 b d hc.1 (k + 1) B C pc a stk hat.left) (fun hb => ⟨hb, rfl, rfl⟩) (fun hb => ⟨hb, rfl, rfl⟩) ?_
    intro v m1 hfin h2
    -- to the code of the chosen label, or behind the switch
    have key : (chosen v cs = .nil ∧ Steps prog ⟨pc, a, stk, m⟩ ⟨pc + (genS k B C (.sw e cs)).length, v, stk, m1⟩) ∨
        ∃ j k1 pc1, Steps prog ⟨pc, a, stk, m⟩ ⟨pc1, v, stk, m1⟩ ∧ At prog pc1 (genC k j k1 C (chosen v cs)) ∧ CalmC d (chosen v cs) ∧
          pc1 + (genC k j k1 C (chosen v cs)).length + 1 = pc + (genS k B C (.sw e cs)).length := by
      cases h3 : from? (some v) cs with
      | some c =>
        have e1 : chosen v cs = c := by rw [chosen, h3]
        obtain ⟨j, k1, pc1, p1, p2, p3, p4⟩ := case_at k cs c 0 _ _ h3 a3.left
        rw [e1]
        refine .inr ⟨j, k1, pc1, Steps.trans hfin (disp_some k cs 0 _ j pc1 hc.2.1 p1 a1.left (p3.find hn)), p2, calm_from h3 hc.2.2, ?_⟩
        rw [p4, hlen]; omega
      | none =>
        have s1 := Steps.trans hfin (disp_none k cs 0 _ h3 a1.left)
        cases h4 : from? none cs with
        | some c =>
          have e1 : chosen v cs = c := by rw [chosen, h3]; simp only [h4]
          obtain ⟨j, k1, pc1, p1, p2, p3, p4⟩ := case_at k cs c 0 _ _ h4 a3.left
          have a2' := a2.left
          rw [other, p1] at a2'
          rw [e1]
          refine .inr ⟨j, k1, pc1, Steps.trans s1 (s_j (At.left (b := [.j (.brk k)]) a2') (p3.find hn)), p2, calm_from h4 hc.2.2, ?_⟩
          rw [p4, hlen]; omega
        | none =>
          have e1 : chosen v cs = .nil := by rw [chosen, h3]; simp only [h4]
          have a2' := a2.left
          rw [other, caseIdx_none h4] at a2'
          refine .inl ⟨e1, ?_⟩
          have := Steps.trans (Steps.trans s1 (s_j a2' (a4.find hn))) (s_label a4)
          rw [hlen]
          exact this.to (by len)
    cases hx : execC n (chosen v cs) m1 with
    | none => rw [hx] at h2; cases h2
    | some p =>
      obtain ⟨rb, mb⟩ := p
      rw [hx] at h2
      rcases key with ⟨k1, k2⟩ | ⟨j, k1, pc1, k2, k3, k4, k5⟩
      · rw [k1] at hx
        cases n with
        | zero => simp only [execC] at hx; cases hx
        | succ n =>
          simp only [execC, Option.some.injEq, Prod.mk.injEq] at hx
          obtain ⟨rfl, rfl⟩ := hx
          simp only [Option.some.injEq, Prod.mk.injEq] at h2
          obtain ⟨rfl, rfl⟩ := h2
          exact ⟨v, k2⟩
      · have hl := ih.c _ m1 rb mb hx d k4 k j k1 C pc1 v stk k3
        have hend : pc1 + (genC k j k1 C (chosen v cs)).length = pc + (genE (k + 1) B C e).length + (disp k cs 0).length + (other k cs).length + (genC k 0 (k + 1 + cntE e) C cs).length := by
          rw [hlen] at k5; omega
        cases rb with
        | done u =>
          simp only [Option.some.injEq, Prod.mk.injEq] at h2
          obtain ⟨rfl, rfl⟩ := h2
          obtain ⟨a', hl⟩ := hl
          have := Steps.trans ((Steps.trans k2 hl).to hend) (s_label a4)
          refine ⟨a', ?_⟩
          rw [hlen]
          exact this.to (by len)
        | brk =>
          simp only [Option.some.injEq, Prod.mk.injEq] at h2
          obtain ⟨rfl, rfl⟩ := h2
          obtain ⟨a', hl⟩ := hl.2 _ (a4.find hn)
          have := Steps.trans (Steps.trans k2 hl) (s_label a4)
          refine ⟨a', ?_⟩
          rw [hlen]
          exact this.to (by len)
        | cont =>
          simp only [Option.some.injEq, Prod.mk.injEq] at h2
          obtain ⟨rfl, rfl⟩ := h2
          exact ⟨hl.1, fun q hq => let ⟨a', ha⟩ := hl.2 q hq; ⟨a', Steps.trans k2 ha⟩⟩
        | ret u =>
          simp only [Option.some.injEq, Prod.mk.injEq] at h2
          obtain ⟨rfl, rfl⟩ := h2
          obtain ⟨k', hl⟩ := hl
          exact ⟨k', Steps.trans k2 hl⟩
  | .brk, m, r, m', h, b, d, hc, k, B, C, pc, a, stk, hat => by
    simp only [execS, Option.some.injEq, Prod.mk.injEq] at h
    obtain ⟨rfl, rfl⟩ := h
    rw [CalmS] at hc
    rw [genS] at hat
    exact ⟨hc, fun q hq => ⟨a, s_j hat hq⟩⟩
  | .cont, m, r, m', h, b, d, hc, k, B, C, pc, a, stk, hat => by
    simp only [execS, Option.some.injEq, Prod.mk.injEq] at h
    obtain ⟨rfl, rfl⟩ := h
    rw [CalmS] at hc
    rw [genS] at hat
    exact ⟨hc, fun q hq => ⟨a, s_j hat hq⟩⟩
  | .ret e, m, r, m', h, b, d, hc, k, B, C, pc, a, stk, hat => by
    rw [execS] at h
    rw [CalmS] at hc
    rw [genS] at hat
    refine land_then h (fun r1 m1 h1 => ih.e e m r1 m1 h1 b d hc k B C pc a stk hat.left) (fun hb => ⟨hb, rfl, rfl⟩) (fun hb => ⟨hb, rfl, rfl⟩) ?_
    intro v m1 hfin h2
    simp only [Option.some.injEq, Prod.mk.injEq] at h2
    obtain ⟨rfl, rfl⟩ := h2
    exact ⟨stk, Steps.trans hfin (s_j hat.right hr)⟩

theorem sim (prog : List (Instr σ)) (qr : Nat) (hn : (labels prog).Nodup) (hr : find .ret prog 0 = some qr) : ∀ n, Sim prog qr n
  | 0 => ⟨fun _ _ _ _ h => by simp [evalE] at h, fun _ _ _ _ h => by simp [evalLast] at h, fun _ _ _ _ h => by simp [execS] at h, fun _ _ _ _ h => by simp [execSS] at h,
    fun _ _ _ _ h => by simp [execC] at h⟩
  | n + 1 =>
    have ih := sim prog qr hn hr n
    ⟨sim_e hn ih, sim_l ih, sim_s hn hr ih, sim_ss ih, sim_c ih⟩

end Toycc.Stex
