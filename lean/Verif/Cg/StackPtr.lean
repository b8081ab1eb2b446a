import Verif.Cg.Labels
/-!
A static check of stack heights: every instruction is reached with one stack height, which the check computes. Code that passes
moves the stack pointer only as the check says, whatever values it computes.
-/
namespace Toycc.Cg
open Toycc.Rv

/-- A label may be mentioned at height `h`: labels numbered `a` to `b` have the heights `L`, the others the height `d0`. -/
def labOk (d0 : Option Nat) (L : Nat → Nat) (a b h : Nat) : Label → Bool
  | .gen _ n => decide (a ≤ n ∧ n < b ∧ L n = h)
  | _ => decide (d0 = some h)

/-- The height after an instruction. -/
def stp (d0 : Option Nat) (L : Nat → Nat) (a b : Nat) (i : Instr) (h : Nat) : Option Nat :=
  match i with
  | .label l | .j l | .bnez _ l | .beqz _ l | .beq _ _ l | .bleu _ _ l => if labOk d0 L a b h l then some h else none
  | .addi rd rs k =>
    if rd = .sp then (if rs = .sp ∧ k % 8 = 0 ∧ k / 8 ≤ h then some (h - k / 8).toNat else none) else some h
  | .li rd _ | .mv rd _ | .op _ rd _ _ | .slli rd _ _ | .srli rd _ _ | .srai rd _ _ | .andi rd _ _ | .seqz rd _ | .snez rd _
  | .neg rd _ | .negw rd _ | .not rd _ | .load _ _ rd _ _ | .la rd _ => if rd = .sp then none else some h
  | .store .. => some h
  | .jalr _ => some h
  | .jr _ | .ret => none

/-- The height at the end of a piece of code. -/
def chk (d0 : Option Nat) (L : Nat → Nat) (a b : Nat) : List Instr → Nat → Option Nat
  | [], h => some h
  | i :: r, h => (stp d0 L a b i h).bind (chk d0 L a b r)

theorem chk_append {d0 L a b} (c1 c2 : List Instr) (h : Nat) :
    chk d0 L a b (c1 ++ c2) h = (chk d0 L a b c1 h).bind (chk d0 L a b c2) := by
  induction c1 generalizing h with
  | nil => rfl
  | cons i r ih =>
    simp only [List.cons_append, chk]
    cases stp d0 L a b i h with
    | none => rfl
    | some x => simp only [Option.bind_some]; exact ih x

/-- The label an instruction may jump to. -/
def target : Instr → Option Label
  | .j l | .bnez _ l | .beqz _ l | .beq _ _ l | .bleu _ _ l => some l
  | _ => none

/-- Jumps to numbered labels stay within the code. -/
def Closed (c : List Instr) : Prop := ∀ i ∈ c, ∀ p n, target i = some (.gen p n) → Instr.label (.gen p n) ∈ c

/-- Execution that stays within the positions `lo` to `hi` until its last state. -/
inductive Inside (P : Prog) (env : Env) (lo hi : Nat) : Nat × St → Nat × St → Prop
  | refl (c) : Inside P env lo hi c c
  | step {c c' c''} : lo ≤ c.1 → c.1 < hi → step P env c = some c' → Inside P env lo hi c' c'' → Inside P env lo hi c c''

/-- Functions called return with the stack pointer they were called with (and calls go to functions outside the text). -/
structure CallsKeepSp (env : Env) : Prop where
  ext : ∀ a s s', env.ext a s = some s' → s'.r .sp = s.r .sp
  out : ∀ a, env.index a = none

theorem r_sp_set {s : St} {x : Reg} {v : W} (h : x ≠ .sp) : (s.set x v).r .sp = s.r .sp := by
  unfold St.set St.r
  simp [Ne.symm h]

theorem r_sp_set_sp {s : St} {v : W} : (s.set .sp v).r .sp = v := by
  unfold St.set St.r
  simp

/-- What one instruction does to the stack pointer. -/
theorem step_sp {P : Prog} {env : Env} (he : CallsKeepSp env) {d0 L a b} {pc : Nat} {s : St} {c' : Nat × St} {i : Instr} {h h1 : Nat}
    (hi : P[pc]? = some i) (hs : stp d0 L a b i h = some h1) (hst : step P env (pc, s) = some c') :
    (c'.1 = pc + 1 ∧ c'.2.r .sp + BitVec.ofInt 64 (8 * h1) = s.r .sp + BitVec.ofInt 64 (8 * h)) ∨
    ∃ l, target i = some l ∧ find P l = some c'.1 ∧ labOk d0 L a b h l = true ∧ c'.2 = s := by
  have br : ∀ (x : Bool) l, branch P pc s x l = some c' → labOk d0 L a b h l = true →
      (c'.1 = pc + 1 ∧ c'.2.r .sp = s.r .sp) ∨ (find P l = some c'.1 ∧ labOk d0 L a b h l = true ∧ c'.2 = s) := by
    intro x l h2 h3
    unfold branch at h2
    split at h2
    · rw [Option.map_eq_some_iff] at h2
      obtain ⟨t, h4, rfl⟩ := h2
      exact .inr ⟨h4, h3, rfl⟩
    · simp only [Option.some.injEq] at h2; subst h2; exact .inl ⟨rfl, rfl⟩
  unfold step at hst
  dsimp only at hst
  rw [hi] at hst
  have fin : ∀ {c' : Nat × St}, h1 = h → c'.1 = pc + 1 → c'.2.r .sp = s.r .sp → ((c'.1 = pc + 1 ∧ c'.2.r .sp + BitVec.ofInt 64 (8 * h1) = s.r .sp + BitVec.ofInt 64 (8 * h)) ∨
    ∃ l, target i = some l ∧ find P l = some c'.1 ∧ labOk d0 L a b h l = true ∧ c'.2 = s) := by
    intro c' e1 e2 e3; rw [e1, e3]; exact .inl ⟨e2, rfl⟩
  cases i with
  | label l =>
    simp only [stp] at hs
    split at hs
    case isFalse => simp at hs
    simp only [Rv.exec, Option.map_some, Option.some.injEq] at hst
    simp only [Option.some.injEq] at hs
    subst hst
    exact fin hs.symm rfl rfl
  | j l | bnez _ l | beqz _ l | beq _ _ l | bleu _ _ l =>
    simp only [stp] at hs
    split at hs
    case isFalse => simp at hs
    rename_i hl
    simp only [Option.some.injEq] at hs
    rcases br _ _ hst hl with ⟨e1, e2⟩ | e
    · exact fin hs.symm e1 e2
    · exact .inr ⟨l, rfl, e⟩
  | addi rd rs k =>
    simp only [Rv.exec, Option.map_some, Option.some.injEq] at hst
    subst hst
    simp only [stp] at hs
    split at hs
    · rename_i hrd
      split at hs
      case isFalse => simp at hs
      rename_i hk
      obtain ⟨rfl, hk1, hk2⟩ := hk
      subst hrd
      simp only [Option.some.injEq] at hs
      refine .inl ⟨rfl, ?_⟩
      rw [r_sp_set_sp, BitVec.add_assoc, ← BitVec.ofInt_add]
      congr 2
      omega
    · rename_i hrd
      simp only [Option.some.injEq] at hs
      exact fin hs.symm rfl (r_sp_set hrd)
  | store =>
    simp only [Rv.exec, Option.map_some, Option.some.injEq] at hst
    simp only [stp, Option.some.injEq] at hs
    subst hst
    exact fin hs.symm rfl rfl
  | jr => simp [stp] at hs
  | ret => simp [stp] at hs
  | jalr r =>
    simp only [stp, Option.some.injEq] at hs
    simp only [he.out] at hst
    rw [Option.map_eq_some_iff] at hst
    obtain ⟨t, h2, rfl⟩ := hst
    have := he.ext _ _ _ h2
    rw [r_sp_set (by decide)] at this
    exact fin hs.symm rfl this
  | _ =>
    simp only [Rv.exec, Option.map_some, Option.some.injEq] at hst
    subst hst
    simp only [stp] at hs
    split at hs
    · simp at hs
    rename_i hrd
    simp only [Option.some.injEq] at hs
    exact fin hs.symm rfl (r_sp_set hrd)

theorem chk_take {d0 L a b} {c : List Instr} {h h' i : Nat} {x : Instr} (hc : chk d0 L a b c h = some h') (hx : c[i]? = some x) :
    ∃ k k', chk d0 L a b (c.take i) h = some k ∧ stp d0 L a b x k = some k' ∧ chk d0 L a b (c.take (i + 1)) h = some k' := by
  have hlt : i < c.length := by
    rcases Nat.lt_or_ge i c.length with h1 | h1
    · exact h1
    · rw [List.getElem?_eq_none h1] at hx; simp at hx
  have e : c = c.take i ++ x :: c.drop (i + 1) := by
    have := List.take_append_drop i c
    rw [List.drop_eq_getElem_cons hlt] at this
    rw [List.getElem?_eq_getElem hlt, Option.some.injEq] at hx
    rw [hx] at this
    exact this.symm
  rw [e, chk_append, Option.bind_eq_some_iff] at hc
  obtain ⟨k, h1, h2⟩ := hc
  rw [chk, Option.bind_eq_some_iff] at h2
  obtain ⟨k', h2, h3⟩ := h2
  refine ⟨k, k', h1, h2, ?_⟩
  have : c.take (i + 1) = c.take i ++ [x] := by
    rw [List.take_add_one, hx]; rfl
  rw [this, chk_append, h1, Option.bind_some, chk, h2, Option.bind_some, chk]

/-- Checked code leaves the stack pointer as it found it: when control leaves it, however it does, the stack pointer is that on entry. -/
theorem chk_sound {P : Prog} {env : Env} (hu : UniqueLabels P) (he : CallsKeepSp env) {d : Nat} {L a b} {c : List Instr} {pc : Nat}
    (hP : CodeAt P pc c) (hk : chk (some d) L a b c d = some d) (hcl : Closed c) {s : St} {e : Nat × St}
    (hr : Inside P env pc (pc + c.length) (pc, s) e) (hout : e.1 < pc ∨ pc + c.length ≤ e.1) : e.2.r .sp = s.r .sp := by
  -- the invariant
  have key : ∀ x y, Inside P env pc (pc + c.length) x y → (y.1 < pc ∨ pc + c.length ≤ y.1) →
      (∀ i, x.1 = pc + i → i ≤ c.length → ∃ h, chk (some d) L a b (c.take i) d = some h ∧
        x.2.r .sp + BitVec.ofInt 64 (8 * h) = s.r .sp + BitVec.ofInt 64 (8 * d)) →
      ((x.1 < pc ∨ pc + c.length ≤ x.1) → x.2.r .sp = s.r .sp) → y.2.r .sp = s.r .sp := by
    intro x y hxy
    induction hxy with
    | refl x => intro hy _ h; exact h hy
    | @step x x' y h1 h2 h3 h4 ih =>
      intro hy hin _
      obtain ⟨i, hi⟩ : ∃ i, x.1 = pc + i := ⟨x.1 - pc, by omega⟩
      obtain ⟨px, sx⟩ := x
      dsimp only at hi h1 h2
      subst hi
      have hil : i < c.length := by omega
      have hg : c[i]? = some c[i] := List.getElem?_eq_getElem hil
      have hg2 : P[pc + i]? = some c[i] := by rw [hP i hil, hg]
      obtain ⟨k, k', q1, q2, q3⟩ := chk_take hk hg
      obtain ⟨h, r1, r2⟩ := hin i rfl (by omega)
      rw [q1, Option.some.injEq] at r1
      subst r1
      dsimp only at r2
      rcases step_sp he hg2 q2 h3 with ⟨e1, e2⟩ | ⟨l, t1, t2, t3, t4⟩
      · refine ih hy ?_ ?_
        · intro j hj _
          have : j = i + 1 := by omega
          subst this
          exact ⟨k', q3, e2.trans r2⟩
        · intro ho
          have hfull : i + 1 = c.length := by omega
          rw [hfull, List.take_length, hk, Option.some.injEq] at q3
          subst q3
          have := e2.trans r2
          exact (BitVec.add_left_inj _).mp this
      · obtain ⟨px', sx'⟩ := x'
        dsimp only at t2 t4 h4 ih
        subst t4
        refine ih hy ?_ ?_
        · intro j hj hjl
          subst hj
          -- the label is at the target
          have hlab : P[pc + j]? = some (.label l) := by
            unfold find at t2
            rw [List.findIdx?_eq_some_iff_getElem] at t2
            obtain ⟨w1, w2, _⟩ := t2
            rw [List.getElem?_eq_getElem w1]
            simpa using w2
          rcases Nat.lt_or_ge j c.length with hjc | hjc
          · rw [hP j hjc] at hlab
            obtain ⟨w, w', v1, v2, v3⟩ := chk_take hk hlab
            refine ⟨w, v1, ?_⟩
            have : w = k := by
              simp only [stp] at v2
              split at v2
              · rename_i hl
                cases l <;> simp only [labOk, decide_eq_true_eq] at hl t3
                · omega
                all_goals (rw [hl, Option.some.injEq] at t3; exact t3)
              · simp at v2
            subst this
            exact r2
          · have : j = c.length := by omega
            subst this
            refine ⟨d, by rw [List.take_length]; exact hk, ?_⟩
            -- a numbered label would be inside
            have hne : ∀ p n, l ≠ .gen p n := by
              intro p n e
              subst e
              have hm := hcl _ (List.getElem_mem hil) p n t1
              obtain ⟨j', hj'⟩ := List.getElem?_of_mem hm
              have hj'l : j' < c.length := by
                rcases Nat.lt_or_ge j' c.length with h1 | h1
                · exact h1
                · rw [List.getElem?_eq_none h1] at hj'; simp at hj'
              have := hu _ _ _ hlab ((hP j' hj'l).trans hj')
              omega
            have hkd : d = k := by
              cases l <;> simp only [labOk, decide_eq_true_eq, Option.some.injEq] at t3
              · exact absurd rfl (hne _ _)
              all_goals exact t3
            rw [hkd]; rw [hkd] at r2; exact r2
        · intro ho
          have hlab : P[px']? = some (.label l) := by
            unfold find at t2
            rw [List.findIdx?_eq_some_iff_getElem] at t2
            obtain ⟨w1, w2, _⟩ := t2
            rw [List.getElem?_eq_getElem w1]
            simpa using w2
          have hne : ∀ p n, l ≠ .gen p n := by
            intro p n e
            subst e
            have hm := hcl _ (List.getElem_mem hil) p n t1
            obtain ⟨j', hj'⟩ := List.getElem?_of_mem hm
            have hj'l : j' < c.length := by
              rcases Nat.lt_or_ge j' c.length with h1 | h1
              · exact h1
              · rw [List.getElem?_eq_none h1] at hj'; simp at hj'
            have := hu _ _ _ hlab ((hP j' hj'l).trans hj')
            omega
          have hkd : d = k := by
            cases l <;> simp only [labOk, decide_eq_true_eq, Option.some.injEq] at t3
            · exact absurd rfl (hne _ _)
            all_goals exact t3
          subst hkd
          exact (BitVec.add_left_inj _).mp r2
  refine key _ _ hr hout ?_ ?_
  · intro i hi _
    have : i = 0 := by dsimp only at hi; omega
    subst this
    exact ⟨d, rfl, rfl⟩
  · intro _; rfl

/-! ### The code of expressions passes the check -/

/-- Adding labels numbered outside the range used. -/
theorem chk_widen {d0 L L' a b a' b'} (ha : a' ≤ a) (hb : b ≤ b') (hL : ∀ n, a ≤ n → n < b → L' n = L n) {d0'} (hd : d0 = none ∨ d0' = d0) :
    ∀ {c : List Instr} {h h' : Nat}, chk d0 L a b c h = some h' → chk d0' L' a' b' c h = some h'
  | [], h, h', hc => hc
  | i :: r, h, h', hc => by
    simp only [chk, Option.bind_eq_some_iff] at hc ⊢
    obtain ⟨x, h1, h2⟩ := hc
    refine ⟨x, ?_, chk_widen ha hb hL hd h2⟩
    have lab : ∀ l, labOk d0 L a b h l = true → labOk d0' L' a' b' h l = true := by
      intro l hl
      cases l <;> simp only [labOk, decide_eq_true_eq] at hl ⊢
      · have := hL _ hl.1 hl.2.1; omega
      all_goals (rcases hd with e | e <;> simp_all)
    unfold stp at h1 ⊢
    cases i <;> simp only at h1 ⊢ <;> first | exact h1 | skip
    all_goals (split at h1 <;> first | (simp at h1; done) | skip)
    all_goals (rename_i hl; rw [if_pos (lab _ hl)]; exact h1)

/-- Instructions that neither write the stack pointer nor mention a label. -/
def plain (i : Instr) : Bool :=
  match i with
  | .li rd _ | .mv rd _ | .op _ rd _ _ | .slli rd _ _ | .srli rd _ _ | .srai rd _ _ | .andi rd _ _ | .seqz rd _ | .snez rd _
  | .neg rd _ | .negw rd _ | .not rd _ | .load _ _ rd _ _ | .la rd _ | .addi rd _ _ => decide (rd ≠ .sp)
  | .store .. => true
  | .jalr _ => true
  | _ => false

theorem chk_plain {d0 L a b} {c : List Instr} {h : Nat} (hc : c.all plain = true) : chk d0 L a b c h = some h := by
  induction c with
  | nil => rfl
  | cons i r ih =>
    rw [List.all_cons, Bool.and_eq_true] at hc
    have : stp d0 L a b i h = some h := by
      have h1 := hc.1
      unfold plain at h1
      unfold stp
      cases i <;> simp_all
    rw [chk, this, Option.bind_some]
    exact ih hc.2

theorem chk_push {d0 L a b r h} : chk d0 L a b (pushI r) h = some (h + 1) := by
  simp only [pushI, chk, stp]
  simp

theorem chk_pop {d0 L a b r h} (hr : r ≠ .sp) : chk d0 L a b (popI r) (h + 1) = some h := by
  simp only [popI, chk, stp, hr, if_false, Option.bind_some]
  have : (8 : Int) / 8 ≤ ((h + 1 : Nat) : Int) := by omega
  rw [if_pos trivial, if_pos ⟨trivial, by decide, this⟩]
  simp only [Option.bind_some, Option.some.injEq]
  omega

/-- A piece of code, using labels numbered `a` to `b`, changes the height from `h` to `h'`. -/
structure Bal (a b : Nat) (c : List Instr) (h h' : Nat) : Prop where
  le : a ≤ b
  heights : ∃ L, chk none L a b c h = some h'
  closed : Closed c

theorem Closed.append {c1 c2} (h1 : Closed c1) (h2 : Closed c2) : Closed (c1 ++ c2) := by
  intro i hi p n ht
  rw [List.mem_append] at hi ⊢
  rcases hi with h | h
  · exact .inl (h1 i h p n ht)
  · exact .inr (h2 i h p n ht)

theorem Closed.plain {c : List Instr} (h : c.all plain = true) : Closed c := by
  intro i hi p n ht
  have := List.all_eq_true.mp h i hi
  unfold Cg.plain at this
  unfold target at ht
  cases i <;> simp at this ht

theorem Bal.append {a b e c1 c2 h h1 h2} (x : Bal a b c1 h h1) (y : Bal b e c2 h1 h2) : Bal a e (c1 ++ c2) h h2 := by
  obtain ⟨L1, k1⟩ := x.heights
  obtain ⟨L2, k2⟩ := y.heights
  refine ⟨Nat.le_trans x.le y.le, ⟨fun n => if n < b then L1 n else L2 n, ?_⟩, x.closed.append y.closed⟩
  rw [chk_append, chk_widen (Nat.le_refl _) y.le (fun n _ hn => by simp [hn]) (.inl rfl) k1, Option.bind_some]
  exact chk_widen x.le (Nat.le_refl _) (fun n hn _ => by simp [show ¬ n < b by omega]) (.inl rfl) k2

theorem Bal.plain {a c h} (hc : c.all plain = true) : Bal a a c h h := ⟨Nat.le_refl _, ⟨fun _ => 0, chk_plain hc⟩, .plain hc⟩

theorem Bal.push {a r h} : Bal a a (pushI r) h (h + 1) :=
  ⟨Nat.le_refl _, ⟨fun _ => 0, chk_push⟩, by intro i hi p n ht; simp only [pushI, List.mem_cons, List.not_mem_nil, or_false] at hi; rcases hi with rfl | rfl <;> simp [target] at ht⟩

theorem Bal.pop {a r h} (hr : r ≠ .sp) : Bal a a (popI r) (h + 1) h :=
  ⟨Nat.le_refl _, ⟨fun _ => 0, chk_pop hr⟩, by intro i hi p n ht; simp only [popI, List.mem_cons, List.not_mem_nil, or_false] at hi; rcases hi with rfl | rfl <;> simp [target] at ht⟩

theorem Bal.adj {a h h' : Nat} {k : Int} (hk : k + 8 * h' = 8 * h) : Bal a a [.addi .sp .sp k] h h' := by
  refine ⟨Nat.le_refl _, ⟨fun _ => 0, ?_⟩, by intro i hi p n ht; simp only [List.mem_cons, List.not_mem_nil, or_false] at hi; subst hi; simp [target] at ht⟩
  have h1 : k % 8 = 0 := by omega
  have h2 : k / 8 ≤ (h : Int) := by omega
  simp only [chk, stp]
  rw [if_pos trivial, if_pos ⟨trivial, h1, h2⟩, Option.bind_some, Option.some.injEq]
  omega

theorem Bal.three {k m n b : Nat} {c1 c2 c3 : List Instr} {h : Nat} (x : Bal (k + 1) m c1 h h) (y : Bal m n c2 h h) (z : Bal n b c3 h h) :
    k < b ∧ ∃ L, L k = h ∧ chk none L k b c1 h = some h ∧ chk none L k b c2 h = some h ∧ chk none L k b c3 h = some h := by
  obtain ⟨L1, k1⟩ := x.heights
  obtain ⟨L2, k2⟩ := y.heights
  obtain ⟨L3, k3⟩ := z.heights
  have e1 := x.le
  have e2 := y.le
  have e3 := z.le
  refine ⟨by omega, fun i => if i = k then h else if i < m then L1 i else if i < n then L2 i else L3 i, by simp, ?_, ?_, ?_⟩
  · exact chk_widen (by omega) (by omega) (fun i h1 h2 => by simp only [show ¬ i = k by omega, h2, if_true, if_false]) (.inl rfl) k1
  · exact chk_widen (by omega) (by omega) (fun i h1 h2 => by simp only [show ¬ i = k by omega, show ¬ i < m by omega, h2, if_true, if_false]) (.inl rfl) k2
  · exact chk_widen (by omega) (by omega) (fun i h1 h2 => by
      simp only [show ¬ i = k by omega, show ¬ i < m by omega, show ¬ i < n by omega, if_false]) (.inl rfl) k3

/-- Closedness of a piece of code made of closed pieces and of jumps to labels placed beside them. -/
theorem closed_of {c : List Instr} (h : ∀ i ∈ c, ∀ p n, target i = some (.gen p n) → Instr.label (.gen p n) ∈ c) : Closed c := h

theorem plain_load (t : Ty) : (genLoad t).all plain = true := by cases t <;> rfl
theorem plain_flatMap {α} (f : α → List Instr) (l : List α) (h : ∀ a, (f a).all plain = true) : (l.flatMap f).all plain = true := by
  induction l with
  | nil => rfl
  | cons a r ih => rw [List.flatMap_cons, List.all_append, h, ih]; rfl
theorem plain_copyByte (i) : (copyByte i).all plain = true := by unfold copyByte; split <;> rfl
theorem plain_addOffset (r o) : (addOffset r o).all plain = true := by unfold addOffset; split <;> rfl
theorem plain_shiftExt (u n) : (shiftExt u n).all plain = true := by cases u <;> rfl
theorem plain_cast (a t : Ty) : (genCast a t).all plain = true := by
  unfold genCast
  split <;> first | rfl | skip
  cases typeId a <;> cases typeId _ <;> rfl
theorem plain_bin (op) (a t : Ty) : (binInstrs op a t).all plain = true := by
  unfold binInstrs
  cases op <;> simp only <;> first | rfl | (split <;> rfl)
theorem plain_extract (t : Ty) (o w) : (extractBits t o w).all plain = true := by
  unfold extractBits; cases t.unsigned <;> rfl
theorem plain_zeroByte (o) : (zeroByte o).all plain = true := by unfold zeroByte; split <;> rfl
theorem plain_trunc (t : Ty) : (truncResult t).all plain = true := by
  unfold truncResult; split <;> first | rfl | exact plain_shiftExt _ _

theorem Bal.store {a h} (t : Ty) : Bal a a (genStore t) (h + 1) h := by
  cases t <;> exact (Bal.pop (by decide)).append (.plain (by first | rfl | exact plain_flatMap _ _ plain_copyByte))

theorem Bal.storeBits {a h} (t ty : Ty) (o w : Nat) : Bal a a (storeBits t ty o w) (h + 1) h := by
  unfold Cg.storeBits
  exact ((((Bal.plain rfl).append (.plain (plain_load t))).append (.plain rfl)).append (.store ty)).append (.plain rfl)

theorem Bal.pops {a} : ∀ (rs : List Reg) (h : Nat), (∀ r ∈ rs, r ≠ .sp) → Bal a a (rs.flatMap popI) (h + rs.length) h
  | [], h, _ => .plain rfl
  | r :: rs, h, hr => by
    rw [List.flatMap_cons, List.length_cons, ← Nat.add_assoc]
    exact (Bal.pop (hr r (List.mem_cons_self ..))).append (Bal.pops rs h fun x hx => hr x (List.mem_cons_of_mem _ hx))

/-- Closing a conditional: the jumps go to labels present. -/
theorem jumps_closed {c1 c2 c3 c : List Instr} (x : Closed c1) (y : Closed c2) (z : Closed c3) (s1 : c1 ⊆ c) (s2 : c2 ⊆ c) (s3 : c3 ⊆ c)
    (h : ∀ i ∈ c, i ∈ c1 ∨ i ∈ c2 ∨ i ∈ c3 ∨ target i = none ∨ ∃ l, target i = some l ∧ Instr.label l ∈ c) : Closed c := by
  intro i hi p n ht
  rcases h i hi with h | h | h | h | ⟨l, h, h'⟩
  · exact s1 (x i h p n ht)
  · exact s2 (y i h p n ht)
  · exact s3 (z i h p n ht)
  · rw [h] at ht; simp at ht
  · rw [h, Option.some.injEq] at ht; subst ht; exact h'

theorem Bal.cond {k m n b : Nat} {c1 c2 c3 : List Instr} {h : Nat} {p q : String} (x : Bal (k + 1) m c1 h h) (y : Bal m n c2 h h) (z : Bal n b c3 h h) :
    Bal k b (c1 ++ cmpZero ++ [.bnez .a0 (lbl p k)] ++ c2 ++ [.j (lbl q k), .label (lbl p k)] ++ c3 ++ [.label (lbl q k)]) h h := by
  obtain ⟨hb, L, hk, k1, k2, k3⟩ := Bal.three x y z
  refine ⟨Nat.le_of_lt hb, ⟨L, ?_⟩, ?_⟩
  · simp only [chk_append, k1, k2, k3, Option.bind_some, cmpZero, chk, stp, lbl, labOk, hk]
    simp [hb, k2, k3]
  · refine jumps_closed x.closed y.closed z.closed ?_ ?_ ?_ ?_
    · intro i hi; simp [hi]
    · intro i hi; simp [hi]
    · intro i hi; simp [hi]
    · intro i hi
      simp only [List.mem_append, cmpZero, List.mem_cons, List.not_mem_nil, or_false] at hi
      rcases hi with (((((hi | hi) | hi) | hi) | hi | hi) | hi) | hi
      all_goals first
        | exact .inl hi
        | exact .inr (.inl hi)
        | exact .inr (.inr (.inl hi))
        | (subst hi; simp [target])

theorem Bal.logic {k m b : Nat} {c1 c2 : List Instr} {h : Nat} {p q : String} {j : Label → Instr} {u v : Int}
    (hj : j = (fun l => .bnez .a0 l) ∨ j = (fun l => .beqz .a0 l)) (x : Bal (k + 1) m c1 h h) (y : Bal m b c2 h h) :
    Bal k b (c1 ++ cmpZero ++ [j (lbl p k)] ++ c2 ++ cmpZero ++ [j (lbl p k), .li .a0 u, .j (lbl q k), .label (lbl p k), .li .a0 v,
      .label (lbl q k)]) h h := by
  obtain ⟨hb, L, hk, k1, k2, _⟩ := Bal.three x y (.plain (c := []) rfl)
  refine ⟨Nat.le_of_lt hb, ⟨L, ?_⟩, ?_⟩
  · rcases hj with rfl | rfl
    all_goals
      simp only [chk_append, k1, k2, Option.bind_some, cmpZero, chk, stp, lbl, labOk, hk]
      simp [hb, k2]
  · refine jumps_closed x.closed y.closed (Closed.plain (c := []) rfl) ?_ ?_ ?_ ?_
    · intro i hi; simp [hi]
    · intro i hi; simp [hi]
    · intro i hi; simp at hi
    · intro i hi
      simp only [List.mem_append, cmpZero, List.mem_cons, List.not_mem_nil, or_false] at hi
      rcases hi with ((((hi | hi) | hi) | hi) | hi) | hi | hi | hi | hi | hi | hi
      all_goals first
        | exact .inl hi
        | exact .inr (.inl hi)
        | (subst hi; rcases hj with rfl | rfl <;> simp [target])

mutual
/-- The code of an expression keeps the stack height. -/
theorem gen_bal : ∀ (e : Expr) (ad : Bool) (gs : GS) (c : List Instr) (gs' : GS), gen ad e gs = some (c, gs') →
    Bal gs.cnt gs'.cnt c gs.depth gs.depth
  | .null, ad, gs, c, gs', h => by
    simp only [gen] at h
    split at h
    · simp at h
    · simp only [Option.some.injEq, Prod.mk.injEq] at h; obtain ⟨rfl, rfl⟩ := h; exact .plain rfl
  | .num _ _, ad, gs, c, gs', h => by
    simp only [gen] at h
    split at h
    · simp at h
    · simp only [Option.some.injEq, Prod.mk.injEq] at h; obtain ⟨rfl, rfl⟩ := h; exact .plain rfl
  | .neg ty e, ad, gs, c, gs', h => by
    simp only [gen] at h
    split at h
    · simp at h
    · simp only [bindSome, Option.some.injEq, Prod.mk.injEq] at h
      obtain ⟨⟨c1, s1⟩, h1, rfl, rfl⟩ := h
      exact (gen_bal e _ _ _ _ h1).append (.plain (by split <;> rfl))
  | .var ty x, ad, gs, c, gs', h => by
    simp only [gen, Option.some.injEq, Prod.mk.injEq] at h
    obtain ⟨rfl, rfl⟩ := h
    have hv : Bal gs.cnt (varAddr x gs).2.cnt (varAddr x gs).1 gs.depth gs.depth := by
      cases x with
      | loc off => exact .plain (plain_addOffset _ _)
      | vla off => exact .plain rfl
      | glob n =>
        refine ⟨Nat.le_succ _, ⟨fun _ => gs.depth, ?_⟩, ?_⟩
        · simp [varAddr, chk, stp, labOk, GS.next]
        · intro i hi p m ht
          simp only [varAddr, List.mem_cons, List.not_mem_nil, or_false] at hi
          rcases hi with rfl | rfl <;> simp [target] at ht
    split
    · exact hv
    · exact hv.append (.plain (plain_load _))
  | .member f e, ad, gs, c, gs', h => by
    simp only [gen, bindSome] at h
    obtain ⟨⟨c1, s1⟩, h1, h2⟩ := h
    have hf := (gen_bal e _ _ _ _ h1).append (.plain (plain_addOffset .a0 f.offset))
    split at h2
    · simp only [Option.some.injEq, Prod.mk.injEq] at h2
      obtain ⟨rfl, rfl⟩ := h2
      exact hf
    · split at h2 <;> simp only [Option.some.injEq, Prod.mk.injEq] at h2 <;> obtain ⟨rfl, rfl⟩ := h2
      · exact hf.append (.plain (plain_load _))
      · exact (hf.append (.plain (plain_load _))).append (.plain (plain_extract _ _ _))
  | .deref ty e, ad, gs, c, gs', h => by
    simp only [gen, bindSome, Option.some.injEq, Prod.mk.injEq] at h
    obtain ⟨⟨c1, s1⟩, h1, rfl, rfl⟩ := h
    split
    · exact gen_bal e _ _ _ _ h1
    · exact (gen_bal e _ _ _ _ h1).append (.plain (plain_load _))
  | .addr e, ad, gs, c, gs', h => by
    simp only [gen] at h
    split at h
    · simp at h
    · exact gen_bal e _ _ _ _ h
  | .assign ty l r, ad, gs, c, gs', h => by
    simp only [gen] at h
    split at h
    · simp only [Option.some.injEq, Prod.mk.injEq] at h; obtain ⟨rfl, rfl⟩ := h; exact .plain rfl
    · simp only [bindSome] at h
      obtain ⟨⟨c1, s1⟩, h1, ⟨c2, s2⟩, h2, h3⟩ := h
      have d1 := (gen_depth l _ _ _ _ h1).1
      have b2 : Bal s1.cnt s2.cnt c2 (gs.depth + 1) (gs.depth + 1) := by have := gen_bal r _ _ _ _ h2; rw [GS.push, d1] at this; exact this
      have hf := ((gen_bal l _ _ _ _ h1).append (.push (r := .a0))).append b2
      split at h3 <;> simp only [Option.some.injEq, Prod.mk.injEq] at h3 <;> obtain ⟨rfl, rfl⟩ := h3
      · exact hf.append (.storeBits _ _ _ _)
      · exact hf.append (.store _)
  | .comma l r, ad, gs, c, gs', h => by
    simp only [gen, bindSome, Option.some.injEq, Prod.mk.injEq] at h
    obtain ⟨⟨c1, s1⟩, h1, ⟨c2, s2⟩, h2, rfl, rfl⟩ := h
    have b2 := gen_bal r _ _ _ _ h2
    rw [(gen_depth l _ _ _ _ h1).1] at b2
    exact (gen_bal l _ _ _ _ h1).append b2
  | .cast ty e, ad, gs, c, gs', h => by
    simp only [gen] at h
    split at h
    · simp at h
    · simp only [bindSome, Option.some.injEq, Prod.mk.injEq] at h
      obtain ⟨⟨c1, s1⟩, h1, rfl, rfl⟩ := h
      exact (gen_bal e _ _ _ _ h1).append (.plain (plain_cast _ _))
  | .memzero _ _, ad, gs, c, gs', h => by
    simp only [gen] at h
    split at h
    · simp at h
    · simp only [Option.some.injEq, Prod.mk.injEq] at h; obtain ⟨rfl, rfl⟩ := h
      exact .plain (plain_flatMap _ _ fun _ => plain_zeroByte _)
  | .cond ty a b e, ad, gs, c, gs', h => by
    simp only [gen] at h
    split at h
    · simp only [Option.some.injEq, Prod.mk.injEq] at h; obtain ⟨rfl, rfl⟩ := h; exact .plain rfl
    · simp only [bindSome, Option.some.injEq, Prod.mk.injEq] at h
      obtain ⟨⟨c1, s1⟩, h1, ⟨c2, s2⟩, h2, ⟨c3, s3⟩, h3, rfl, rfl⟩ := h
      have e1 : s1.depth = gs.depth := (gen_depth _ _ _ _ _ h1).1
      have e2 := (gen_depth _ _ _ _ _ h2).1
      have b1 : Bal (gs.cnt + 1) s1.cnt c1 gs.depth gs.depth := gen_bal a _ _ _ _ h1
      have b2 := gen_bal b _ _ _ _ h2
      have b3 := gen_bal e _ _ _ _ h3
      rw [e2] at b3
      rw [e1] at b2 b3
      exact Bal.cond b1 b2 b3
  | .not e, ad, gs, c, gs', h => by
    simp only [gen] at h
    split at h
    · simp at h
    · simp only [bindSome, Option.some.injEq, Prod.mk.injEq] at h
      obtain ⟨⟨c1, s1⟩, h1, rfl, rfl⟩ := h
      exact (gen_bal e _ _ _ _ h1).append (.plain rfl)
  | .bitnot e, ad, gs, c, gs', h => by
    simp only [gen] at h
    split at h
    · simp at h
    · simp only [bindSome, Option.some.injEq, Prod.mk.injEq] at h
      obtain ⟨⟨c1, s1⟩, h1, rfl, rfl⟩ := h
      exact (gen_bal e _ _ _ _ h1).append (.plain rfl)
  | .logand l r, ad, gs, c, gs', h => by
    simp only [gen] at h
    split at h
    · simp at h
    · simp only [bindSome, Option.some.injEq, Prod.mk.injEq] at h
      obtain ⟨⟨c1, s1⟩, h1, ⟨c2, s2⟩, h2, rfl, rfl⟩ := h
      have e1 : s1.depth = gs.depth := (gen_depth _ _ _ _ _ h1).1
      have b1 : Bal (gs.cnt + 1) s1.cnt c1 gs.depth gs.depth := gen_bal l _ _ _ _ h1
      have b2 := gen_bal r _ _ _ _ h2
      rw [e1] at b2
      exact Bal.logic (j := fun l => .bnez .a0 l) (.inl rfl) b1 b2
  | .logor l r, ad, gs, c, gs', h => by
    simp only [gen] at h
    split at h
    · simp at h
    · simp only [bindSome, Option.some.injEq, Prod.mk.injEq] at h
      obtain ⟨⟨c1, s1⟩, h1, ⟨c2, s2⟩, h2, rfl, rfl⟩ := h
      have e1 : s1.depth = gs.depth := (gen_depth _ _ _ _ _ h1).1
      have b1 : Bal (gs.cnt + 1) s1.cnt c1 gs.depth gs.depth := gen_bal l _ _ _ _ h1
      have b2 := gen_bal r _ _ _ _ h2
      rw [e1] at b2
      exact Bal.logic (j := fun l => .beqz .a0 l) (.inr rfl) b1 b2
  | .bin op t l r, ad, gs, c, gs', h => by
    simp only [gen] at h
    split at h
    · simp at h
    · simp only [bindSome, Option.some.injEq, Prod.mk.injEq] at h
      obtain ⟨⟨c1, s1⟩, h1, ⟨c2, s2⟩, h2, rfl, rfl⟩ := h
      have d1 := (gen_depth r _ _ _ _ h1).1
      have b2 : Bal s1.cnt s2.cnt c2 (gs.depth + 1) (gs.depth + 1) := by have := gen_bal l _ _ _ _ h2; rw [GS.push, d1] at this; exact this
      exact ((((gen_bal r _ _ _ _ h1).append .push).append b2).append (.pop (by decide))).append (.plain (plain_bin _ _ _))
  | .vlaPtr _, ad, gs, c, gs', h => by
    simp only [gen] at h
    split at h
    · simp only [Option.some.injEq, Prod.mk.injEq] at h; obtain ⟨rfl, rfl⟩ := h; exact .plain rfl
    · simp at h
  | .call t f args, ad, gs, c, gs', h => by
    simp only [gen] at h
    split at h
    · simp only [Option.some.injEq, Prod.mk.injEq] at h; obtain ⟨rfl, rfl⟩ := h; exact .plain rfl
    · split at h
      · simp at h
      · simp only [bindSome, Option.some.injEq, Prod.mk.injEq] at h
        obtain ⟨⟨c1, s1⟩, h1, ⟨c2, s2⟩, h2, ⟨c3, s3⟩, h3, rfl, rfl⟩ := h
        have a1 := (genArgs_depth args _ _ _ _ _ h1).1
        have a2 := (genArgs_depth args _ _ _ _ _ h2).1
        have a3 := (gen_depth f _ _ _ _ h3).1
        have b1 := genArgs_bal args _ _ _ _ _ h1
        have b2 := genArgs_bal args _ _ _ _ _ h2
        have b3 := gen_bal f _ _ _ _ h3
        simp only [if_true, Bool.false_eq_true, if_false] at a1 a2 a3 b1 b2 b3
        generalize hpad : (gs.depth + (args.length - 8)) % 2 = pad at *
        generalize hns : args.length - 8 = ns at *
        have p0 : Bal gs.cnt gs.cnt (if pad = 1 then [Instr.addi .sp .sp (-8)] else []) gs.depth (gs.depth + pad) := by
          split
          · rename_i e; rw [e]; exact .adj (by omega)
          · have : pad = 0 := by omega
            rw [this]; exact .plain rfl
        have p1 : Bal gs.cnt gs.cnt [Instr.mv .t1 .sp, .addi .sp .sp 0] (gs.depth + pad) (gs.depth + pad) :=
          (Bal.plain (c := [Instr.mv .t1 .sp]) rfl).append (.adj (by omega))
        have hreg : (argRegs.take (min args.length 8)).length = min args.length 8 := by
          rw [List.length_take]; simp only [argRegs, List.length_cons, List.length_nil]; omega
        have p2 : Bal s3.cnt s3.cnt ((argRegs.take (min args.length 8)).flatMap popI) s2.depth (gs.depth + pad + ns) := by
          have := Bal.pops (a := s3.cnt) (argRegs.take (min args.length 8)) (gs.depth + pad + ns) (by
            intro r hr
            have : ∀ r ∈ argRegs, r ≠ .sp := by decide
            exact this r (List.mem_of_mem_take hr))
          rw [hreg] at this
          rw [show s2.depth = gs.depth + pad + ns + min args.length 8 by omega]
          exact this
        have p3 : Bal s3.cnt s3.cnt (if ns + pad = 0 then [] else [Instr.addi .sp .sp (8 * ((ns + pad : Nat) : Int))]) (gs.depth + pad + ns) gs.depth := by
          split
          · rw [show gs.depth + pad + ns = gs.depth by omega]; exact .plain rfl
          · exact .adj (by omega)
        rw [show (s1.depth : Nat) = s1.depth from rfl] at b2
        exact ((((((((p0.append p1).append b1).append b2).append b3).append (.plain (c := [Instr.mv .t0 .a0]) rfl)).append p2).append
          (.plain (c := [Instr.jalr .t0]) rfl)).append p3).append (.plain (plain_trunc t))
theorem genArgs_bal : ∀ (a : Exprs) (first : Bool) (i : Nat) (gs : GS) (c : List Instr) (gs' : GS),
    genArgs first i a gs = some (c, gs') → Bal gs.cnt gs'.cnt c gs.depth gs'.depth
  | .nil, first, i, gs, c, gs', h => by
    simp only [genArgs, Option.some.injEq, Prod.mk.injEq] at h; obtain ⟨rfl, rfl⟩ := h; exact .plain rfl
  | .cons e r, first, i, gs, c, gs', h => by
    simp only [genArgs, bindSome] at h
    obtain ⟨⟨c1, s1⟩, h1, h2⟩ := h
    have f1 := genArgs_bal r _ _ _ _ _ h1
    split at h2
    · simp only [Option.some.injEq, Prod.mk.injEq] at h2; obtain ⟨rfl, rfl⟩ := h2; exact f1
    · simp only [bindSome, Option.some.injEq, Prod.mk.injEq] at h2
      obtain ⟨⟨c2, s2⟩, h2, rfl, rfl⟩ := h2
      have e2 := (gen_depth _ _ _ _ _ h2).1
      have := (f1.append (gen_bal e _ _ _ _ h2)).append (.push (r := .a0))
      rw [← e2] at this
      exact this
end

end Toycc.Cg
