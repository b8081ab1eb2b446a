import Verif.Abi.Spec
/-! C94: registers that a function must preserve. -/
namespace Toycc.Abi

/-! ### Prologue and epilogue -/

theorem exec_append (s : St) (a b : List Instr) : exec s (a ++ b) = exec (exec s a) b := by simp [exec, List.foldl_append]

theorem saves : ∀ (l : List Nat) (s : St), exec s (l.map .save) = { s with ft := fun j => if j ∈ l then s.fs j else s.ft j }
  | [], s => by simp [exec]
  | i :: l, s => by
    have e : exec s ((i :: l).map .save) = exec (step s (.save i)) (l.map .save) := rfl
    rw [e, saves l]
    simp only [step]
    congr 1
    funext j
    by_cases h : j ∈ l
    · simp [h]
    · by_cases h' : j = i
      · subst h'; simp [h]
      · simp [h, h']

theorem restores : ∀ (l : List Nat) (s : St), exec s (l.map .restore) = { s with fs := fun j => if j ∈ l then s.ft j else s.fs j }
  | [], s => by simp [exec]
  | i :: l, s => by
    have e : exec s ((i :: l).map .restore) = exec (step s (.restore i)) (l.map .restore) := rfl
    rw [e, restores l]
    simp only [step]
    congr 1
    funext j
    by_cases h : j ∈ l
    · simp [h]
    · by_cases h' : j = i
      · subst h'; simp [h]
      · simp [h, h']

theorem prologue_eq (va : Nat) (s : St) : exec s (prologue va) =
    { sp := s.sp - va - 16, fp := s.sp - va - 16, ra := s.ra, fs := s.fs, ft := fun j => if j < 12 then s.fs j else s.ft j,
      mem := fun a => if a = s.sp - va - 16 then s.fp else if a = s.sp - va - 8 then s.ra else s.mem a } := by
  have h1 : exec s (if va = 0 then [] else [.addSp (-va)]) = { s with sp := s.sp - va } := by
    by_cases h : va = 0
    · subst h; simp [exec]
    · rw [if_neg h]; simp [exec, step]; omega
  rw [prologue, exec_append, exec_append, h1, saves]
  have e : s.sp - (va : Int) - 8 - 8 = s.sp - va - 16 := by omega
  have e2 : exec { s with sp := s.sp - va } [.push .ra, .push .fp, .mvFpSp] =
      { sp := s.sp - va - 8 - 8, fp := s.sp - va - 8 - 8, ra := s.ra, fs := s.fs, ft := s.ft,
        mem := fun a => if a = s.sp - va - 8 - 8 then s.fp else if a = s.sp - va - 8 then s.ra else s.mem a } := rfl
  rw [e2, e]
  simp only [List.mem_range]

theorem epilogue_eq (va : Nat) (s : St) : exec s (epilogue va) =
    { sp := s.fp + 16 + va, fp := s.mem s.fp, ra := s.mem (s.fp + 8), fs := fun j => if j < 12 then s.ft j else s.fs j, ft := s.ft, mem := s.mem } := by
  rw [epilogue, exec_append, exec_append, restores]
  by_cases h : va = 0
  · subst h
    simp [exec, step, St.set]
    omega
  · rw [if_neg h]
    simp [exec, step, St.set]
    omega

attribute [local irreducible] exec

/-! ### Frames -/

mutual
theorem frames (P : Int → Prop) : ∀ (f : Fn) (s : St), (∀ a, P a → s.sp ≤ a) → Good P f s →
    ∃ s', run f s = some s' ∧ s'.sp = s.sp ∧ s'.fp = s.fp ∧ s'.ra = s.ra ∧ ∀ a, P a → s'.mem a = s.mem a
  | .mk va b, s, hP, hG => by
    rw [Good] at hG
    obtain ⟨s1, h1, h2, h3⟩ := framesBody (fun a => P a ∨ a = s.sp - va - 16 ∨ a = s.sp - va - 8) b (exec s (prologue va))
      (by
        intro a ha
        rw [prologue_eq]
        rcases ha with ha | ha | ha
        · have := hP a ha; simp only; omega
        · simp only; omega
        · simp only; omega)
      (by rw [prologue_eq]; exact Int.le_refl _) hG
    have e := epilogue_eq va s1
    rw [prologue_eq] at h2 h3
    simp only at h2 h3
    refine ⟨exec s1 (epilogue va), by rw [run, h1]; rfl, ?_, ?_, ?_, ?_⟩
    · rw [e, h2]; simp only; omega
    · rw [e, h2]; simp only; rw [h3 _ (.inr (.inl rfl)), if_pos rfl]
    · rw [e, h2]; simp only
      have e8 : s.sp - (va : Int) - 16 + 8 = s.sp - va - 8 := by omega
      rw [e8, h3 _ (.inr (.inr rfl)), if_neg (by omega), if_pos rfl]
    · intro a ha
      rw [e]
      simp only
      have := hP a ha
      rw [h3 a (.inl ha), if_neg (by omega), if_neg (by omega)]
theorem framesBody (P : Int → Prop) : ∀ (b : Body) (s : St), (∀ a, P a → s.fp ≤ a) → s.sp ≤ s.fp → GoodBody P b s →
    ∃ s', runBody b s = some s' ∧ s'.fp = s.fp ∧ ∀ a, P a → s'.mem a = s.mem a
  | .nil, s, _, _, _ => ⟨s, by rw [runBody], rfl, fun _ _ => rfl⟩
  | .code g r, s, hP, _, hG => by
    rw [GoodBody] at hG
    obtain ⟨g1, _, g3, g4, g5⟩ := hG
    obtain ⟨s', h1, h2, h3⟩ := framesBody P r (g s) (by rw [g1]; exact hP) (by rw [g1]; exact g3) g5
    exact ⟨s', by rw [runBody]; exact h1, h2.trans g1, fun a ha => (h3 a ha).trans (g4 a ha)⟩
  | .call site f r, s, hP, hsp, hG => by
    rw [GoodBody] at hG
    obtain ⟨g1, g2⟩ := hG
    obtain ⟨s1, h1, h2, h3, h4, h5⟩ := frames P f { s with ra := site } (fun a ha => Int.le_trans hsp (hP a ha)) g1
    simp only at h2 h3 h4 h5
    obtain ⟨s', k1, k2, k3⟩ := framesBody P r s1 (by rw [h3]; exact hP) (by rw [h2, h3]; exact hsp) (g2 s1 h1)
    exact ⟨s', by rw [runBody, h1]; simp only; rw [if_pos h4]; exact k1, k2.trans h3, fun a ha => (k3 a ha).trans (h5 a ha)⟩
  | .lib site g r, s, hP, hsp, hG => by
    rw [GoodBody] at hG
    obtain ⟨g1, g2, g3, _, g5, g6⟩ := hG
    obtain ⟨s', k1, k2, k3⟩ := framesBody P r (g { s with ra := site }) (by rw [g2]; exact hP) (by rw [g1, g2]; exact hsp) g6
    exact ⟨s', by rw [runBody, if_pos g3]; exact k1, k2.trans g2, fun a ha => (k3 a ha).trans (g5 a ha)⟩
end

/-- Whatever a function does and calls, to any depth: every call returns to its place, and at the end sp, fp and the return address are those of the beginning, and so are the
frames of its callers. -/
theorem C94_frames (P : Int → Prop) (f : Fn) (s : St) (hP : ∀ a, P a → s.sp ≤ a) (hG : Good P f s) :
    ∃ s', run f s = some s' ∧ s'.sp = s.sp ∧ s'.fp = s.fp ∧ s'.ra = s.ra ∧ ∀ a, P a → s'.mem a = s.mem a :=
  frames P f s hP hG

/-! ### fs0-fs11 -/

mutual
theorem fsKept (P : Int → Prop) : ∀ (f : Fn) (s s' : St), Good P f s → Calm f s → run f s = some s' →
    (∀ i, i < 12 → s'.fs i = s.fs i) ∧ ∀ i, i < 12 → s'.ft i = s.fs i
  | .mk va b, s, s', hG, hC, hr => by
    rw [Good] at hG
    rw [Calm] at hC
    rw [run] at hr
    cases hb : runBody b (exec s (prologue va)) with
    | none => rw [hb] at hr; cases hr
    | some s1 =>
      rw [hb] at hr
      cases hr
      have h := fsKeptBody _ s.fs b _ s1 hG hC (by intro i hi; rw [prologue_eq]; simp [hi]) hb
      simp only [epilogue_eq]
      exact ⟨fun i hi => by simp only [if_pos hi]; exact h i hi, fun i hi => h i hi⟩
theorem fsKeptBody (P : Int → Prop) (fs : Nat → Int) : ∀ (b : Body) (s s' : St), GoodBody P b s → CalmBody fs b s → (∀ i, i < 12 → s.ft i = fs i) → runBody b s = some s' →
    ∀ i, i < 12 → s'.ft i = fs i
  | .nil, s, s', _, _, h, hr => by rw [runBody] at hr; cases hr; exact h
  | .code g r, s, s', hG, hC, h, hr => by
    rw [GoodBody] at hG
    rw [CalmBody] at hC
    rw [runBody] at hr
    obtain ⟨_, g2, _, _, g5⟩ := hG
    exact fsKeptBody P fs r (g s) s' g5 hC (by rw [g2]; exact h) hr
  | .call site f r, s, s', hG, hC, h, hr => by
    rw [GoodBody] at hG
    rw [CalmBody] at hC
    rw [runBody] at hr
    cases h1 : run f { s with ra := site } with
    | none => rw [h1] at hr; cases hr
    | some s1 =>
      rw [h1] at hr
      simp only at hr
      split at hr
      · have k := fsKept P f { s with ra := site } s1 hG.1 hC.2.1 h1
        exact fsKeptBody P fs r s1 s' (hG.2 s1 h1) (hC.2.2 s1 h1) (fun i hi => (k.2 i hi).trans (hC.1 i hi)) hr
      · cases hr
  | .lib site g r, s, s', hG, hC, h, hr => by
    rw [GoodBody] at hG
    rw [CalmBody] at hC
    rw [runBody] at hr
    obtain ⟨g1, g2, g3, _, g5, g6⟩ := hG
    rw [if_pos g3] at hr
    exact fsKeptBody P fs r _ s' g6 hC.2 (fun i hi => (hC.1 i hi).trans (h i hi)) hr
end

/-- fs0-fs11 are those of the beginning. Partial: only if nothing is called while they hold intermediate results (`nested_call_loses`), and no function from elsewhere uses ft0-ft11,
which the calling convention allows it (`library_call_loses`). -/
theorem C94_fs_partial (P : Int → Prop) (f : Fn) (s : St) (hP : ∀ a, P a → s.sp ≤ a) (hG : Good P f s) (hC : Calm f s) :
    ∃ s', run f s = some s' ∧ ∀ i, i < 12 → s'.fs i = s.fs i := by
  obtain ⟨s', h, _⟩ := frames P f s hP hG
  exact ⟨s', h, (fsKept P f s s' hG hC h).1⟩

/-! ### Examples -/

/-- Reserves a frame, writes a local variable, uses fs0. -/
def setFs (v : Int) (s : St) : St := { s with sp := s.fp - 32, fs := fun j => if j = 0 then v else s.fs j, mem := fun a => if a = s.fp - 16 then v else s.mem a }

/-- A variadic function without calls. -/
def leaf (v : Int) : Fn := .mk 48 (.code (setFs v) .nil)

/-- Calls `leaf` twice before it uses fs0. -/
def caller : Fn := .mk 0 (.call 100 (leaf 7) (.call 200 (leaf 8) (.code (setFs 9) .nil)))

theorem leaf_good (P : Int → Prop) (v : Int) (s : St) (hP : ∀ a, P a → s.sp ≤ a) : Good P (leaf v) s := by
  rw [leaf, Good, GoodBody, prologue_eq]
  refine ⟨rfl, rfl, by simp only [setFs]; omega, fun a ha => ?_, by rw [GoodBody]; trivial⟩
  simp only [setFs]
  rw [if_neg]
  rcases ha with ha | ha | ha
  · have := hP a ha; omega
  · omega
  · omega

theorem leaf_calm (v : Int) (s : St) : Calm (leaf v) s := by rw [leaf, Calm, CalmBody, CalmBody]; trivial

theorem code_good (P : Int → Prop) (v : Int) (s : St) (hP : ∀ a, P a → s.fp ≤ a) : GoodBody P (.code (setFs v) .nil) s := by
  rw [GoodBody]
  refine ⟨rfl, rfl, by simp only [setFs]; omega, fun a ha => ?_, by rw [GoodBody]; trivial⟩
  have := hP a ha
  simp only [setFs]
  rw [if_neg (by omega)]

/-- The hypotheses hold for `caller` in every state. -/
example (P : Int → Prop) (s : St) (hP : ∀ a, P a → s.sp ≤ a) : Good P caller s ∧ Calm caller s := by
  rw [caller, Good, Calm]
  generalize hQ : (fun a => P a ∨ a = s.sp - ((0 : Nat) : Int) - 16 ∨ a = s.sp - ((0 : Nat) : Int) - 8) = Q
  have hq : ∀ a, Q a → (exec s (prologue 0)).fp ≤ a := by
    intro a ha
    rw [← hQ] at ha
    rw [prologue_eq]
    rcases ha with ha | ha | ha
    · have := hP a ha; simp only; omega
    · simp only; omega
    · simp only; omega
  have hsf : (exec s (prologue 0)).sp = (exec s (prologue 0)).fp := by rw [prologue_eq]
  have hfs : ∀ i, (exec s (prologue 0)).fs i = s.fs i := by rw [prologue_eq]; exact fun i => rfl
  generalize exec s (prologue 0) = s0 at hq hsf hfs
  have p0 : ∀ a, Q a → s0.sp ≤ a := fun a ha => by rw [hsf]; exact hq a ha
  -- after the first call
  have after : ∀ (v site : Int) (u u1 : St), (∀ a, Q a → u.sp ≤ a) → run (leaf v) { u with ra := site } = some u1 → u1.sp = u.sp ∧ u1.fp = u.fp ∧ ∀ i, i < 12 → u1.fs i = u.fs i := by
    intro v site u u1 hu h
    obtain ⟨s', h1, h2, h3, _⟩ := C94_frames Q (leaf v) { u with ra := site } hu (leaf_good Q v _ hu)
    rw [h1] at h
    cases h
    exact ⟨h2, h3, (fsKept Q (leaf v) { u with ra := site } _ (leaf_good Q v _ hu) (leaf_calm v _) h1).1⟩
  constructor
  · rw [GoodBody]
    refine ⟨leaf_good Q 7 _ p0, fun s1 h1 => ?_⟩
    obtain ⟨a1, a2, a3⟩ := after 7 100 s0 s1 p0 h1
    rw [GoodBody]
    refine ⟨leaf_good Q 8 _ (by intro a ha; simp only [a1]; exact p0 a ha), fun s2 h2 => ?_⟩
    obtain ⟨b1, b2, b3⟩ := after 8 200 s1 s2 (by intro a ha; rw [a1]; exact p0 a ha) h2
    exact code_good Q 9 s2 (by intro a ha; rw [b2, a2]; exact hq a ha)
  · rw [CalmBody]
    refine ⟨fun i _ => hfs i, leaf_calm 7 _, fun s1 h1 => ?_⟩
    obtain ⟨a1, a2, a3⟩ := after 7 100 s0 s1 p0 h1
    rw [CalmBody]
    refine ⟨fun i hi => (a3 i hi).trans (hfs i), leaf_calm 8 _, fun s2 h2 => ?_⟩
    rw [CalmBody, CalmBody]
    trivial

/-! ### Where the code does not have the property -/

/-- `2.0L + g()`: fs0 holds the left operand during the call. -/
def nested : Fn := .mk 0 (.code (setFs 2) (.call 100 (leaf 7) .nil))

/-- `nested` satisfies the assumptions, and returns with its own intermediate result in fs0: in `4.0L + nested()` the left operand is lost. -/
theorem nested_call_loses (s : St) (h : s.fs 0 = 4) : Good (fun _ => False) nested s ∧ ∃ s', run nested s = some s' ∧ s'.fs 0 = 2 ∧ s'.fs 0 ≠ s.fs 0 := by
  constructor
  · rw [nested, Good, GoodBody, prologue_eq]
    refine ⟨rfl, rfl, by simp only [setFs]; omega, fun a ha => ?_, ?_⟩
    · simp only [setFs]
      rcases ha with ha | ha | ha
      · exact ha.elim
      · rw [if_neg (by omega)]
      · rw [if_neg (by omega)]
    · rw [GoodBody]
      refine ⟨leaf_good _ 7 _ ?_, fun s1 _ => by rw [GoodBody]; trivial⟩
      intro a ha
      simp only [setFs]
      rcases ha with ha | ha | ha
      · exact ha.elim
      · omega
      · omega
  · have hl : ∀ u : St, ∃ u', run (leaf 7) u = some u' ∧ u'.ra = u.ra ∧ u'.fs 0 = u.fs 0 ∧ u'.ft 0 = u.fs 0 := by
      intro u
      obtain ⟨s', h1, _, _, h4, _⟩ := C94_frames (fun _ => False) (leaf 7) u (fun _ h => h.elim) (leaf_good _ 7 u (fun _ h => h.elim))
      have k := fsKept (fun _ => False) (leaf 7) u s' (leaf_good _ 7 u (fun _ h => h.elim)) (leaf_calm 7 u) h1
      exact ⟨s', h1, h4, k.1 0 (by decide), k.2 0 (by decide)⟩
    obtain ⟨u', h1, h2, h3, h4⟩ := hl { setFs 2 (exec s (prologue 0)) with ra := 100 }
    have k : (exec u' (epilogue 0)).fs 0 = 2 := by
      rw [epilogue_eq]
      simp only [show (0 : Nat) < 12 by decide, ↓reduceIte]
      rw [h4]
      rfl
    refine ⟨exec u' (epilogue 0), ?_, k, by rw [k, h]; decide⟩
    · rw [nested, run, runBody, runBody, h1]
      simp only
      rw [if_pos h2, runBody]
      rfl

/-- A function from elsewhere that uses ft0 and keeps the calling convention. -/
def usesFt (s : St) : St := { s with ft := fun j => if j = 0 then 55 else s.ft j }

/-- A function that calls it does not preserve fs0, although it never writes it itself. -/
theorem library_call_loses (s : St) (h : s.fs 0 = 4) : Good (fun _ => False) (.mk 0 (.lib 100 usesFt .nil)) s ∧
    ∃ s', run (.mk 0 (.lib 100 usesFt .nil)) s = some s' ∧ s'.fs 0 = 55 ∧ s'.fs 0 ≠ s.fs 0 := by
  constructor
  · rw [Good, GoodBody]
    exact ⟨rfl, rfl, rfl, fun _ => rfl, fun _ _ => rfl, by rw [GoodBody]; trivial⟩
  · have k : (exec (usesFt { exec s (prologue 0) with ra := 100 }) (epilogue 0)).fs 0 = 55 := by
      rw [epilogue_eq]
      rfl
    refine ⟨exec (usesFt { exec s (prologue 0) with ra := 100 }) (epilogue 0), ?_, k, by rw [k, h]; decide⟩
    have e : (usesFt { exec s (prologue 0) with ra := 100 }).ra = 100 := rfl
    rw [run, runBody, if_pos e, runBody, Option.map_some]

end Toycc.Abi
