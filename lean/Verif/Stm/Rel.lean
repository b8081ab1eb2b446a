import Verif.Stm.Node
/-! Statement nodes that correspond to a source statement behave like it. -/
namespace Toycc.Stm
open Toycc.Rv Toycc.Cg

/-- The node `st` corresponds to `s`: `σ` gives the label of every target, `t` is the promoted type of the enclosing switch, `b` and
`k` are the labels of `break` and `continue`. -/
inductive Rel : (Tgt → Label) → Ty → Option Label → Option Label → SStmt → Stmt → Prop
  | skip {σ t b k} : Rel σ t b k .skip .skip
  | seq {σ t b k x y x' y'} : Rel σ t b k x x' → Rel σ t b k y y' → (∀ l, x'.defs l = true → y'.defs l = false) →
      Rel σ t b k (.seq x y) (.seq x' y')
  | expr {σ t b k e} : Rel σ t b k (.expr e) (.expr e)
  | ifs {σ t b k c x y x' y'} : Rel σ t b k x x' → Rel σ t b k y y' → (∀ l, x'.defs l = true → y'.defs l = false) →
      Rel σ t b k (.ifs c x y) (.ifs c x' y')
  | loop {σ t b k init c inc x x' lb lk} : Rel σ t (some lb) (some lk) x x' → lb ≠ lk → (∀ n, σ (.lab n) ≠ lb) → (∀ n, σ (.lab n) ≠ lk) →
      Rel σ t b k (.loop init c inc x) (.loop init c inc x' lb lk)
  | doW {σ t b k c x x' lb lk} : Rel σ t (some lb) (some lk) x x' → lb ≠ lk → (∀ n, σ (.lab n) ≠ lb) → (∀ n, σ (.lab n) ≠ lk) →
      Rel σ t b k (.doW x c) (.doW x' c lb lk)
  | switch {σ σ' t b k c x x' lb cs d} : Rel σ' (promote c.ty) (some lb) k x x' → (∀ n, σ' (.lab n) = σ (.lab n)) →
      (∀ n, σ (.lab n) ≠ lb) → k ≠ some lb → x'.defs lb = false →
      (∀ v, inRange (promote c.ty) v = true → x.has (promote c.ty) (.case v) = true → dispatch v cs d lb = σ' (.case v)) →
      (∀ v, inRange (promote c.ty) v = true → x.has (promote c.ty) (.case v) = false → x.has (promote c.ty) .dflt = true →
        dispatch v cs d lb = σ' .dflt) →
      (∀ v, inRange (promote c.ty) v = true → x.has (promote c.ty) (.case v) = false → x.has (promote c.ty) .dflt = false →
        dispatch v cs d lb = lb) →
      Rel σ t b k (.switch c x) (.switch c cs d x' lb)
  | case {σ t b k lo hi x x' l} : Rel σ t b k x x' → (∀ v, inRange t v = true → caseHolds t lo hi v = true → σ (.case v) = l) →
      x'.defs l = false → Rel σ t b k (.case lo hi x) (.label l x')
  | dflt {σ t b k x x' l} : Rel σ t b k x x' → σ .dflt = l → x'.defs l = false → Rel σ t b k (.dflt x) (.label l x')
  | label {σ t b k n x x' l} : Rel σ t b k x x' → σ (.lab n) = l → x'.defs l = false → Rel σ t b k (.label n x) (.label l x')
  | goto {σ t b k n} : Rel σ t b k (.goto n) (.goto (.lab (σ (.lab n))))
  | brk {σ t b k} : Rel σ t (some b) k .brk (.goto (.lab b))
  | cont {σ t b k} : Rel σ t b (some k) .cont (.goto (.lab k))
  | ret {σ t b k e} : Rel σ t b k (.ret e) (.ret e)

/-- Case values are those of the switch's type. -/
def Tgt.ok (t : Ty) : Tgt → Bool
  | .case v => inRange t v
  | _ => true

theorem has_lab (t t' : Ty) (n : String) : ∀ s : SStmt, s.has t (.lab n) = s.has t' (.lab n) := by
  intro s
  induction s with
  | seq a b ia ib => simp only [SStmt.has, ia, ib]
  | ifs c a b ia ib => simp only [SStmt.has, ia, ib]
  | loop i c inc b ib => simp only [SStmt.has, ib]
  | doW b c ib => simp only [SStmt.has, ib]
  | switch c b ib => simp only [SStmt.has, ib]
  | case lo hi s is => simp only [SStmt.has, is]
  | dflt s is => simp only [SStmt.has, is]
  | label m s is => simp only [SStmt.has, is]
  | _ => rfl

theorem Rel.defs {σ t b k s st} (h : Rel σ t b k s st) : ∀ g : Tgt, g.ok t = true → s.has t g = true → st.defs (σ g) = true := by
  induction h with
  | skip => intro g _ h; simp [SStmt.has] at h
  | seq _ _ _ i1 i2 =>
    intro g ho h
    simp only [SStmt.has, Bool.or_eq_true] at h
    simp only [Stmt.defs, Bool.or_eq_true]
    exact h.imp (i1 g ho) (i2 g ho)
  | expr => intro g _ h; simp [SStmt.has] at h
  | ifs _ _ _ i1 i2 =>
    intro g ho h
    simp only [SStmt.has, Bool.or_eq_true] at h
    simp only [Stmt.defs, Bool.or_eq_true]
    exact h.imp (i1 g ho) (i2 g ho)
  | loop _ _ _ _ i1 => intro g ho h; exact i1 g ho h
  | doW _ _ _ _ i1 => intro g ho h; exact i1 g ho h
  | switch _ h1 _ _ _ _ _ _ i1 =>
    intro g ho h
    cases g with
    | lab n =>
      have := i1 (.lab n) rfl (by rw [has_lab _ _]; exact h)
      rw [h1] at this
      exact this
    | case v => simp [SStmt.has] at h
    | dflt => simp [SStmt.has] at h
  | case _ h1 _ i1 =>
    intro g ho h
    simp only [SStmt.has, Bool.or_eq_true] at h
    simp only [Stmt.defs, Bool.or_eq_true, beq_iff_eq]
    rcases h with h | h
    · left
      cases g with
      | case v => exact h1 v ho h
      | lab n => simp at h
      | dflt => simp at h
    · exact .inr (i1 g ho h)
  | dflt _ h1 _ i1 =>
    intro g ho h
    simp only [SStmt.has, Bool.or_eq_true, beq_iff_eq] at h
    simp only [Stmt.defs, Bool.or_eq_true, beq_iff_eq]
    rcases h with rfl | h
    · exact .inl h1
    · exact .inr (i1 g ho h)
  | label _ h1 _ i1 =>
    intro g ho h
    simp only [SStmt.has, Bool.or_eq_true, beq_iff_eq] at h
    simp only [Stmt.defs, Bool.or_eq_true, beq_iff_eq]
    rcases h with rfl | h
    · exact .inl h1
    · exact .inr (i1 g ho h)
  | goto => intro g _ h; simp [SStmt.has] at h
  | brk => intro g _ h; simp [SStmt.has] at h
  | cont => intro g _ h; simp [SStmt.has] at h
  | ret => intro g _ h; simp [SStmt.has] at h

/-- Corresponding results. Nothing is claimed about a source statement with undefined behaviour. -/
def SimRes (σ : Tgt → Label) (b k : Option Label) (r : Res Out) (r' : Res OutR) : Prop :=
  match r with
  | .timeout => r' = .timeout
  | .stuck => True
  | .done .normal m => r' = .done .normal m
  | .done .brk m => ∃ l, b = some l ∧ r' = .done (.jump l) m
  | .done .cont m => ∃ l, k = some l ∧ r' = .done (.jump l) m
  | .done (.goto n) m => r' = .done (.jump (σ (.lab n))) m
  | .done (.ret v) m => r' = .done (.ret v) m

theorem SimRes.seq {σ b k r r'} {f : Mem → Res Out} {f' : Mem → Res OutR} (h : SimRes σ b k r r') (hf : ∀ m, SimRes σ b k (f m) (f' m)) :
    SimRes σ b k (r.andThen f) (r'.seqR f') := by
  cases r with
  | timeout => cases h; rfl
  | stuck => trivial
  | done o m =>
    cases o with
    | normal => cases h; exact hf m
    | brk => obtain ⟨l, h1, rfl⟩ := h; exact ⟨l, h1, rfl⟩
    | cont => obtain ⟨l, h1, rfl⟩ := h; exact ⟨l, h1, rfl⟩
    | goto n => cases h; rfl
    | ret v => cases h; rfl

theorem SimRes.iter {σ b k r r' lb lk} {f : Mem → Res Out} {f' : Mem → Res OutR} (h : SimRes σ (some lb) (some lk) r r')
    (hbk : lb ≠ lk) (h1 : ∀ n, σ (.lab n) ≠ lb) (h2 : ∀ n, σ (.lab n) ≠ lk) (hf : ∀ m, SimRes σ b k (f m) (f' m)) :
    SimRes σ b k (iterC f r) (iterR lb lk f' r') := by
  cases r with
  | timeout => cases h; rfl
  | stuck => trivial
  | done o m =>
    cases o with
    | normal => cases h; exact hf m
    | brk =>
      obtain ⟨l, h3, rfl⟩ := h
      cases h3
      simp only [iterC, iterR, if_neg hbk, ↓reduceIte]
      rfl
    | cont =>
      obtain ⟨l, h3, rfl⟩ := h
      cases h3
      simp only [iterC, iterR, ↓reduceIte]
      exact hf m
    | goto n =>
      cases h
      simp only [iterC, iterR, if_neg (h1 n), if_neg (h2 n)]
      rfl
    | ret v => cases h; rfl

theorem SimRes.catch {σ σ' : Tgt → Label} {b k r r' lb} (h : SimRes σ' (some lb) k r r') (h1 : ∀ n, σ (.lab n) ≠ lb) (h2 : k ≠ some lb)
    (h3 : ∀ n, σ' (.lab n) = σ (.lab n)) : SimRes σ b k (catchBrk r) (catchJump lb r') := by
  cases r with
  | timeout => cases h; rfl
  | stuck => trivial
  | done o m =>
    cases o with
    | normal => cases h; rfl
    | brk =>
      obtain ⟨l, h4, rfl⟩ := h
      cases h4
      simp only [catchBrk, catchJump, ↓reduceIte]
      rfl
    | cont =>
      obtain ⟨l, h4, rfl⟩ := h
      refine ⟨l, h4, ?_⟩
      simp only [catchJump]
      rw [if_neg]
      intro e
      rw [e] at h4
      exact h2 h4
    | goto n =>
      cases h
      simp only [catchBrk, catchJump, h3 n, if_neg (h1 n)]
      rfl
    | ret v => cases h; rfl

/-- The values a switch sees are those of its type. -/
def SwTyped (ev : Ev) : Prop := ∀ c m v m', ev .switch c m = some (v, m') → inRange (promote c.ty) v = true

/-- Corresponding statements behave alike. -/
theorem Rel.sim {ev : Ev} (hsw : SwTyped ev) {σ t b k s st} (h : Rel σ t b k s st) :
    ∀ n en m, (∀ g, en = some g → g.ok t = true ∧ s.has t g = true) → SimRes σ b k (exec ev n t en s m) (execR ev n (en.map σ) st m) := by
  induction h with
  | skip => intro n en m hen; rw [exec, execR]; rfl
  | seq h1 h2 hd i1 i2 =>
    intro n en m hen
    cases en with
    | none =>
      rw [exec, Option.map_none, execR]
      exact (i1 n none m (by simp)).seq fun m => i2 n none m (by simp)
    | some g =>
      obtain ⟨ho, hh⟩ := hen g rfl
      rw [exec, Option.map_some, execR]
      split
      · rename_i ha
        rw [if_pos (h1.defs g ho ha)]
        exact (i1 n (some g) m (by simp [ho, ha])).seq fun m => i2 n none m (by simp)
      · rename_i ha
        simp only [SStmt.has, Bool.or_eq_true] at hh
        have hb := hh.resolve_left ha
        rw [if_neg]
        · exact i2 n (some g) m (by simp [ho, hb])
        · intro hc
          have := hd _ hc
          rw [h2.defs g ho hb] at this
          simp at this
  | expr =>
    intro n en m hen
    rw [exec, execR]
    split
    · rename_i e1; rw [e1]; rfl
    · trivial
  | ifs h1 h2 hd i1 i2 =>
    intro n en m hen
    cases en with
    | none =>
      rw [exec, Option.map_none, execR]
      split
      · rename_i v m' e1
        rw [e1]
        dsimp only
        split
        · exact i1 n none m' (by simp)
        · exact i2 n none m' (by simp)
      · trivial
    | some g =>
      obtain ⟨ho, hh⟩ := hen g rfl
      rw [exec, Option.map_some, execR]
      split
      · rename_i ha
        rw [if_pos (h1.defs g ho ha)]
        exact i1 n (some g) m (by simp [ho, ha])
      · rename_i ha
        simp only [SStmt.has, Bool.or_eq_true] at hh
        have hb := hh.resolve_left ha
        rw [if_neg]
        · exact i2 n (some g) m (by simp [ho, hb])
        · intro hc
          have := hd _ hc
          rw [h2.defs g ho hb] at this
          simp at this
  | @loop σ t b k init c inc x x' lb lk h1 hbk hb hk i1 =>
    have main : ∀ n init en m, (∀ g, en = some g → g.ok t = true ∧ x.has t g = true) →
        SimRes σ b k (exec ev n t en (.loop init c inc x) m) (execR ev n (en.map σ) (.loop init c inc x' lb lk) m) := by
      intro n
      induction n with
      | zero => intro init en m hen; rw [exec, execR]; rfl
      | succ n ih =>
        intro init en m hen
        have next : ∀ m, SimRes σ b k
            (match evList ev inc.toList m with
              | some m => exec ev n t none (.loop [] c inc x) m
              | none => .stuck)
            (match evList ev inc.toList m with
              | some m => execR ev n none (.loop [] c inc x' lb lk) m
              | none => .stuck) := by
          intro m
          split
          · exact ih [] none _ (by simp)
          · trivial
        cases en with
        | none =>
          rw [exec, Option.map_none, execR]
          cases evList ev init m with
          | none => trivial
          | some m1 =>
            dsimp only
            cases evCond ev c m1 with
            | none => trivial
            | some p =>
              obtain ⟨v, m2⟩ := p
              dsimp only
              split
              · exact (i1 (n + 1) none _ (by simp)).iter hbk hb hk next
              · rfl
        | some g =>
          rw [exec, Option.map_some, execR]
          exact (i1 (n + 1) (some g) _ hen).iter hbk hb hk next
    intro n en m hen
    exact main n init en m hen
  | @doW σ t b k c x x' lb lk h1 hbk hb hk i1 =>
    intro n
    induction n with
    | zero => intro en m hen; rw [exec, execR]; rfl
    | succ n ih =>
      intro en m hen
      rw [exec, execR]
      refine (i1 (n + 1) en _ hen).iter hbk hb hk ?_
      intro m
      cases ev .test c m with
      | none => trivial
      | some p =>
        obtain ⟨v, m'⟩ := p
        dsimp only
        split
        · exact ih none m' (by simp)
        · rfl
  | @switch σ σ' t b k c x x' lb cs d h1 h2 h3 h4 h5 h6 h7 h8 i1 =>
    intro n en m hen
    cases en with
    | some g =>
      obtain ⟨ho, hh⟩ := hen g rfl
      rw [exec, Option.map_some, execR]
      cases g with
      | lab l =>
        rw [← h2 l]
        refine (i1 n (some (.lab l)) m ?_).catch h3 h4 h2
        intro g hg
        cases hg
        exact ⟨rfl, by rw [has_lab _ _]; exact hh⟩
      | case v => simp [SStmt.has] at hh
      | dflt => simp [SStmt.has] at hh
    | none =>
      rw [exec, Option.map_none, execR]
      split
      case h_2 => trivial
      rename_i v m' e1
      rw [e1]
      have hv := hsw _ _ _ _ e1
      dsimp only
      have go : ∀ g : Tgt, g.ok (promote c.ty) = true → x.has (promote c.ty) g = true → dispatch v cs d lb = σ' g →
          SimRes σ b k (catchBrk (exec ev n (promote c.ty) (some g) x m'))
            (if dispatch v cs d lb = lb then .done .normal m'
             else if x'.defs (dispatch v cs d lb) then catchJump lb (execR ev n (some (dispatch v cs d lb)) x' m') else .stuck) := by
        intro g ho hh hd
        have hdef := h1.defs g ho hh
        rw [hd, if_neg, if_pos hdef]
        · refine (i1 n (some g) m' ?_).catch h3 h4 h2
          intro g' hg'
          cases hg'
          exact ⟨ho, hh⟩
        · intro e
          rw [e, h5] at hdef
          simp at hdef
      split
      · rename_i hc
        exact go (.case v) hv hc (h6 v hv hc)
      · rename_i hc
        have hc := Bool.eq_false_iff.mpr hc
        split
        · rename_i hdf
          exact go .dflt rfl hdf (h7 v hv hc hdf)
        · rename_i hdf
          rw [if_pos (h8 v hv hc (Bool.eq_false_iff.mpr hdf))]
          rfl
  | @case σ t b k lo hi x x' l h1 h2 h3 i1 =>
    intro n en m hen
    have other : ∀ g : Tgt, en = some g → x.has t g = true → SimRes σ b k (exec ev n t en x m) (execR ev n (en.map σ) (.label l x') m) := by
      intro g hg hx
      subst hg
      have ho := (hen g rfl).1
      rw [Option.map_some, execR, if_neg]
      · exact i1 n (some g) m (by simp [ho, hx])
      · intro e
        have := h1.defs g ho hx
        rw [Option.some.injEq] at e
        rw [e, h3] at this
        simp at this
    cases en with
    | none =>
      rw [exec]
      · rw [Option.map_none, execR]
        simp only [reduceCtorEq, ↓reduceIte]
        exact i1 n none m (by simp)
      · simp
    | some g =>
      obtain ⟨ho, hh⟩ := hen g rfl
      simp only [SStmt.has, Bool.or_eq_true] at hh
      cases g with
      | case v =>
        rw [exec]
        split
        · rename_i hc
          rw [Option.map_some, execR, if_pos (by rw [h2 v ho hc])]
          exact i1 n none m (by simp)
        · rename_i hc
          exact other (.case v) rfl (hh.resolve_left hc)
      | lab nn =>
        rw [exec]
        · exact other (.lab nn) rfl (hh.resolve_left (by simp))
        · simp
      | dflt =>
        rw [exec]
        · exact other .dflt rfl (hh.resolve_left (by simp))
        · simp
  | @dflt σ t b k x x' l h1 h2 h3 i1 =>
    intro n en m hen
    rw [exec, execR]
    split
    · rename_i he
      subst he
      rw [Option.map_some, h2, if_pos rfl]
      exact i1 n none m (by simp)
    · rename_i he
      have hne : en.map σ ≠ some l := by
        cases en with
        | none => simp
        | some g =>
          obtain ⟨ho, hh⟩ := hen g rfl
          simp only [SStmt.has, Bool.or_eq_true, beq_iff_eq] at hh
          have := h1.defs g ho (hh.resolve_left (fun e => he (by rw [e])))
          intro e
          simp only [Option.map_some, Option.some.injEq] at e
          rw [e, h3] at this
          simp at this
      rw [if_neg hne]
      refine i1 n en m ?_
      intro g hg
      subst hg
      obtain ⟨ho, hh⟩ := hen g rfl
      simp only [SStmt.has, Bool.or_eq_true, beq_iff_eq] at hh
      exact ⟨ho, hh.resolve_left (fun e => he (by rw [e]))⟩
  | @label σ t b k nm x x' l h1 h2 h3 i1 =>
    intro n en m hen
    rw [exec, execR]
    split
    · rename_i he
      subst he
      rw [Option.map_some, h2, if_pos rfl]
      exact i1 n none m (by simp)
    · rename_i he
      have hne : en.map σ ≠ some l := by
        cases en with
        | none => simp
        | some g =>
          obtain ⟨ho, hh⟩ := hen g rfl
          simp only [SStmt.has, Bool.or_eq_true, beq_iff_eq] at hh
          have := h1.defs g ho (hh.resolve_left (fun e => he (by rw [e])))
          intro e
          simp only [Option.map_some, Option.some.injEq] at e
          rw [e, h3] at this
          simp at this
      rw [if_neg hne]
      refine i1 n en m ?_
      intro g hg
      subst hg
      obtain ⟨ho, hh⟩ := hen g rfl
      simp only [SStmt.has, Bool.or_eq_true, beq_iff_eq] at hh
      exact ⟨ho, hh.resolve_left (fun e => he (by rw [e]))⟩
  | goto => intro n en m hen; rw [exec, execR]; rfl
  | brk => intro n en m hen; rw [exec, execR]; exact ⟨_, rfl, rfl⟩
  | cont => intro n en m hen; rw [exec, execR]; exact ⟨_, rfl, rfl⟩
  | @ret σ t b k e =>
    intro n en m hen
    cases e with
    | none => rw [exec, execR]; rfl
    | some e =>
      rw [exec, execR]
      split
      · rename_i e1; rw [e1]; rfl
      · trivial

end Toycc.Stm
