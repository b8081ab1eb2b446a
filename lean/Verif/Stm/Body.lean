import Verif.Stm.Elab
import Verif.Stm.Machine
import Verif.Cg.SimpleProof
/-! Function bodies: the three languages together; strict and C evaluation of expressions. -/
namespace Toycc.Stm
open Toycc.Rv Toycc.Cg

/-! ### From the source to resolved nodes -/

/-- Labels by name. -/
def named (tbl : List (String × Label)) : Tgt → Label
  | .lab n => match tbl.find? (fun p => p.1 == n) with
    | some p => p.2
    | none => .ret ""
  | _ => .ret ""

theorem find_nodup {tbl : List (String × Label)} (h : (tbl.map (·.1)).Nodup) {p} (hp : p ∈ tbl) : tbl.find? (fun q => q.1 == p.1) = some p := by
  induction tbl with
  | nil => simp at hp
  | cons a r ih =>
    rw [List.map_cons, List.nodup_cons] at h
    rcases List.mem_cons.mp hp with rfl | hp
    · exact List.find?_cons_of_pos (by simp)
    · have : ¬ (a.1 == p.1) = true := by
        rw [beq_iff_eq]
        intro e
        exact h.1 (e ▸ List.mem_map_of_mem hp)
      rw [List.find?_cons_of_neg (p := fun q : String × Label => q.1 == p.1) this]
      exact ih h.2 hp

/-- A statement has exactly the labels named in it. -/
theorem has_names {t : Ty} {n : String} : ∀ s : SStmt, s.has t (.lab n) = true ↔ n ∈ s.names := by
  intro s
  induction s with
  | seq a b ia ib => simp only [SStmt.has, SStmt.names, Bool.or_eq_true, ia, ib, List.mem_append]
  | ifs c a b ia ib => simp only [SStmt.has, SStmt.names, Bool.or_eq_true, ia, ib, List.mem_append]
  | loop i c inc b ib => simp only [SStmt.has, SStmt.names, ib]
  | doW b c ib => simp only [SStmt.has, SStmt.names, ib]
  | switch c b ib => simp only [SStmt.has, SStmt.names, ib]
  | case lo hi s is => simp [SStmt.has, SStmt.names, is]
  | dflt s is => simp [SStmt.has, SStmt.names, is]
  | label m s is => simp [SStmt.has, SStmt.names, is]
  | _ => simp [SStmt.has, SStmt.names]

theorem run_sim {ev : Ev} (hsw : SwTyped ev) {body : SStmt} {uid uid' : Nat} {st : Stmt} (he : elabBody uid body = some (st, uid'))
    (hn : body.names.Nodup) (hw : body.switchesOk = true) (n : Nat) (m : Mem) :
    run ev n none body m = .stuck ∨ runR ev n none st m = run ev n none body m := by
  simp only [elabBody, bindSome] at he
  obtain ⟨⟨st0, b⟩, h1, st', h2, h3⟩ := he
  simp only [Option.some.injEq, Prod.mk.injEq] at h3
  obtain ⟨rfl, rfl⟩ := h3
  have g := elab_grow _ _ _ _ _ _ h1
  obtain ⟨L, q1, q2, q3⟩ := g.labels
  rw [List.append_nil] at q1
  dsimp only at h2 h1
  have hsb := g.sw
  obtain ⟨s1, s2, s3⟩ := hsb
  have hnd : (b.labels.map (·.1)).Nodup := by rw [q1]; exact q2.nodup_iff.mpr hn
  have hrel : Rel (named b.labels) .void none none body st' := by
    refine elab_rel body none none _ _ _ _ _ _ h1 h2 hw ⟨fun _ h => h, ?_, ?_, ?_, ?_, ?_, by omega⟩ (by simp [Old]) (by simp [Old])
    · intro p hp; simp only [named, find_nodup hnd hp]
    · intro n j hj _ _
      simp only [named] at hj
      split at hj
      · rename_i p hp
        have := q3 p (q1 ▸ List.mem_of_find?_eq_some hp)
        rw [hj] at this
        exact this
      · simp at hj
    · intro cs d hs; rw [s1] at hs; simp at hs
    · intro p hp; rw [s2] at hp; simp at hp
    · intro cs l hs; rw [s1] at hs; simp at hs
  have key : ∀ n (en : Option Tgt) m, (∀ g, en = some g → g.ok .void = true ∧ body.has .void g = true) →
      run ev n en body m = .stuck ∨ runR ev n (en.map (named b.labels)) st' m = run ev n en body m := by
    intro n
    induction n with
    | zero =>
      intro en m hen
      have h := hrel.sim hsw 0 en m hen
      rw [run, runR]
      revert h
      generalize exec ev 0 .void en body m = r
      generalize execR ev 0 (en.map (named b.labels)) st' m = r'
      intro h
      cases r with
      | timeout => cases h; exact .inr rfl
      | stuck => exact .inl rfl
      | done o m =>
        cases o with
        | normal => cases h; exact .inr rfl
        | brk => exact .inl rfl
        | cont => exact .inl rfl
        | goto l => cases h; exact .inr rfl
        | ret v => cases h; exact .inr rfl
    | succ n ih =>
      intro en m hen
      have h := hrel.sim hsw (n + 1) en m hen
      rw [run, runR]
      revert h
      generalize exec ev (n + 1) .void en body m = r
      generalize execR ev (n + 1) (en.map (named b.labels)) st' m = r'
      intro h
      cases r with
      | timeout => cases h; exact .inr rfl
      | stuck => exact .inl rfl
      | done o m =>
        cases o with
        | normal => cases h; exact .inr rfl
        | brk => exact .inl rfl
        | cont => exact .inl rfl
        | ret v => cases h; exact .inr rfl
        | goto l =>
          cases h
          dsimp only
          by_cases hh : body.has .void (.lab l) = true
          · have hd := hrel.defs (.lab l) rfl hh
            rw [if_pos hh, if_pos hd]
            exact ih (some (.lab l)) m (by intro g e; cases e; exact ⟨rfl, hh⟩)
          · rw [if_neg hh]; exact .inl rfl
  exact key n none m (by simp)

/-! ### Evaluators -/

/-- A register with this representation can be used for the purpose. -/
def useOk (u : Use) (e : Expr) (v : Int) (f : Ext) : Bool :=
  match u with
  | .value => true
  | .test => f.testable
  | .switch => f == .full && inRange (promote e.ty) v
  | .ret => f == .full

/-- Strict evaluation. -/
def evS (E : CEnv) (d : Nat) : Ev := fun u e m =>
  match evalS E false d e m with
  | some (v, f, m') => if useOk u e v f then some (v, m') else none
  | none => none

theorem evS_some {E d u e m v m'} (h : evS E d u e m = some (v, m')) : ∃ f, evalS E false d e m = some (v, f, m') ∧ useOk u e v f = true := by
  unfold evS at h
  split at h
  · rename_i v' f m'' he
    split at h
    · rename_i hu
      cases h
      exact ⟨f, he, hu⟩
    · simp at h
  · simp at h

theorem evS_typed (E d) : SwTyped (evS E d) := by
  intro c m v m' h
  obtain ⟨f, _, h2⟩ := evS_some h
  simp only [useOk, Bool.and_eq_true] at h2
  exact h2.2

theorem evS_evC {E d u e m r} (h : evS E d u e m = some r) : evC E d u e m = some r := by
  obtain ⟨v, m'⟩ := r
  obtain ⟨f, h1, _⟩ := evS_some h
  exact evalS_evalC E e _ _ _ _ _ _ h1

theorem evS_good {E : CEnv} {B : W} {env : Env} {P : Prog} (hw : World E B env P) (d : Nat) : EvGood E B env P d (evS E d) := by
  intro u e gs c gs' m v m' pc s hg hd he hc hm
  obtain ⟨f, h1, h2⟩ := evS_some he
  subst hd
  obtain ⟨s', r1, r2, r3, r4⟩ := gen_good hw e false gs c gs' m v f m' pc s hg h1 hc hm
  refine ⟨s', r1, r2, r4, ?_, ?_⟩
  · rintro rfl
    exact r3.zero h2
  · rintro (rfl | rfl)
    · simp only [useOk, Bool.and_eq_true, beq_iff_eq] at h2
      rw [h2.1] at r3
      exact r3.1
    · simp only [useOk, beq_iff_eq] at h2
      rw [h2] at r3
      exact r3.1

/-! ### Change of evaluator -/

/-- The expressions of a statement, and what they are used for. -/
def SStmt.uses : SStmt → List (Use × Expr)
  | .seq a b => a.uses ++ b.uses
  | .expr e => [(.value, e)]
  | .ifs c a b => (.test, c) :: (a.uses ++ b.uses)
  | .loop i c inc b => i.map (Use.value, ·) ++ c.toList.map (Use.test, ·) ++ inc.toList.map (Use.value, ·) ++ b.uses
  | .doW b c => (.test, c) :: b.uses
  | .switch c b => (.switch, c) :: b.uses
  | .case _ _ s => s.uses
  | .dflt s => s.uses
  | .label _ s => s.uses
  | .ret e => e.toList.map (Use.ret, ·)
  | _ => []

/-- `ev'` gives the results of `ev` on these expressions. -/
def Sub (ev ev' : Ev) (l : List (Use × Expr)) : Prop := ∀ p ∈ l, ∀ m r, ev p.1 p.2 m = some r → ev' p.1 p.2 m = some r

def Agree {α} (r r' : Res α) : Prop := r = .stuck ∨ r' = r

theorem Agree.andThen {r r' : Res Out} {f f' : Mem → Res Out} (h : Agree r r') (hf : ∀ m, Agree (f m) (f' m)) :
    Agree (r.andThen f) (r'.andThen f') := by
  rcases h with rfl | rfl
  · exact .inl rfl
  · cases r' with
    | timeout => exact .inr rfl
    | stuck => exact .inl rfl
    | done o m => cases o <;> first | exact hf m | exact .inr rfl

theorem Agree.iter {r r' : Res Out} {f f' : Mem → Res Out} (h : Agree r r') (hf : ∀ m, Agree (f m) (f' m)) :
    Agree (iterC f r) (iterC f' r') := by
  rcases h with rfl | rfl
  · exact .inl rfl
  · cases r' with
    | timeout => exact .inr rfl
    | stuck => exact .inl rfl
    | done o m => cases o <;> first | exact hf m | exact .inr rfl

theorem Agree.catch {r r' : Res Out} (h : Agree r r') : Agree (catchBrk r) (catchBrk r') := by
  rcases h with rfl | rfl
  · exact .inl rfl
  · exact .inr rfl

theorem Sub.left {ev ev' a b} (h : Sub ev ev' (a ++ b)) : Sub ev ev' a := fun p hp => h p (List.mem_append_left _ hp)
theorem Sub.right {ev ev' a b} (h : Sub ev ev' (a ++ b)) : Sub ev ev' b := fun p hp => h p (List.mem_append_right _ hp)
theorem Sub.head {ev ev' u e b} (h : Sub ev ev' ((u, e) :: b)) {m r} : ev u e m = some r → ev' u e m = some r := h (u, e) (List.mem_cons_self ..) m r
theorem Sub.tail {ev ev' a b} (h : Sub ev ev' (a :: b)) : Sub ev ev' b := fun p hp => h p (List.mem_cons_of_mem _ hp)

theorem evList_sub {ev ev' : Ev} : ∀ {l : List Expr}, Sub ev ev' (l.map (Use.value, ·)) → ∀ m r, evList ev l m = some r → evList ev' l m = some r := by
  intro l
  induction l with
  | nil => intro _ m r h; exact h
  | cons e l ih =>
    intro hs m r h
    rw [List.map_cons] at hs
    simp only [evList] at h ⊢
    cases h1 : ev .value e m with
    | none => rw [h1] at h; simp at h
    | some p =>
      rw [h1, Option.bind_some] at h
      rw [hs.head h1, Option.bind_some]
      exact ih hs.tail _ _ h

theorem evCond_sub {ev ev' : Ev} {c : Option Expr} (hs : Sub ev ev' (c.toList.map (Use.test, ·))) (m r) (h : evCond ev c m = some r) :
    evCond ev' c m = some r := by
  cases c with
  | none => exact h
  | some e => exact hs.head h

theorem exec_agree {ev ev' : Ev} : ∀ (n : Nat) (s : SStmt) (t : Ty) (en : Option Tgt) (m : Mem), Sub ev ev' s.uses →
    Agree (exec ev n t en s m) (exec ev' n t en s m) := by
  intro n
  induction n with
  | zero =>
    intro s
    induction s with
    | skip => intro t en m _; rw [exec, exec]; exact .inr rfl
    | seq a b ia ib =>
      intro t en m hs
      cases en with
      | none => rw [exec, exec]; exact (ia _ _ _ hs.left).andThen fun m => ib _ _ _ hs.right
      | some g =>
        rw [exec, exec]
        split
        · exact (ia _ _ _ hs.left).andThen fun m => ib _ _ _ hs.right
        · exact ib _ _ _ hs.right
    | expr e =>
      intro t en m hs
      rw [exec, exec]
      cases hx : ev .value e m with
      | none => exact .inl rfl
      | some p => rw [hs.head hx]; exact .inr rfl
    | ifs c a b ia ib =>
      intro t en m hs
      cases en with
      | none =>
        rw [exec, exec]
        rcases hx : ev .test c m with _ | ⟨v, m1⟩
        · exact .inl rfl
        rw [hs.head hx]
        dsimp only
        split
        · exact ia _ _ _ hs.tail.left
        · exact ib _ _ _ hs.tail.right
      | some g =>
        rw [exec, exec]
        split
        · exact ia _ _ _ hs.tail.left
        · exact ib _ _ _ hs.tail.right
    | loop i c inc b ib => intro t en m hs; rw [exec, exec]; exact .inr rfl
    | doW b c ib => intro t en m hs; rw [exec, exec]; exact .inr rfl
    | switch c b ib =>
      intro t en m hs
      cases en with
      | none =>
        rw [exec, exec]
        rcases hx : ev .switch c m with _ | ⟨v, m1⟩
        · exact .inl rfl
        rw [hs.head hx]
        dsimp only
        split
        · exact (ib _ _ _ hs.tail).catch
        · split
          · exact (ib _ _ _ hs.tail).catch
          · exact .inr rfl
      | some g => rw [exec, exec]; exact (ib _ _ _ hs.tail).catch
    | case lo hi s is =>
      intro t en m hs
      rcases en with _ | g
      · rw [exec, exec] <;> first | exact is _ _ _ hs | simp
      cases g with
      | case v => rw [exec, exec]; split <;> exact is _ _ _ hs
      | lab n => rw [exec, exec] <;> first | exact is _ _ _ hs | simp
      | dflt => rw [exec, exec] <;> first | exact is _ _ _ hs | simp
    | dflt s is => intro t en m hs; rw [exec, exec]; split <;> exact is _ _ _ hs
    | label l s is => intro t en m hs; rw [exec, exec]; split <;> exact is _ _ _ hs
    | goto l => intro t en m hs; rw [exec, exec]; exact .inr rfl
    | brk => intro t en m hs; rw [exec, exec]; exact .inr rfl
    | cont => intro t en m hs; rw [exec, exec]; exact .inr rfl
    | ret e =>
      intro t en m hs
      cases e with
      | none => rw [exec, exec]; exact .inr rfl
      | some e =>
        rw [exec, exec]
        cases hx : ev .ret e m with
        | none => exact .inl rfl
        | some p => rw [hs.head hx]; exact .inr rfl
  | succ n ihn =>
    intro s
    induction s with
    | skip => intro t en m _; rw [exec, exec]; exact .inr rfl
    | seq a b ia ib =>
      intro t en m hs
      cases en with
      | none => rw [exec, exec]; exact (ia _ _ _ hs.left).andThen fun m => ib _ _ _ hs.right
      | some g =>
        rw [exec, exec]
        split
        · exact (ia _ _ _ hs.left).andThen fun m => ib _ _ _ hs.right
        · exact ib _ _ _ hs.right
    | expr e =>
      intro t en m hs
      rw [exec, exec]
      cases hx : ev .value e m with
      | none => exact .inl rfl
      | some p => rw [hs.head hx]; exact .inr rfl
    | ifs c a b ia ib =>
      intro t en m hs
      cases en with
      | none =>
        rw [exec, exec]
        rcases hx : ev .test c m with _ | ⟨v, m1⟩
        · exact .inl rfl
        rw [hs.head hx]
        dsimp only
        split
        · exact ia _ _ _ hs.tail.left
        · exact ib _ _ _ hs.tail.right
      | some g =>
        rw [exec, exec]
        split
        · exact ia _ _ _ hs.tail.left
        · exact ib _ _ _ hs.tail.right
    | loop i c inc b ib =>
      intro t en m hs
      have h1 : Sub ev ev' (SStmt.loop [] c inc b).uses := by
        intro p hp
        refine hs p ?_
        simp only [SStmt.uses, List.map_nil, List.nil_append, List.mem_append] at hp ⊢
        rcases hp with (hp | hp) | hp
        · exact .inl (.inl (.inr hp))
        · exact .inl (.inr hp)
        · exact .inr hp
      have hb : Sub ev ev' b.uses := hs.right
      have hi : Sub ev ev' (inc.toList.map (Use.value, ·)) := hs.left.right
      have hc : Sub ev ev' (c.toList.map (Use.test, ·)) := hs.left.left.right
      have h0 : Sub ev ev' (i.map (Use.value, ·)) := hs.left.left.left
      have hnext : ∀ m, Agree (match evList ev inc.toList m with | some m => exec ev n t none (.loop [] c inc b) m | none => .stuck)
          (match evList ev' inc.toList m with | some m => exec ev' n t none (.loop [] c inc b) m | none => .stuck) := by
        intro m
        cases hx : evList ev inc.toList m with
        | none => exact .inl rfl
        | some m1 => rw [evList_sub hi _ _ hx]; exact ihn _ _ _ _ h1
      cases en with
      | none =>
        rw [exec, exec]
        rcases hx : evList ev i m with _ | m1
        · exact .inl rfl
        rw [evList_sub h0 _ _ hx]
        dsimp only
        rcases hy : evCond ev c m1 with _ | ⟨v, m2⟩
        · exact .inl rfl
        rw [evCond_sub hc _ _ hy]
        dsimp only
        split
        · exact (ib _ _ _ hb).iter hnext
        · exact .inr rfl
      | some g => rw [exec, exec]; exact (ib _ _ _ hb).iter hnext
    | doW b c ib =>
      intro t en m hs
      rw [exec, exec]
      refine (ib _ _ _ hs.tail).iter fun m => ?_
      rcases hx : ev .test c m with _ | ⟨v, m1⟩
      · exact .inl rfl
      rw [hs.head hx]
      dsimp only
      split
      · exact ihn _ _ _ _ hs
      · exact .inr rfl
    | switch c b ib =>
      intro t en m hs
      cases en with
      | none =>
        rw [exec, exec]
        rcases hx : ev .switch c m with _ | ⟨v, m1⟩
        · exact .inl rfl
        rw [hs.head hx]
        dsimp only
        split
        · exact (ib _ _ _ hs.tail).catch
        · split
          · exact (ib _ _ _ hs.tail).catch
          · exact .inr rfl
      | some g => rw [exec, exec]; exact (ib _ _ _ hs.tail).catch
    | case lo hi s is =>
      intro t en m hs
      rcases en with _ | g
      · rw [exec, exec] <;> first | exact is _ _ _ hs | simp
      cases g with
      | case v => rw [exec, exec]; split <;> exact is _ _ _ hs
      | lab n => rw [exec, exec] <;> first | exact is _ _ _ hs | simp
      | dflt => rw [exec, exec] <;> first | exact is _ _ _ hs | simp
    | dflt s is => intro t en m hs; rw [exec, exec]; split <;> exact is _ _ _ hs
    | label l s is => intro t en m hs; rw [exec, exec]; split <;> exact is _ _ _ hs
    | goto l => intro t en m hs; rw [exec, exec]; exact .inr rfl
    | brk => intro t en m hs; rw [exec, exec]; exact .inr rfl
    | cont => intro t en m hs; rw [exec, exec]; exact .inr rfl
    | ret e =>
      intro t en m hs
      cases e with
      | none => rw [exec, exec]; exact .inr rfl
      | some e =>
        rw [exec, exec]
        cases hx : ev .ret e m with
        | none => exact .inl rfl
        | some p => rw [hs.head hx]; exact .inr rfl

theorem run_agree {ev ev' : Ev} (s : SStmt) (hs : Sub ev ev' s.uses) : ∀ n en m, Agree (run ev n en s m) (run ev' n en s m) := by
  intro n
  induction n with
  | zero =>
    intro en m
    have h := exec_agree 0 s .void en m hs
    rw [run, run]
    rcases h with h | h
    · rw [h]; exact .inl rfl
    · rw [h]; exact .inr rfl
  | succ n ih =>
    intro en m
    have h := exec_agree (n + 1) s .void en m hs
    rw [run, run]
    rcases h with h | h
    · rw [h]; exact .inl rfl
    · rw [h]
      generalize exec ev (n + 1) .void en s m = r
      cases r with
      | timeout => exact .inr rfl
      | stuck => exact .inl rfl
      | done o m =>
        cases o with
        | goto l =>
          dsimp only
          split
          · exact ih _ _
          · exact .inl rfl
        | _ => exact .inr rfl

/-! ### The simple class -/

/-- A use of an expression in the class: simple, leaving a value where one is used; a switch is on an integer. -/
def useSimple (p : Use × Expr) : Bool :=
  simple false p.2 && (p.1 == .value || usable p.2) && (p.1 != .switch || (p.2.ty.scalar && p.2.ty != .ptr))

theorem inRange_promote {t : Ty} {v : Int} (ht : t.scalar = true) (h : inRange t v = true) : inRange (promote t) v = true := by
  cases t with
  | bool => have := of_decide_eq_true h; exact decide_eq_true (show -(2 ^ 31) ≤ v ∧ v < 2 ^ 31 by omega)
  | char u => cases u <;> (have := of_decide_eq_true h; simp only [Ty.bits, Ty.size] at this; exact decide_eq_true (show -(2 ^ 31) ≤ v ∧ v < 2 ^ 31 by omega))
  | short u => cases u <;> (have := of_decide_eq_true h; simp only [Ty.bits, Ty.size] at this; exact decide_eq_true (show -(2 ^ 31) ≤ v ∧ v < 2 ^ 31 by omega))
  | int u => exact h
  | long u => exact h
  | enum => exact h
  | ptr => exact h
  | _ => simp [Ty.scalar] at ht

theorem simple_sub {E : CEnv} {d : Nat} (ht : E.CallsTyped) {l : List (Use × Expr)} (hs : l.all useSimple = true)
    (hr : ∀ p ∈ l, d + need p.2 ≤ E.room) : Sub (evC E d) (evS E d) l := by
  intro p hp m r h
  obtain ⟨v, m'⟩ := r
  have h1 := List.all_eq_true.mp hs p hp
  simp only [useSimple, Bool.and_eq_true, Bool.or_eq_true, beq_iff_eq, bne_iff_ne, ne_eq] at h1
  obtain ⟨⟨h1, h2⟩, h3⟩ := h1
  obtain ⟨f, e1, e2⟩ := evalS_of_evalC ht p.2 false d m v m' h1 (hr p hp) h
  have : useOk p.1 p.2 v f = true := by
    obtain ⟨u, e⟩ := p
    cases u with
    | value => rfl
    | test =>
      obtain ⟨rfl, _⟩ := e2 (h2.resolve_left (by simp))
      rfl
    | ret =>
      obtain ⟨rfl, _⟩ := e2 (h2.resolve_left (by simp))
      rfl
    | switch =>
      obtain ⟨rfl, e3⟩ := e2 (h2.resolve_left (by simp))
      have h3 := h3.resolve_left (by simp)
      simp only [Bool.false_eq_true, if_false] at e3
      rw [inV_scalar h3.1] at e3
      simp only [useOk, beq_self_eq_true, Bool.true_and]
      exact inRange_promote h3.1 e3
  simp only [evS, e1, this, if_true]

end Toycc.Stm
