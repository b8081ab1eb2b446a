import Verif.Scope.Proof
/-! The scope functions themselves, under every sequence of calls. -/
namespace Toycc.Scope
open Toycc.HashMap (Key)

/-- Calls of enter_scope, leave_scope, push_scope and push_tag_scope (the kind of a block does not matter; parameters of parameter lists are not
entered). -/
def calls : List Ev → List Scope → Except SErr (List Scope)
  | [], s => .ok s
  | .opened _ :: r, s => calls r (enterScope s)
  | .closed :: r, s => do calls r (← leaveScope s)
  | .var x i :: r, s => do calls r (← pushScope s x i)
  | .tag x n :: r, s => do calls r (← pushTag s x n)
  | .param _ _ :: r, s => calls r s

/-- Never is more left than was entered. -/
def Nested (es : List Ev) : Prop := ∀ a b, es = a ++ b → 0 ≤ level a.reverse

theorem calls_append (a b : List Ev) (s : List Scope) : calls (a ++ b) s = (calls a s).bind (calls b) := by
  induction a generalizing s with
  | nil => rfl
  | cons e a ih =>
    cases e with
    | opened _ => exact ih _
    | param _ _ => exact ih _
    | closed =>
      simp only [List.cons_append, calls, bind]
      cases leaveScope s with
      | error e => rfl
      | ok s => exact ih _
    | var x i =>
      simp only [List.cons_append, calls, bind]
      cases pushScope s x i with
      | error e => rfl
      | ok s => exact ih _
    | tag x i =>
      simp only [List.cons_append, calls, bind]
      cases pushTag s x i with
      | error e => rfl
      | ok s => exact ih _

/-- The scopes represent the past. -/
structure Holds (fs : List F) (past : List Ev) : Prop where
  len : (fs.length : Int) = level past + 1
  var : ∀ x d, d < fs.length → fvar (fs.drop d) x = visible (onDecl x) past d
  tag : ∀ x d, d < fs.length → ftag (fs.drop d) x = visible (onTag x) past d
  file : ∀ x, ffile fs x = atFile (onDecl x) past

theorem flat (es : List Ev) : ∀ (s : List Scope) (fs : List F) (past : List Ev), View s fs → Holds fs past →
    (∀ a b, es = a ++ b → 0 ≤ level (a.reverse ++ past)) → ∃ s' fs', calls es s = .ok s' ∧ View s' fs' ∧ Holds fs' (es.reverse ++ past) := by
  induction es with
  | nil => intro s fs past v h _; exact ⟨s, fs, rfl, v, h⟩
  | cons e es ih =>
    intro s fs past v h hn
    have hn' : ∀ a b, es = a ++ b → 0 ≤ level (a.reverse ++ e :: past) := by
      intro a b hab
      have := hn (e :: a) b (by rw [hab]; rfl)
      simpa using this
    have h0 := hn' [] es rfl
    have hrev : ∀ p, (e :: es).reverse ++ p = es.reverse ++ e :: p := by intro p; simp
    rw [hrev]
    have h00 := hn [] (e :: es) rfl
    have hpos : 0 < fs.length := by have := h.len; simp at h00; omega
    obtain ⟨f, gs, rfl⟩ : ∃ f gs, fs = f :: gs := by
      cases fs with
      | nil => cases hpos
      | cons f gs => exact ⟨f, gs, rfl⟩
    cases e with
    | opened b =>
      refine ih _ _ _ (view_enter v) ?_ hn'
      refine ⟨?_, ?_, ?_, ?_⟩
      · have := h.len; simp only [List.length_cons, level] at *; omega
      · intro x d hd
        cases d with
        | zero => exact h.var x 0 hpos
        | succ d => exact h.var x d (by simpa using hd)
      · intro x d hd
        cases d with
        | zero => exact h.tag x 0 hpos
        | succ d => exact h.tag x d (by simpa using hd)
      · intro x
        rw [show ffile (F.empty :: f :: gs) x = ffile (f :: gs) x from rfl, h.file x, atFile]
        split <;> rfl
    | closed =>
      obtain ⟨s', e1, v1⟩ := view_leave v
      simp only [calls, e1, bind, Except.bind]
      have hl := h.len
      simp only [level, List.nil_append, List.reverse_nil, List.length_cons] at hl h0
      refine ih _ _ _ v1 ?_ hn'
      refine ⟨?_, ?_, ?_, ?_⟩
      · simp only [level]; omega
      · intro x d hd
        exact h.var x (d + 1) (by simpa using hd)
      · intro x d hd
        exact h.tag x (d + 1) (by simpa using hd)
      · intro x
        obtain ⟨g, gs, rfl⟩ : ∃ g gs', gs = g :: gs' := by
          cases gs with
          | nil => simp at hl; omega
          | cons f gs => exact ⟨f, gs, rfl⟩
        rw [atFile]
        rw [if_neg (by omega)]
        exact h.file x
    | var x i =>
      obtain ⟨s', e1, v1⟩ := view_pushScope v x i
      simp only [calls, e1, bind, Except.bind]
      have hl := h.len
      refine ih _ _ _ v1 ?_ hn'
      refine ⟨?_, ?_, ?_, ?_⟩
      · exact hl
      · intro y d hd
        cases d with
        | zero =>
          have := h.var y 0 hpos
          simp only [List.drop_zero, fvar, upd, visible, onDecl] at *
          by_cases e : y = x
          · subst e; simp
          · rw [if_neg e, if_neg (fun e' => e e'.symm), this]; rfl
        | succ d => exact h.var y (d + 1) hd
      · intro y d hd
        cases d with
        | zero => exact h.tag y 0 hpos
        | succ d => exact h.tag y (d + 1) hd
      · intro y
        have hy := h.file y
        simp only [List.length_cons] at hl
        rw [atFile]
        cases gs with
        | nil =>
          rw [if_pos (by simp at hl; omega)]
          simp only [ffile, upd, onDecl] at *
          by_cases e : y = x
          · subst e; simp
          · rw [if_neg e, if_neg (fun e' => e e'.symm), hy]; rfl
        | cons g gs =>
          rw [if_neg (by simp only [List.length_cons] at hl; omega)]
          exact hy
    | tag x i =>
      obtain ⟨s', e1, v1⟩ := view_pushTag v x i
      simp only [calls, e1, bind, Except.bind]
      have hl := h.len
      refine ih _ _ _ v1 ?_ hn'
      refine ⟨?_, ?_, ?_, ?_⟩
      · exact hl
      · intro y d hd
        cases d with
        | zero => exact h.var y 0 hpos
        | succ d => exact h.var y (d + 1) hd
      · intro y d hd
        cases d with
        | zero =>
          have := h.tag y 0 hpos
          simp only [List.drop_zero, ftag, upd, visible, onTag] at *
          by_cases e : y = x
          · subst e; simp
          · rw [if_neg e, if_neg (fun e' => e e'.symm), this]; rfl
        | succ d => exact h.tag y (d + 1) hd
      · intro y
        have hy := h.file y
        rw [atFile]
        have : ffile ({ f with tags := upd f.tags x i } :: gs) y = ffile (f :: gs) y := by cases gs <;> rfl
        rw [this, hy]
        split <;> rfl
    | param x i =>
      refine ih _ _ _ v ?_ hn'
      refine ⟨h.len, ?_, ?_, ?_⟩
      · intro y d hd
        cases d with
        | zero => exact h.var y 0 hpos
        | succ d => exact h.var y (d + 1) hd
      · intro y d hd
        cases d with
        | zero => exact h.tag y 0 hpos
        | succ d => exact h.tag y (d + 1) hd
      · intro y
        rw [atFile, h.file y]
        split <;> rfl

theorem flat_init {es : List Ev} (h : Nested es) :
    ∃ s fs, calls es St.init.scopes = .ok s ∧ View s fs ∧ Holds fs es.reverse := by
  obtain ⟨s, fs, h1, h2, h3⟩ := flat es St.init.scopes [F.empty] [] ⟨mapOk_new, mapOk_new, trivial⟩
    ⟨rfl, (fun x d hd => by simp at hd; subst hd; rfl), (fun x d hd => by simp at hd; subst hd; rfl), fun x => rfl⟩
    (fun a b e => by simpa using h a b e)
  exact ⟨s, fs, h1, h2, by simpa using h3⟩

theorem level_append (a c : List Ev) : level (a ++ c) = level a + level c := by
  induction a with
  | nil => simp [level]
  | cons e a ih => cases e <;> simp only [List.cons_append, level, ih] <;> omega

/-- Calls that do not leave the scopes `s` do not change them. -/
theorem calls_keep (s : List Scope) (bs : List Ev) : ∀ (top r : List Scope), (∀ a b, bs = a ++ b → 0 < level a.reverse + (top.length : Int)) →
    calls bs (top ++ s) = .ok r → ∃ top', r = top' ++ s ∧ (top'.length : Int) = top.length + level bs.reverse := by
  induction bs with
  | nil => intro top r _ h; exact ⟨top, (Except.ok.inj h).symm, by simp [level]⟩
  | cons e bs ih =>
    intro top r hn h
    have hn' : ∀ a b, bs = a ++ b → 0 < level a.reverse + level [e] + (top.length : Int) := by
      intro a b hab
      have := hn (e :: a) b (by rw [hab]; rfl)
      rw [List.reverse_cons, level_append] at this
      exact this
    have h0 := hn [] _ rfl
    have hlast : level (e :: bs).reverse = level bs.reverse + level [e] := by rw [List.reverse_cons, level_append]
    rw [hlast]
    obtain ⟨t, top, rfl⟩ : ∃ t t', top = t :: t' := by
      cases top with
      | nil => simp [level] at h0
      | cons t t' => exact ⟨t, t', rfl⟩
    cases e with
    | opened b =>
      obtain ⟨top', h1, h2⟩ := ih (⟨HashMap.Map.new, HashMap.Map.new⟩ :: t :: top) r (fun a b hab => by
        have := hn' a b hab; simp [level] at *; omega) h
      exact ⟨top', h1, by simp [level] at *; omega⟩
    | param x i =>
      obtain ⟨top', h1, h2⟩ := ih (t :: top) r (fun a b hab => by have := hn' a b hab; simp [level] at *; omega) h
      exact ⟨top', h1, by simp [level] at *; omega⟩
    | closed =>
      obtain ⟨top', h1, h2⟩ := ih top r (fun a b hab => by have := hn' a b hab; simp [level] at *; omega) h
      exact ⟨top', h1, by simp [level] at *; omega⟩
    | var x i =>
      simp only [calls, List.cons_append, pushScope, bind, Except.bind] at h
      cases hm : mput t.vars x i with
      | error e => rw [hm] at h; cases h
      | ok m =>
        rw [hm] at h
        obtain ⟨top', h1, h2⟩ := ih ({ t with vars := m } :: top) r (fun a b hab => by have := hn' a b hab; simp [level] at *; omega) h
        exact ⟨top', h1, by simp [level] at *; omega⟩
    | tag x i =>
      simp only [calls, List.cons_append, pushTag, bind, Except.bind] at h
      cases hm : mput t.tags x i with
      | error e => rw [hm] at h; cases h
      | ok m =>
        rw [hm] at h
        obtain ⟨top', h1, h2⟩ := ih ({ t with tags := m } :: top) r (fun a b hab => by have := hn' a b hab; simp [level] at *; omega) h
        exact ⟨top', h1, by simp [level] at *; omega⟩

/-- A way to check that calls are nested. -/
theorem nested_of {es : List Ev} (h : ∀ n : Fin (es.length + 1), 0 ≤ level (es.take n).reverse) : Nested es := by
  intro a b e
  have := h ⟨a.length, by rw [e]; simp; omega⟩
  simpa [e] using this

end Toycc.Scope
