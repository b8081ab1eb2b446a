import Verif.Scope.View
/-! The past of C and the scopes of toycc. -/
namespace Toycc.Scope
open Toycc.HashMap (Key)

/-- `here`, passing through the beginnings of soft blocks. -/
def hereS {α : Type} (f : Ev → Option α) : List Ev → Nat → Option α
  | [], _ => none
  | .closed :: r, d => hereS f r (d + 1)
  | .opened true :: r, 0 => hereS f r 0
  | .opened false :: _, 0 => none
  | .opened _ :: r, d + 1 => hereS f r d
  | e :: r, 0 => (f e).or (hereS f r 0)
  | _ :: r, d + 1 => hereS f r (d + 1)

/-- Events that close what they open. `q`: nothing is declared outside of the blocks. -/
inductive Bal : Bool → List Ev → Prop
  | nil (q) : Bal q []
  | param (q x i r) : Bal q r → Bal q (.param x i :: r)
  | var (x i r) : Bal false r → Bal false (.var x i :: r)
  | tag (x n r) : Bal false r → Bal false (.tag x n :: r)
  | closed (q q' s a r) : Bal q' a → Bal q r → Bal q (.closed :: (a ++ .opened s :: r))

theorem Bal.append {q : Bool} {a b : List Ev} (ha : Bal q a) (hb : Bal q b) : Bal q (a ++ b) := by
  induction ha with
  | nil => exact hb
  | param q x i r _ ih => exact .param _ _ _ _ (ih hb)
  | var x i r _ ih => exact .var _ _ _ (ih hb)
  | tag x i r _ ih => exact .tag _ _ _ (ih hb)
  | closed q q' s a r h1 _ _ ih =>
    have := Bal.closed q q' s a _ h1 (ih hb)
    simpa using this

variable {α : Type} (f : Ev → Option α)

theorem Bal.visible_succ {q : Bool} {a : List Ev} (ha : Bal q a) (h : List Ev) (d : Nat) :
    visible f (a ++ h) (d + 1) = visible f h (d + 1) := by
  induction ha generalizing h d with
  | nil => rfl
  | param q x i r _ ih => exact ih h d
  | var x i r _ ih => exact ih h d
  | tag x i r _ ih => exact ih h d
  | closed q q' s a r _ _ ih1 ih2 =>
    simp only [List.cons_append, List.append_assoc, visible]
    rw [ih1]
    exact ih2 h d

theorem Bal.here_succ {q : Bool} {a : List Ev} (ha : Bal q a) (h : List Ev) (d : Nat) :
    here f (a ++ h) (d + 1) = here f h (d + 1) := by
  induction ha generalizing h d with
  | nil => rfl
  | param q x i r _ ih => exact ih h d
  | var x i r _ ih => exact ih h d
  | tag x i r _ ih => exact ih h d
  | closed q q' s a r _ _ ih1 ih2 =>
    simp only [List.cons_append, List.append_assoc, here]
    rw [ih1]
    exact ih2 h d

theorem Bal.hereS_succ {q : Bool} {a : List Ev} (ha : Bal q a) (h : List Ev) (d : Nat) :
    hereS f (a ++ h) (d + 1) = hereS f h (d + 1) := by
  induction ha generalizing h d with
  | nil => rfl
  | param q x i r _ ih => exact ih h d
  | var x i r _ ih => exact ih h d
  | tag x i r _ ih => exact ih h d
  | closed q q' s a r _ _ ih1 ih2 =>
    simp only [List.cons_append, List.append_assoc, hereS]
    rw [ih1]
    cases s <;> exact ih2 h d

theorem Bal.inSoft {q : Bool} {a : List Ev} (ha : Bal q a) (h : List Ev) (d : Nat) :
    Scope.inSoft (a ++ h) d = Scope.inSoft h d := by
  induction ha generalizing h d with
  | nil => rfl
  | param q x i r _ ih => exact ih h d
  | var x i r _ ih => exact ih h d
  | tag x i r _ ih => exact ih h d
  | closed q q' s a r _ _ ih1 ih2 =>
    simp only [List.cons_append, List.append_assoc, Scope.inSoft]
    rw [ih1]
    exact ih2 h d

theorem Bal.level {q : Bool} {a : List Ev} (ha : Bal q a) (h : List Ev) : Scope.level (a ++ h) = Scope.level h := by
  induction ha generalizing h with
  | nil => rfl
  | param q x i r _ ih => exact ih h
  | var x i r _ ih => exact ih h
  | tag x i r _ ih => exact ih h
  | closed q q' s a r _ _ ih1 ih2 =>
    simp only [List.cons_append, List.append_assoc, Scope.level]
    rw [ih1, Scope.level, ih2]
    omega

theorem Bal.atFile {q : Bool} {a : List Ev} (ha : Bal q a) (h : List Ev) (hl : 0 < Scope.level h) :
    Scope.atFile f (a ++ h) = Scope.atFile f h := by
  induction ha generalizing h with
  | nil => rfl
  | param q x i r hr ih => rw [List.cons_append, Scope.atFile, if_neg (by rw [hr.level]; omega), ih h hl]
  | var x i r hr ih => rw [List.cons_append, Scope.atFile, if_neg (by rw [hr.level]; omega), ih h hl]
  | tag x i r hr ih => rw [List.cons_append, Scope.atFile, if_neg (by rw [hr.level]; omega), ih h hl]
  | closed q q' s a r h1 h2 ih1 ih2 =>
    have e : Scope.level (r ++ h) = Scope.level h := h2.level h
    have e' : Scope.level (.opened s :: (r ++ h)) = Scope.level h + 1 := by rw [Scope.level, e]
    simp only [List.cons_append, List.append_assoc]
    rw [Scope.atFile, if_neg (by rw [h1.level, e']; omega), ih1 _ (by omega), Scope.atFile, if_neg (by omega), ih2 h hl]

/-- Functions that select nothing but what is declared. -/
structure Sel (f : Ev → Option α) : Prop where
  opened : ∀ s, f (.opened s) = none
  closed : f .closed = none
  param : ∀ x i, f (.param x i) = none

theorem sel_onDecl (x : Key) : Sel (onDecl x) := ⟨fun _ => rfl, rfl, fun _ _ => rfl⟩
theorem sel_onTag (x : Key) : Sel (onTag x) := ⟨fun _ => rfl, rfl, fun _ _ => rfl⟩

theorem Bal.visible_quiet {a : List Ev} (ha : Bal true a) (hf : Sel f) (h : List Ev) : visible f (a ++ h) 0 = visible f h 0 := by
  generalize hq : true = q at ha
  induction ha with
  | nil => rfl
  | param q x i r _ ih => simp only [List.cons_append, visible, hf.param, Option.none_or, ih hq]
  | var x i r _ ih => cases hq
  | tag x i r _ ih => cases hq
  | closed q q' s a r h1 _ ih1 ih2 =>
    simp only [List.cons_append, List.append_assoc, visible]
    rw [h1.visible_succ]
    exact ih2 hq

theorem Bal.hereS_quiet {a : List Ev} (ha : Bal true a) (hf : Sel f) (h : List Ev) : hereS f (a ++ h) 0 = hereS f h 0 := by
  generalize hq : true = q at ha
  induction ha with
  | nil => rfl
  | param q x i r _ ih => simp only [List.cons_append, hereS, hf.param, Option.none_or, ih hq]
  | var x i r _ ih => cases hq
  | tag x i r _ ih => cases hq
  | closed q q' s a r h1 _ ih1 ih2 =>
    simp only [List.cons_append, List.append_assoc, hereS]
    rw [h1.hereS_succ]
    cases s <;> exact ih2 hq

theorem close_visible {q : Bool} {a : List Ev} (ha : Bal q a) (s : Bool) (h : List Ev) (d : Nat) :
    visible f (.closed :: (a ++ .opened s :: h)) d = visible f h d := by
  rw [visible, ha.visible_succ]; cases s <;> rfl
theorem close_here {q : Bool} {a : List Ev} (ha : Bal q a) (s : Bool) (h : List Ev) (d : Nat) :
    here f (.closed :: (a ++ .opened s :: h)) d = here f h d := by
  rw [here, ha.here_succ]; cases s <;> rfl
theorem close_hereS {q : Bool} {a : List Ev} (ha : Bal q a) (s : Bool) (h : List Ev) (d : Nat) :
    hereS f (.closed :: (a ++ .opened s :: h)) d = hereS f h d := by
  rw [hereS, ha.hereS_succ]; cases s <;> rfl
theorem close_inSoft {q : Bool} {a : List Ev} (ha : Bal q a) (s : Bool) (h : List Ev) (d : Nat) :
    inSoft (.closed :: (a ++ .opened s :: h)) d = inSoft h d := by
  rw [inSoft, ha.inSoft]; rfl
theorem close_level {q : Bool} {a : List Ev} (ha : Bal q a) (s : Bool) (h : List Ev) :
    level (.closed :: (a ++ .opened s :: h)) = level h := by
  rw [level, ha.level, level]; omega
theorem close_atFile {q : Bool} {a : List Ev} (ha : Bal q a) (hf : Sel f) (s : Bool) (h : List Ev) (hl : 0 ≤ level h) :
    atFile f (.closed :: (a ++ .opened s :: h)) = atFile f h := by
  have e : level (.opened s :: h) = level h + 1 := rfl
  rw [atFile, if_neg (by rw [ha.level, e]; omega), ha.atFile f _ (by omega), atFile]
  split
  · rw [hf.opened]; rfl
  · rfl

theorem here_eq_hereS (h : List Ev) (d : Nat) (hs : inSoft h d = false) : here f h d = hereS f h d := by
  induction h generalizing d with
  | nil => rfl
  | cons e h ih =>
    cases e with
    | opened s =>
      cases d with
      | zero =>
        simp only [inSoft] at hs
        subst hs
        rfl
      | succ d => cases s <;> exact ih d hs
    | closed => exact ih (d + 1) hs
    | var x i => cases d with
      | zero => simp only [here, hereS]; rw [ih 0 hs]
      | succ d => exact ih _ hs
    | param x i => cases d with
      | zero => simp only [here, hereS]; rw [ih 0 hs]
      | succ d => exact ih _ hs
    | tag x i => cases d with
      | zero => simp only [here, hereS]; rw [ih 0 hs]
      | succ d => exact ih _ hs

/-- What is declared in the innermost block is visible. -/
theorem visible_of_hereS (h : List Ev) (d : Nat) (v : α) (hs : hereS f h d = some v) : visible f h d = some v := by
  induction h generalizing d with
  | nil => cases hs
  | cons e h ih =>
    cases e with
    | opened s =>
      cases d with
      | zero => cases s with
        | false => cases hs
        | true => exact ih 0 hs
      | succ d => cases s <;> exact ih d hs
    | closed => exact ih (d + 1) hs
    | var x i => cases d with
      | zero =>
        simp only [visible, hereS] at *
        cases hfe : f (.var x i) with
        | none => rw [hfe] at hs; simpa using ih 0 (by simpa using hs)
        | some w => rw [hfe] at hs; exact hs
      | succ d => exact ih _ hs
    | param x i => cases d with
      | zero =>
        simp only [visible, hereS] at *
        cases hfe : f (.param x i) with
        | none => rw [hfe] at hs; simpa using ih 0 (by simpa using hs)
        | some w => rw [hfe] at hs; exact hs
      | succ d => exact ih _ hs
    | tag x i => cases d with
      | zero =>
        simp only [visible, hereS] at *
        cases hfe : f (.tag x i) with
        | none => rw [hfe] at hs; simpa using ih 0 (by simpa using hs)
        | some w => rw [hfe] at hs; exact hs
      | succ d => exact ih _ hs

/-- A visible declaration that is no parameter is the latest declaration that is no parameter. -/
theorem visible_onVar (x : Key) (h : List Ev) (d : Nat) :
    (∀ i, visible (onVar x) h d = some (i, false) → visible (onDecl x) h d = some i) ∧
    (visible (onVar x) h d = none → visible (onDecl x) h d = none) := by
  induction h generalizing d with
  | nil => exact ⟨(fun i h => by cases h), fun _ => rfl⟩
  | cons e h ih =>
    cases e with
    | opened s => cases d <;> exact ih _
    | closed => exact ih (d + 1)
    | var y i => cases d with
      | zero =>
        simp only [visible, onVar, onDecl]
        split
        · simp
        · simpa using ih 0
      | succ d => exact ih _
    | param y i => cases d with
      | zero =>
        simp only [visible, onVar, onDecl]
        split
        · simp
        · simpa using ih 0
      | succ d => exact ih _
    | tag y i => cases d with
      | zero => simpa [visible, onVar, onDecl] using ih 0
      | succ d => exact ih _

/-! ### The relation -/

/-- `φ` maps the addresses of types to the tags of C. `P`: tags that C has declared and toycc not yet, since their definition is not complete. -/
structure Rel (P : List (Key × Nat)) (f : F) (fs : List F) (nx : Nat) (h : List Ev) (cn : Nat) (φ : Nat → Option Nat) : Prop where
  var : ∀ x, IsName x → fvar (f :: fs) x = visible (onDecl x) h 0
  file : ∀ x, IsName x → ffile (f :: fs) x = atFile (onDecl x) h
  tag : ∀ x, (∀ n, (x, n) ∉ P) → (ftag (f :: fs) x).map φ = (visible (onTag x) h 0).map some
  here : ∀ x, (∀ n, (x, n) ∉ P) → (f.tags x).map φ = (hereS (onTag x) h 0).map some
  pend : ∀ x n, (x, n) ∈ P → f.tags x = none ∧ hereS (onTag x) h 0 = some n ∧ n < cn ∧ ∀ a, φ a ≠ some n
  pnd : ∀ x y n, (x, n) ∈ P → (y, n) ∈ P → x = y
  rng : ∀ a n, φ a = some n → a < nx ∧ n < cn
  inj : ∀ a b n, φ a = some n → φ b = some n → a = b
  lev : 0 ≤ level h
  levOut : fs ≠ [] → 0 < level h
  levIn : fs = [] → inSoft h 0 = false → level h = 0
  soft : inSoft h 0 = true → ∀ x, Scope.here (onTag x) h 0 = none

def Ext (φ φ' : Nat → Option Nat) : Prop := ∀ a n, φ a = some n → φ' a = some n
theorem Ext.refl (φ) : Ext φ φ := fun _ _ h => h
theorem Ext.trans {φ φ' φ''} (h : Ext φ φ') (h' : Ext φ' φ'') : Ext φ φ'' := fun a n e => h' a n (h a n e)

variable {f}
variable {P : List (Key × Nat)} {fs : List F} {nx : Nat} {h : List Ev} {cn : Nat} {φ : Nat → Option Nat} {f : F}

theorem Rel.pushVar (R : Rel P f fs nx h cn φ) (hs : inSoft h 0 = false) (x : Key) (v : Ident) :
    Rel P { f with vars := upd f.vars x v } fs nx (.var x v :: h) cn φ where
  var := by
    intro y hy
    have := R.var y hy
    simp only [fvar, upd, visible, onDecl] at *
    by_cases e : y = x
    · subst e; simp
    · rw [if_neg e, if_neg (fun e' => e e'.symm), this]; rfl
  file := by
    intro y hy
    have := R.file y hy
    cases hfs : fs with
    | nil =>
      subst hfs
      rw [atFile, if_pos (R.levIn rfl hs)]
      simp only [ffile, upd, onDecl] at *
      by_cases e : y = x
      · subst e; simp
      · rw [if_neg e, if_neg (fun e' => e e'.symm), this]; rfl
    | cons g gs =>
      have hl := R.levOut (by rw [hfs]; simp)
      rw [atFile, if_neg (by omega), ← this, hfs]
      rfl
  tag := by intro y hy; simpa [visible, onTag, ftag] using R.tag y hy
  here := by intro y hy; simpa [hereS, onTag] using R.here y hy
  pend := by
    intro y n hy
    obtain ⟨h1, h2, h3⟩ := R.pend y n hy
    exact ⟨h1, by simpa [hereS, onTag] using h2, h3⟩
  pnd := R.pnd
  rng := R.rng
  inj := R.inj
  lev := R.lev
  levOut := R.levOut
  levIn := fun e _ => R.levIn e hs
  soft := fun e => by replace e : inSoft h 0 = true := e; rw [hs] at e; cases e

theorem Rel.pushTemp (R : Rel P f fs nx h cn φ) (x : Key) (hx : ¬ IsName x) (v : Ident) :
    Rel P { f with vars := upd f.vars x v } fs nx h cn φ :=
  { R with
    var := by
      intro y hy
      rw [← R.var y hy]
      have : y ≠ x := fun e => hx (e ▸ hy)
      simp [fvar, upd, this]
    file := by
      intro y hy
      rw [← R.file y hy]
      have : y ≠ x := fun e => hx (e ▸ hy)
      cases fs with
      | nil => simp [ffile, upd, this]
      | cons g gs => rfl }

theorem Rel.mono (R : Rel P f fs nx h cn φ) {nx' : Nat} (hn : nx ≤ nx') : Rel P f fs nx' h cn φ :=
  { R with rng := fun a n e => ⟨Nat.lt_of_lt_of_le (R.rng a n e).1 hn, (R.rng a n e).2⟩ }

/-- C declares a tag. -/
theorem Rel.declTag (R : Rel P f fs nx h cn φ) (x : Key) (hx : hereS (onTag x) h 0 = none) (hs : inSoft h 0 = false) :
    Rel ((x, cn) :: P) f fs nx (.tag x cn :: h) (cn + 1) φ := by
  have hnp : ∀ n, (x, n) ∉ P := fun n hn => by rw [(R.pend x n hn).2.1] at hx; cases hx
  exact
  { var := by intro y hy; simpa [visible, onDecl] using R.var y hy
    file := by
      intro y hy
      rw [R.file y hy, atFile]
      simp [onDecl]
    tag := by
      intro y hy
      have hne : ¬ x = y := fun e => by subst e; exact hy cn (List.mem_cons_self)
      simpa [visible, onTag, hne] using R.tag y (fun n hn => hy n (List.mem_cons_of_mem _ hn))
    here := by
      intro y hy
      have hne : ¬ x = y := fun e => by subst e; exact hy cn (List.mem_cons_self)
      simpa [hereS, onTag, hne] using R.here y (fun n hn => hy n (List.mem_cons_of_mem _ hn))
    pend := by
      intro y n hy
      rcases List.mem_cons.mp hy with e | hy
      · cases e
        refine ⟨?_, by simp [hereS, onTag], by omega, fun a ha => absurd (R.rng a _ ha).2 (by omega)⟩
        have := R.here x hnp
        rw [hx] at this
        simpa using this
      · obtain ⟨h1, h2, h3, h4⟩ := R.pend y n hy
        have hne : ¬ x = y := fun e => by subst e; exact hnp n hy
        exact ⟨h1, by simpa [hereS, onTag, hne] using h2, by omega, h4⟩
    pnd := by
      intro y z n hy hz
      rcases List.mem_cons.mp hy with e | hy <;> rcases List.mem_cons.mp hz with e' | hz
      · cases e; cases e'; rfl
      · cases e; exact absurd (R.pend z _ hz).2.2.1 (by omega)
      · cases e'; exact absurd (R.pend y _ hy).2.2.1 (by omega)
      · exact R.pnd y z n hy hz
    rng := fun a n e => ⟨(R.rng a n e).1, Nat.lt_succ_of_lt (R.rng a n e).2⟩
    inj := R.inj
    lev := R.lev
    levOut := R.levOut
    levIn := fun e _ => R.levIn e hs
    soft := fun e => by replace e : inSoft h 0 = true := e; rw [hs] at e; cases e }

def updφ (φ : Nat → Option Nat) (a n : Nat) : Nat → Option Nat := fun b => if b = a then some n else φ b

theorem ext_updφ {φ : Nat → Option Nat} {a : Nat} (n : Nat) (ha : φ a = none) : Ext φ (updφ φ a n) := by
  intro b m hb
  unfold updφ
  split
  · rename_i e; subst e; rw [ha] at hb; cases hb
  · exact hb

theorem map_ext {φ φ' : Nat → Option Nat} (hE : Ext φ φ') {o : Option Nat} {v : Option Nat} (h : o.map φ = v.map some) :
    o.map φ' = v.map some := by
  cases o with
  | none => exact h
  | some a =>
    cases v with
    | none => cases h
    | some n =>
      simp only [Option.map_some, Option.some.injEq] at h ⊢
      exact hE a n h

/-- toycc enters the tag. -/
theorem Rel.enterTag (R : Rel P f fs nx h cn φ) (x : Key) (n : Nat) (hx : (x, n) ∈ P) (a : Nat) (ha : φ a = none) {nx' : Nat}
    (hn : nx ≤ nx') (han : a < nx') :
    Rel (P.filter fun p => p.1 != x) { f with tags := upd f.tags x a } fs nx' h cn (updφ φ a n) := by
  have hE := ext_updφ n ha
  have hxx := R.pend x n hx
  have hmem : ∀ y m, (y, m) ∈ P.filter (fun p => p.1 != x) ↔ (y, m) ∈ P ∧ y ≠ x := by
    intro y m; simp [List.mem_filter]
  have huniq : ∀ m, (x, m) ∈ P → m = n := by
    intro m hm
    have := (R.pend x m hm).2.1
    rw [hxx.2.1] at this
    cases this; rfl
  exact
  { var := R.var
    file := by
      intro y hy
      rw [← R.file y hy]
      cases fs <;> rfl
    tag := by
      intro y hy
      by_cases e : y = x
      · subst e
        have hv := visible_of_hereS (onTag y) h 0 n hxx.2.1
        simp [ftag, upd, hv, updφ]
      · have := map_ext hE (R.tag y (fun m hm => hy m ((hmem y m).mpr ⟨hm, e⟩)))
        simpa [ftag, upd, e] using this
    here := by
      intro y hy
      by_cases e : y = x
      · subst e
        simp [upd, hxx.2.1, updφ]
      · have := map_ext hE (R.here y (fun m hm => hy m ((hmem y m).mpr ⟨hm, e⟩)))
        simpa [upd, e] using this
    pend := by
      intro y m hy
      obtain ⟨hy, e⟩ := (hmem y m).mp hy
      obtain ⟨h1, h2, h3, h4⟩ := R.pend y m hy
      refine ⟨by simp [upd, e, h1], h2, h3, ?_⟩
      intro b hb
      unfold updφ at hb
      split at hb
      · cases hb; exact e (R.pnd y x n hy hx)
      · exact h4 b hb
    pnd := fun y z m hy hz => R.pnd y z m ((hmem y m).mp hy).1 ((hmem z m).mp hz).1
    rng := by
      intro b m hb
      unfold updφ at hb
      split at hb
      · rename_i e
        cases hb; subst e
        exact ⟨han, hxx.2.2.1⟩
      · exact ⟨Nat.lt_of_lt_of_le (R.rng b m hb).1 hn, (R.rng b m hb).2⟩
    inj := by
      intro b c m hb hc
      unfold updφ at hb hc
      split at hb <;> split at hc
      · rename_i e e'; rw [e, e']
      · cases hb; exact absurd hc (hxx.2.2.2 c)
      · cases hc; exact absurd hb (hxx.2.2.2 b)
      · exact R.inj b c m hb hc
    lev := R.lev
    levOut := R.levOut
    levIn := R.levIn
    soft := R.soft }

theorem Rel.openHard (R : Rel [] f fs nx h cn φ) : Rel [] F.empty (f :: fs) nx (.opened false :: h) cn φ where
  var := fun x hx => by simpa [fvar, F.empty, visible] using R.var x hx
  file := fun x hx => by
    rw [atFile]
    have : onDecl x (.opened false) = none := rfl
    rw [this, Option.none_or, ite_self, ← R.file x hx]
    rfl
  tag := fun x hx => by simpa [ftag, F.empty, visible] using R.tag x hx
  here := fun x hx => rfl
  pend := fun x n hx => by cases hx
  pnd := fun x y n hx => by cases hx
  rng := R.rng
  inj := R.inj
  lev := by have := R.lev; rw [level]; omega
  levOut := fun _ => by have := R.lev; rw [level]; omega
  levIn := fun e => by cases e
  soft := fun e => by cases e

/-- The second scope of a function. -/
theorem Rel.extra (R : Rel [] f fs nx h cn φ) (hs : inSoft h 0 = false) (hl : 0 < level h) (ht : ∀ x, hereS (onTag x) h 0 = none) :
    Rel [] F.empty (f :: fs) nx h cn φ where
  var := fun x hx => by simpa [fvar, F.empty] using R.var x hx
  file := fun x hx => by rw [← R.file x hx]; rfl
  tag := fun x hx => by simpa [ftag, F.empty] using R.tag x hx
  here := fun x hx => by rw [ht x]; rfl
  pend := fun x n hx => by cases hx
  pnd := fun x y n hx => by cases hx
  rng := R.rng
  inj := R.inj
  lev := R.lev
  levOut := fun _ => hl
  levIn := fun e => by cases e
  soft := fun e => by rw [hs] at e; cases e

theorem Rel.openSoft (R : Rel P f fs nx h cn φ) : Rel P f fs nx (.opened true :: h) cn φ where
  var := R.var
  file := fun x hx => by
    rw [atFile]
    have : onDecl x (.opened true) = none := rfl
    rw [this, Option.none_or, ite_self, ← R.file x hx]
  tag := R.tag
  here := R.here
  pend := R.pend
  pnd := R.pnd
  rng := R.rng
  inj := R.inj
  lev := by have := R.lev; rw [level]; omega
  levOut := fun _ => by have := R.lev; rw [level]; omega
  levIn := fun _ e => by cases e
  soft := fun _ x => rfl

theorem Rel.closeHard (R : Rel [] f fs nx h cn φ) {P' f' fs' nx' h' cn' φ'} (R' : Rel P' f' fs' nx' h' cn' φ') (hE : Ext φ φ')
    {q : Bool} {a : List Ev} (ha : Bal q a) (s : Bool) : Rel [] f fs nx' (.closed :: (a ++ .opened s :: h)) cn' φ' where
  var := fun x hx => by rw [close_visible _ ha]; exact R.var x hx
  file := fun x hx => by rw [close_atFile _ ha (sel_onDecl x) s h R.lev]; exact R.file x hx
  tag := fun x hx => by rw [close_visible _ ha]; exact map_ext hE (R.tag x hx)
  here := fun x hx => by rw [close_hereS _ ha]; exact map_ext hE (R.here x hx)
  pend := fun x n hx => by cases hx
  pnd := fun x y n hx => by cases hx
  rng := R'.rng
  inj := R'.inj
  lev := by rw [close_level ha]; exact R.lev
  levOut := by rw [close_level ha]; exact R.levOut
  levIn := by rw [close_level ha, close_inSoft ha]; exact R.levIn
  soft := by
    rw [close_inSoft ha]
    intro e x
    rw [close_here _ ha]
    exact R.soft e x

theorem Rel.closeSoft {a : List Ev} {P' f' nx' cn' φ'} (R : Rel P f fs nx h cn φ) (R' : Rel P' f' fs nx' (a ++ .opened true :: h) cn' φ')
    (ha : Bal true a) : Rel P' f' fs nx' (.closed :: (a ++ .opened true :: h)) cn' φ' where
  var := fun x hx => by
    rw [close_visible _ ha, R'.var x hx, ha.visible_quiet _ (sel_onDecl x)]; rfl
  file := fun x hx => by
    rw [close_atFile _ ha (sel_onDecl x) true h R.lev, R'.file x hx, ha.atFile _ _ (by have := R.lev; rw [level]; omega), atFile]
    have : onDecl x (.opened true) = none := rfl
    rw [this, Option.none_or, ite_self]
  tag := fun x hx => by
    rw [close_visible _ ha, R'.tag x hx, ha.visible_quiet _ (sel_onTag x)]; rfl
  here := fun x hx => by
    rw [close_hereS _ ha, R'.here x hx, ha.hereS_quiet _ (sel_onTag x)]; rfl
  pend := fun x n hx => by
    obtain ⟨h1, h2, h3⟩ := R'.pend x n hx
    refine ⟨h1, ?_, h3⟩
    rw [ha.hereS_quiet _ (sel_onTag x)] at h2
    rw [close_hereS _ ha]
    exact h2
  pnd := R'.pnd
  rng := R'.rng
  inj := R'.inj
  lev := by rw [close_level ha]; exact R.lev
  levOut := by rw [close_level ha]; exact R.levOut
  levIn := by rw [close_level ha, close_inSoft ha]; exact R.levIn
  soft := by
    rw [close_inSoft ha]
    intro e x
    rw [close_here _ ha]
    exact R.soft e x

end Toycc.Scope
