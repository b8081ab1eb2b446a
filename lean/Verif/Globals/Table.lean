import Verif.Globals.Live
/-! How the table of functions comes about. -/
namespace Toycc.Globals

theorem find_update (fns : List (String × Fn)) (f : String) (g : Fn → Fn) (x : String) :
    find (update fns f g) x = if x = f then (find fns x).map g else find fns x := by
  induction fns with
  | nil => simp [find, update]
  | cons p r ih =>
    obtain ⟨q, v⟩ := p
    unfold find update at *
    by_cases e : q = f
    · subst e
      by_cases h : x = q
      · subst h; simp [List.lookup]
      · have : (x == q) = false := by simpa using h
        rw [if_neg h] at ih ⊢
        simp only [List.map_cons, if_true, List.lookup, this]
        exact ih
    · by_cases h : x = q
      · subst h
        rw [if_neg e]
        simp [e, List.lookup]
      · have : (x == q) = false := by simpa using h
        simp only [List.map_cons, if_neg e, List.lookup, this]
        exact ih

theorem find_cons (fns : List (String × Fn)) (f : String) (v : Fn) (x : String) :
    find ((f, v) :: fns) x = if x = f then some v else find fns x := by
  by_cases h : x = f
  · subst h; simp [find, List.lookup]
  · have : (x == f) = false := by simpa using h
    simp [find, List.lookup, this, h]

def Fn.plain (fn : Fn) : Bool := !(fn.static && fn.inl)

/-- What a step does: `D` are the declarations at file scope it contains, `Df` the definitions, `E` the references from functions, `I` those from outside, `N` the
functions that are not declared. -/
structure Delta (u u' : Unit) (D : String → Option Attr) (Df : String → Prop) (E : String → String → Prop) (I : String → Prop) (N : String → Prop) : Prop where
  keep : ∀ g fn, find u.fns g = some fn → ∃ fn', find u'.fns g = some fn' ∧ fn'.static = fn.static ∧ fn'.inl = fn.inl ∧
    (fn.isDef = true → fn'.isDef = true) ∧ (∀ f ∈ fn.refs, f ∈ fn'.refs) ∧ (N g → fn.root = true → fn'.root = true)
  new : ∀ g, find u.fns g = none → (find u'.fns g).map (fun fn => (fn.static, fn.inl)) = (D g).map (fun a => (a.static || (a.inl && !a.extern), a.inl))
  isDef : ∀ g fn', find u'.fns g = some fn' → fn'.isDef = true → (∃ fn, find u.fns g = some fn ∧ fn.isDef = true) ∨ Df g
  refs : ∀ g fn', find u'.fns g = some fn' → ∀ f ∈ fn'.refs, (∃ fn, find u.fns g = some fn ∧ f ∈ fn.refs) ∨ E g f ∨ I f
  root : ∀ g fn', find u'.fns g = some fn' → fn'.root = true → fn'.plain = true ∨ (∃ fn, find u.fns g = some fn ∧ fn.root = true) ∨ I g
  plain : (∀ g fn, find u.fns g = some fn → fn.plain = true → fn.root = true) → ∀ g fn, find u'.fns g = some fn → fn.plain = true → fn.root = true

theorem Delta.refl {u u' : Unit} (h : u'.fns = u.fns) : Delta u u' (fun _ => none) (fun _ => False) (fun _ _ => False) (fun _ => False) (fun _ => True) := by
  refine ⟨?_, ?_, ?_, ?_, ?_, ?_⟩
  · intro g fn hg; exact ⟨fn, by rw [h]; exact hg, rfl, rfl, fun h => h, fun _ h => h, fun _ h => h⟩
  · intro g hg; rw [h, hg]; rfl
  · intro g fn hg hd; rw [h] at hg; exact .inl ⟨fn, hg, hd⟩
  · intro g fn hg f hf; rw [h] at hg; exact .inl ⟨fn, hg, hf⟩
  · intro g fn hg hd; rw [h] at hg; exact .inr (.inl ⟨fn, hg, hd⟩)
  · intro hp g fn hg; rw [h] at hg; exact hp g fn hg

theorem Delta.trans {u u1 u2 : Unit} {D D' Df Df' E E' I I' N N'} (d : Delta u u1 D Df E I N) (d' : Delta u1 u2 D' Df' E' I' N') :
    Delta u u2 (fun g => (D g).or (D' g)) (fun g => Df g ∨ Df' g) (fun g f => E g f ∨ E' g f) (fun f => I f ∨ I' f) (fun f => N f ∧ N' f) := by
  have back : ∀ g fn1, find u1.fns g = some fn1 → ∀ fn2, find u2.fns g = some fn2 → fn2.static = fn1.static ∧ fn2.inl = fn1.inl := by
    intro g fn1 h1 fn2 h2
    obtain ⟨fn', h, e1, e2, _⟩ := d'.keep g fn1 h1
    rw [h2] at h; cases h; exact ⟨e1, e2⟩
  refine ⟨?_, ?_, ?_, ?_, ?_, ?_⟩
  · intro g fn hg
    obtain ⟨fn1, h1, a1, a2, a3, a4, a5⟩ := d.keep g fn hg
    obtain ⟨fn2, h2, b1, b2, b3, b4, b5⟩ := d'.keep g fn1 h1
    exact ⟨fn2, h2, b1.trans a1, b2.trans a2, fun h => b3 (a3 h), fun f h => b4 f (a4 f h), fun h h' => b5 h.2 (a5 h.1 h')⟩
  · intro g hg
    have h1 := d.new g hg
    cases hf : find u1.fns g with
    | none =>
      rw [hf] at h1
      have : D g = none := by cases h : D g with
        | none => rfl
        | some a => rw [h] at h1; cases h1
      rw [d'.new g hf, this]; rfl
    | some fn1 =>
      rw [hf] at h1
      obtain ⟨fn2, h2, b1, b2, _⟩ := d'.keep g fn1 hf
      obtain ⟨a, ha⟩ : ∃ a, D g = some a := by cases h : D g with
        | none => rw [h] at h1; cases h1
        | some a => exact ⟨a, rfl⟩
      rw [ha] at h1 ⊢
      rw [h2]
      simp only [Option.map_some, b1, b2]
      exact h1
  · intro g fn2 h2 hd
    rcases d'.isDef g fn2 h2 hd with ⟨fn1, h1, hd1⟩ | h
    · rcases d.isDef g fn1 h1 hd1 with h | h
      · exact .inl h
      · exact .inr (.inl h)
    · exact .inr (.inr h)
  · intro g fn2 h2 f hf
    rcases d'.refs g fn2 h2 f hf with ⟨fn1, h1, hd1⟩ | h | h
    · rcases d.refs g fn1 h1 f hd1 with h | h | h
      · exact .inl h
      · exact .inr (.inl (.inl h))
      · exact .inr (.inr (.inl h))
    · exact .inr (.inl (.inr h))
    · exact .inr (.inr (.inr h))
  · intro g fn2 h2 hr
    rcases d'.root g fn2 h2 hr with h | ⟨fn1, h1, hd1⟩ | h
    · exact .inl h
    · rcases d.root g fn1 h1 hd1 with h | h | h
      · left
        obtain ⟨e1, e2⟩ := back g fn1 h1 fn2 h2
        rw [Fn.plain, e1, e2]; exact h
      · exact .inr (.inl h)
      · exact .inr (.inr (.inl h))
    · exact .inr (.inr (.inr h))
  · intro hp; exact d'.plain (d.plain hp)

/-- Weaken what a step is said to contain. -/
theorem Delta.weaken {u u' : Unit} {D D' Df Df' E E' I I' N N'} (d : Delta u u' D Df E I N) (hD : ∀ g, D g = D' g) (hDf : ∀ g, Df g → Df' g)
    (hE : ∀ g f, E g f → E' g f ∨ I' f) (hI : ∀ f, I f → I' f) (hN : ∀ f, N' f → N f) : Delta u u' D' Df' E' I' N' := by
  refine ⟨?_, ?_, ?_, ?_, ?_, d.plain⟩
  · intro g fn hg
    obtain ⟨fn1, h1, a1, a2, a3, a4, a5⟩ := d.keep g fn hg
    exact ⟨fn1, h1, a1, a2, a3, a4, fun h => a5 (hN g h)⟩
  · intro g hg; rw [d.new g hg, hD]
  · intro g fn hg hd; exact (d.isDef g fn hg hd).imp id (hDf g)
  · intro g fn hg f hf
    rcases d.refs g fn hg f hf with h | h | h
    · exact .inl h
    · exact .inr (hE g f h)
    · exact .inr (.inr (hI f h))
  · intro g fn hg hd
    rcases d.root g fn hg hd with h | h | h
    · exact .inl h
    · exact .inr (.inl h)
    · exact .inr (.inr (hI g h))

theorem declare_delta {u u' : Unit} {f : String} {a : Attr} {b : Bool} (h : declare u f a b = .ok u') :
    u'.cur = u.cur ∧ u'.blk = u.blk ∧
    (∃ fn, find u'.fns f = some fn ∧ (b = true → fn.isDef = true)) ∧
    Delta u u' (fun g => if f = g then some a else none) (fun g => g = f ∧ b = true) (fun _ _ => False) (fun _ => False) (fun g => g ≠ f) := by
  unfold declare at h
  cases hf : find u.fns f with
  | some fn0 =>
    rw [hf] at h
    simp only at h
    split at h
    · cases h
    · split at h
      · cases h
      · cases h
        refine ⟨rfl, rfl, ⟨_, by rw [find_update, if_pos rfl, hf]; rfl, by intro hb; simp [hb]⟩, ?_⟩
        refine ⟨?_, ?_, ?_, ?_, ?_, ?_⟩
        · intro g fn hg
          rw [find_update]
          by_cases e : g = f
          · subst e
            rw [if_pos rfl, hg]
            exact ⟨_, rfl, rfl, rfl, by simp +contextual, fun _ h => h, fun h => absurd rfl h⟩
          · rw [if_neg e]; exact ⟨fn, hg, rfl, rfl, fun h => h, fun _ h => h, fun _ h => h⟩
        · intro g hg
          have e : g ≠ f := by intro e; subst e; rw [hf] at hg; cases hg
          rw [find_update, if_neg e, hg, if_neg (fun e' => e e'.symm)]; rfl
        · intro g fn' hg hd
          rw [find_update] at hg
          by_cases e : g = f
          · subst e
            rw [if_pos rfl, hf] at hg
            cases hg
            simp at hd
            rcases hd with hd | hd
            · exact .inl ⟨fn0, hf, hd⟩
            · exact .inr ⟨rfl, hd⟩
          · rw [if_neg e] at hg; exact .inl ⟨fn', hg, hd⟩
        · intro g fn' hg x hx
          rw [find_update] at hg
          by_cases e : g = f
          · subst e
            rw [if_pos rfl, hf] at hg
            cases hg
            exact .inl ⟨fn0, hf, hx⟩
          · rw [if_neg e] at hg; exact .inl ⟨fn', hg, hx⟩
        · intro g fn' hg hr
          rw [find_update] at hg
          by_cases e : g = f
          · subst e
            rw [if_pos rfl, hf] at hg
            cases hg
            exact .inl hr
          · rw [if_neg e] at hg; exact .inr (.inl ⟨fn', hg, hr⟩)
        · intro hp g fn' hg hpl
          rw [find_update] at hg
          by_cases e : g = f
          · subst e
            rw [if_pos rfl, hf] at hg
            cases hg
            exact hpl
          · rw [if_neg e] at hg; exact hp g fn' hg hpl
  | none =>
    rw [hf] at h
    cases h
    refine ⟨rfl, rfl, ⟨_, by rw [find_cons, if_pos rfl], fun h => h⟩, ?_⟩
    refine ⟨?_, ?_, ?_, ?_, ?_, ?_⟩
    · intro g fn hg
      have e : g ≠ f := by intro e; subst e; rw [hf] at hg; cases hg
      rw [find_cons, if_neg e]; exact ⟨fn, hg, rfl, rfl, fun h => h, fun _ h => h, fun _ h => h⟩
    · intro g hg
      rw [find_cons]
      by_cases e : g = f
      · rw [if_pos e, if_pos e.symm]; rfl
      · rw [if_neg e, if_neg (fun e' => e e'.symm), hg]; rfl
    · intro g fn' hg hd
      rw [find_cons] at hg
      by_cases e : g = f
      · rw [if_pos e] at hg; cases hg; exact .inr ⟨e, hd⟩
      · rw [if_neg e] at hg; exact .inl ⟨fn', hg, hd⟩
    · intro g fn' hg x hx
      rw [find_cons] at hg
      by_cases e : g = f
      · rw [if_pos e] at hg; cases hg; cases hx
      · rw [if_neg e] at hg; exact .inl ⟨fn', hg, hx⟩
    · intro g fn' hg hr
      rw [find_cons] at hg
      by_cases e : g = f
      · rw [if_pos e] at hg; cases hg; exact .inl hr
      · rw [if_neg e] at hg; exact .inr (.inl ⟨fn', hg, hr⟩)
    · intro hp g fn' hg hpl
      rw [find_cons] at hg
      by_cases e : g = f
      · rw [if_pos e] at hg; cases hg; exact hpl
      · rw [if_neg e] at hg; exact hp g fn' hg hpl

theorem declareIn_delta {u u' : Unit} {f : String} {a : Attr} (h : declareIn u f a = .ok u') :
    u'.cur = u.cur ∧ Delta u u' (fun _ => none) (fun _ => False) (fun _ _ => False) (fun _ => False) (fun g => g ≠ f) := by
  unfold declareIn at h
  cases hf : find u.fns f with
  | some fn0 =>
    rw [hf] at h
    obtain ⟨h1, -, -, d⟩ := declare_delta h
    refine ⟨h1, ?_, ?_, ?_, d.refs, d.root, d.plain⟩
    · exact d.keep
    · intro g hg
      have e : f ≠ g := by intro e; subst e; rw [hf] at hg; cases hg
      rw [d.new g hg, if_neg e]
    · intro g fn' hg hd
      rcases d.isDef g fn' hg hd with h | h
      · exact .inl h
      · exact absurd h.2 (by simp)
  | none =>
    rw [hf] at h
    cases h
    refine ⟨rfl, (Delta.refl (u := u) (u' := { u with blk := f :: u.blk }) rfl).weaken (fun _ => rfl) (fun _ h => h) (fun _ _ h => h.elim) (fun _ h => h)
      (fun _ _ => trivial)⟩

theorem refer_delta {u u' : Unit} {f : String} (h : refer u f = .ok u') :
    u'.cur = u.cur ∧ u'.blk = u.blk ∧
    (∀ g fn, u.cur = some g → find u.fns g = some fn → ∃ fn', find u'.fns g = some fn' ∧ f ∈ fn'.refs) ∧
    (u.cur = none → ∀ fn, find u.fns f = some fn → ∃ fn', find u'.fns f = some fn' ∧ fn'.root = true) ∧
    Delta u u' (fun _ => none) (fun _ => False) (fun g x => u.cur = some g ∧ x = f) (fun x => u.cur = none ∧ x = f) (fun _ => True) := by
  unfold refer at h
  split at h
  · cases h
  · cases hc : u.cur with
    | some c =>
      rw [hc] at h
      cases h
      refine ⟨rfl, rfl, ?_, (fun e => by cases e), ?_, ?_, ?_, ?_, ?_, ?_⟩
      · intro g fn e hg
        cases e
        simp only [find_update, if_true, hg]
        exact ⟨_, rfl, by simp⟩
      · intro g fn hg
        simp only [find_update]
        by_cases e : g = c
        · rw [if_pos e, hg]
          exact ⟨_, rfl, rfl, rfl, fun h => h, fun x hx => List.mem_append_left _ hx, fun _ h => h⟩
        · rw [if_neg e]; exact ⟨fn, hg, rfl, rfl, fun h => h, fun _ h => h, fun _ h => h⟩
      · intro g hg
        simp only [find_update, hg]
        split <;> rfl
      · intro g fn' hg hd
        simp only [find_update] at hg
        by_cases e : g = c
        · rw [if_pos e] at hg
          obtain ⟨fn, h1, h2⟩ := Option.map_eq_some_iff.mp hg
          subst h2
          exact .inl ⟨fn, h1, hd⟩
        · rw [if_neg e] at hg; exact .inl ⟨fn', hg, hd⟩
      · intro g fn' hg x hx
        simp only [find_update] at hg
        by_cases e : g = c
        · rw [if_pos e] at hg
          obtain ⟨fn, h1, h2⟩ := Option.map_eq_some_iff.mp hg
          subst h2
          rcases List.mem_append.mp hx with hx | hx
          · exact .inl ⟨fn, h1, hx⟩
          · simp at hx
            exact .inr (.inl ⟨by rw [e], hx⟩)
        · rw [if_neg e] at hg; exact .inl ⟨fn', hg, hx⟩
      · intro g fn' hg hr
        simp only [find_update] at hg
        by_cases e : g = c
        · rw [if_pos e] at hg
          obtain ⟨fn, h1, h2⟩ := Option.map_eq_some_iff.mp hg
          subst h2
          exact .inr (.inl ⟨fn, h1, hr⟩)
        · rw [if_neg e] at hg; exact .inr (.inl ⟨fn', hg, hr⟩)
      · intro hp g fn' hg hpl
        simp only [find_update] at hg
        by_cases e : g = c
        · rw [if_pos e] at hg
          obtain ⟨fn, h1, h2⟩ := Option.map_eq_some_iff.mp hg
          subst h2
          exact hp g fn h1 hpl
        · rw [if_neg e] at hg; exact hp g fn' hg hpl
    | none =>
      rw [hc] at h
      cases h
      refine ⟨rfl, rfl, (fun _ _ e => by cases e), ?_, ?_, ?_, ?_, ?_, ?_, ?_⟩
      · intro _ fn hg
        simp only [find_update, if_true, hg]
        exact ⟨_, rfl, rfl⟩
      · intro g fn hg
        simp only [find_update]
        by_cases e : g = f
        · rw [if_pos e, hg]
          exact ⟨_, rfl, rfl, rfl, fun h => h, fun x hx => hx, fun _ _ => rfl⟩
        · rw [if_neg e]; exact ⟨fn, hg, rfl, rfl, fun h => h, fun _ h => h, fun _ h => h⟩
      · intro g hg
        simp only [find_update, hg]
        split <;> rfl
      · intro g fn' hg hd
        simp only [find_update] at hg
        by_cases e : g = f
        · rw [if_pos e] at hg
          obtain ⟨fn, h1, h2⟩ := Option.map_eq_some_iff.mp hg
          subst h2
          exact .inl ⟨fn, h1, hd⟩
        · rw [if_neg e] at hg; exact .inl ⟨fn', hg, hd⟩
      · intro g fn' hg x hx
        simp only [find_update] at hg
        by_cases e : g = f
        · rw [if_pos e] at hg
          obtain ⟨fn, h1, h2⟩ := Option.map_eq_some_iff.mp hg
          subst h2
          exact .inl ⟨fn, h1, hx⟩
        · rw [if_neg e] at hg; exact .inl ⟨fn', hg, hx⟩
      · intro g fn' hg hr
        simp only [find_update] at hg
        by_cases e : g = f
        · exact .inr (.inr ⟨rfl, e⟩)
        · rw [if_neg e] at hg; exact .inr (.inl ⟨fn', hg, hr⟩)
      · intro hp g fn' hg hpl
        simp only [find_update] at hg
        by_cases e : g = f
        · rw [if_pos e] at hg
          obtain ⟨fn, h1, h2⟩ := Option.map_eq_some_iff.mp hg
          subst h2
          rfl
        · rw [if_neg e] at hg; exact hp g fn' hg hpl

theorem referAll_delta : ∀ (rs : List String) {u u' : Unit}, referAll rs u = .ok u' →
    u'.cur = u.cur ∧ u'.blk = u.blk ∧
    (∀ g fn, u.cur = some g → find u.fns g = some fn → ∃ fn', find u'.fns g = some fn' ∧ ∀ f ∈ rs, f ∈ fn'.refs) ∧
    (u.cur = none → u.blk = [] → ∀ f ∈ rs, ∃ fn', find u'.fns f = some fn' ∧ fn'.root = true) ∧
    Delta u u' (fun _ => none) (fun _ => False) (fun _ _ => False) (fun x => x ∈ rs) (fun _ => True)
  | [], u, u', h => by
    cases h
    exact ⟨rfl, rfl, (fun g fn _ hg => ⟨fn, hg, by simp⟩), (fun _ _ f hf => by cases hf), (Delta.refl rfl).weaken (fun _ => rfl) (fun _ h => h) (fun _ _ h => h.elim) (fun _ h => h.elim)
      (fun _ h => h)⟩
  | f :: r, u, u', h => by
    simp only [referAll, bind, Except.bind] at h
    cases h1 : refer u f with
    | error e => rw [h1] at h; cases h
    | ok u1 =>
      rw [h1] at h
      obtain ⟨c1, k1, a1, b1, d1⟩ := refer_delta h1
      obtain ⟨c2, k2, a2, b2, d2⟩ := referAll_delta r h
      refine ⟨c2.trans c1, k2.trans k1, ?_, ?_, ?_⟩
      · intro g fn hc hg
        obtain ⟨fn1, e1, m1⟩ := a1 g fn hc hg
        obtain ⟨fn2, e2, m2⟩ := a2 g fn1 (c1.trans hc) e1
        obtain ⟨fn2', e2', -, -, -, m3, -⟩ := d2.keep g fn1 e1
        rw [e2] at e2'
        cases e2'
        refine ⟨fn2, e2, ?_⟩
        intro x hx
        rcases List.mem_cons.mp hx with h | h
        · rw [h]; exact m3 f m1
        · exact m2 x h
      · intro hc hb x hx
        rcases List.mem_cons.mp hx with h | h
        · subst h
          cases hx' : find u.fns x with
          | none =>
            rw [refer, hx', hb] at h1
            cases h1
          | some fn =>
            obtain ⟨fn1, e1, r1⟩ := b1 hc fn hx'
            obtain ⟨fn2, e2, -, -, -, -, m⟩ := d2.keep x fn1 e1
            exact ⟨fn2, e2, m trivial r1⟩
        · exact b2 (c1.trans hc) (k1.trans hb) x h
      · refine (d1.trans d2).weaken (fun _ => rfl) (fun _ h => h.elim id id) ?_ ?_ (fun _ _ => ⟨trivial, trivial⟩)
        · rintro g x (⟨_, hx⟩ | h)
          · right; rw [hx]; exact List.mem_cons_self
          · exact h.elim
        · rintro x (⟨_, hx⟩ | h)
          · rw [hx]; exact List.mem_cons_self
          · exact List.mem_cons_of_mem _ h

theorem body_delta : ∀ (b : List Occ) {u u' : Unit} (c : String), u.cur = some c → body b u = .ok u' →
    u'.cur = some c ∧
    (∀ fn, find u.fns c = some fn → ∃ fn', find u'.fns c = some fn' ∧ ∀ f, .ref f ∈ b → f ∈ fn'.refs) ∧
    Delta u u' (fun _ => none) (fun _ => False) (fun g f => g = c ∧ .ref f ∈ b) (fun _ => False) (fun g => ∀ a, .decl g a ∉ b)
  | [], u, u', c, hc, h => by
    cases h
    exact ⟨hc, (fun fn hg => ⟨fn, hg, by simp⟩), (Delta.refl rfl).weaken (fun _ => rfl) (fun _ h => h) (fun _ _ h => h.elim) (fun _ h => h)
      (fun _ _ => trivial)⟩
  | .ref f :: r, u, u', c, hc, h => by
    simp only [body, bind, Except.bind] at h
    cases h1 : refer u f with
    | error e => rw [h1] at h; cases h
    | ok u1 =>
      rw [h1] at h
      obtain ⟨c1, -, a1, -, d1⟩ := refer_delta h1
      obtain ⟨c2, a2, d2⟩ := body_delta r c (c1.trans hc) h
      refine ⟨c2, ?_, ?_⟩
      · intro fn hg
        obtain ⟨fn1, e1, m1⟩ := a1 c fn hc hg
        obtain ⟨fn2, e2, m2⟩ := a2 fn1 e1
        obtain ⟨fn2', e2', -, -, -, m3, -⟩ := d2.keep c fn1 e1
        rw [e2] at e2'
        cases e2'
        refine ⟨fn2, e2, ?_⟩
        intro x hx
        rcases List.mem_cons.mp hx with h | h
        · cases h; exact m3 f m1
        · exact m2 x h
      · refine (d1.trans d2).weaken (fun _ => rfl) (fun _ h => h.elim id id) ?_ ?_ ?_
        · rintro g x (⟨h1, hx⟩ | ⟨h1, h2⟩)
          · left
            rw [hc] at h1
            cases h1
            exact ⟨rfl, by rw [hx]; exact List.mem_cons_self⟩
          · exact .inl ⟨h1, List.mem_cons_of_mem _ h2⟩
        · rintro x (⟨h1, hx⟩ | h)
          · rw [hc] at h1; cases h1
          · exact h
        · intro x hx
          exact ⟨trivial, fun a ha => hx a (List.mem_cons_of_mem _ ha)⟩
  | .decl f a :: r, u, u', c, hc, h => by
    simp only [body, bind, Except.bind] at h
    cases h1 : declareIn u f a with
    | error e => rw [h1] at h; cases h
    | ok u1 =>
      rw [h1] at h
      obtain ⟨c1, d1⟩ := declareIn_delta h1
      obtain ⟨c2, a2, d2⟩ := body_delta r c (c1.trans hc) h
      refine ⟨c2, ?_, ?_⟩
      · intro fn hg
        obtain ⟨fn1, e1, -⟩ := d1.keep c fn hg
        obtain ⟨fn2, e2, m2⟩ := a2 fn1 e1
        refine ⟨fn2, e2, ?_⟩
        intro x hx
        rcases List.mem_cons.mp hx with h | h
        · cases h
        · exact m2 x h
      · refine (d1.trans d2).weaken (fun _ => rfl) (fun _ h => h.elim id id) ?_ ?_ ?_
        · rintro g x (h | ⟨h1, h2⟩)
          · exact h.elim
          · exact .inl ⟨h1, List.mem_cons_of_mem _ h2⟩
        · rintro x (h | h) <;> exact h
        · intro x hx
          exact ⟨fun e => hx a (by rw [e]; exact List.mem_cons_self), fun a ha => hx a (List.mem_cons_of_mem _ ha)⟩

/-- One external declaration. -/
theorem ext_delta (e : Ext) {u u' : Unit} (hb : u.blk = []) (h : exts [e] u = .ok u') :
    u'.blk = [] ∧ u'.cur = (lastDef [e]).or u.cur ∧
    Delta u u' (firstDecl [e]) (Defined [e]) (Refers [e]) (InitRef [e]) (fun g => e.declares g = false) ∧
    (∀ f a b, e = .defn f a b → ∃ fn, find u'.fns f = some fn ∧ fn.isDef = true ∧ ∀ x, .ref x ∈ b → x ∈ fn.refs) ∧
    (∀ rs, e = .init rs → (∀ g fn, u.cur = some g → find u.fns g = some fn → ∃ fn', find u'.fns g = some fn' ∧ ∀ f ∈ rs, f ∈ fn'.refs) ∧
      (u.cur = none → ∀ f ∈ rs, ∃ fn', find u'.fns f = some fn' ∧ fn'.root = true)) := by
  cases e with
  | decl f a =>
    simp only [exts, bind, Except.bind] at h
    cases h1 : declare u f a false with
    | error e => rw [h1] at h; cases h
    | ok u1 =>
      rw [h1] at h
      cases h
      obtain ⟨c1, k1, -, d1⟩ := declare_delta h1
      refine ⟨k1.trans hb, by simp [c1, lastDef], ?_, (fun _ _ _ e => by cases e), (fun _ e => by cases e)⟩
      refine d1.weaken (fun g => rfl) (fun g h => absurd h.2 (by simp)) (fun _ _ h => h.elim) (fun _ h => h.elim) ?_
      intro g hg e
      subst e
      simp [Ext.declares] at hg
  | defn f a b =>
    simp only [exts, bind, Except.bind] at h
    cases h1 : declare u f a true with
    | error e => rw [h1] at h; cases h
    | ok u1 =>
      rw [h1] at h
      simp only at h
      cases h2 : body b { u1 with cur := some f } with
      | error e => rw [h2] at h; cases h
      | ok u2 =>
        rw [h2] at h
        cases h
        obtain ⟨c1, k1, ⟨fn1, e1, m1⟩, d1⟩ := declare_delta h1
        obtain ⟨c2, a2, d2⟩ := body_delta b f rfl h2
        have dm : Delta u1 { u1 with cur := some f } _ _ _ _ _ := Delta.refl rfl
        have de : Delta u2 { u2 with blk := [] } _ _ _ _ _ := Delta.refl rfl
        refine ⟨rfl, by simp [c2, lastDef], ?_, ?_, (fun _ e => by cases e)⟩
        · refine (((d1.trans dm).trans d2).trans de).weaken ?_ ?_ ?_ ?_ ?_
          · intro g; simp [firstDecl]
          · rintro g (((h | h) | h) | h)
            · exact ⟨a, b, by rw [h.1]; exact List.mem_cons_self⟩
            · exact h.elim
            · exact h.elim
            · exact h.elim
          · rintro g x (((h | h) | h) | h)
            · exact h.elim
            · exact h.elim
            · exact .inl ⟨a, b, by rw [h.1]; exact List.mem_cons_self, h.2⟩
            · exact h.elim
          · rintro g (((h | h) | h) | h) <;> exact h.elim
          · intro g hg
            simp only [Ext.declares, Bool.or_eq_false_iff, beq_eq_false_iff_ne] at hg
            refine ⟨⟨⟨fun e => hg.1 e.symm, trivial⟩, ?_⟩, trivial⟩
            intro a' ha'
            have := hg.2
            rw [List.any_eq_false] at this
            have := this _ ha'
            simp at this
        · intro f' a' b' e
          cases e
          obtain ⟨fn2, e2, m2⟩ := a2 fn1 e1
          obtain ⟨fn2', e2', -, -, m3, -⟩ := d2.keep f fn1 e1
          rw [e2] at e2'
          cases e2'
          exact ⟨fn2, e2, m3 (m1 rfl), m2⟩
  | init rs =>
    simp only [exts, bind, Except.bind] at h
    cases h1 : referAll rs u with
    | error e => rw [h1] at h; cases h
    | ok u1 =>
      rw [h1] at h
      cases h
      obtain ⟨c1, k1, a1, b1, d1⟩ := referAll_delta rs h1
      refine ⟨k1.trans hb, by simp [c1, lastDef], ?_, (fun _ _ _ e => by cases e), ?_⟩
      · refine d1.weaken (fun _ => rfl) (fun _ h => h.elim) (fun _ _ h => h.elim) ?_ (fun _ _ => trivial)
        intro f hf
        exact ⟨rs, List.mem_cons_self, hf⟩
      · intro rs' e
        cases e
        exact ⟨a1, fun hc => b1 hc hb⟩

theorem exts_cons (e : Ext) (r : List Ext) (u : Unit) : exts (e :: r) u = (exts [e] u).bind (exts r) := by
  cases e with
  | decl f a =>
    simp only [exts, bind]
    cases declare u f a false with
    | error e => rfl
    | ok u => rfl
  | defn f a b =>
    simp only [exts, bind]
    cases declare u f a true with
    | error e => rfl
    | ok u =>
      simp only [Except.bind]
      cases body b { u with cur := some f } with
      | error e => rfl
      | ok u => rfl
  | init rs =>
    simp only [exts, bind]
    cases referAll rs u with
    | error e => rfl
    | ok u => rfl

theorem exts_append (p q : List Ext) (u : Unit) : exts (p ++ q) u = (exts p u).bind (exts q) := by
  induction p generalizing u with
  | nil => rfl
  | cons e p ih =>
    rw [List.cons_append, exts_cons, exts_cons e p]
    cases exts [e] u with
    | error e => rfl
    | ok u => exact ih u

theorem lastDef_cons (e : Ext) (r : List Ext) : lastDef (e :: r) = (lastDef r).or (lastDef [e]) := by
  cases e <;> simp [lastDef]

theorem firstDecl_cons (e : Ext) (r : List Ext) (x : String) : firstDecl (e :: r) x = (firstDecl [e] x).or (firstDecl r x) := by
  cases e with
  | decl f a => simp only [firstDecl]; split <;> rfl
  | defn f a b => simp only [firstDecl]; split <;> rfl
  | init _ => simp [firstDecl]

/-- A sequence of external declarations. -/
theorem exts_delta : ∀ (p : List Ext) {u u' : Unit}, u.blk = [] → exts p u = .ok u' →
    u'.blk = [] ∧ u'.cur = (lastDef p).or u.cur ∧
    Delta u u' (firstDecl p) (Defined p) (Refers p) (InitRef p) (fun g => ∀ e ∈ p, e.declares g = false)
  | [], u, u', hb, h => by
    cases h
    exact ⟨hb, by simp [lastDef], (Delta.refl rfl).weaken (fun _ => rfl) (fun _ h => h.elim) (fun _ _ h => h.elim) (fun _ h => h.elim) (fun _ _ => trivial)⟩
  | e :: r, u, u', hb, h => by
    rw [exts_cons] at h
    cases h1 : exts [e] u with
    | error e => rw [h1] at h; cases h
    | ok u1 =>
      rw [h1] at h
      obtain ⟨k1, c1, d1, -⟩ := ext_delta e hb h1
      obtain ⟨k2, c2, d2⟩ := exts_delta r k1 h
      refine ⟨k2, ?_, ?_⟩
      · rw [c2, c1, lastDef_cons e r, Option.or_assoc]
      · refine (d1.trans d2).weaken (fun g => (firstDecl_cons e r g).symm) ?_ ?_ ?_ ?_
        · rintro g (⟨a, b, h⟩ | ⟨a, b, h⟩)
          · exact ⟨a, b, by simp at h; rw [h]; exact List.mem_cons_self⟩
          · exact ⟨a, b, List.mem_cons_of_mem _ h⟩
        · rintro g f (⟨a, b, h, h'⟩ | ⟨a, b, h, h'⟩)
          · exact .inl ⟨a, b, by simp at h; rw [h]; exact List.mem_cons_self, h'⟩
          · exact .inl ⟨a, b, List.mem_cons_of_mem _ h, h'⟩
        · rintro g (⟨a, h, h'⟩ | ⟨a, h, h'⟩)
          · exact ⟨a, by simp at h; rw [h]; exact List.mem_cons_self, h'⟩
          · exact ⟨a, List.mem_cons_of_mem _ h, h'⟩
        · intro g hg
          exact ⟨hg e List.mem_cons_self, fun e' he => hg e' (List.mem_cons_of_mem _ he)⟩

end Toycc.Globals
