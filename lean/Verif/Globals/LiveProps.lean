import Verif.Globals.Table
/-! C46: which functions are emitted. -/
namespace Toycc.Globals

theorem find_mem {fns : List (String × Fn)} {f : String} {fn : Fn} (h : find fns f = some fn) : (f, fn) ∈ fns := by
  induction fns with
  | nil => cases h
  | cons p r ih =>
    obtain ⟨q, v⟩ := p
    rw [find_cons] at h
    split at h
    · next e => cases h; rw [e]; exact List.mem_cons_self
    · exact List.mem_cons_of_mem _ (ih h)

/-- The names of the table are different. -/
theorem names_nodup : ∀ (p : List Ext) {u u' : Unit}, exts p u = .ok u' → (u.fns.map Prod.fst).Nodup → (u'.fns.map Prod.fst).Nodup := by
  have hupd : ∀ fns f g, (update fns f g).map Prod.fst = fns.map Prod.fst := by
    intro fns f g
    induction fns with
    | nil => rfl
    | cons p r ih =>
      simp only [update, List.map_cons, List.map_map] at ih ⊢
      rw [ih]
      congr 1
      by_cases e : p.1 = f <;> simp [e]
  have hnone : ∀ (fns : List (String × Fn)) f, find fns f = none → f ∉ fns.map Prod.fst := by
    intro fns f h
    induction fns with
    | nil => simp
    | cons p r ih =>
      obtain ⟨q, v⟩ := p
      rw [find_cons] at h
      split at h
      · cases h
      · next e => simp only [List.map_cons, List.mem_cons, not_or]; exact ⟨e, ih h⟩
  have hdecl : ∀ {u u' : Unit} {f a b}, declare u f a b = .ok u' → (u.fns.map Prod.fst).Nodup → (u'.fns.map Prod.fst).Nodup := by
    intro u u' f a b h hn
    unfold declare at h
    cases hf : find u.fns f with
    | some fn =>
      rw [hf] at h
      simp only at h
      split at h
      · cases h
      · split at h
        · cases h
        · cases h; simpa only [hupd] using hn
    | none =>
      rw [hf] at h
      cases h
      simp only [List.map_cons, List.nodup_cons]
      exact ⟨hnone _ _ hf, hn⟩
  have hrefer : ∀ {u u' : Unit} {f}, refer u f = .ok u' → (u.fns.map Prod.fst).Nodup → (u'.fns.map Prod.fst).Nodup := by
    intro u u' f h hn
    unfold refer at h
    split at h
    · cases h
    · split at h <;> (cases h; simpa only [hupd] using hn)
  have hall : ∀ (rs : List String) {u u' : Unit}, referAll rs u = .ok u' → (u.fns.map Prod.fst).Nodup → (u'.fns.map Prod.fst).Nodup := by
    intro rs
    induction rs with
    | nil => intro u u' h hn; cases h; exact hn
    | cons f r ih =>
      intro u u' h hn
      simp only [referAll, bind, Except.bind] at h
      cases h1 : refer u f with
      | error e => rw [h1] at h; cases h
      | ok u1 => rw [h1] at h; exact ih h (hrefer h1 hn)
  have hbody : ∀ (b : List Occ) {u u' : Unit}, body b u = .ok u' → (u.fns.map Prod.fst).Nodup → (u'.fns.map Prod.fst).Nodup := by
    intro b
    induction b with
    | nil => intro u u' h hn; cases h; exact hn
    | cons o r ih =>
      intro u u' h hn
      cases o with
      | ref f =>
        simp only [body, bind, Except.bind] at h
        cases h1 : refer u f with
        | error e => rw [h1] at h; cases h
        | ok u1 => rw [h1] at h; exact ih h (hrefer h1 hn)
      | decl f a =>
        simp only [body, bind, Except.bind] at h
        cases h1 : declareIn u f a with
        | error e => rw [h1] at h; cases h
        | ok u1 =>
          rw [h1] at h
          refine ih h ?_
          unfold declareIn at h1
          split at h1
          · exact hdecl h1 hn
          · cases h1; exact hn
  intro p
  induction p with
  | nil => intro u u' h hn; cases h; exact hn
  | cons e r ih =>
    intro u u' h hn
    cases e with
    | decl f a =>
      simp only [exts, bind, Except.bind] at h
      cases h1 : declare u f a false with
      | error e => rw [h1] at h; cases h
      | ok u1 => rw [h1] at h; exact ih h (hdecl h1 hn)
    | defn f a b =>
      simp only [exts, bind, Except.bind] at h
      cases h1 : declare u f a true with
      | error e => rw [h1] at h; cases h
      | ok u1 =>
        rw [h1] at h
        simp only at h
        cases h2 : body b { u1 with cur := some f } with
        | error e => rw [h2] at h; cases h
        | ok u2 => rw [h2] at h; exact ih (u := { u2 with blk := [] }) h (hbody b (u' := u2) h2 (hdecl h1 hn : (u1.fns.map Prod.fst).Nodup))
    | init rs =>
      simp only [exts, bind, Except.bind] at h
      cases h1 : referAll rs u with
      | error e => rw [h1] at h; cases h
      | ok u1 => rw [h1] at h; exact ih h (hall rs h1 hn)

theorem mem_find {fns : List (String × Fn)} (hn : (fns.map Prod.fst).Nodup) {f : String} {fn : Fn} (h : (f, fn) ∈ fns) : find fns f = some fn := by
  induction fns with
  | nil => cases h
  | cons p r ih =>
    obtain ⟨q, v⟩ := p
    simp only [List.map_cons, List.nodup_cons] at hn
    rw [find_cons]
    rcases List.mem_cons.mp h with e | h
    · cases e; rw [if_pos rfl]
    · have : f ≠ q := fun e => hn.1 (by rw [← e]; exact List.mem_map_of_mem (f := Prod.fst) h)
      rw [if_neg this]
      exact ih hn.2 h

/-- What emitting amounts to. -/
theorem emitted_iff {p : List Ext} {k : Nat} {E : List String} (h : emitted p k = .ok E) :
    ∃ (u : Unit) (live : List String), exts p ⟨[], none, []⟩ = .ok u ∧
      (∀ f, f ∈ E ↔ (∃ fn, find u.fns f = some fn ∧ fn.isDef = true) ∧ f ∈ live) ∧
      (∀ f fn, find u.fns f = some fn → fn.root = true → f ∈ live) ∧
      (∀ f ∈ live, ∀ g, Edge u.fns f g → (find u.fns g).isSome → g ∈ live) ∧
      (∀ f ∈ live, ∃ r fn, find u.fns r = some fn ∧ fn.root = true ∧ Reach u.fns r f) := by
  simp only [emitted, bind, Except.bind] at h
  cases h1 : exts p ⟨[], none, []⟩ with
  | error e => rw [h1] at h; cases h
  | ok u =>
    rw [h1] at h
    simp only at h
    have hn : (u.fns.map Prod.fst).Nodup := names_nodup p h1 (by simp)
    cases h2 : markAll u.fns k ((u.fns.filter fun p => p.2.root).map Prod.fst) [] with
    | error e => rw [h2] at h; cases h
    | ok live =>
      rw [h2] at h
      cases h
      have M := (mark_spec u.fns k).2 _ _ _ h2
      refine ⟨u, live, rfl, ?_, ?_, ?_, ?_⟩
      · intro f
        simp only [List.mem_map, List.mem_filter, Bool.and_eq_true, Prod.exists, List.contains_iff_mem]
        constructor
        · rintro ⟨g, fn, ⟨hm, hd, hl⟩, rfl⟩
          exact ⟨⟨fn, mem_find hn hm, hd⟩, hl⟩
        · rintro ⟨⟨fn, hf, hd⟩, hl⟩
          exact ⟨f, fn, ⟨find_mem hf, hd, hl⟩, rfl⟩
      · intro f fn hf hr
        refine M.roots f ?_ (by rw [hf]; rfl)
        simp only [List.mem_map, List.mem_filter, Prod.exists]
        exact ⟨f, fn, ⟨find_mem hf, hr⟩, rfl⟩
      · intro f hf g hg hs
        exact M.closed f hf (by simp) g hg hs
      · intro f hf
        rcases M.only f hf with h | ⟨r, hr, hR⟩
        · cases h
        · simp only [List.mem_map, List.mem_filter, Prod.exists] at hr
          obtain ⟨g, fn, ⟨hm, hroot⟩, rfl⟩ := hr
          exact ⟨g, fn, mem_find hn hm, hroot, hR⟩

theorem plain_iff {p : List Ext} {u : Unit} (h : exts p ⟨[], none, []⟩ = .ok u) (f : String) :
    Plain p f ↔ ∃ fn, find u.fns f = some fn ∧ fn.plain = true := by
  obtain ⟨-, -, d⟩ := exts_delta p rfl h
  have hn := d.new f rfl
  constructor
  · rintro ⟨a, ha, hl⟩
    rw [ha] at hn
    cases hf : find u.fns f with
    | none => rw [hf] at hn; cases hn
    | some fn =>
      rw [hf] at hn
      simp only [Option.map_some, Option.some.injEq, Prod.mk.injEq] at hn
      refine ⟨fn, rfl, ?_⟩
      rw [Fn.plain, hn.1, hn.2]
      revert hl
      unfold Attr.lazy
      cases a.inl <;> cases a.static <;> cases a.extern <;> simp
  · rintro ⟨fn, hf, hpl⟩
    rw [hf] at hn
    cases ha : firstDecl p f with
    | none => rw [ha] at hn; cases hn
    | some a =>
      rw [ha] at hn
      simp only [Option.map_some, Option.some.injEq, Prod.mk.injEq] at hn
      refine ⟨a, ha, ?_⟩
      rw [Fn.plain, hn.1, hn.2] at hpl
      revert hpl
      unfold Attr.lazy
      cases a.inl <;> cases a.static <;> cases a.extern <;> simp

/-! ### The theorems -/

/-- C46: whatever is accepted, the marking of functions ends, with the same result from some depth of recursion on. -/
theorem C46_ends (p : List Ext) (u : Unit) (h : exts p ⟨[], none, []⟩ = .ok u) : ∃ k E, ∀ k', k ≤ k' → emitted p k' = .ok E := by
  have hM : ∃ M, ∀ f fn, find u.fns f = some fn → fn.refs.length ≤ M := by
    have : ∀ fns : List (String × Fn), ∃ M, ∀ p ∈ fns, p.2.refs.length ≤ M := by
      intro fns
      induction fns with
      | nil => exact ⟨0, by simp⟩
      | cons p r ih =>
        obtain ⟨M, hM⟩ := ih
        refine ⟨p.2.refs.length + M, ?_⟩
        intro q hq
        rcases List.mem_cons.mp hq with h | h
        · rw [h]; omega
        · have := hM q h; omega
    obtain ⟨M, hM⟩ := this u.fns
    exact ⟨M, fun f fn hf => hM (f, fn) (find_mem hf)⟩
  obtain ⟨M, hM⟩ := hM
  have ht := (mark_total u.fns M hM (2 * ((u.fns.filter fun p => p.2.root).map Prod.fst).length + unmarked u.fns [] * (2 * M + 3) + 1)).2
    ((u.fns.filter fun p => p.2.root).map Prod.fst) [] (by omega)
  obtain ⟨live, hl⟩ := ht
  refine ⟨2 * ((u.fns.filter fun p => p.2.root).map Prod.fst).length + unmarked u.fns [] * (2 * M + 3) + 1,
    (u.fns.filter fun p => p.2.isDef && live.contains p.1).map Prod.fst, fun k' hk' => ?_⟩
  · have : markAll u.fns k' ((u.fns.filter fun p => p.2.root).map Prod.fst) [] = .ok live := by
      induction hk' with
      | refl => exact hl
      | step _ ih => exact (mark_more u.fns _).2 _ _ _ ih
    simp only [emitted, h, bind, Except.bind, this]

/-- C46, one direction, complete: a function for which code is emitted is defined and needed. -/
theorem C46_only_needed (p : List Ext) (k : Nat) (E : List String) (h : emitted p k = .ok E) : ∀ f ∈ E, Defined p f ∧ Needed p f := by
  obtain ⟨u, live, h1, hE, -, -, hR⟩ := emitted_iff h
  obtain ⟨-, -, d⟩ := exts_delta p rfl h1
  intro f hf
  obtain ⟨⟨fn, hfn, hd⟩, hl⟩ := (hE f).mp hf
  refine ⟨?_, ?_⟩
  · rcases d.isDef f fn hfn hd with ⟨_, h, _⟩ | h
    · cases h
    · exact h
  · obtain ⟨r, fr, hr, hroot, hreach⟩ := hR f hl
    have hneed : Needed p r := by
      rcases d.root r fr hr hroot with h | ⟨_, h, _⟩ | h
      · exact .plain ((plain_iff h1 r).mpr ⟨fr, hr, h⟩)
      · cases h
      · exact .init h
    clear hr hroot hf hl hfn hd hE hR
    induction hreach with
    | refl => exact hneed
    | step e _ ih =>
      apply ih
      obtain ⟨fx, hx, hm⟩ := e
      rcases d.refs _ fx hx _ hm with ⟨_, h, _⟩ | h | h
      · cases h
      · exact .ref hneed h
      · exact .init h

/-- C46, the other direction, minus some references outside of functions (see `InitsFine`): a function that is defined and needed is emitted. -/
theorem C46_all_needed_partial (p : List Ext) (k : Nat) (E : List String) (h : emitted p k = .ok E) (hi : InitsFine p) :
    ∀ f, Defined p f → Needed p f → f ∈ E := by
  obtain ⟨u, live, h1, hE, hroot, hclosed, -⟩ := emitted_iff h
  have dAll := exts_delta p (u := ⟨[], none, []⟩) rfl h1
  have hplain : ∀ g fn, find u.fns g = some fn → fn.plain = true → fn.root = true := dAll.2.2.plain (fun _ _ h => by cases h)
  -- splitting a unit
  have split : ∀ pre e post, p = pre ++ e :: post → ∃ ua ub, exts pre ⟨[], none, []⟩ = .ok ua ∧ ua.blk = [] ∧ ua.cur = lastDef pre ∧ exts [e] ua = .ok ub ∧ ub.blk = [] ∧
      exts post ub = .ok u := by
    intro pre e post hp
    rw [hp, exts_append] at h1
    cases ha : exts pre ⟨[], none, []⟩ with
    | error e => rw [ha] at h1; cases h1
    | ok ua =>
      rw [ha] at h1
      replace h1 : exts (e :: post) ua = .ok u := h1
      obtain ⟨k1, c1, -⟩ := exts_delta pre (u := ⟨[], none, []⟩) rfl ha
      rw [exts_cons] at h1
      cases hb : exts [e] ua with
      | error e => rw [hb] at h1; cases h1
      | ok ub =>
        rw [hb] at h1
        obtain ⟨k2, -⟩ := ext_delta e k1 hb
        exact ⟨ua, ub, rfl, k1, by simpa using c1, hb, k2, h1⟩
  have hdef : ∀ g, Defined p g → ∃ fn, find u.fns g = some fn ∧ fn.isDef = true := by
    rintro g ⟨a, b, hm⟩
    obtain ⟨pre, post, hp⟩ := List.append_of_mem hm
    obtain ⟨ua, ub, -, ka, -, hb, kb, hc⟩ := split pre _ post hp
    obtain ⟨-, -, -, hd, -⟩ := ext_delta _ ka hb
    obtain ⟨fn, hf, hdf, -⟩ := hd g a b rfl
    obtain ⟨fn', hf', -, -, hdf', -⟩ := (exts_delta post kb hc).2.2.keep g fn hf
    exact ⟨fn', hf', hdf' hdf⟩
  have hrefs : ∀ g f, Refers p g f → Edge u.fns g f := by
    rintro g f ⟨a, b, hm, hr⟩
    obtain ⟨pre, post, hp⟩ := List.append_of_mem hm
    obtain ⟨ua, ub, -, ka, -, hb, kb, hc⟩ := split pre _ post hp
    obtain ⟨-, -, -, hd, -⟩ := ext_delta _ ka hb
    obtain ⟨fn, hf, -, hx⟩ := hd g a b rfl
    obtain ⟨fn', hf', -, -, -, hx', -⟩ := (exts_delta post kb hc).2.2.keep g fn hf
    exact ⟨fn', hf', hx' f (hx f hr)⟩
  -- all needed functions of the table are live
  have hlive : ∀ f, Needed p f → (find u.fns f).isSome → f ∈ live := by
    intro f hn
    induction hn with
    | @plain f hp =>
      intro _
      obtain ⟨fn, hf, hpl⟩ := (plain_iff h1 f).mp hp
      exact hroot f fn hf (hplain f fn hf hpl)
    | @init f hp =>
      intro hs
      obtain ⟨rs, hm, hf⟩ := hp
      obtain ⟨pre, post, hpp⟩ := List.append_of_mem hm
      obtain ⟨ua, ub, ha, ka, ca, hb, kb, hc⟩ := split pre _ post hpp
      obtain ⟨-, -, -, -, hinit⟩ := ext_delta _ ka hb
      obtain ⟨hi1, hi2⟩ := hinit rs rfl
      rcases hi pre rs post f hpp hf with hpl | ⟨g, hg, hpl⟩ | ⟨hg, hno⟩
      · obtain ⟨fn, hf, hpl⟩ := (plain_iff h1 f).mp hpl
        exact hroot f fn hf (hplain f fn hf hpl)
      · obtain ⟨fn, hfn, hpl⟩ := (plain_iff h1 g).mp hpl
        have hgl : g ∈ live := hroot g fn hfn (hplain g fn hfn hpl)
        refine hclosed g hgl f ?_ hs
        -- `g` is defined before
        have hga : ∃ fa, find ua.fns g = some fa := by
          have hdg : Defined pre g := lastDef_defined pre g hg
          obtain ⟨a, b, hm⟩ := hdg
          obtain ⟨pre1, post1, hp1⟩ := List.append_of_mem hm
          rw [hp1, exts_append] at ha
          cases hx : exts pre1 ⟨[], none, []⟩ with
          | error e => rw [hx] at ha; cases ha
          | ok ux =>
            rw [hx] at ha
            replace ha : exts (.defn g a b :: post1) ux = .ok ua := ha
            obtain ⟨kx, -, -⟩ := exts_delta pre1 (u := ⟨[], none, []⟩) rfl hx
            rw [exts_cons] at ha
            cases hy : exts [.defn g a b] ux with
            | error e => rw [hy] at ha; cases ha
            | ok uy =>
              rw [hy] at ha
              obtain ⟨ky, -, -, hd, -⟩ := ext_delta _ kx hy
              obtain ⟨fy, hfy, -⟩ := hd g a b rfl
              obtain ⟨fz, hfz, -⟩ := (exts_delta post1 ky ha).2.2.keep g fy hfy
              exact ⟨fz, hfz⟩
        obtain ⟨fa, hfa⟩ := hga
        obtain ⟨fb, hfb, hx⟩ := hi1 g fa (by rw [ca, hg]) hfa
        obtain ⟨fc, hfc, -, -, -, hx', -⟩ := (exts_delta post kb hc).2.2.keep g fb hfb
        exact ⟨fc, hfc, hx' f (hx f hf)⟩
      · obtain ⟨fb, hfb, hr⟩ := hi2 (by rw [ca, hg]) f hf
        obtain ⟨fc, hfc, -, -, -, -, hr'⟩ := (exts_delta post kb hc).2.2.keep f fb hfb
        exact hroot f fc hfc (hr' hno hr)
    | @ref g f hg hr ih =>
      intro hs
      have he := hrefs g f hr
      have hgl : g ∈ live := ih (by obtain ⟨fn, h, _⟩ := he; rw [h]; rfl)
      exact hclosed g hgl f he hs
  intro f hd hn
  obtain ⟨fn, hfn, hdf⟩ := hdef f hd
  exact (hE f).mpr ⟨⟨fn, hfn, hdf⟩, hlive f hn (by rw [hfn]; rfl)⟩
where
  lastDef_defined : ∀ (p : List Ext) (g : String), lastDef p = some g → Defined p g
  | [], g, h => by cases h
  | e :: r, g, h => by
    rw [lastDef_cons] at h
    cases hr : lastDef r with
    | some g' =>
      rw [hr] at h
      cases h
      obtain ⟨a, b, hm⟩ := lastDef_defined r g hr
      exact ⟨a, b, List.mem_cons_of_mem _ hm⟩
    | none =>
      rw [hr] at h
      cases e with
      | defn f a b =>
        simp [lastDef] at h
        exact ⟨a, b, by rw [h]; exact List.mem_cons_self⟩
      | decl f a => simp [lastDef] at h
      | init rs => simp [lastDef] at h

/-- C46 for units without references outside of functions: exactly the functions that are defined and needed are emitted. -/
theorem C46_exact_partial (p : List Ext) (k : Nat) (E : List String) (h : emitted p k = .ok E) (hi : ∀ rs, .init rs ∈ p → rs = []) (f : String) :
    f ∈ E ↔ Defined p f ∧ Needed p f := by
  constructor
  · exact C46_only_needed p k E h f
  · rintro ⟨h1, h2⟩
    refine C46_all_needed_partial p k E h ?_ f h1 h2
    intro pre rs post f hp hf
    have := hi rs (by rw [hp]; simp)
    subst this
    cases hf

def si : Attr := { static := true, inl := true }

/-- `a` calls itself and `b`, `b` calls `c`; `d` and `e` call each other; only `main` is an ordinary function, and calls `a`; `t` is used by an initialiser. -/
def exUnit : List Ext :=
  [.decl "a" si, .decl "e" si, .decl "t" si, .init ["t"], .defn "c" si [], .defn "b" si [.ref "c"], .defn "a" si [.ref "a", .ref "b"],
   .defn "d" si [.ref "e"], .defn "e" si [.ref "d", .ref "a"],
   .defn "main" {} [.decl "puts" {}, .ref "puts", .ref "a"], .init ["main", "a"]]

example : emitted exUnit 100 = .ok ["main", "b", "c", "a"] ∧ InitsFine exUnit := by
  refine ⟨by decide +kernel, ?_⟩
  intro pre rs post f hp hf
  -- the first initialiser comes before all definitions, the second refers to `main` and follows it
  rcases pre with _ | ⟨a0, _ | ⟨a1, _ | ⟨a2, _ | ⟨a3, _ | ⟨a4, _ | ⟨a5, _ | ⟨a6, _ | ⟨a7, _ | ⟨a8, _ | ⟨a9, _ | ⟨a10, pre⟩⟩⟩⟩⟩⟩⟩⟩⟩⟩⟩ <;>
    simp [exUnit] at hp
  · obtain ⟨rfl, rfl, rfl, rfl, rfl⟩ := hp
    right; right
    simp at hf
    subst hf
    refine ⟨rfl, ?_⟩
    intro e he
    simp at he
    rcases he with rfl | rfl | rfl | rfl | rfl | rfl | rfl <;> rfl
  · obtain ⟨rfl, rfl, rfl, rfl, rfl, rfl, rfl, rfl, rfl, rfl, rfl, rfl⟩ := hp
    right; left
    exact ⟨"main", rfl, {}, rfl, rfl⟩

/-! ### Findings -/

/-- `static inline int f() {..}  static inline int g() {..}  int (*p)() = f;`: `f` is needed (and defined) but not emitted, since the
reference is ascribed to `g`, which was parsed before (current_fn is not reset). -/
theorem C46_violated_initializer :
    let p : List Ext := [.defn "f" si [], .defn "g" si [], .init ["f"]]
    emitted p 100 = .ok [] ∧ Defined p "f" ∧ Needed p "f" :=
  ⟨by decide +kernel, ⟨si, [], by simp⟩, .init ⟨["f"], by simp, by simp⟩⟩

/-- `static inline int f(); int (*p)() = f; static inline int f() {..}`: `f` is not emitted, since its definition resets the mark that the reference has
set. -/
theorem C46_violated_redeclared :
    let p : List Ext := [.decl "f" si, .init ["f"], .defn "f" si []]
    emitted p 100 = .ok [] ∧ Defined p "f" ∧ Needed p "f" :=
  ⟨by decide +kernel, ⟨si, [], by simp⟩, .init ⟨["f"], by simp, by simp⟩⟩

end Toycc.Globals
