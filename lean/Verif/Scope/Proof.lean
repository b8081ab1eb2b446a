import Verif.Scope.Hist
/-! Every item keeps toycc and C together. -/
namespace Toycc.Scope
open Toycc.HashMap (Key)

/-! ### Odd constructs are recorded for ever -/

@[simp] theorem oddIf_odd (st : CSt) (b : Bool) (o : Odd) : (st.oddIf b o).odd = [] ↔ st.odd = [] ∧ b = false := by
  cases b <;> simp [CSt.oddIf]
@[simp] theorem oddIf_past (st : CSt) (b : Bool) (o : Odd) : (st.oddIf b o).past = st.past := by cases b <;> rfl
@[simp] theorem oddIf_next (st : CSt) (b : Bool) (o : Odd) : (st.oddIf b o).next = st.next := by cases b <;> rfl
@[simp] theorem oddIf_log (st : CSt) (b : Bool) (o : Odd) : (st.oddIf b o).log = st.log := by cases b <;> rfl
@[simp] theorem add_odd (st : CSt) (e : Ev) : (st.add e).odd = st.odd := rfl
@[simp] theorem add_past (st : CSt) (e : Ev) : (st.add e).past = e :: st.past := rfl
@[simp] theorem add_next (st : CSt) (e : Ev) : (st.add e).next = st.next := rfl
@[simp] theorem add_log (st : CSt) (e : Ev) : (st.add e).log = st.log := rfl
@[simp] theorem say_odd (st : CSt) (e : Res) : (st.say e).odd = st.odd := rfl
@[simp] theorem say_past (st : CSt) (e : Res) : (st.say e).past = st.past := rfl
@[simp] theorem say_next (st : CSt) (e : Res) : (st.say e).next = st.next := rfl
@[simp] theorem say_log (st : CSt) (e : Res) : (st.say e).log = st.log ++ [e] := rfl
@[simp] theorem declare_odd (st : CSt) (x : Key) (i : Ident) : (st.declare x i).odd = [] ↔ st.odd = [] ∧ inSoft st.past 0 = false := by
  simp [CSt.declare]
@[simp] theorem declare_past (st : CSt) (x : Key) (i : Ident) : (st.declare x i).past = .var x i :: st.past := by simp [CSt.declare]
@[simp] theorem declare_next (st : CSt) (x : Key) (i : Ident) : (st.declare x i).next = st.next := by simp [CSt.declare]
@[simp] theorem declare_log (st : CSt) (x : Key) (i : Ident) : (st.declare x i).log = st.log := by simp [CSt.declare]
@[simp] theorem newTag_odd (st : CSt) (x : Key) : (st.newTag x).odd = [] ↔ st.odd = [] ∧ inSoft st.past 0 = false := by
  simp [CSt.newTag]
@[simp] theorem newTag_past (st : CSt) (x : Key) : (st.newTag x).past = .tag x st.next :: st.past := by simp [CSt.newTag]
@[simp] theorem newTag_next (st : CSt) (x : Key) : (st.newTag x).next = st.next + 1 := by simp [CSt.newTag]
@[simp] theorem newTag_log (st : CSt) (x : Key) : (st.newTag x).log = st.log := by simp [CSt.newTag]

mutual
theorem cItem_odd : ∀ (i : Item) (st : CSt), (cItem i st).odd = [] → st.odd = []
  | .use _, st, h => by simp only [cItem, oddIf_odd, say_odd] at h; exact h.1
  | .decl _ _, st, h => by simp only [cItem, declare_odd] at h; exact h.1
  | .temp _, st, h => h
  | .fdecl _, st, h => by simp only [cItem, declare_odd, oddIf_odd] at h; exact h.1.1
  | .fdef _ _ _ b, st, h => by
    simp only [cItem, add_odd] at h
    have := cItems_odd b _ h
    simp only [declare_odd, oddIf_odd] at this
    exact this.1.1
  | .param _ _, st, h => h
  | .proto b, st, h => by simp only [cItem, add_odd] at h; exact cItems_odd b (st.add (.opened true)) h
  | .tagRef x, st, h => by
    simp only [cItem] at h
    split at h
    · exact h
    · simp only [say_odd, newTag_odd] at h; exact h.1
  | .tagFwd x, st, h => by
    simp only [cItem] at h
    split at h
    · exact h
    · simp only [say_odd, newTag_odd, oddIf_odd] at h; exact h.1.1
  | .tagDef none b, st, h => by
    simp only [cItem] at h
    exact ((oddIf_odd _ _ _).mp (cItems_odd b _ h)).1
  | .tagDef (some x) b, st, h => by
    simp only [cItem] at h
    split at h
    · simp only [say_odd] at h
      have := cItems_odd b _ h
      simp only [oddIf_odd] at this
      exact this.1.1
    · simp only [say_odd] at h
      have := cItems_odd b _ h
      simp only [newTag_odd, oddIf_odd] at this
      exact this.1.1.1
  | .enumRef _, st, h => h
  | .enumDef none b, st, h => by
    simp only [cItem] at h
    exact ((oddIf_odd _ _ _).mp (cItems_odd b _ h)).1
  | .enumDef (some x) b, st, h => by
    simp only [cItem, say_odd] at h
    have := cItems_odd b _ h
    simp only [newTag_odd, oddIf_odd] at this
    exact this.1.1.1.1
  | .block b, st, h => by simp only [cItem, add_odd] at h; exact cItems_odd b (st.add (.opened false)) h
  | .forS b, st, h => by simp only [cItem, add_odd] at h; exact cItems_odd b (st.add (.opened false)) h
  | .sel b, st, h => by simp only [cItem, add_odd] at h; exact cItems_odd b (st.add (.opened true)) h
theorem cItems_odd : ∀ (is : Items) (st : CSt), (cItems is st).odd = [] → st.odd = []
  | .nil, st, h => h
  | .cons i r, st, h => cItem_odd i st (cItems_odd r _ h)
end

/-! ### Simulation -/

/-- The recorded uses agree. -/
def LogRel (φ : Nat → Option Nat) (l cl : List Res) : Prop :=
  l.map (Res.ren φ) = cl ∧ ∀ t, Res.tag (some t) ∈ l → (φ t).isSome = true

theorem LogRel.ext {φ φ' : Nat → Option Nat} {l cl : List Res} (h : LogRel φ l cl) (hE : Ext φ φ') : LogRel φ' l cl := by
  refine ⟨?_, fun t ht => ?_⟩
  · rw [← h.1]
    apply List.map_congr_left
    intro r hr
    cases r with
    | var i => rfl
    | tag t =>
      cases t with
      | none => rfl
      | some a =>
        obtain ⟨n, hn⟩ := Option.isSome_iff_exists.mp (h.2 a hr)
        simp [Res.ren, hn, hE a n hn]
  · obtain ⟨n, hn⟩ := Option.isSome_iff_exists.mp (h.2 t ht)
    rw [hE t n hn]; rfl

theorem LogRel.sayVar {φ : Nat → Option Nat} {l cl : List Res} (h : LogRel φ l cl) (i : Option Ident) :
    LogRel φ (l ++ [.var i]) (cl ++ [.var i]) := by
  refine ⟨by rw [List.map_append, h.1]; rfl, fun t ht => ?_⟩
  rcases List.mem_append.mp ht with ht | ht
  · exact h.2 t ht
  · simp at ht

theorem LogRel.sayTag {φ : Nat → Option Nat} {l cl : List Res} (h : LogRel φ l cl) {o v : Option Nat} (e : o.map φ = v.map some) :
    LogRel φ (l ++ [.tag o]) (cl ++ [.tag v]) := by
  cases o with
  | none =>
    cases v with
    | some _ => cases e
    | none =>
      refine ⟨by rw [List.map_append, h.1]; rfl, fun t ht => ?_⟩
      rcases List.mem_append.mp ht with ht | ht
      · exact h.2 t ht
      · simp at ht
  | some a =>
    cases v with
    | none => cases e
    | some n =>
      simp only [Option.map_some, Option.some.injEq] at e
      refine ⟨by rw [List.map_append, h.1]; simp [Res.ren, e], fun t ht => ?_⟩
      rcases List.mem_append.mp ht with ht | ht
      · exact h.2 t ht
      · simp at ht; subst ht; rw [e]; rfl

/-- Where toycc and C are related. -/
structure At (P : List (Key × Nat)) (f : F) (fs : List F) (φ : Nat → Option Nat) (st : St) (c : CSt) : Prop where
  view : View st.scopes (f :: fs)
  rel : Rel P f fs st.next c.past c.next φ
  log : LogRel φ st.log c.log

/-- What processing something does. -/
structure Out (P : List (Key × Nat)) (fs : List F) (φ : Nat → Option Nat) (st : St) (c : CSt) (mention : Key → Bool)
    (st' : St) (c' : CSt) (f' : F) (φ' : Nat → Option Nat) (P' : List (Key × Nat)) (evs : List Ev) : Prop where
  at' : At P' f' fs φ' st' c'
  past : c'.past = evs ++ c.past
  bal : Bal (inSoft c.past 0) evs
  ext : Ext φ φ'
  next : st.next ≤ st'.next
  sub : ∀ p ∈ P', p ∈ P
  stay : ∀ p ∈ P, mention p.1 = false → p ∈ P'
  fresh : ∀ a n, φ' a = some n → φ a = some n ∨ st.next ≤ a
  keep : ∀ x n, hereS (onTag x) c.past 0 = some n → hereS (onTag x) c'.past 0 = some n

def Sim (P : List (Key × Nat)) (fs : List F) (φ : Nat → Option Nat) (st : St) (c : CSt) (mention : Key → Bool)
    (r : Except SErr St) (c' : CSt) : Prop :=
  ∃ st' f' φ' P' evs, r = .ok st' ∧ Out P fs φ st c mention st' c' f' φ' P' evs

/-- What is asked of what is processed. -/
structure Fit (P : List (Key × Nat)) (f : F) (fs : List F) (hasBlock : Bool) (mention mentionEnum : Key → Bool) : Prop where
  block : hasBlock = true → P = []
  mention : ∀ p ∈ P, mention p.1 = true → ftag (f :: fs) p.1 = none
  enum : ∀ p ∈ P, mentionEnum p.1 = false


theorem At.next_none {P f fs φ} {st : St} {c : CSt} (A : At P f fs φ st c) : φ st.next = none := by
  cases h : φ st.next with
  | none => rfl
  | some m => exact absurd (A.rel.rng _ _ h).1 (by omega)

theorem At.congr {P f fs φ} {st : St} {c c' : CSt} (A : At P f fs φ st c) (h1 : c'.past = c.past) (h2 : c'.next = c.next) (h3 : c'.log = c.log) :
    At P f fs φ st c' := ⟨A.view, by rw [h1, h2]; exact A.rel, by rw [h3]; exact A.log⟩

theorem updφ_some {φ : Nat → Option Nat} {a n b m : Nat} (h : updφ φ a n b = some m) : φ b = some m ∨ b = a := by
  unfold updφ at h
  split at h
  · rename_i e; exact .inr e
  · exact .inl h

/-- A tag that toycc does not know and C has declared. -/
theorem ref_pending {P f fs φ} {st : St} {c : CSt} (A : At P f fs φ st c) (x : Key) (n : Nat) (hx : (x, n) ∈ P) (hn : ftag (f :: fs) x = none)
    (mention : Key → Bool) (hm : mention x = true) :
    ∃ st' f', refTag st x = .ok st' ∧ Out P fs φ st c mention st' (c.say (.tag (some n))) f' (updφ φ st.next n) (P.filter (fun p => p.1 != x)) [] := by
  obtain ⟨s', e, hv⟩ := view_pushTag A.view x st.next
  have hφ := A.next_none
  refine ⟨⟨s', st.next + 1, st.log ++ [.tag (some st.next)]⟩, _, ?_,
    ⟨hv, A.rel.enterTag x n hx st.next hφ (nx' := st.next + 1) (by omega) (by omega), ?_⟩, rfl, .nil _,
    ext_updφ n hφ, Nat.le_succ _, ?_, ?_, ?_, fun _ _ h => h⟩
  · simp only [refTag, view_findTag A.view, hn, e, bind, Except.bind]
  · exact (A.log.ext (ext_updφ n hφ)).sayTag (by simp [updφ])
  · intro p hp; exact (List.mem_filter.mp hp).1
  · intro p hp hne
    refine List.mem_filter.mpr ⟨hp, ?_⟩
    simp only [bne_iff_ne, ne_eq]
    rintro rfl
    rw [hm] at hne; cases hne
  · intro a m ha
    rcases updφ_some ha with h | h
    · exact .inl h
    · exact .inr (by omega)

theorem map_some_inj {φ : Nat → Option Nat} {o : Option Nat} {n : Nat} (h : o.map φ = (some n).map some) : ∃ a, o = some a ∧ φ a = some n := by
  cases o with
  | none => cases h
  | some a => exact ⟨a, rfl, by simpa using h⟩

theorem map_none {φ : Nat → Option Nat} {o : Option Nat} (h : o.map φ = (none : Option Nat).map some) : o = none := by
  cases o with
  | none => rfl
  | some a => cases h

theorem pend_or (P : List (Key × Nat)) (x : Key) : (∃ n, (x, n) ∈ P) ∨ ∀ n, (x, n) ∉ P := by
  by_cases h : ∃ n, (x, n) ∈ P
  · exact .inl h
  · exact .inr fun n hn => h ⟨n, hn⟩

/-- A tag known to both. -/
theorem ref_known {P f fs φ} {st : St} {c : CSt} (A : At P f fs φ st c) (x : Key) (a n : Nat) (ha : ftag (f :: fs) x = some a) (hn : φ a = some n)
    (mention : Key → Bool) : Sim P fs φ st c mention (refTag st x) (c.say (.tag (some n))) := by
  refine ⟨⟨st.scopes, st.next + 1, st.log ++ [.tag (some a)]⟩, f, φ, P, [], ?_, ⟨A.view, A.rel.mono (Nat.le_succ _), ?_⟩, rfl, .nil _, Ext.refl _,
    Nat.le_succ _, fun p hp => hp, fun p hp _ => hp, fun _ _ h => .inl h, fun _ _ h => h⟩
  · simp only [refTag, view_findTag A.view, ha, bind, Except.bind]
  · exact A.log.sayTag (by simp [hn])

/-- A tag unknown to both. -/
theorem ref_new {P f fs φ} {st : St} {c : CSt} (A : At P f fs φ st c) (x : Key) (hn : ftag (f :: fs) x = none)
    (hh : hereS (onTag x) c.past 0 = none) (hs : inSoft c.past 0 = false) (mention : Key → Bool) (hm : mention x = true) :
    Sim P fs φ st c mention (refTag st x) ((c.newTag x).say (.tag (some c.next))) := by
  have R1 := A.rel.declTag x hh hs
  have A1 : At ((x, c.next) :: P) f fs φ st (c.newTag x) := ⟨A.view, by simpa using R1, by simpa using A.log⟩
  obtain ⟨st', f', e, o⟩ := ref_pending A1 x c.next List.mem_cons_self hn mention hm
  refine ⟨st', f', _, _, [.tag x c.next], e, o.at', by simp, ?_, o.ext, o.next, ?_, ?_, o.fresh, ?_⟩
  · rw [hs]
    exact .tag _ _ _ (.nil _)
  · intro p hp
    obtain ⟨h1, h2⟩ := List.mem_filter.mp hp
    rcases List.mem_cons.mp h1 with e' | h
    · subst e'; simp at h2
    · exact h
  · intro p hp hne
    exact o.stay p (List.mem_cons_of_mem _ hp) hne
  · intro y n hy
    apply o.keep
    rw [newTag_past]
    by_cases hxy : x = y
    · subst hxy; rw [hh] at hy; cases hy
    · simpa [hereS, onTag, hxy] using hy

/-- The end of a definition. -/
theorem finish_def {P f fs φ} {st : St} {c : CSt} (A : At P f fs φ st c) (x : Key) (n addr : Nat) (ha : φ addr = none) (hlt : addr < st.next)
    (hh : hereS (onTag x) c.past 0 = some n) :
    ∃ st3 f3 φ3 P3, (do
        match ← overwriteTag st.scopes x with
        | some t => .ok { st with log := st.log ++ [.tag (some t)] }
        | none => do
          let s ← pushTag st.scopes x addr
          .ok { st with scopes := s, log := st.log ++ [.tag (some addr)] }) = Except.ok st3 ∧
      At P3 f3 fs φ3 st3 (c.say (.tag (some n))) ∧ Ext φ φ3 ∧ st3.next = st.next ∧ (∀ p ∈ P3, p ∈ P ∧ p.1 ≠ x) ∧
      (∀ p ∈ P, p.1 ≠ x → p ∈ P3) ∧ (∀ a m, φ3 a = some m → φ a = some m ∨ a = addr) := by
  rcases pend_or P x with ⟨n', hp⟩ | hp
  · obtain ⟨h1, h2, _⟩ := A.rel.pend x n' hp
    rw [hh] at h2
    cases h2
    obtain ⟨s', e, hv⟩ := view_pushTag A.view x addr
    refine ⟨{ st with scopes := s', log := st.log ++ [.tag (some addr)] }, _, updφ φ addr n, P.filter (fun p => p.1 != x), ?_, ⟨hv, A.rel.enterTag x n hp addr ha (Nat.le_refl _) hlt, ?_⟩, ext_updφ n ha, rfl, ?_, ?_, ?_⟩
    · simp only [view_overwriteTag A.view, h1, bind, Except.bind, e]
    · exact (A.log.ext (ext_updφ n ha)).sayTag (by simp [updφ])
    · intro p hp; simpa [List.mem_filter] using hp
    · intro p hp hne; simpa [List.mem_filter] using ⟨hp, hne⟩
    · intro a m h; exact updφ_some h
  · have := A.rel.here x hp
    rw [hh] at this
    obtain ⟨a, e, hφ⟩ := map_some_inj this
    refine ⟨{ st with log := st.log ++ [.tag (some a)] }, f, φ, P, ?_, ⟨A.view, A.rel, A.log.sayTag (by simp [hφ])⟩, Ext.refl _, rfl, ?_, ?_, ?_⟩
    · simp only [view_overwriteTag A.view, e, bind, Except.bind]
    · intro p hp'; exact ⟨hp', by rintro rfl; exact hp _ hp'⟩
    · intro p hp' _; exact hp'
    · intro a m h; exact .inl h

/-- Something without effect on the scopes. -/
theorem sim_same {P f fs φ} {st : St} {c : CSt} {st' : St} {c' : CSt} (A : At P f fs φ st c) (h1 : st'.scopes = st.scopes) (h2 : st'.next = st.next)
    (h3 : c'.past = c.past) (h4 : c'.next = c.next) (hl : LogRel φ st'.log c'.log) (mention : Key → Bool) :
    Sim P fs φ st c mention (.ok st') c' := by
  refine ⟨st', f, φ, P, [], rfl, ⟨by rw [h1]; exact A.view, by rw [h2, h3, h4]; exact A.rel, hl⟩, h3, .nil _, Ext.refl _, by omega, fun p hp => hp,
    fun p hp _ => hp, fun _ _ h => .inl h, fun x n h => by rw [h3]; exact h⟩

theorem Sim.soft {P f fs φ} {st : St} {c c1 : CSt} {mention : Key → Bool} {r : Except SErr St} (A : At P f fs φ st c)
    (h : Sim P fs φ st (c.add (.opened true)) mention r c1) : Sim P fs φ st c mention r (c1.add .closed) := by
  obtain ⟨st', f', φ', P', evs, e, o⟩ := h
  have hp : c1.past = evs ++ .opened true :: c.past := o.past
  have hb : Bal true evs := o.bal
  have hp' : (c1.add .closed).past = .closed :: (evs ++ .opened true :: c.past) := by rw [add_past, hp]
  refine ⟨st', f', φ', P', .closed :: (evs ++ [.opened true]), e, ⟨o.at'.view, ?_, o.at'.log⟩, by rw [hp']; simp, .closed _ _ _ _ _ hb (.nil _), o.ext,
    o.next, o.sub, o.stay, o.fresh, ?_⟩
  · rw [hp']
    have R' := o.at'.rel
    rw [hp] at R'
    exact A.rel.closeSoft R' hb
  · intro x n hx
    rw [hp', close_hereS _ hb]
    exact hx

theorem Sim.hard {f fs φ} {st : St} {c c1 : CSt} {mention : Key → Bool} {r : Except SErr St} (A : At [] f fs φ st c)
    (h : Sim [] (f :: fs) φ { st with scopes := enterScope st.scopes } (c.add (.opened false)) mention r c1) :
    Sim [] fs φ st c mention (do
      let st ← r
      let s ← leaveScope st.scopes
      .ok { st with scopes := s }) (c1.add .closed) := by
  obtain ⟨st', f', φ', P', evs, e, o⟩ := h
  have hp : c1.past = evs ++ .opened false :: c.past := o.past
  have hb : Bal false evs := o.bal
  have hp' : (c1.add .closed).past = .closed :: (evs ++ .opened false :: c.past) := by rw [add_past, hp]
  obtain ⟨s', es, hv⟩ := view_leave o.at'.view
  refine ⟨{ st' with scopes := s' }, f, φ', [], .closed :: (evs ++ [.opened false]), ?_, ⟨hv, ?_, o.at'.log⟩, by rw [hp']; simp,
    .closed _ _ _ _ _ hb (.nil _), o.ext, o.next, (fun p hp => by cases hp), (fun p hp => by cases hp), o.fresh, ?_⟩
  · rw [e]
    simp only [bind, Except.bind, es]
  · rw [hp']
    exact A.rel.closeHard o.at'.rel o.ext hb false
  · intro x n hx
    rw [hp', close_hereS _ hb]
    exact hx

/-- Two things one after the other. -/
theorem Out.trans {P fs φ} {st : St} {c : CSt} {m1 m2 : Key → Bool} {st1 c1 f1 φ1 P1 evs1 st2 c2 f2 φ2 P2 evs2}
    (o1 : Out P fs φ st c m1 st1 c1 f1 φ1 P1 evs1) (o2 : Out P1 fs φ1 st1 c1 m2 st2 c2 f2 φ2 P2 evs2) :
    Out P fs φ st c (fun x => m1 x || m2 x) st2 c2 f2 φ2 P2 (evs2 ++ evs1) where
  at' := o2.at'
  past := by rw [o2.past, o1.past]; simp
  bal := by
    have := o2.bal
    rw [o1.past, o1.bal.inSoft] at this
    exact this.append o1.bal
  ext := o1.ext.trans o2.ext
  next := Nat.le_trans o1.next o2.next
  sub := fun p hp => o1.sub p (o2.sub p hp)
  stay := fun p hp hm => by
    simp only [Bool.or_eq_false_iff] at hm
    exact o2.stay p (o1.stay p hp hm.1) hm.2
  fresh := fun a n h => by
    rcases o2.fresh a n h with h | h
    · exact o1.fresh a n h
    · exact .inr (Nat.le_trans o1.next h)
  keep := fun x n h => o2.keep x n (o1.keep x n h)

theorem Fit.next {P f fs hb m me} (F : Fit P f fs hb m me) {φ} {st : St} {c : CSt} {m1 : Key → Bool} {st1 c1 f1 φ1 P1 evs1}
    (o1 : Out P fs φ st c m1 st1 c1 f1 φ1 P1 evs1) : Fit P1 f1 fs hb m me where
  block := fun h => by
    have hP := F.block h
    apply List.eq_nil_iff_forall_not_mem.mpr
    intro p hp
    have := o1.sub p hp
    rw [hP] at this
    cases this
  mention := fun p hp hm => by
    have h1 := F.mention p (o1.sub p hp) hm
    have h2 := (o1.at'.rel.pend p.1 p.2 hp).1
    simp only [ftag] at h1 ⊢
    rw [h2]
    simp only [Option.or_eq_none_iff] at h1
    simp [h1.2]
  enum := fun p hp => F.enum p (o1.sub p hp)

theorem Fit.sub {P f fs hb m me hb' m' me'} (F : Fit P f fs hb m me) (h1 : hb' = true → hb = true) (h2 : ∀ x, m' x = true → m x = true)
    (h3 : ∀ x, me' x = true → me x = true) : Fit P f fs hb' m' me' where
  block := fun h => F.block (h1 h)
  mention := fun p hp h => F.mention p hp (h2 _ h)
  enum := fun p hp => by
    cases h : me' p.1 with
    | false => rfl
    | true => have := h3 _ h; rw [F.enum p hp] at this; cases this

theorem Rel.notSoft {P f fs nx h cn φ} (R : Rel P f fs nx h cn φ) {x : Key} {n : Nat} (hh : Scope.here (onTag x) h 0 = some n) : inSoft h 0 = false := by
  cases hs : inSoft h 0 with
  | false => rfl
  | true => rw [R.soft hs x] at hh; cases hh

theorem isFn_iff (o : Option Ident) : isFn o = true ↔ o = some .fn := by
  cases o with
  | none => simp [isFn]
  | some v => cases v <;> simp [isFn]

/-- A function is declared. -/
theorem sim_func {P f fs φ} {st : St} {c c' : CSt} (A : At P f fs φ st c) (x : Key) (hx : IsName x) (mention : Key → Bool)
    (hc : c' = (c.oddIf (atFile (onDecl x) c.past == some .fn && (visible (onVar x) c.past 0).map Prod.fst != some .fn) .funShadow).declare x .fn)
    (hodd : c'.odd = []) :
    ∃ s, declFunc st.scopes x = .ok s ∧ inSoft c.past 0 = false ∧ ∃ f' φ' P' evs, Out P fs φ st c mention { st with scopes := s } c' f' φ' P' evs := by
  subst hc
  simp only [declare_odd, oddIf_odd, oddIf_past] at hodd
  obtain ⟨⟨_, hsh⟩, hs⟩ := hodd
  have hff : findFunc st.scopes x = .ok (isFn (ffile (f :: fs) x)) := view_findFunc A.view (by simp) x
  have hpast : ∀ b, ((c.oddIf b .funShadow).declare x .fn).past = .var x .fn :: c.past := by intro b; simp
  have hkeep : ∀ y n, hereS (onTag y) c.past 0 = some n → hereS (onTag y) (.var x .fn :: c.past) 0 = some n := by
    intro y n h; simpa [hereS, onTag] using h
  cases hfn : isFn (ffile (f :: fs) x) with
  | false =>
    obtain ⟨s', e, hv⟩ := view_pushScope A.view x .fn
    refine ⟨s', ?_, hs, _, φ, P, [.var x .fn], ⟨hv, ?_, ?_⟩, by simp, ?_, Ext.refl _, Nat.le_refl _, fun p hp => hp, fun p hp _ => hp,
      fun _ _ h => .inl h, ?_⟩
    · simp only [declFunc, hff, hfn, bind, Except.bind, Bool.false_eq_true, if_false, e]
    · simpa using A.rel.pushVar hs x .fn
    · simpa using A.log
    · rw [hs]; exact .var _ _ _ (.nil _)
    · intro y n h; rw [hpast]; exact hkeep y n h
  | true =>
    have hfile := (isFn_iff _).mp hfn
    rw [A.rel.file x hx] at hfile
    have hvis : (visible (onVar x) c.past 0).map Prod.fst = some .fn := by
      rw [hfile] at hsh
      simpa using hsh
    have hdecl : visible (onDecl x) c.past 0 = some .fn := by
      cases hv : visible (onVar x) c.past 0 with
      | none => rw [hv] at hvis; cases hvis
      | some p =>
        obtain ⟨i, b⟩ := p
        rw [hv] at hvis
        simp only [Option.map_some, Option.some.injEq] at hvis
        subst hvis
        cases b with
        | false => exact (visible_onVar x c.past 0).1 _ hv
        | true =>
          exfalso
          have key : ∀ (h : List Ev) (d : Nat), visible (onVar x) h d ≠ some (.fn, true) := by
            intro h
            induction h with
            | nil => intro d e; cases e
            | cons e h ih =>
              intro d
              cases e with
              | opened s => cases d <;> exact ih _
              | closed => exact ih _
              | var y j => cases d with
                | zero =>
                  simp only [visible, onVar]
                  split
                  · simp
                  · simpa using ih 0
                | succ d => exact ih _
              | param y j => cases d with
                | zero =>
                  simp only [visible, onVar]
                  split
                  · simp
                  · simpa using ih 0
                | succ d => exact ih _
              | tag y j => cases d with
                | zero => simpa [visible, onVar] using ih 0
                | succ d => exact ih _
          exact key _ _ hv
    refine ⟨st.scopes, ?_, hs, f, φ, P, [.var x .fn], ⟨A.view, ?_, ?_⟩, by simp, ?_, Ext.refl _, Nat.le_refl _, fun p hp => hp, fun p hp _ => hp,
      fun _ _ h => .inl h, ?_⟩
    · simp only [declFunc, hff, hfn, bind, Except.bind, if_true]
    · have R := A.rel.pushVar hs x .fn
      have : Rel P f fs st.next (.var x .fn :: c.past) c.next φ :=
        { R with
          var := by
            intro y hy
            rw [A.rel.var y hy]
            simp only [visible, onDecl]
            split
            · rename_i e; subst e; rw [hdecl]; rfl
            · rfl
          file := by
            intro y hy
            rw [A.rel.file y hy, atFile]
            split
            · simp only [onDecl]
              split
              · rename_i e; subst e; rw [hfile]; rfl
              · rfl
            · rfl
          tag := by
            intro y hy
            have := R.tag y hy
            simpa [ftag] using this
          here := R.here
          pend := R.pend }
      simpa using this
    · simpa using A.log
    · rw [hs]; exact .var _ _ _ (.nil _)
    · intro y n h; rw [hpast]; exact hkeep y n h

/-- Several declarations in a row. -/
theorem sim_pushAll {P f fs φ} {nx cn : Nat} {h : List Ev} (R : Rel P f fs nx h cn φ) (hs : inSoft h 0 = false) (l : List (Key × Ident)) :
    Rel P (updAll f l) fs nx ((l.map fun p => Ev.var p.1 p.2).reverse ++ h) cn φ := by
  induction l generalizing f h with
  | nil => exact R
  | cons p l ih =>
    have := ih (R.pushVar hs p.1 p.2) hs
    simpa [updAll] using this

theorem bal_vars (l : List (Key × Ident)) : Bal false ((l.map fun p => Ev.var p.1 p.2).reverse) := by
  induction l with
  | nil => exact .nil _
  | cons p l ih =>
    simp only [List.map_cons, List.reverse_cons]
    exact ih.append (.var _ _ _ (.nil _))

theorem hereS_vars (l : List (Key × Ident)) (x : Key) (h : List Ev) :
    hereS (onTag x) ((l.map fun p => Ev.var p.1 p.2).reverse ++ h) 0 = hereS (onTag x) h 0 := by
  induction l generalizing h with
  | nil => rfl
  | cons p l ih =>
    simp only [List.map_cons, List.reverse_cons, List.append_assoc, List.singleton_append]
    rw [ih]
    simp [hereS, onTag]

/-- Declarations of different names, in another order. -/
theorem updAll_get (f : F) (l : List (Key × Ident)) (hl : (l.map Prod.fst).Nodup) (x : Key) :
    (updAll f l).vars x = ((l.find? fun p => p.1 == x).map Prod.snd).or (f.vars x) := by
  induction l generalizing f with
  | nil => rfl
  | cons p l ih =>
    simp only [List.map_cons, List.nodup_cons] at hl
    rw [updAll, ih _ hl.2, List.find?_cons]
    by_cases e : p.1 = x
    · subst e
      have : l.find? (fun q => q.1 == p.1) = none := by
        apply List.find?_eq_none.mpr
        intro q hq
        simp only [beq_iff_eq]
        intro e
        exact hl.1 (List.mem_map.mpr ⟨q, hq, e⟩)
      simp [this, upd]
    · have e' : x ≠ p.1 := fun h => e h.symm
      have eb : (p.1 == x) = false := beq_eq_false_iff_ne.mpr e
      simp [eb, e', upd]

theorem updAll_tags (f : F) (l : List (Key × Ident)) : (updAll f l).tags = f.tags := by
  induction l generalizing f with
  | nil => rfl
  | cons p l ih => rw [updAll, ih]

theorem find_reverse (l : List (Key × Ident)) (hl : (l.map Prod.fst).Nodup) (x : Key) :
    l.reverse.find? (fun p => p.1 == x) = l.find? fun p => p.1 == x := by
  induction l with
  | nil => rfl
  | cons p l ih =>
    simp only [List.map_cons, List.nodup_cons] at hl
    rw [List.reverse_cons, List.find?_append, ih hl.2, List.find?_cons, List.find?_cons, List.find?_nil]
    by_cases e : p.1 = x
    · subst e
      have : l.find? (fun q => q.1 == p.1) = none := by
        apply List.find?_eq_none.mpr
        intro q hq
        simp only [beq_iff_eq]
        intro e
        exact hl.1 (List.mem_map.mpr ⟨q, hq, e⟩)
      simp [this]
    · have eb : (p.1 == x) = false := beq_eq_false_iff_ne.mpr e
      simp [eb]

theorem updAll_reverse (f : F) (l : List (Key × Ident)) (hl : (l.map Prod.fst).Nodup) : updAll f l.reverse = updAll f l := by
  have h1 : (updAll f l.reverse).vars = (updAll f l).vars := by
    funext x
    rw [updAll_get f l.reverse (by rw [List.map_reverse]; exact (List.reverse_perm _).nodup_iff.mpr hl), updAll_get f l hl, find_reverse l hl]
  have h2 : (updAll f l.reverse).tags = (updAll f l).tags := by rw [updAll_tags, updAll_tags]
  cases h : updAll f l.reverse; cases h' : updAll f l
  rw [h, h'] at h1 h2
  simp only at h1 h2
  rw [h1, h2]

end Toycc.Scope
