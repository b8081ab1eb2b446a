import Verif.HashMap.Props
import Verif.Scope.Spec
/-! The hash tables of the scopes as functions. -/
namespace Toycc.Scope
open Toycc.HashMap (Key Map Good NoTomb keys)

/-- A table that behaves as a function. -/
def MapOk {V : Type} (m : Map V) (f : Key → Option V) : Prop :=
  Good m ∧ (keys m.buckets).Nodup ∧ NoTomb m.buckets ∧ ∀ k, HashMap.get m k = .ok (f k)

def upd {V : Type} (f : Key → Option V) (k : Key) (v : V) : Key → Option V := fun q => if q = k then some v else f q

theorem mapOk_new {V : Type} : MapOk (Map.new : Map V) (fun _ => none) :=
  ⟨HashMap.good_new, by simp [Map.new, keys], by simp [NoTomb, Map.new], fun k => HashMap.get_new rfl k⟩

theorem mput_ok {V : Type} {m : Map V} {f : Key → Option V} (h : MapOk m f) (k : Key) (v : V) :
    ∃ m', mput m k v = .ok m' ∧ MapOk m' (upd f k v) := by
  obtain ⟨g, nd, nt, hf⟩ := h
  rcases HashMap.put_good g k v with ⟨_, e⟩ | ⟨m1, e, w, h1, h2, h3, h4⟩
  · exact absurd nd e
  · refine ⟨m1, by simp [mput, e, Except.mapError], Or.inr w, h3 nd (.inl nt), h4 nt, fun q => ?_⟩
    by_cases hq : q = k
    · subst hq; simp [h1, upd]
    · rw [h2 q hq, hf q]; simp [upd, hq]

theorem mget_ok {V : Type} {m : Map V} {f : Key → Option V} (h : MapOk m f) (k : Key) : mget m k = .ok (f k) := by
  simp [mget, h.2.2.2 k, Except.mapError]

/-- A scope as two functions. -/
structure F where
  vars : Key → Option Ident
  tags : Key → Option Nat

def F.empty : F := ⟨fun _ => none, fun _ => none⟩

def View : List Scope → List F → Prop
  | [], [] => True
  | sc :: s, f :: fs => MapOk sc.vars f.vars ∧ MapOk sc.tags f.tags ∧ View s fs
  | _, _ => False

def fvar : List F → Key → Option Ident
  | [], _ => none
  | f :: fs, x => (f.vars x).or (fvar fs x)
def ftag : List F → Key → Option Nat
  | [], _ => none
  | f :: fs, x => (f.tags x).or (ftag fs x)
def ffile : List F → Key → Option Ident
  | [], _ => none
  | [f], x => f.vars x
  | _ :: f :: fs, x => ffile (f :: fs) x

theorem view_findVar {s : List Scope} {fs : List F} (h : View s fs) (x : Key) : findVar s x = .ok (fvar fs x) := by
  induction s generalizing fs with
  | nil => cases fs with
    | nil => rfl
    | cons _ _ => exact h.elim
  | cons sc s ih =>
    cases fs with
    | nil => exact h.elim
    | cons f fs =>
      simp only [findVar, mget_ok h.1 x, bind, Except.bind, fvar]
      cases f.vars x with
      | none => simpa using ih h.2.2
      | some v => rfl

theorem view_findTag {s : List Scope} {fs : List F} (h : View s fs) (x : Key) : findTag s x = .ok (ftag fs x) := by
  induction s generalizing fs with
  | nil => cases fs with
    | nil => rfl
    | cons _ _ => exact h.elim
  | cons sc s ih =>
    cases fs with
    | nil => exact h.elim
    | cons f fs =>
      simp only [findTag, mget_ok h.2.1 x, bind, Except.bind, ftag]
      cases f.tags x with
      | none => simpa using ih h.2.2
      | some v => rfl

def isFn : Option Ident → Bool
  | some .fn => true
  | _ => false

theorem view_findFunc {s : List Scope} {fs : List F} (h : View s fs) (hne : fs ≠ []) (x : Key) :
    findFunc s x = .ok (isFn (ffile fs x)) := by
  induction s generalizing fs with
  | nil => cases fs with
    | nil => exact absurd rfl hne
    | cons _ _ => exact h.elim
  | cons sc s ih =>
    cases fs with
    | nil => exact h.elim
    | cons f fs =>
      cases s with
      | nil =>
        cases fs with
        | cons _ _ => exact h.2.2.elim
        | nil =>
          simp only [findFunc, mget_ok h.1 x, bind, Except.bind, ffile]
          cases f.vars x with
          | none => rfl
          | some v => cases v <;> rfl
      | cons sc' s =>
        cases fs with
        | nil => exact h.2.2.elim
        | cons f' fs => exact (ih (fs := f' :: fs) h.2.2 (by simp) : findFunc (sc' :: s) x = _)

theorem view_pushScope {s : List Scope} {f : F} {fs : List F} (h : View s (f :: fs)) (x : Key) (v : Ident) :
    ∃ s', pushScope s x v = .ok s' ∧ View s' ({ f with vars := upd f.vars x v } :: fs) := by
  cases s with
  | nil => exact h.elim
  | cons sc s =>
    obtain ⟨m, e, hm⟩ := mput_ok h.1 x v
    exact ⟨{ sc with vars := m } :: s, by simp [pushScope, e, bind, Except.bind], hm, h.2.1, h.2.2⟩

theorem view_pushTag {s : List Scope} {f : F} {fs : List F} (h : View s (f :: fs)) (x : Key) (v : Nat) :
    ∃ s', pushTag s x v = .ok s' ∧ View s' ({ f with tags := upd f.tags x v } :: fs) := by
  cases s with
  | nil => exact h.elim
  | cons sc s =>
    obtain ⟨m, e, hm⟩ := mput_ok h.2.1 x v
    exact ⟨{ sc with tags := m } :: s, by simp [pushTag, e, bind, Except.bind], h.1, hm, h.2.2⟩

theorem view_overwriteTag {s : List Scope} {f : F} {fs : List F} (h : View s (f :: fs)) (x : Key) :
    overwriteTag s x = .ok (f.tags x) := by
  cases s with
  | nil => exact h.elim
  | cons sc s => exact mget_ok h.2.1 x

theorem view_enter {s : List Scope} {fs : List F} (h : View s fs) : View (enterScope s) (F.empty :: fs) :=
  ⟨mapOk_new, mapOk_new, h⟩

theorem view_leave {s : List Scope} {f : F} {fs : List F} (h : View s (f :: fs)) : ∃ s', leaveScope s = .ok s' ∧ View s' fs := by
  cases s with
  | nil => exact h.elim
  | cons sc s => exact ⟨s, rfl, h.2.2⟩

def updAll (f : F) : List (Key × Ident) → F
  | [] => f
  | (x, v) :: r => updAll { f with vars := upd f.vars x v } r

theorem view_pushAll {s : List Scope} {f : F} {fs : List F} (h : View s (f :: fs)) (l : List (Key × Ident)) :
    ∃ s', pushAll s l = .ok s' ∧ View s' (updAll f l :: fs) := by
  induction l generalizing s f with
  | nil => exact ⟨s, rfl, h⟩
  | cons p l ih =>
    obtain ⟨s1, e1, h1⟩ := view_pushScope h p.1 p.2
    obtain ⟨s2, e2, h2⟩ := ih h1
    exact ⟨s2, by simp [pushAll, e1, bind, Except.bind, e2], h2⟩

end Toycc.Scope
