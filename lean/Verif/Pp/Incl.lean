import Verif.Pp.Keep
import Verif.Pp.CondProps
/-! C28 (include guards) and C29 (include search). -/
namespace Toycc.Pp
open Toycc.Lex (asc)

/-! ### C29 -/

/-- `path` is `name` in the `i`-th of the directories `dirs`, it exists, and `name` exists in no directory before it. -/
def FoundIn (env : Env) (name : Bytes) (dirs : List Bytes) (i : Nat) (path : Bytes) : Prop :=
  ∃ d, dirs[i]? = some d ∧ path = d ++ asc "/" ++ name ∧ env.fileExists path = true ∧
    ∀ j < i, ∀ d', dirs[j]? = some d' → env.fileExists (d' ++ asc "/" ++ name) = false

theorem searchPaths_iff (env : Env) (name : Bytes) (k : Nat) (dirs : List Bytes) (i : Nat) (path : Bytes) :
    searchPaths env name k dirs = some (i, path) ↔ ∃ j, i = k + j ∧ FoundIn env name dirs j path := by
  induction dirs generalizing k with
  | nil =>
    constructor
    · intro h; cases h
    · rintro ⟨j, _, d, h, _⟩; simp at h
  | cons d ds ih =>
    have hsl : ([47] : Bytes) = asc "/" := by decide +kernel
    rw [searchPaths, hsl]
    by_cases he : env.fileExists (d ++ asc "/" ++ name) = true
    · rw [if_pos he]
      constructor
      · intro h
        cases h
        exact ⟨0, rfl, d, rfl, rfl, he, fun j hj => absurd hj (Nat.not_lt_zero j)⟩
      · rintro ⟨j, rfl, d', h1, h2, h3, h4⟩
        cases j with
        | zero => simp at h1; subst h1; rw [h2]; rfl
        | succ j =>
          have := h4 0 (Nat.succ_pos j) d rfl
          rw [he] at this; cases this
    · rw [if_neg he, ih]
      simp only [Bool.not_eq_true] at he
      constructor
      · rintro ⟨j, rfl, d', h1, h2, h3, h4⟩
        refine ⟨j + 1, by omega, d', by simpa using h1, h2, h3, ?_⟩
        intro j' hj' d'' hd
        cases j' with
        | zero => simp at hd; subst hd; exact he
        | succ j' => exact h4 j' (by omega) d'' (by simpa using hd)
      · rintro ⟨j, rfl, d', h1, h2, h3, h4⟩
        cases j with
        | zero =>
          simp at h1; subst h1; rw [h2] at h3; rw [he] at h3; cases h3
        | succ j =>
          refine ⟨j, by omega, d', by simpa using h1, h2, h3, ?_⟩
          intro j' hj' d'' hd
          exact h4 (j' + 1) (by omega) d'' (by simpa using hd)

/-- Every entry of the cache of search results is what a search would give now. -/
def CacheOk (env : Env) (st : St) : Prop := ∀ p ∈ st.cache, ∃ i, FoundIn env p.1 env.paths i p.2

theorem cacheOk_search (env : Env) (st : St) (name : Bytes) (h : CacheOk env st) :
    CacheOk env (searchIncludePaths env st name).1 := by
  unfold searchIncludePaths
  split
  · exact h
  · split
    · exact h
    · split
      · rename_i i path hs
        intro p hp
        simp only [List.mem_cons] at hp
        rcases hp with rfl | hp
        · obtain ⟨j, _, hj⟩ := (searchPaths_iff env name 0 env.paths i path).mp hs
          exact ⟨j, hj⟩
        · exact h p hp
      · exact h

/-- One iteration of preprocess2, at any nesting of calls. -/
inductive Iter (env : Env) : St → List PTok → St → List PTok → Prop
  | pass (n st t r) : expandMacro env (pp env n false) st t r = .ok none → isHash t = false → Iter env st (t :: r) st r
  | expand (n st t r st' l') : expandMacro env (pp env n false) st t r = .ok (some (st', l')) → Iter env st (t :: r) st' l'
  | dir (n st t r st' l') : directive env (pp env n false) n st t r = .ok (st', l') → Iter env st (t :: r) st' l'

inductive Iters (env : Env) : St → List PTok → St → List PTok → Prop
  | refl (st l) : Iters env st l st l
  | step (st l st1 l1 st2 l2) : Iters env st l st1 l1 → Iter env st1 l1 st2 l2 → Iters env st l st2 l2

/-- **C29** (the cache). Whatever the preprocessor has done before, the cache only says what a search would find. -/
theorem C29_cache (env : Env) (st : St) (l : List PTok) (st' : St) (l' : List PTok) (hs : st.cache = [])
    (h : Iters env st l st' l') : CacheOk env st' := by
  have h0 : CacheOk env st := by intro p hp; rw [hs] at hp; cases hp
  have hc : ∀ st st' : St, st'.cache = st.cache → CacheOk env st → CacheOk env st' := by
    intro st st' h1 h2 p hp; rw [h1] at hp; exact h2 p hp
  have hk : ∀ n, Keep (CacheOk env) (pp env n false) := fun n => pp_keep hc (cacheOk_search env) n false
  induction h with
  | refl => exact h0
  | step st1 l1 st2 l2 h1 h2 ih =>
    have ih := ih
    cases h2 with
    | pass n _ t r _ _ => exact ih
    | expand n _ t r _ _ h => exact expandMacro_keep hc (hk n) _ _ _ _ _ h ih
    | dir n _ t r _ _ h => exact directive_keep hc (cacheOk_search env) (hk n) _ _ _ _ _ _ h ih

/-- **C29** (search directories). In every state that is reached, the search for a relative name succeeds exactly with
the file of the first directory, in the order of the command line, that contains it; earlier searches do not matter. -/
theorem C29_search (env : Env) (st0 st : St) (l0 l : List PTok) (hs : st0.cache = []) (h : Iters env st0 l0 st l)
    (name : Bytes) (hn : name.head? ≠ some 47) (path : Bytes) :
    (searchIncludePaths env st name).2 = some path ↔ ∃ i, FoundIn env name env.paths i path := by
  have hc := C29_cache env st0 l0 st l hs h
  have uniq : ∀ i p j q, FoundIn env name env.paths i p → FoundIn env name env.paths j q → p = q := by
    intro i p j q h1 h2
    have e1 := (searchPaths_iff env name 0 env.paths i p).mpr ⟨i, by omega, h1⟩
    have e2 := (searchPaths_iff env name 0 env.paths j q).mpr ⟨j, by omega, h2⟩
    rw [e1] at e2; cases e2; rfl
  have hn' : (name.head? == some 47) = false := beq_false_of_ne hn
  unfold searchIncludePaths
  rw [hn']
  simp only [Bool.false_eq_true, if_false]
  split
  · rename_i p hf
    have hm := List.mem_of_find?_eq_some hf
    have hk := List.find?_some hf
    simp only [beq_iff_eq] at hk
    obtain ⟨i, hi⟩ := hc p hm
    rw [hk] at hi
    constructor
    · intro h; cases h; exact ⟨i, hi⟩
    · rintro ⟨j, hj⟩; rw [uniq i _ j _ hi hj]
  · split
    · rename_i i p hp
      obtain ⟨j, hj, hf⟩ := (searchPaths_iff env name 0 env.paths i p).mp hp
      constructor
      · intro h; cases h; exact ⟨j, hf⟩
      · rintro ⟨k, hk⟩; rw [uniq j _ k _ hf hk]
    · rename_i hp
      constructor
      · intro h; cases h
      · rintro ⟨k, hk⟩
        rw [(searchPaths_iff env name 0 env.paths k path).mpr ⟨k, by omega, hk⟩] at hp; cases hp

/-- The file that `#include` opens, for the file `includer`: the one in the directory of the includer if the name is
quoted, else the one found in the search directories, else the name itself. -/
inductive Opens (env : Env) (includer : Bytes) (quoted : Bool) (name : Bytes) : Bytes → Prop
  | here : quoted = true → name.head? ≠ some 47 → env.fileExists (env.dirname includer ++ asc "/" ++ name) = true →
      Opens env includer quoted name (env.dirname includer ++ asc "/" ++ name)
  | absolute : name.head? = some 47 → Opens env includer quoted name name
  | found (i path) : name.head? ≠ some 47 →
      (quoted = true → env.fileExists (env.dirname includer ++ asc "/" ++ name) = false) →
      FoundIn env name env.paths i path → Opens env includer quoted name path
  | nowhere : name.head? ≠ some 47 → (quoted = true → env.fileExists (env.dirname includer ++ asc "/" ++ name) = false) →
      (∀ i path, ¬ FoundIn env name env.paths i path) → Opens env includer quoted name name

/-- The same with the state: it is changed by the search only. -/
theorem include_opens (env : Env) (rec : Rec) (n : Nat) (st : St) (start : PTok)
    (r : List PTok) (st1 : St) (name : Bytes) (quoted : Bool) (rest : List PTok) (hk : CacheOk env st1)
    (h : readIncludeFilename rec n st r = .ok (st1, name, quoted, rest)) :
    ∃ st2 path, Opens env start.file.name quoted name path ∧
      dirInclude env rec n st start r = includeFile env st2 path rest ∧ (st2 = st1 ∨ st2 = (searchIncludePaths env st1 name).1) := by
  have hsl : ([47] : Bytes) = asc "/" := by decide +kernel
  unfold dirInclude
  rw [h, hsl]
  dsimp only
  by_cases ha : name.head? = some 47
  · have ha' : (name.head? != some 47) = false := by simp [ha]
    rw [ha']
    simp only [Bool.and_false, Bool.false_and, Bool.false_eq_true, if_false]
    refine ⟨st1, name, .absolute ha, ?_, .inl rfl⟩
    unfold searchIncludePaths
    rw [ha]; rfl
  · have ha' : (name.head? != some 47) = true := by simp [ha]
    rw [ha']
    simp only [Bool.and_true]
    by_cases hq : (quoted && env.fileExists (env.dirname start.file.name ++ asc "/" ++ name)) = true
    · rw [if_pos hq]
      simp only [Bool.and_eq_true] at hq
      exact ⟨_, _, .here hq.1 ha hq.2, rfl, .inl rfl⟩
    · rw [if_neg hq]
      have hq' : quoted = true → env.fileExists (env.dirname start.file.name ++ asc "/" ++ name) = false := by
        intro h1
        rw [h1] at hq
        simpa using hq
      have hs := fun p => C29_search env { st1 with cache := [] } { st1 with cache := [] } [] [] rfl (.refl _ _) name ha p
      have hkey : ∀ p, (searchIncludePaths env st1 name).2 = some p ↔ ∃ i, FoundIn env name env.paths i p := by
        intro p
        have uniq : ∀ i p j q, FoundIn env name env.paths i p → FoundIn env name env.paths j q → p = q := by
          intro i p j q h1 h2
          have e1 := (searchPaths_iff env name 0 env.paths i p).mpr ⟨i, by omega, h1⟩
          have e2 := (searchPaths_iff env name 0 env.paths j q).mpr ⟨j, by omega, h2⟩
          rw [e1] at e2; cases e2; rfl
        have hn' : (name.head? == some 47) = false := beq_false_of_ne ha
        unfold searchIncludePaths
        rw [hn']
        simp only [Bool.false_eq_true, if_false]
        split
        · rename_i q hf
          have hm := List.mem_of_find?_eq_some hf
          have hk2 := List.find?_some hf
          simp only [beq_iff_eq] at hk2
          obtain ⟨i, hi⟩ := hk q hm
          rw [hk2] at hi
          constructor
          · intro h; cases h; exact ⟨i, hi⟩
          · rintro ⟨j, hj⟩; rw [uniq i _ j _ hi hj]
        · split
          · rename_i i q hp
            obtain ⟨j, hj, hf⟩ := (searchPaths_iff env name 0 env.paths i q).mp hp
            constructor
            · intro h; cases h; exact ⟨j, hf⟩
            · rintro ⟨k, hk⟩; rw [uniq j _ k _ hf hk]
          · rename_i hp
            constructor
            · intro h; cases h
            · rintro ⟨k, hk⟩
              rw [(searchPaths_iff env name 0 env.paths k p).mpr ⟨k, by omega, hk⟩] at hp; cases hp
      cases hres : searchIncludePaths env st1 name with
      | mk st2 o =>
        rw [hres] at hkey
        cases o with
        | some path =>
          obtain ⟨i, hi⟩ := (hkey path).mp rfl
          exact ⟨st2, path, .found i path ha hq' hi, rfl, .inr rfl⟩
        | none =>
          refine ⟨st2, name, .nowhere ha hq' ?_, rfl, .inr rfl⟩
          intro i path hp
          have := (hkey path).mpr ⟨i, hp⟩
          cases this

/-- **C29** (`#include`). Once the name of the file is read, the directive includes the file that `Opens` says. -/
theorem C29_include (env : Env) (rec : Rec) (hr : Keep (CacheOk env) rec) (n : Nat) (st : St) (start : PTok)
    (r : List PTok) (hc : CacheOk env st) (st1 : St) (name : Bytes) (quoted : Bool) (rest : List PTok)
    (h : readIncludeFilename rec n st r = .ok (st1, name, quoted, rest)) :
    ∃ st2 path, Opens env start.file.name quoted name path ∧
      dirInclude env rec n st start r = includeFile env st2 path rest := by
  obtain ⟨st2, path, h1, h2, _⟩ := include_opens env rec n st start r st1 name quoted rest (readInc_keep hr _ _ _ _ _ _ _ h hc) h
  exact ⟨st2, path, h1, h2⟩

/-- The search finds one file. -/
theorem Opens.unique {env : Env} {includer name p q : Bytes} {quoted : Bool} (h1 : Opens env includer quoted name p) (h2 : Opens env includer quoted name q) : p = q := by
  have uniq : ∀ i p j q, FoundIn env name env.paths i p → FoundIn env name env.paths j q → p = q := by
    intro i p j q h1 h2
    have e1 := (searchPaths_iff env name 0 env.paths i p).mpr ⟨i, by omega, h1⟩
    have e2 := (searchPaths_iff env name 0 env.paths j q).mpr ⟨j, by omega, h2⟩
    rw [e1] at e2; cases e2; rfl
  cases h1 with
  | here a1 a2 a3 =>
    cases h2 with
    | here b1 b2 b3 => rfl
    | absolute b => exact absurd b a2
    | found i _ b1 b2 b3 => rw [b2 a1] at a3; cases a3
    | nowhere b1 b2 b3 => rw [b2 a1] at a3; cases a3
  | absolute a =>
    cases h2 with
    | here b1 b2 b3 => exact absurd a b2
    | absolute b => rfl
    | found i _ b1 b2 b3 => exact absurd a b1
    | nowhere b1 b2 b3 => exact absurd a b1
  | found i _ a1 a2 a3 =>
    cases h2 with
    | here b1 b2 b3 => rw [a2 b1] at b3; cases b3
    | absolute b => exact absurd b a1
    | found j _ b1 b2 b3 => exact uniq _ _ _ _ a3 b3
    | nowhere b1 b2 b3 => exact absurd a3 (b3 _ _)
  | nowhere a1 a2 a3 =>
    cases h2 with
    | here b1 b2 b3 => rw [a2 b1] at b3; cases b3
    | absolute b => exact absurd b a1
    | found j _ b1 b2 b3 => exact absurd b3 (a3 _ _)
    | nowhere b1 b2 b3 => rfl

/-- **C29** (`#include_next`, partial). Right after a search that went through the directories and succeeded in the
`i`-th, the search of `#include_next` gives the first directory after it that contains the file.
Missing: after a search answered by the cache, and after another `#include_next`, this fails; see the two theorems
below. -/
theorem C29_include_next_partial (env : Env) (st : St) (name : Bytes) (hn : name.head? ≠ some 47)
    (hc : (st.cache.find? fun p => p.1 == name) = none) (i : Nat) (path : Bytes) (hf : FoundIn env name env.paths i path)
    (name2 path2 : Bytes) :
    (searchIncludeNext env (searchIncludePaths env st name).1 name2).2 = some path2 ↔
      ∃ j, FoundIn env name2 (env.paths.drop (i + 1)) j path2 := by
  have hs := (searchPaths_iff env name 0 env.paths i path).mpr ⟨i, by omega, hf⟩
  have hn' : (name.head? == some 47) = false := beq_false_of_ne hn
  have h1 : (searchIncludePaths env st name).1.nextIdx = i + 1 := by
    unfold searchIncludePaths
    rw [hn', hc, hs]
    rfl
  generalize (searchIncludePaths env st name).1 = st2 at h1
  unfold searchIncludeNext
  rw [h1]
  cases hr : searchPaths env name2 (i + 1) (List.drop (i + 1) env.paths) with
  | none =>
    constructor
    · intro h; cases h
    · rintro ⟨j, hj⟩
      rw [(searchPaths_iff env name2 (i + 1) _ _ path2).mpr ⟨j, rfl, hj⟩] at hr; cases hr
  | some q =>
    obtain ⟨k, q⟩ := q
    constructor
    · intro h
      have hq : q = path2 := by simpa using h
      subst hq
      obtain ⟨j, _, hj⟩ := (searchPaths_iff env name2 (i + 1) _ k q).mp hr
      exact ⟨j, hj⟩
    · rintro ⟨j, hj⟩
      rw [(searchPaths_iff env name2 (i + 1) _ _ path2).mpr ⟨j, rfl, hj⟩] at hr
      cases hr; rfl

/-- Three directories; `x` is in all of them, `y` in the last one only. -/
def dirEnv : Env :=
  { exEnv with
    paths := [asc "a", asc "b", asc "c"]
    fileExists := fun p => [asc "a/x", asc "b/x", asc "c/x", asc "c/y"].contains p }

/-- The cache does not restore the position: `<x>` (found in `a`), `<y>` (found in `c`), `<x>` again (cached), and then
`#include_next <x>` finds nothing instead of `b/x`. -/
theorem C29_next_after_cache_wrong :
    (let s1 := searchIncludePaths dirEnv {} (asc "x")
     let s2 := searchIncludePaths dirEnv s1.1 (asc "y")
     let s3 := searchIncludePaths dirEnv s2.1 (asc "x")
     (s1.2, s3.2, (searchIncludeNext dirEnv s1.1 (asc "x")).2, (searchIncludeNext dirEnv s3.1 (asc "x")).2)) =
      (some (asc "a/x"), some (asc "a/x"), some (asc "b/x"), none) := by decide +kernel

/-- A second `#include_next <x>`, from `b/x`, finds `b/x` again instead of `c/x`. -/
theorem C29_next_twice_wrong :
    (let s1 := searchIncludePaths dirEnv {} (asc "x")
     let s2 := searchIncludeNext dirEnv s1.1 (asc "x")
     (s2.2, (searchIncludeNext dirEnv s2.1 (asc "x")).2)) = (some (asc "b/x"), some (asc "b/x")) := by decide +kernel

example : FoundIn dirEnv (asc "y") dirEnv.paths 2 (asc "c/y") :=
  ⟨asc "c", rfl, by decide +kernel, by decide +kernel, fun j hj d' hd => by
    match j, hj with
    | 0, _ => cases hd; decide +kernel
    | 1, _ => cases hd; decide +kernel⟩

/-- A quoted name is looked for in the directory of the includer first. -/
example : ∃ st2, dirInclude { dirEnv with dirname := fun _ => asc "b" } (pp dirEnv 9 false) 9 {} (ft "#" .punct true)
      [ft "\"x\"" .str false, fileEnd] = includeFile { dirEnv with dirname := fun _ => asc "b" } st2 (asc "b/x") [fileEnd] :=
  ⟨{}, rfl⟩

/-! ### C28 -/

/-- A file that is one `#ifndef X` section without `#elif` and `#else`. -/
def Guarded (x : Bytes) (l : List PTok) : Prop :=
  ∃ o b d m, (Group.sect o b (.endif d) .nil).Wf ∧ o.name.is "ifndef" = true ∧ o.line = [m] ∧ m.kind = .ident ∧
    m.text = x ∧ d.line = [] ∧ l = (Group.sect o b (.endif d) .nil).flat

/-- **C28** (partial). When a file is one section guarded by `X` and `X` is defined, reading it again gives no tokens
and leaves the state as it is; so skipping it is invisible (but for the number given to the file).
Missing: toycc also skips files that are not of this form; see the theorems below. -/
theorem C28_guarded_partial (env : Env) (hs : env.strict = false) (st st' : St) (path x : Bytes) (ts rest : List PTok)
    (hr : Bol rest) (hread : tokenizeFile env st path = .ok (some (st', ts)))
    (hg : Guarded x ((body ts).map copyTok)) (hd : (lookup st x).isSome = true) :
    (∃ k, st' = { st with nfiles := k }) ∧ Steps env st' ((body ts).map copyTok ++ rest) [] st' rest := by
  have hst : st' = { st with nfiles := st.nfiles + 1 } := by
    unfold tokenizeFile at hread
    split at hread
    · cases hread
    · split at hread
      · cases hread
      · split at hread
        · cases hread
        · cases hread; rfl
  refine ⟨⟨_, hst⟩, ?_⟩
  obtain ⟨o, b, d, m, hw, hn, hl, hm, hx, hdl, hflat⟩ := hg
  obtain ⟨h1, h2, h3, h4⟩ := hw
  have hh : Holds env st' o false st' := by
    have hf : findMacro st' m = lookup st x := by
      unfold findMacro
      rw [hm, hx, hst]
      rfl
    have := Holds.ifndef (env := env) (st := st') (d := o) m hn hl
    rw [hf, hd] at this
    exact this
  rw [hflat]
  have hself : withConds st' st'.conds = st' := rfl
  have e1 := step_open hs st' st' o false st'.conds (b.flat ++ ((Tail.endif d).flat ++ rest)) ((Tail.endif d).flat ++ rest) h1 hh
    (group_bol b h2 _ (tail_bol (.endif d) h3 _)) (by rw [if_neg (by decide)]; exact skip_to_tail b (.endif d) _ h2 h3)
  have e2 := step_endif (env := env) hs st' d rest ⟨.inThen, false⟩ st'.conds h3 hdl hr.ne
  rw [hself] at e1 e2
  have := e1.trans e2
  simp only [Group.flat, List.append_assoc, List.append_nil]
  exact this

/-- What `include_file` does with such a file: nothing, in both cases. -/
theorem C28_skip (env : Env) (st : St) (path x : Bytes) (rest : List PTok)
    (hg : (st.guards.find? fun p => p.1 == path) = some (path, x)) (hd : (lookup st x).isSome = true) :
    includeFile env st path rest = .ok (st, rest) := by
  unfold includeFile
  rw [hg]
  split
  · rfl
  · rw [if_pos (by simpa using hd)]

/-- The other way round: a file that is not subject to `#pragma once` and whose guard is unknown or not defined now is read, and
all its tokens go in front of the rest. -/
theorem C28_read (env : Env) (st st' : St) (path : Bytes) (ts rest : List PTok) (ho : path ∉ st.once)
    (hg : ∀ x, (st.guards.find? fun p => p.1 == path) = some (path, x) → lookup st x = none)
    (hread : tokenizeFile env st path = .ok (some (st', ts))) (g : Option Bytes) (hd : detectIncludeGuard ts = .ok g) :
    ∃ st2, includeFile env st path rest = .ok (st2, (body ts).map copyTok ++ rest) ∧ st2.macros = st'.macros ∧ st2.conds = st'.conds := by
  have h1 : st.once.contains path = false := by simpa using ho
  have h2 : ((st.guards.find? fun p => p.1 == path).any fun p => (lookup st p.2).isSome) = false := by
    cases hf : st.guards.find? fun p => p.1 == path with
    | none => rfl
    | some q =>
      obtain ⟨q1, q2⟩ := q
      have : q1 = path := by simpa using List.find?_some hf
      subst this
      simp [hg q2 hf]
  unfold includeFile
  rw [if_neg (by rw [h1]; decide), if_neg (by rw [h2]; decide), hread]
  simp only [hd]
  cases g with
  | none => exact ⟨_, rfl, rfl, rfl⟩
  | some x => exact ⟨_, rfl, rfl, rfl⟩

/-- The guard macro undefined in between: the file is read again. -/
example : outTexts
    ({ exEnv with
        fileExists := fun p => p == asc "./g.h"
        read := fun p => if p == asc "./g.h" then some (asc "#ifndef X\n#define X\na\n#endif\n") else none }) 80
    "#include \"g.h\"\n#undef X\n#include \"g.h\"\n" = some [asc "a", asc "a", []] := by decide +kernel

/-- A file system with one file, `g.h`. -/
def fsEnv (text : String) : Env :=
  { exEnv with
    fileExists := fun p => p == asc "./g.h"
    read := fun p => if p == asc "./g.h" then some (asc text) else none }

/-- A file that is not guarded as a whole is skipped the second time: the second `a` is missing. -/
theorem C28_second_section_wrong :
    outTexts (fsEnv "#ifndef X\n#define X\n#endif\na\n#ifdef Y\n#endif\n") 80 "#include \"g.h\"\n#include \"g.h\"\n" =
      some [asc "a", []] ∧
    outTexts (fsEnv "#ifndef X\n#define X\n#endif\na\n#ifdef Y\n#endif\nb\n") 80 "#include \"g.h\"\n#include \"g.h\"\n" =
      some [asc "a", asc "b", asc "a", asc "b", []] := by decide +kernel

/-- A guarded file with an `#else` group: the second time, that group is not output. -/
theorem C28_else_wrong :
    outTexts (fsEnv "#ifndef X\n#define X\n#else\na\n#endif\n") 80 "#include \"g.h\"\n#include \"g.h\"\n" = some [[]] ∧
    outTexts (fsEnv "#ifndef X\n#define X \n#else\na\n#endif\n#define Z\n") 80 "#include \"g.h\"\n#include \"g.h\"\n" =
      some [asc "a", []] := by decide +kernel

/-- A file of the right form is detected, included once and skipped the second time. -/
example : outTexts (fsEnv "#ifndef X\n#define X\na\n#endif\n") 80 "#include \"g.h\"\n#include \"g.h\"\n" =
    some [asc "a", []] := by decide +kernel

/-- Such a file meets the hypothesis. -/
example : Guarded (asc "X") ((ln "ifndef" [ft "X" .ident false]).flat ++ ((ln "define" [ft "X" .ident false]).flat ++ (ln "endif" []).flat)) := by
  refine ⟨ln "ifndef" [ft "X" .ident false], .text (ln "define" [ft "X" .ident false]).flat .nil, ln "endif" [],
    ft "X" .ident false, ⟨ln_wf _ _ _ (by simp [openers]) ?_, ⟨by decide +kernel, ?_, ?_, trivial⟩,
      ln_wf _ _ _ (by simp) (by intro t ht; cases ht), trivial⟩, by decide +kernel, rfl, rfl, rfl, rfl, rfl⟩
  · intro t ht; simp only [List.mem_singleton] at ht; subst ht; exact ⟨rfl, rfl⟩
  · intro t ht; cases ht; rfl
  · intro l' g' h; cases h

end Toycc.Pp
