import Verif.Src.PreProof
/-! C79: #include. -/
namespace Toycc.Src
open Toycc.Lex (asc)
open Toycc.Pp (Bytes PTok Dir Group Tail Steps Bol withConds isHash)
open Toycc.Parse (Tok P)

/-! ### The name of the file -/

theorem spell_text {t : Tok} {p : PTok} {w : Bytes} (h : Is t p) (hs : spell t = some w) : p.text = w ∧ p.is ">" = false := by
  have key : p.is ">" = true → t = .p .gt := fun hc => sign_is (q := .gt) h (by simpa [Pp.PTok.is, sign] using hc)
  have hgt : p.is ">" = false := by
    cases hc : p.is ">" with
    | false => rfl
    | true => rw [key hc] at hs; cases hs
  refine ⟨?_, hgt⟩
  cases t with
  | ident s => cases hs; exact (is_name h (.inl rfl)).2.1
  | kw s => cases hs; exact (is_name h (.inr rfl)).2.1
  | p q =>
    have e := is_sign h
    rw [e]
    cases q <;> first | cases hs; rfl | cases hs
  | _ => cases hs

theorem angled_toks {cur : Bytes} : ∀ {ts : List Tok} {ws : List Bytes} {l : List PTok}, ts.mapM spell = some ws → Items cur (ts.map fun t => ⟨.tok t, false, .tight⟩) l →
    ws.flatten = (l.map (·.text)).flatten ∧ ∀ p ∈ l, p.is ">" = false ∧ p.bol = false ∧ p.isEof = false ∧ p.sp = false := by
  intro ts
  induction ts with
  | nil =>
    intro ws l h1 h2
    cases h2
    cases h1
    exact ⟨rfl, by simp⟩
  | cons t ts ih =>
    intro ws l h1 h2
    cases h2 with
    | cons h3 h4 =>
      rw [List.mapM_cons] at h1
      cases hw : spell t with
      | none => rw [hw] at h1; cases h1
      | some w =>
        rw [hw] at h1
        cases hws : ts.mapM spell with
        | none => rw [hws] at h1; cases h1
        | some ws' =>
          rw [hws] at h1
          cases h1
          obtain ⟨a, b⟩ := ih hws h4
          obtain ⟨c, d⟩ := spell_text (pt_tok h3.pt) hw
          refine ⟨by simp [a, c], fun p hp => ?_⟩
          rcases List.mem_cons.mp hp with rfl | hp
          · exact ⟨d, h3.bol, pt_noEof h3.pt, h3.tight rfl rfl⟩
          · exact b p hp

theorem join_tight : ∀ l : List PTok, (∀ p ∈ l, p.sp = false) → Pp.joinToks l = (l.map (·.text)).flatten := by
  intro l h
  cases l with
  | nil => rfl
  | cons t r =>
    rw [Pp.joinToks, List.map_cons, List.flatten_cons]
    congr 1
    have h2 := fun p hp => h p (List.mem_cons_of_mem _ hp)
    clear h
    induction r with
    | nil => rfl
    | cons u r ih =>
      rw [List.flatMap_cons, h2 u List.mem_cons_self, ih fun p hp => h2 p (List.mem_cons_of_mem _ hp)]
      simp

theorem takeWhile_all {α : Type} (f : α → Bool) : ∀ (l : List α) (x : α) (r : List α), (∀ a ∈ l, f a = true) → f x = false → (l ++ x :: r).takeWhile f = l ∧ (l ++ x :: r).dropWhile f = x :: r := by
  intro l x r h1 h2
  induction l with
  | nil => simp [h2]
  | cons a l ih =>
    obtain ⟨h3, h4⟩ := ih fun b hb => h1 b (List.mem_cons_of_mem _ hb)
    constructor
    · rw [List.cons_append, List.takeWhile_cons, if_pos (h1 a List.mem_cons_self), h3]
    · rw [List.cons_append, List.dropWhile_cons, if_pos (h1 a List.mem_cons_self), h4]

theorem header_read {cur : Bytes} {h : Header} {q : Bool} {name : Bytes} (hn : h.Names q name) {l rest : List PTok} (hl : Items cur h.items l) (hr : Bol rest) (rec : Pp.Rec) (n : Nat) (st : Pp.St) :
    Pp.readIncludeFilename rec (n + 1) st (l ++ rest) = .ok (st, name, q, rest) := by
  cases hn with
  | quoted =>
    cases hl with
    | cons h1 h2 =>
      cases h2
      have := h1.pt
      cases this with
      | str ht hk =>
        rw [List.singleton_append, Pp.readIncludeFilename, if_pos (by rw [hk]; rfl), Pp.skipLine_ne _ hr.ne, ht]
        simp [Except.map]
  | @angled ts ws hm =>
    simp only [Header.items, List.cons_append] at hl
    cases hl with
    | @cons _ p _ l h1 h2 =>
      obtain ⟨l1, l2, rfl, h3, h4⟩ := h2.append
      cases h4 with
      | @cons _ g _ _ h5 h6 =>
        cases h6
        obtain ⟨a, b⟩ := angled_toks hm h3
        have hlt : p.text = asc "<" := is_sign (pt_tok h1.pt)
        have hgt : g.text = asc ">" := is_sign (pt_tok h5.pt)
        have hns : p.kind ≠ .str := (pt_tok h1.pt).2.2.1
        rw [List.cons_append, Pp.readIncludeFilename, if_neg (by simpa using hns), if_pos (text_is hlt), if_neg (by rw [h1.bol]; decide)]
        rw [show (l1 ++ [g]) ++ rest = l1 ++ g :: rest from by simp]
        obtain ⟨t1, t2⟩ := takeWhile_all (fun u : PTok => !(u.is ">" || u.bol || u.isEof)) l1 g rest (by
          intro u hu
          obtain ⟨c1, c2, c3, _⟩ := b u hu
          simp [c1, c2, c3]) (by simp [text_is hgt])
        rw [t1, t2]
        dsimp only
        rw [if_pos (text_is hgt), Pp.skipLine_ne _ hr.ne, join_tight l1 fun p hp => (b p hp).2.2.2, ← a]
        rfl

/-! ### Include guards -/

theorem guardLoop_ok {e : PTok} (he : e.isEof = true) : ∀ l : List PTok, ∃ b, Pp.guardLoop (l ++ [e]) = .ok b := by
  intro l
  induction l with
  | nil => exact ⟨false, by rw [List.nil_append, Pp.guardLoop.eq_def]; simp [he]⟩
  | cons t l ih =>
    obtain ⟨b, hb⟩ := ih
    rw [List.cons_append, Pp.guardLoop.eq_def]
    dsimp only
    split
    · exact ⟨false, rfl⟩
    · split
      · cases hl : l ++ [e] with
        | nil => simp at hl
        | cons u r2 =>
          dsimp only
          rw [hl] at hb
          split
          · exact ⟨true, rfl⟩
          · exact ⟨b, hb⟩
      · exact ⟨b, hb⟩

/-- Not an #ifndef. -/
theorem detect_other {cur : Bytes} {s : String} {a : List Item} {l : List PTok} (h : Items cur (dirItems s ++ a) l) (hs : s ≠ "ifndef") (rest : List PTok) : Pp.detectIncludeGuard (l ++ rest) = .ok none := by
  obtain ⟨k, n, r, rfl, h1, _, _, h4, h5, _⟩ := h.dir
  have : n.is "ifndef" = false := text_isnt h4 h5 (by unfold ascii; decide) hs
  simp [Pp.detectIncludeGuard, Pp.nextIs, this]

/-- Is the first line one that starts with `#define`? -/
theorem starts_define {cur : Bytes} {b : Grp} {r : Rest} {a : List Item} {l : List PTok} {h : PTok} {r3 : List PTok} (hok : b.Ok) (hl : Items cur (b.items ++ (r.items ++ a)) l) {rest : List PTok}
    (e : l ++ rest = h :: r3) (hh : isHash h = true) (hn : Pp.nextIs r3 "define" = true) :
    (∃ y, ((∃ c g, b = .define y c g) ∨ ∃ ps va c g, b = .defineF y ps va c g) ∧ ∃ n d r4, r3 = n :: d :: r4 ∧ d.text = asc y ∧ ascii y) ∨ ∃ ts g, b = .other "define" ts g := by
  have other : ∀ {s : String} {a : List Item}, Items cur (dirItems s ++ a) l → s = "define" := by
    intro s a hl
    obtain ⟨k, n, r, rfl, h1, _, _, h4, h5, _⟩ := hl.dir
    injection e with e1 e2
    subst e1
    rw [← e2] at hn
    by_cases hs : s = "define"
    · exact hs
    · have : n.is "define" = false := text_isnt h4 h5 (by unfold ascii; decide) hs
      simp [Pp.nextIs, this] at hn
  cases b with
  | nil =>
    cases r with
    | endif => exact absurd (other (s := "endif") hl) (by decide)
    | els g => simp only [Grp.items, Rest.items, List.append_assoc, List.nil_append] at hl; exact absurd (other (s := "else") hl) (by decide)
    | elif ts g r => simp only [Grp.items, Rest.items, List.append_assoc, List.nil_append] at hl; exact absurd (other (s := "elif") hl) (by decide)
  | line t ts g =>
    simp only [Grp.items, List.cons_append] at hl
    cases hl with
    | cons h1 _ =>
      injection e with e1 e2
      subst e1
      rw [(is_hash (pt_tok h1.pt)).2] at hh; cases hh
  | define y c g =>
    refine .inl ⟨y, .inl ⟨c, g, rfl⟩, ?_⟩
    simp only [Grp.items, List.append_assoc] at hl
    obtain ⟨k, n, r, rfl, h1, _, _, h4, h5, _, _, _, h9⟩ := hl.dir
    obtain ⟨l1, l2, rfl, h10, _⟩ := h9.append
    obtain ⟨d, rfl, hd⟩ := one_inner h10
    obtain ⟨_, hd2, hd3⟩ := is_name hd (nm_cases y)
    injection e with e1 e2
    exact ⟨n, d, l2 ++ rest, by rw [← e2]; simp, hd2, hd3⟩
  | defineF y ps va c g =>
    refine .inl ⟨y, .inr ⟨ps, va, c, g, rfl⟩, ?_⟩
    simp only [Grp.items, List.append_assoc] at hl
    obtain ⟨k, n, r, rfl, h1, _, _, h4, h5, _, _, _, h9⟩ := hl.dir
    obtain ⟨l1, l2, rfl, h10, _⟩ := h9.append
    obtain ⟨d, rfl, hd⟩ := one_inner h10
    obtain ⟨_, hd2, hd3⟩ := is_name hd (nm_cases y)
    injection e with e1 e2
    exact ⟨n, d, l2 ++ rest, by rw [← e2]; simp, hd2, hd3⟩
  | undef y g => simp only [Grp.items, List.append_assoc] at hl; exact absurd (other (s := "undef") hl) (by decide)
  | incl y g => simp only [Grp.items, List.append_assoc] at hl; exact absurd (other (s := "include") hl) (by decide)
  | once g => simp only [Grp.items, List.append_assoc] at hl; exact absurd (other (s := "pragma") hl) (by decide)
  | pragma t ts g => simp only [Grp.items, List.append_assoc] at hl; exact absurd (other (s := "pragma") hl) (by decide)
  | other x ts g =>
    simp only [Grp.items, List.append_assoc] at hl
    have := other hl
    subst this
    exact .inr ⟨ts, g, rfl⟩
  | sect c b r g =>
    simp only [Grp.items, If.items_eq, List.append_assoc] at hl
    have := other hl
    cases c <;> exact absurd this (by simp [If.name])

theorem detect_guard {cur : Bytes} {G : Grp} (hok : G.Ok) (hg : G.Guardable) {l : List PTok} {e : PTok} (hl : Items cur G.items l) (he : e.isEof = true) (ht : e.text = []) :
    ∃ o, Pp.detectIncludeGuard (l ++ [e]) = .ok o ∧ ∀ x, o = some x → ∃ y b, x = asc y ∧ G = .sect (.ifndef y) b .endif .nil := by
  have nope : ∀ {s : String} {a : List Item}, Items cur (dirItems s ++ a) l → s ≠ "ifndef" →
      ∃ o, Pp.detectIncludeGuard (l ++ [e]) = .ok o ∧ ∀ x, o = some x → ∃ y b, x = asc y ∧ G = .sect (.ifndef y) b .endif .nil :=
    fun h hs => ⟨none, detect_other h hs _, fun x h => by cases h⟩
  cases G with
  | nil =>
    cases hl
    refine ⟨none, ?_, fun x h => by cases h⟩
    have : isHash e = false := by
      unfold Pp.isHash Pp.PTok.is
      rw [ht]
      have : (([] : Bytes) == asc "#") = false := by decide
      rw [this, Bool.and_false]
    simp [Pp.detectIncludeGuard, this]
  | line t ts g =>
    cases hl with
    | cons h1 h2 =>
      refine ⟨none, ?_, fun x h => by cases h⟩
      simp [Pp.detectIncludeGuard, (is_hash (pt_tok h1.pt)).2]
  | define y c g => simp only [Grp.items, List.append_assoc] at hl; exact nope hl (by decide)
  | defineF y ps va c g => simp only [Grp.items, List.append_assoc] at hl; exact nope hl (by decide)
  | undef y g => simp only [Grp.items, List.append_assoc] at hl; exact nope hl (by decide)
  | incl y g => simp only [Grp.items, List.append_assoc] at hl; exact nope hl (by decide)
  | once g => simp only [Grp.items, List.append_assoc] at hl; exact nope hl (by decide)
  | pragma t ts g => simp only [Grp.items, List.append_assoc] at hl; exact nope hl (by decide)
  | other x ts g =>
    simp only [Grp.items, List.append_assoc] at hl
    exact nope hl (fun h => hok.1 (by rw [h]; decide))
  | sect c b r g =>
    simp only [Grp.items, If.items_eq, List.append_assoc] at hl
    cases c with
    | ifE ts => exact nope hl (by simp [If.name])
    | ifdef x => exact nope hl (by simp [If.name])
    | ifndef x =>
      obtain ⟨k, n, r1, rfl, h1, h2, h3, h4, h5, h6, _, _, h7⟩ := hl.dir
      obtain ⟨l1, l2, rfl, h8, h9⟩ := h7.append
      obtain ⟨m, rfl, hm⟩ := one_inner h8
      obtain ⟨mk, mt, ma⟩ := is_name hm (nm_cases x)
      have hnx : n.is "ifndef" = true := text_is h4
      show ∃ o, Pp.detectIncludeGuard (k :: n :: m :: (l2 ++ [e])) = .ok o ∧ _
      rw [Pp.detectIncludeGuard, if_neg (by simp [h1, Pp.nextIs, hnx])]
      simp only [List.drop_one, List.tail_cons]
      rw [if_neg (by rw [mk]; decide)]
      cases hr2 : l2 ++ [e] with
      | nil => simp at hr2
      | cons h r3 =>
        dsimp only
        by_cases hc : (!isHash h || !Pp.nextIs r3 "define") = true
        · rw [if_pos hc]
          exact ⟨none, rfl, fun x h => by cases h⟩
        · rw [if_neg hc]
          simp only [Bool.or_eq_true, Bool.not_eq_true', not_or, Bool.not_eq_false] at hc
          have hgl : ∃ q, Pp.guardLoop (h :: r3) = .ok q := by rw [← hr2]; exact guardLoop_ok he l2
          obtain ⟨q, hq⟩ := hgl
          rcases starts_define (rest := [e]) hok.1 h9 hr2 hc.1 hc.2 with ⟨y, hbd, nn, d, r4, rfl, hd1, hd2⟩ | ⟨ts, g', rfl⟩
          · show ∃ o, (if (d.text != m.text) = true then _ else _) = Except.ok o ∧ _
            by_cases hxy : d.text = m.text
            · rw [if_neg (by simpa using hxy), hq]
              have hxy' : x = y := asc_inj ma hd2 (by rw [← mt, ← hd1]; exact hxy.symm)
              have hgg : r = .endif ∧ g = .nil := by rcases hbd with ⟨c, g', rfl⟩ | ⟨qs, va, c, g', rfl⟩ <;> exact hg hxy'
              obtain ⟨rfl, rfl⟩ := hgg
              refine ⟨_, rfl, fun z hz => ?_⟩
              cases q with
              | false => cases hz
              | true => cases hz; exact ⟨x, _, mt, rfl⟩
            · rw [if_pos (by simpa using hxy)]
              exact ⟨none, rfl, fun x h => by cases h⟩
          · obtain ⟨rfl, rfl⟩ := hg rfl
            cases hr3 : r3.tail with
            | nil =>
              exfalso
              simp only [Grp.items, List.append_assoc] at h9
              obtain ⟨k', n', r', rfl, _, _, _, _, _, _, _, _, h10⟩ := h9.dir
              injection hr2 with _ e2
              rw [← e2] at hr3
              simp at hr3
            | cons d r4 =>
              dsimp only
              split
              · exact ⟨none, rfl, fun x h => by cases h⟩
              · rw [hq]
                refine ⟨_, rfl, fun z hz => ?_⟩
                cases q with
                | false => cases hz
                | true => cases hz; exact ⟨x, _, mt, rfl⟩

/-! ### The directive -/

theorem directive_include (env : Pp.Env) (hs : env.strict = false) (rec : Pp.Rec) (n : Nat) (st : Pp.St) (h t : PTok) (r : List PTok) (ht : t.is "include" = true) :
    Pp.directive env rec n st h (t :: r) = Pp.dirInclude env rec n st h r := by
  unfold Pp.directive
  dsimp only
  rw [ht, hs]
  simp only [Bool.false_eq_true, if_false, if_true]

theorem search_state (env : Pp.Env) (st : Pp.St) (name : Bytes) : ∃ c i, (Pp.searchIncludePaths env st name).1 = { st with cache := c, nextIdx := i } := by
  unfold Pp.searchIncludePaths
  split
  · exact ⟨st.cache, st.nextIdx, rfl⟩
  · split
    · exact ⟨st.cache, st.nextIdx, rfl⟩
    · split
      · exact ⟨_, _, rfl⟩
      · exact ⟨st.cache, st.nextIdx, rfl⟩

/-- The file that is included, and the state. -/
theorem step_include {env : Pp.Env} {files : Bytes → Option Grp} (hs : env.strict = false) {cur : Bytes} {h : Header} {q : Bool} {name path : Bytes} (hn : h.Names q name) (ho : Pp.Opens env cur q name path)
    {l rest : List PTok} (hl : Items cur (dirItems "include" ++ h.items) l) (hr : Bol rest) {M : Macros} {o : List Bytes} {st : Pp.St} (hI : Inv env files M o st) (cs : List Pp.Cond)
    {R : Pp.St → List PTok → Prop} (hf : ∀ st2, Inv env files M o st2 → ∃ st3 l', Pp.includeFile env (withConds st2 cs) path rest = .ok (withConds st3 cs, l' ++ rest) ∧ R st3 l') :
    ∃ st3 l', R st3 l' ∧ Steps env (withConds st cs) (l ++ rest) [] (withConds st3 cs) (l' ++ rest) := by
  obtain ⟨d, hd, rfl, hi, hfile, _⟩ := dir_wf hl (header_bol h)
  have hread : ∀ n, Pp.readIncludeFilename (Pp.pp env (n + 1) false) (n + 1) (withConds st cs) (d.line ++ rest) = .ok (withConds st cs, name, q, rest) := fun n => header_read hn hi hr _ n _
  have key : ∀ n, ∃ st2, Inv env files M o st2 ∧ Pp.dirInclude env (Pp.pp env (n + 1) false) (n + 1) (withConds st cs) d.hash (d.line ++ rest) = Pp.includeFile env (withConds st2 cs) path rest ∧
      (withConds st2 cs = withConds st cs ∨ withConds st2 cs = (Pp.searchIncludePaths env (withConds st cs) name).1) := by
    intro n
    obtain ⟨st2, path', h1, h2, h3⟩ := Pp.include_opens env _ _ _ d.hash _ _ _ _ _ (hI.conds cs).cache (hread n)
    rw [hfile] at h1
    have := h1.unique ho
    subst this
    rcases h3 with rfl | rfl
    · exact ⟨st, hI, h2, .inl rfl⟩
    · obtain ⟨c, i, e⟩ := search_state env (withConds st cs) name
      have hc := Pp.cacheOk_search env (withConds st cs) name (hI.conds cs).cache
      rw [e] at hc
      refine ⟨{ st with cache := c, nextIdx := i }, ⟨hI.mac.congr rfl, hc, hI.once, hI.guards⟩, by rw [h2, e]; rfl, .inr e.symm⟩
  -- the state does not depend on the fuel
  have same : ∃ st2, Inv env files M o st2 ∧ ∀ n, Pp.dirInclude env (Pp.pp env (n + 1) false) (n + 1) (withConds st cs) d.hash (d.line ++ rest) = Pp.includeFile env (withConds st2 cs) path rest := by
    obtain ⟨st2, h1, h2, _⟩ := key 0
    refine ⟨st2, h1, fun n => ?_⟩
    rw [← h2]
    unfold Pp.dirInclude
    rw [hread n, hread 0]
  obtain ⟨st2, hI2, hdir⟩ := same
  obtain ⟨st3, l', h1, h2⟩ := hf st2 hI2
  refine ⟨st3, l', h2, Steps.dirD hs hd ⟨1, fun n hn => ?_⟩⟩
  obtain ⟨m, rfl⟩ : ∃ m, n = m + 1 := ⟨n - 1, by omega⟩
  rw [directive_include env hs _ _ _ _ _ _ (Pp.name_is hd), hdir m, h1]

/-- A file that is not to be included again. -/
theorem include_again {env : Pp.Env} {files : Bytes → Option Grp} {M : Macros} {o : List Bytes} {st : Pp.St} (hI : Inv env files M o st) {path : Bytes} (hp : path ∈ o) (rest : List PTok) :
    Pp.includeFile env st path rest = .ok (st, rest) := by
  unfold Pp.includeFile
  rw [if_pos (by simpa using (hI.once path).mpr hp)]

/-- A file that is read: its tokens come before the rest. Or it is skipped because of its include guard. -/
theorem include_read {env : Pp.Env} {files : Bytes → Option Grp} {M : Macros} {o : List Bytes} {st : Pp.St} (hI : Inv env files M o st) {path : Bytes} (hp : path ∉ o) {G : Grp} (hf : files path = some G)
    (hG : IsGrp env path G) (hg : G.Guardable) (cs : List Pp.Cond) (rest : List PTok) :
    (∃ y b, G = .sect (.ifndef y) b .endif .nil ∧ (M (asc y)).isSome = true ∧ Pp.includeFile env (withConds st cs) path rest = .ok (withConds st cs, rest)) ∨
    ∃ st3 l, Items path G.items l ∧ Inv env files M o st3 ∧ Pp.includeFile env (withConds st cs) path rest = .ok (withConds st3 cs, l ++ rest) := by
  have h1 : (withConds st cs).once.contains path = false := by
    have : path ∉ st.once := fun h => hp ((hI.once path).mp h)
    show st.once.contains path = false
    simpa using this
  by_cases h2 : ((st.guards.find? fun p => p.1 == path).any fun p => (Pp.lookup st p.2).isSome) = true
  · left
    cases hfd : st.guards.find? fun p => p.1 == path with
    | none => rw [hfd] at h2; cases h2
    | some p =>
      have hm := List.mem_of_find?_eq_some hfd
      have he := List.find?_some hfd
      simp only [beq_iff_eq] at he
      obtain ⟨p1, p2⟩ := p
      dsimp only at he
      subst he
      obtain ⟨y, b, rfl, hfile⟩ := hI.guards _ _ hm
      rw [hf] at hfile
      cases hfile
      rw [hfd] at h2
      refine ⟨y, b, rfl, by rw [← hI.mac.isSome]; exact h2, ?_⟩
      unfold Pp.includeFile
      rw [if_neg (by rw [h1]; decide)]
      have : (((withConds st cs).guards.find? fun p => p.1 == p1).any fun p => (Pp.lookup (withConds st cs) p.2).isSome) = true := by
        show ((st.guards.find? fun p => p.1 == p1).any fun p => (Pp.lookup st p.2).isSome) = true
        rw [hfd]; exact h2
      rw [if_pos this]
  · right
    obtain ⟨ps, e, t1, t2, t3, t4, t5⟩ := file_written hG (withConds st cs)
    obtain ⟨g, d1, d2⟩ := detect_guard hG.ok hg t5 t2 t3
    have hbody : Pp.body (ps ++ [e]) = ps := by
      unfold Pp.body
      rw [List.takeWhile_append_of_pos]
      · rw [List.takeWhile_cons, if_neg (by simp [t2]), List.append_nil]
      · intro p hp
        simp [t5.noEof p hp]
    have hincl : Pp.includeFile env (withConds st cs) path rest = .ok (match (generalizing := false) g with
        | some name => { (withConds { st with nfiles := st.nfiles + 1 } cs) with guards := (path, name) :: st.guards.filter fun p => p.1 != path }
        | none => withConds { st with nfiles := st.nfiles + 1 } cs, ps.map Pp.copyTok ++ rest) := by
      unfold Pp.includeFile
      rw [if_neg (by rw [h1]; decide)]
      have : ¬ (((withConds st cs).guards.find? fun p => p.1 == path).any fun p => (Pp.lookup (withConds st cs) p.2).isSome) = true := h2
      rw [if_neg this, t1]
      dsimp only
      rw [d1]
      dsimp only
      rw [hbody]
      rfl
    cases g with
    | none =>
      refine ⟨{ st with nfiles := st.nfiles + 1 }, ps.map Pp.copyTok, t5.map (fun p => ⟨rfl, rfl, rfl, rfl, rfl, rfl, rfl⟩), ⟨hI.mac.congr rfl, hI.cache, hI.once, hI.guards⟩, hincl⟩
    | some name =>
      obtain ⟨y, b, rfl, rfl⟩ := d2 name rfl
      refine ⟨{ st with nfiles := st.nfiles + 1, guards := (path, asc y) :: st.guards.filter fun p => p.1 != path }, ps.map Pp.copyTok, t5.map (fun p => ⟨rfl, rfl, rfl, rfl, rfl, rfl, rfl⟩),
        ⟨hI.mac.congr rfl, hI.cache, hI.once, ?_⟩, hincl⟩
      intro p x hx
      rcases List.mem_cons.mp hx with e | hx
      · cases e; exact ⟨y, b, rfl, hf⟩
      · exact hI.guards p x (List.mem_filter.mp hx).1

end Toycc.Src
