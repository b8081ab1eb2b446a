import Verif.Src.PreIncl
/-! C79: the induction over the specification. -/
namespace Toycc.Src
open Toycc.Lex (asc)
open Toycc.Pp (Bytes PTok Dir Group Tail Steps Bol withConds isHash)
open Toycc.Parse (Tok P)

/-- The evaluator of #if expressions of C76. -/
abbrev envK (env : Pp.Env) (k : Nat) : Pp.Env := { env with constExpr := constExpr k }

theorem Inv.toK {env : Pp.Env} {files : Bytes → Option Grp} {M : Macros} {o : List Bytes} {st : Pp.St} (k : Nat) (h : Inv env files M o st) : Inv (envK env k) files M o st :=
  ⟨h.mac, h.cache, h.once, h.guards⟩

theorem Inv.ofK {env : Pp.Env} {files : Bytes → Option Grp} {M : Macros} {o : List Bytes} {st : Pp.St} {k : Nat} (h : Inv (envK env k) files M o st) : Inv env files M o st :=
  ⟨h.mac, h.cache, h.once, h.guards⟩

theorem opensK {env : Pp.Env} {cur : Bytes} {q : Bool} {name path : Bytes} (k : Nat) (h : Pp.Opens env cur q name path) : Pp.Opens (envK env k) cur q name path := by
  cases h with
  | here a b c => exact .here a b c
  | absolute a => exact .absolute a
  | found i _ a b c => exact .found i _ a b c
  | nowhere a b c => exact .nowhere a b c

variable {env : Pp.Env} {files : Bytes → Option Grp}

/-- What the induction shows of a group. -/
def RunsOk (env : Pp.Env) (files : Bytes → Option Grp) (cur : Bytes) (s : PState) (G : Grp) (s' : PState) (out : List Tok) : Prop :=
  G.Ok → ∃ K, ∀ k, K ≤ k → ∀ (st : Pp.St) (l rest : List PTok) (cs : List Pp.Cond), Inv env files s.mac s.once st → Items cur G.items l → Bol rest → (s'.bare = true → NotParen rest) →
    ∃ st' ps, Inv env files s'.mac s'.once st' ∧ All out ps ∧ Steps (envK env k) (withConds st cs) (l ++ rest) ps (withConds st' cs) rest

/-- And of the rest of a section. -/
def RestOk (env : Pp.Env) (files : Bytes → Option Grp) (cur : Bytes) (s : PState) (r : Rest) (s' : PState) (out : List Tok) : Prop :=
  r.Ok → ∃ K, ∀ k, K ≤ k → ∀ (st : Pp.St) (l rest : List PTok) (ctx : Pp.Ctx) (cs : List Pp.Cond), ctx ≠ .inElse → Inv env files s.mac s.once st → Items cur r.items l → Bol rest →
    ∃ st' ps, Inv env files s'.mac s'.once st' ∧ All out ps ∧ Steps (envK env k) (withConds st (⟨ctx, false⟩ :: cs)) (l ++ rest) ps (withConds st' cs) rest

theorem text_items (ls : List (Tok × List Tok)) (g : Grp) : (Grp.text ls g).items = ls.flatMap (fun l => ⟨.tok l.1, true, .any⟩ :: inner l.2) ++ g.items := by
  induction ls with
  | nil => rfl
  | cons l ls ih => rw [Grp.text, Grp.items, ih]; simp

theorem text_ok (ls : List (Tok × List Tok)) (g : Grp) (h : (Grp.text ls g).Ok) : g.Ok := by
  induction ls with
  | nil => exact h
  | cons l ls ih => exact ih h

theorem text_all {cur : Bytes} : ∀ {ls : List (Tok × List Tok)} {l : List PTok}, Items cur (ls.flatMap (fun l => ⟨.tok l.1, true, .any⟩ :: inner l.2)) l → All (textToks ls) l ∧ ∀ p ∈ l, p.hs = []
  | [], _, .nil => ⟨.nil, fun p hp => by cases hp⟩
  | (t, ts) :: ls, l, h => by
    obtain ⟨l1, l2, rfl, h1, h2⟩ := Items.append (a := ⟨.tok t, true, .any⟩ :: inner ts) h
    obtain ⟨i1, i2⟩ := text_all h2
    cases h1 with
    | cons h6 h7 =>
      refine ⟨All.append (.cons (pt_tok h6.pt) h7.inner.1) i1, fun p hp => ?_⟩
      rcases List.mem_append.mp hp with hp | hp
      · rcases List.mem_cons.mp hp with rfl | hp
        · exact h6.hs
        · exact (h7.inner.2 p hp).2.1
      · exact i2 p hp

theorem runs_text (hs : env.strict = false) {cur : Bytes} {s s' : PState} {t : Tok} {ts us out : List Tok} {ls : List (Tok × List Tok)} {g : Grp}
    (hx : Expand s.mac.defs [] (t :: ts ++ textToks ls) us true) (ih : RunsOk env files cur s.next g s' out) : RunsOk env files cur s (.line t ts (.text ls g)) s' (us ++ out) := by
  intro hok
  replace hok : g.Ok := text_ok ls g hok
  obtain ⟨K, hK⟩ := ih hok
  refine ⟨K, fun k hk st l rest cs hI hl hr hp => ?_⟩
  have e : (Grp.line t ts (.text ls g)).items = ((t, ts) :: ls).flatMap (fun l => ⟨.tok l.1, true, .any⟩ :: inner l.2) ++ g.items := text_items ((t, ts) :: ls) g
  rw [e] at hl
  obtain ⟨l1, l2, rfl, h1, h2⟩ := Items.append hl
  obtain ⟨st', ps, h3, h4, h5⟩ := hK k hk st l2 rest cs hI h2 hr hp
  have hb := grp_bol hok h2 hr
  have ha := text_all h1
  have hx' := hx.mono (hI.mac.congr (st' := withConds st cs) rfl).le
  obtain ⟨o1, b1, b2⟩ := line_steps (env := envK env k) hs hx' ha.1 ha.2 hb.ne
  refine ⟨st', o1 ++ ps, h3, b1.append h4, ?_⟩
  rw [List.append_assoc]
  exact Steps.trans b2 h5

theorem runs_defineF (hs : env.strict = false) {cur : Bytes} {s s' : PState} {x : String} {qs : List String} {va : Option String} {b out : List Tok} {g : Grp}
    (ih : RunsOk env files cur { s.next with mac := s.mac.set x (some (.fn qs va b)) } g s' out) : RunsOk env files cur s (.defineF x qs va b g) s' out := by
  intro hok
  obtain ⟨K, hK⟩ := ih hok
  refine ⟨K, fun k hk st l rest cs hI hl hr hp => ?_⟩
  simp only [Grp.items, List.append_assoc] at hl
  obtain ⟨l1, l2, rfl, h1, h2⟩ := Items.append (a := dirItems "define" ++ (inner [nm x] ++ (paramItems qs va ++ inner b))) (by simpa using hl)
  have hb := grp_bol (show g.Ok from hok) h2 hr
  obtain ⟨m, m1, m2, m3⟩ := step_defineF (env := envK env k) hs h1 hb st cs
  obtain ⟨st', ps, h3, h4, h5⟩ := hK k hk (Pp.addMacro st m) l2 rest cs ⟨models_defineF hI.mac m1 m2, hI.cache, hI.once, hI.guards⟩ h2 hr hp
  refine ⟨st', ps, h3, h4, ?_⟩
  rw [List.append_assoc]
  exact Steps.trans m3 h5

theorem runs_define (hs : env.strict = false) {cur : Bytes} {s s' : PState} {x : String} {b out : List Tok} {g : Grp}
    (hrun : Runs env files cur { s with mac := s.mac.set x (some (.obj b)), bare := b.isEmpty } g s' out)
    (ih : RunsOk env files cur { s with mac := s.mac.set x (some (.obj b)), bare := b.isEmpty } g s' out) : RunsOk env files cur s (.define x b g) s' out := by
  intro hok
  obtain ⟨K, hK⟩ := ih hok
  refine ⟨K, fun k hk st l rest cs hI hl hr hp => ?_⟩
  simp only [Grp.items, List.append_assoc] at hl
  obtain ⟨l1, l2, rfl, h1, h2⟩ := Items.append (a := dirItems "define" ++ (inner [nm x] ++ bodyItems b)) (by simpa using hl)
  have hb := grp_bol (show g.Ok from hok) h2 hr
  obtain ⟨m, m1, m2, m3⟩ := step_define (env := envK env k) hs h1 hb (fun hbe => runs_notParen hrun h2 hp (by rw [hbe]; rfl)) st cs
  obtain ⟨st', ps, h3, h4, h5⟩ := hK k hk (Pp.addMacro st m) l2 rest cs ⟨models_define hI.mac m1 m2, hI.cache, hI.once, hI.guards⟩ h2 hr hp
  refine ⟨st', ps, h3, h4, ?_⟩
  rw [List.append_assoc]
  exact Steps.trans m3 h5

theorem runs_undef (hs : env.strict = false) {cur : Bytes} {s s' : PState} {x : String} {out : List Tok} {g : Grp}
    (ih : RunsOk env files cur { s.next with mac := s.mac.set x none } g s' out) : RunsOk env files cur s (.undef x g) s' out := by
  intro hok
  obtain ⟨K, hK⟩ := ih hok
  refine ⟨K, fun k hk st l rest cs hI hl hr hp => ?_⟩
  obtain ⟨l1, l2, rfl, h1, h2⟩ := Items.append (a := dirItems "undef" ++ inner [nm x]) hl
  have hb := grp_bol (show g.Ok from hok) h2 hr
  obtain ⟨st', ps, h3, h4, h5⟩ := hK k hk (Pp.undefMacro st (asc x)) l2 rest cs ⟨models_undef hI.mac, hI.cache, hI.once, hI.guards⟩ h2 hr hp
  refine ⟨st', ps, h3, h4, ?_⟩
  rw [List.append_assoc]
  exact Steps.trans (step_undef (env := envK env k) hs h1 hb st cs) h5

theorem runs_once (hs : env.strict = false) {cur : Bytes} {s s' : PState} {out : List Tok} {g : Grp}
    (ih : RunsOk env files cur { s.next with once := cur :: s.once } g s' out) : RunsOk env files cur s (.once g) s' out := by
  intro hok
  obtain ⟨K, hK⟩ := ih hok
  refine ⟨K, fun k hk st l rest cs hI hl hr hp => ?_⟩
  obtain ⟨l1, l2, rfl, h1, h2⟩ := Items.append (a := dirItems "pragma" ++ inner [nm "once"]) hl
  have hb := grp_bol (show g.Ok from hok) h2 hr
  obtain ⟨st', ps, h3, h4, h5⟩ := hK k hk { st with once := cur :: st.once } l2 rest cs ⟨hI.mac.congr rfl, hI.cache, fun p => by simp [hI.once], hI.guards⟩ h2 hr hp
  refine ⟨st', ps, h3, h4, ?_⟩
  rw [List.append_assoc]
  exact Steps.trans (step_once (env := envK env k) hs h1 hb st cs) h5

theorem runs_pragma (hs : env.strict = false) {cur : Bytes} {s s' : PState} {t : Tok} {ts out : List Tok} {g : Grp} (ht : t ≠ nm "once")
    (ih : RunsOk env files cur s.next g s' out) : RunsOk env files cur s (.pragma t ts g) s' out := by
  intro hok
  obtain ⟨K, hK⟩ := ih hok
  refine ⟨K, fun k hk st l rest cs hI hl hr hp => ?_⟩
  obtain ⟨l1, l2, rfl, h1, h2⟩ := Items.append (a := dirItems "pragma" ++ inner (t :: ts)) hl
  have hb := grp_bol (show g.Ok from hok) h2 hr
  obtain ⟨st', ps, h3, h4, h5⟩ := hK k hk st l2 rest cs hI h2 hr hp
  refine ⟨st', ps, h3, h4, ?_⟩
  rw [List.append_assoc]
  exact Steps.trans (step_pragma (env := envK env k) hs h1 ht hb st cs) h5

theorem runs_again (hs : env.strict = false) {cur : Bytes} {s s' : PState} {h : Header} {q : Bool} {name path : Bytes} {out : List Tok} {g : Grp} (hn : h.Names q name)
    (ho : Pp.Opens env cur q name path) (hin : path ∈ s.once) (ih : RunsOk env files cur s.next g s' out) : RunsOk env files cur s (.incl h g) s' out := by
  intro hok
  obtain ⟨K, hK⟩ := ih hok
  refine ⟨K, fun k hk st l rest cs hI hl hr hp => ?_⟩
  obtain ⟨l1, l2, rfl, h1, h2⟩ := Items.append (a := dirItems "include" ++ h.items) hl
  have hb := grp_bol (show g.Ok from hok) h2 hr
  obtain ⟨st3, l', ⟨i1, rfl⟩, i2⟩ := step_include (env := envK env k) hs hn (opensK k ho) h1 hb (hI.toK k) cs (R := fun st3 l' => Inv (envK env k) files s.mac s.once st3 ∧ l' = [])
    (fun st2 hI2 => ⟨st2, [], include_again (hI2.conds cs) hin _, hI2, rfl⟩)
  obtain ⟨st', ps, h3, h4, h5⟩ := hK k hk st3 l2 rest cs i1.ofK h2 hr hp
  refine ⟨st', ps, h3, h4, ?_⟩
  rw [List.append_assoc]
  exact Steps.trans i2 h5

theorem guarded_runs {cur : Bytes} {s s1 : PState} {y : String} {b : Grp} {out : List Tok} (h : Runs env files cur s (.sect (.ifndef y) b .endif .nil) s1 out) (hd : (s.mac (asc y)).isSome = true) :
    s1.mac = s.mac ∧ s1.once = s.once ∧ out = [] := by
  cases h with
  | taken hc _ _ =>
    exfalso
    generalize hv : true = v at hc
    cases hc
    rw [hd] at hv; cases hv
  | skipped hc hr hg =>
    cases hr
    cases hg
    exact ⟨rfl, rfl, rfl⟩

theorem runs_incl (hs : env.strict = false) (hfiles : ∀ p G, files p = some G → IsGrp env p G) {cur : Bytes} {s s1 s' : PState} {h : Header} {q : Bool} {name path : Bytes} {o1 o2 : List Tok} {G g : Grp}
    (hn : h.Names q name) (ho : Pp.Opens env cur q name path) (hin : path ∉ s.once) (hf : files path = some G) (hg : G.Guardable) (hrunG : Runs env files path s.next G s1 o1)
    (hrun : Runs env files cur s1 g s' o2) (ih1 : RunsOk env files path s.next G s1 o1) (ih2 : RunsOk env files cur s1 g s' o2) : RunsOk env files cur s (.incl h g) s' (o1 ++ o2) := by
  intro hok
  have hG := hfiles path G hf
  obtain ⟨K1, hK1⟩ := ih1 hG.ok
  obtain ⟨K2, hK2⟩ := ih2 hok
  refine ⟨max K1 K2, fun k hk st l rest cs hI hl hr hp => ?_⟩
  obtain ⟨l1, l2, rfl, h1, h2⟩ := Items.append (a := dirItems "include" ++ h.items) hl
  have hb := grp_bol (show g.Ok from hok) h2 hr
  have hGK : IsGrp (envK env k) path G := ⟨hG.ex, hG.ok⟩
  have key : ∃ st3 ps1, Inv env files s1.mac s1.once st3 ∧ All o1 ps1 ∧ Steps (envK env k) (withConds st cs) (l1 ++ (l2 ++ rest)) ps1 (withConds st3 cs) (l2 ++ rest) := by
    obtain ⟨st3, l', hR, i2⟩ := step_include (env := envK env k) hs hn (opensK k ho) h1 hb (hI.toK k) cs
      (R := fun st3 l' => Inv (envK env k) files s.mac s.once st3 ∧ (Items path G.items l' ∨ l' = [] ∧ ∃ y b, G = .sect (.ifndef y) b .endif .nil ∧ (s.mac (asc y)).isSome = true))
      (fun st2 hI2 => by
        rcases include_read hI2 hin hf hGK hg cs (l2 ++ rest) with ⟨y, b, e1, e2, e3⟩ | ⟨st3, l', e1, e2, e3⟩
        · exact ⟨st2, [], e3, hI2, .inr ⟨rfl, y, b, e1, e2⟩⟩
        · exact ⟨st3, l', e3, e2, .inl e1⟩)
    obtain ⟨j1, hR | ⟨rfl, y, b, rfl, hd⟩⟩ := hR
    · obtain ⟨st4, ps, h3, h4, h5⟩ := hK1 k (by omega) st3 l' (l2 ++ rest) cs j1.ofK hR hb (fun hbare => runs_notParen hrun h2 hp hbare)
      exact ⟨st4, ps, h3, h4, Steps.trans i2 h5⟩
    · obtain ⟨e1, e2, rfl⟩ := guarded_runs hrunG hd
      exact ⟨st3, [], by rw [e1, e2]; exact j1.ofK, .nil, i2⟩
  obtain ⟨st3, ps1, i1, i2, i3⟩ := key
  obtain ⟨st', ps, h3, h4, h5⟩ := hK2 k (by omega) st3 l2 rest cs i1 h2 hr hp
  refine ⟨st', ps1 ++ ps, h3, i2.append h4, ?_⟩
  rw [List.append_assoc]
  exact Steps.trans i3 h5

theorem wf_notParen {e : Dir} {ns : List String} (h : e.Wf ns) (rest : List PTok) : NotParen (e.flat ++ rest) := by
  intro p hp
  cases hp
  exact hash_paren h.1

theorem sect_split {cur : Bytes} {c : If} {b g : Grp} {r : Rest} {l : List PTok} (h : Items cur (Grp.sect c b r g).items l) :
    ∃ (d : Dir) (lb lr lg : List PTok), l = d.flat ++ (lb ++ (lr ++ lg)) ∧ d.Wf Pp.openers ∧ d.name.text = asc c.name ∧ Items cur (inner c.toks) d.line ∧ Items cur b.items lb ∧ Items cur r.items lr ∧ Items cur g.items lg := by
  simp only [Grp.items, List.append_assoc] at h
  obtain ⟨l1, l2, rfl, h1, h2⟩ := h.append
  obtain ⟨lb, l3, rfl, h3, h4⟩ := h2.append
  obtain ⟨lr, lg, rfl, h5, h6⟩ := h4.append
  rw [If.items_eq] at h1
  obtain ⟨d, hd, rfl, hl, _, _, hn, _⟩ := dir_wf h1 (inner_bol _)
  exact ⟨d, lb, lr, lg, rfl, Wf_of_mem hd c.opener, hn, hl, h3, h5, h6⟩

theorem els_split {cur : Bytes} {g : Grp} {l : List PTok} (h : Items cur (Rest.els g).items l) :
    ∃ (d : Dir) (lg : List PTok) (e : Dir), l = d.flat ++ (lg ++ e.flat) ∧ d.Wf ["else"] ∧ d.line = [] ∧ Items cur g.items lg ∧ e.Wf ["endif"] ∧ e.line = [] := by
  simp only [Rest.items, List.append_assoc] at h
  obtain ⟨l1, l2, rfl, h1, h2⟩ := h.append
  obtain ⟨lg, l3, rfl, h3, h4⟩ := h2.append
  obtain ⟨d, hd, rfl, hl, _⟩ := dir_wf (a := []) (by simpa using h1) (by intro i hi; cases hi)
  obtain ⟨e, he, rfl, hl', _⟩ := dir_wf (a := []) (by simpa using h4) (by intro i hi; cases hi)
  refine ⟨d, lg, e, rfl, hd, ?_, h3, he, ?_⟩
  · cases hx : d.line with
    | nil => rfl
    | cons _ _ => rw [hx] at hl; cases hl
  · cases hx : e.line with
    | nil => rfl
    | cons _ _ => rw [hx] at hl'; cases hl'

theorem elif_split {cur : Bytes} {ts : List Tok} {g : Grp} {r : Rest} {l : List PTok} (h : Items cur (Rest.elif ts g r).items l) :
    ∃ (d : Dir) (lg lr : List PTok), l = d.flat ++ (lg ++ lr) ∧ d.Wf ["elif"] ∧ Items cur (inner ts) d.line ∧ Items cur g.items lg ∧ Items cur r.items lr := by
  simp only [Rest.items] at h
  rw [List.append_assoc] at h
  obtain ⟨l1, l2, rfl, h1, h2⟩ := h.append
  obtain ⟨lg, lr, rfl, h3, h4⟩ := h2.append
  obtain ⟨d, hd, rfl, hl, _⟩ := dir_wf h1 (inner_bol _)
  exact ⟨d, lg, lr, rfl, hd, hl, h3, h4⟩

theorem runs_taken (hs : env.strict = false) {cur : Bytes} {s s1 s' : PState} {c : If} {b g : Grp} {r : Rest} {o1 o2 : List Tok} (hc : Cond s.mac c true)
    (ih1 : RunsOk env files cur s.next b s1 o1) (ih2 : RunsOk env files cur s1.next g s' o2) : RunsOk env files cur s (.sect c b r g) s' (o1 ++ o2) := by
  intro hok
  obtain ⟨hob, hor, hog⟩ := hok
  obtain ⟨K0, hK0⟩ := cond_holds hc
  obtain ⟨K1, hK1⟩ := ih1 hob
  obtain ⟨K2, hK2⟩ := ih2 hog
  refine ⟨max K0 (max K1 K2), fun k hk st l rest cs hI hl hr hp => ?_⟩
  obtain ⟨d, lb, lr, lg, rfl, hd, hn, hline, hb, hrr, hg⟩ := sect_split hl
  obtain ⟨t, ht, hcl, rfl⟩ := rest_tail r hor lr hrr
  have hgb := grp_bol hog hg hr
  have htb := Pp.tail_bol t ht (lg ++ rest)
  obtain ⟨st1, p1, a1, a2, a3⟩ := hK1 k (by omega) st lb (t.flat ++ (lg ++ rest)) (⟨.inThen, true⟩ :: cs) hI hb htb (fun _ => Rest.notParen r (a := []) (by rw [List.append_nil]; exact hrr) _)
  obtain ⟨st2, p2, b1, b2, b3⟩ := hK2 k (by omega) st1 lg rest cs a1 hg hr hp
  refine ⟨st2, p1 ++ p2, b1, a2.append b2, ?_⟩
  simp only [List.append_assoc]
  have e : [] ++ (p1 ++ ([] ++ p2)) = p1 ++ p2 := by simp
  rw [← e]
  refine (Pp.step_open (env := envK env k) hs st st d true cs _ _ hd (hK0 k (by omega) _ st cur d rfl hs hI.mac hn hline) (grp_bol hob hb htb) (by rw [if_pos rfl])).trans ?_
  refine a3.trans ?_
  exact (Pp.step_rest (env := envK env k) hs st1 t _ .inThen cs ht hcl (by decide) hgb).trans b3

theorem runs_skipped (hs : env.strict = false) {cur : Bytes} {s s1 s' : PState} {c : If} {b g : Grp} {r : Rest} {o1 o2 : List Tok} (hc : Cond s.mac c false)
    (ih1 : RestOk env files cur s.next r s1 o1) (ih2 : RunsOk env files cur s1.next g s' o2) : RunsOk env files cur s (.sect c b r g) s' (o1 ++ o2) := by
  intro hok
  obtain ⟨hob, hor, hog⟩ := hok
  obtain ⟨K0, hK0⟩ := cond_holds hc
  obtain ⟨K1, hK1⟩ := ih1 hor
  obtain ⟨K2, hK2⟩ := ih2 hog
  refine ⟨max K0 (max K1 K2), fun k hk st l rest cs hI hl hr hp => ?_⟩
  obtain ⟨d, lb, lr, lg, rfl, hd, hn, hline, hb, hrr, hg⟩ := sect_split hl
  have hgb := grp_bol hog hg hr
  obtain ⟨st1, p1, a1, a2, a3⟩ := hK1 k (by omega) st lr (lg ++ rest) .inThen cs (by decide) hI hrr hgb
  obtain ⟨st2, p2, b1, b2, b3⟩ := hK2 k (by omega) st1 lg rest cs a1 hg hr hp
  refine ⟨st2, p1 ++ p2, b1, a2.append b2, ?_⟩
  obtain ⟨t, ht, hcl, rfl⟩ := rest_tail r hor lr hrr
  obtain ⟨gb, hgb', rfl⟩ := grp_group b hob lb hb
  have htb := Pp.tail_bol t ht (lg ++ rest)
  simp only [List.append_assoc]
  have e : [] ++ (p1 ++ p2) = p1 ++ p2 := by simp
  rw [← e]
  refine (Pp.step_open (env := envK env k) hs st st d false cs _ (t.flat ++ (lg ++ rest)) hd (hK0 k (by omega) _ st cur d rfl hs hI.mac hn hline) (Pp.group_bol gb hgb' _ htb)
    (by rw [if_neg (by decide)]; exact Pp.skip_to_tail gb t _ hgb' ht)).trans ?_
  exact a3.trans b3

theorem rest_endif (hs : env.strict = false) {cur : Bytes} {s : PState} : RestOk env files cur s .endif s [] := by
  intro hok
  refine ⟨0, fun k _ st l rest ctx cs _ hI hl hr => ?_⟩
  obtain ⟨t, ht, hcl, rfl⟩ := rest_tail .endif hok l hl
  obtain ⟨d, hd, e, h2, _⟩ := dir_wf (a := []) (by simpa [Rest.items] using hl) (by intro i hi; cases hi)
  have hl : d.line = [] := by
    cases hl : d.line with
    | nil => rfl
    | cons _ _ => rw [hl] at h2; cases h2
  rw [← e]
  exact ⟨st, [], hI, .nil, Pp.step_endif (env := envK env k) hs st d rest _ cs hd hl hr.ne⟩

theorem rest_els (hs : env.strict = false) {cur : Bytes} {s s' : PState} {g : Grp} {out : List Tok} (ih : RunsOk env files cur s.next g s' out) : RestOk env files cur s (.els g) s' out := by
  intro hok
  obtain ⟨K, hK⟩ := ih hok
  refine ⟨K, fun k hk st l rest ctx cs hctx hI hl hr => ?_⟩
  have hce : (ctx == Pp.Ctx.inElse) = false := by simp [hctx]
  obtain ⟨d, lg, e, rfl, hd, hdl, hg, he, hel⟩ := els_split hl
  have heb := Pp.dir_bol e _ he rest
  obtain ⟨st1, p1, a1, a2, a3⟩ := hK k hk st lg (e.flat ++ rest) (⟨.inElse, false⟩ :: cs) hI hg heb (fun _ => wf_notParen he _)
  refine ⟨st1, p1, a1, a2, ?_⟩
  have eo : [] ++ (p1 ++ []) = p1 := by simp
  rw [← eo]
  simp only [List.append_assoc]
  refine Steps.trans (l1 := lg ++ (e.flat ++ rest)) (st1 := withConds st (⟨.inElse, false⟩ :: cs)) (Steps.dirD (env := envK env k) hs hd ⟨0, fun n _ => ?_⟩) ?_
  · have hne : lg ++ (e.flat ++ rest) ≠ [] := by simp [Dir.flat]
    rw [Pp.directive_else _ _ _ _ _ _ _ (Pp.name_is hd), hdl]
    simp only [Pp.dirElse, withConds, hce, List.nil_append, Pp.skipLine_ne _ hne, Bool.false_eq_true, if_false]
  · exact a3.trans (Pp.step_endif (env := envK env k) hs st1 e rest _ cs he hel hr.ne)

theorem rest_taken (hs : env.strict = false) {cur : Bytes} {s s' : PState} {ts : List Tok} {v : Int} {g : Grp} {r : Rest} {out : List Tok} (hv : Value s.mac ts v) (hz : v ≠ 0)
    (ih : RunsOk env files cur s.next g s' out) : RestOk env files cur s (.elif ts g r) s' out := by
  intro hok
  obtain ⟨hog, hor⟩ := hok
  obtain ⟨K0, hK0⟩ := value_val hv
  obtain ⟨K, hK⟩ := ih hog
  refine ⟨max K0 K, fun k hk st l rest ctx cs hctx hI hl hr => ?_⟩
  have hce : (ctx == Pp.Ctx.inElse) = false := by simp [hctx]
  obtain ⟨d, lg, lr, rfl, hd, hline, hg, hrr⟩ := elif_split hl
  obtain ⟨t, ht, hcl, rfl⟩ := rest_tail r hor lr hrr
  have htb := Pp.tail_bol t ht rest
  obtain ⟨st1, p1, a1, a2, a3⟩ := hK k (by omega) st lg (t.flat ++ rest) (⟨.inElif, true⟩ :: cs) hI hg htb (fun _ => Rest.notParen r (a := []) (by rw [List.append_nil]; exact hrr) _)
  refine ⟨st1, p1, a1, a2, ?_⟩
  have eo : [] ++ (p1 ++ []) = p1 := by simp
  rw [← eo]
  simp only [List.append_assoc]
  obtain ⟨N, hN⟩ := hK0 k (by omega) (envK env k) st cur d.line rfl hs hI.mac hline (⟨.inElif, false⟩ :: cs) (lg ++ (t.flat ++ rest)) (grp_bol hog hg htb)
  refine Steps.trans (l1 := lg ++ (t.flat ++ rest)) (st1 := withConds st (⟨.inElif, true⟩ :: cs)) (Steps.dirD (env := envK env k) hs hd ⟨N, fun n hn => ?_⟩) ?_
  · have hv := hN n hn
    have hvz : (v != 0) = true := by simp [hz]
    rw [Pp.directive_elif _ _ _ _ _ _ _ (Pp.name_is hd)]
    simp only [Pp.dirElif, withConds, hce, Bool.false_eq_true, if_false] at hv ⊢
    rw [hv]
    simp only [hvz, if_true]
  · exact a3.trans (Pp.step_rest (env := envK env k) hs st1 t rest .inElif cs ht hcl (by decide) hr)

theorem rest_skipped (hs : env.strict = false) {cur : Bytes} {s s' : PState} {ts : List Tok} {g : Grp} {r : Rest} {out : List Tok} (hv : Value s.mac ts 0)
    (ih : RestOk env files cur s r s' out) : RestOk env files cur s (.elif ts g r) s' out := by
  intro hok
  obtain ⟨hog, hor⟩ := hok
  obtain ⟨K0, hK0⟩ := value_val hv
  obtain ⟨K, hK⟩ := ih hor
  refine ⟨max K0 K, fun k hk st l rest ctx cs hctx hI hl hr => ?_⟩
  have hce : (ctx == Pp.Ctx.inElse) = false := by simp [hctx]
  obtain ⟨d, lg, lr, rfl, hd, hline, hg, hrr⟩ := elif_split hl
  obtain ⟨st1, p1, a1, a2, a3⟩ := hK k (by omega) st lr rest .inElif cs (by decide) hI hrr hr
  obtain ⟨t, ht, hcl, rfl⟩ := rest_tail r hor lr hrr
  obtain ⟨gg, hgg, rfl⟩ := grp_group g hog lg hg
  have htb := Pp.tail_bol t ht rest
  refine ⟨st1, p1, a1, a2, ?_⟩
  have eo : [] ++ p1 = p1 := by simp
  rw [← eo]
  simp only [List.append_assoc]
  obtain ⟨N, hN⟩ := hK0 k (by omega) (envK env k) st cur d.line rfl hs hI.mac hline (⟨.inElif, false⟩ :: cs) (gg.flat ++ (t.flat ++ rest)) (Pp.group_bol gg hgg _ htb)
  refine Steps.trans (l1 := t.flat ++ rest) (st1 := withConds st (⟨.inElif, false⟩ :: cs)) (Steps.dirD (env := envK env k) hs hd ⟨N, fun n hn => ?_⟩) a3
  have hv := hN n hn
  rw [Pp.directive_elif _ _ _ _ _ _ _ (Pp.name_is hd)]
  simp only [Pp.dirElif, withConds, hce, Bool.false_eq_true, if_false] at hv ⊢
  rw [hv]
  simp only [bne_self_eq_false, Bool.false_eq_true, if_false, Pp.skip_to_tail gg t _ hgg ht, Except.map]

mutual
theorem runs_ok (hs : env.strict = false) (hfiles : ∀ p G, files p = some G → IsGrp env p G) : ∀ {cur : Bytes} {s : PState} {G : Grp} {s' : PState} {out : List Tok},
    Runs env files cur s G s' out → RunsOk env files cur s G s' out
  | _, _, _, _, _, .nil => fun _ => ⟨0, fun k _ st l rest cs hI hl _ _ => by cases hl; exact ⟨st, [], hI, .nil, Steps.refl _ _ _⟩⟩
  | _, _, _, _, _, .text h1 _ h => runs_text hs h1 (runs_ok hs hfiles h)
  | _, _, _, _, _, .define h => runs_define hs h (runs_ok hs hfiles h)
  | _, _, _, _, _, .defineF h => runs_defineF hs (runs_ok hs hfiles h)
  | _, _, _, _, _, .undef h => runs_undef hs (runs_ok hs hfiles h)
  | _, _, _, _, _, .incl h1 h2 h3 h4 h5 h6 h7 => runs_incl hs hfiles h1 h2 h3 h4 h5 h6 h7 (runs_ok hs hfiles h6) (runs_ok hs hfiles h7)
  | _, _, _, _, _, .again h1 h2 h3 h => runs_again hs h1 h2 h3 (runs_ok hs hfiles h)
  | _, _, _, _, _, .once h => runs_once hs (runs_ok hs hfiles h)
  | _, _, _, _, _, .pragma h1 h => runs_pragma hs h1 (runs_ok hs hfiles h)
  | _, _, _, _, _, .taken h1 h2 h3 => runs_taken hs h1 (runs_ok hs hfiles h2) (runs_ok hs hfiles h3)
  | _, _, _, _, _, .skipped h1 h2 h3 => runs_skipped hs h1 (rest_ok hs hfiles h2) (runs_ok hs hfiles h3)
theorem rest_ok (hs : env.strict = false) (hfiles : ∀ p G, files p = some G → IsGrp env p G) : ∀ {cur : Bytes} {s : PState} {r : Rest} {s' : PState} {out : List Tok},
    RunsRest env files cur s r s' out → RestOk env files cur s r s' out
  | _, _, _, _, _, .endif => rest_endif hs
  | _, _, _, _, _, .els h => rest_els hs (runs_ok hs hfiles h)
  | _, _, _, _, _, .taken h1 h2 h => rest_taken hs h1 h2 (runs_ok hs hfiles h)
  | _, _, _, _, _, .skipped h1 h => rest_skipped hs h1 (rest_ok hs hfiles h)
end

end Toycc.Src
