import Verif.Scope.Proof
namespace Toycc.Scope
open Toycc.HashMap (Key)

/-- A definition with a tag: body and end. -/
theorem sim_def {P f fs φ} {st : St} {c c0 c1 : CSt} {b : Items} (A : At P f fs φ st c) (x : Key) (n : Nat) (P0 : List (Key × Nat)) (evs0 : List Ev)
    (A0 : At P0 f fs φ { st with next := st.next + 1 } c0) (hP0 : ∀ p ∈ P0, p ∈ P ∨ p.1 = x) (hP : ∀ p ∈ P, p ∈ P0)
    (hpast : c0.past = evs0 ++ c.past) (hbal : Bal (inSoft c.past 0) evs0)
    (hk : ∀ y m, hereS (onTag y) c.past 0 = some m → hereS (onTag y) c0.past 0 = some m)
    (hh : hereS (onTag x) c0.past 0 = some n)
    (hb : Sim P0 fs φ { st with next := st.next + 1 } c0 (fun y => b.mentions y) (items b { st with next := st.next + 1 }) c1) :
    Sim P fs φ st c (fun y => (Item.tagDef (some x) b).mentions y) (item (.tagDef (some x) b) st) (c1.say (.tag (some n))) := by
  obtain ⟨st1, f1, φ1, P1, evs1, e1, o1⟩ := hb
  have hnone : φ1 st.next = none := by
    cases h : φ1 st.next with
    | none => rfl
    | some m =>
      rcases o1.fresh _ _ h with h | h
      · rw [A.next_none] at h; cases h
      · exact absurd (show st.next + 1 ≤ st.next from h) (by omega)
  have hlt : st.next < st1.next := o1.next
  obtain ⟨st3, f3, φ3, P3, e3, A3, hE, hn, h31, h32, h33⟩ := finish_def o1.at' x n st.next hnone hlt (o1.keep x n hh)
  refine ⟨st3, f3, φ3, P3, evs1 ++ evs0, ?_, A3, ?_, ?_, o1.ext.trans hE, by omega, ?_, ?_, ?_, ?_⟩
  · simp only [item, e1, bind, Except.bind]
    exact e3
  · rw [say_past, o1.past, hpast]; simp
  · have hb1 := o1.bal
    rw [hpast, hbal.inSoft] at hb1
    exact hb1.append hbal
  · intro p hp
    obtain ⟨h1, h2⟩ := h31 p hp
    rcases hP0 p (o1.sub p h1) with h | h
    · exact h
    · exact absurd h h2
  · intro p hp hm
    simp only [Item.mentions, Bool.or_eq_false_iff] at hm
    refine h32 p (o1.stay p (hP p hp) hm.2) ?_
    intro e
    rw [e] at hm
    simp at hm
  · intro a m h
    rcases h33 a m h with h | h
    · rcases o1.fresh a m h with h | h
      · exact .inl h
      · exact .inr (Nat.le_trans (Nat.le_succ _) h)
    · exact .inr (by omega)
  · intro y m h
    rw [say_past]
    exact o1.keep y m (hk y m h)

theorem mentions_some (x : Key) (b : Items) (y : Key) : b.mentions y = true → (Item.tagDef (some x) b).mentions y = true := by
  intro h; simp [Item.mentions, h]

mutual
theorem mention_of_enum : ∀ (i : Item) (x : Key), i.mentionsEnum x = true → i.mentions x = true
  | .enumRef _, x, h => by simpa [Item.mentionsEnum, Item.mentions] using h
  | .tagDef _ b, x, h => by
    simp only [Item.mentionsEnum] at h
    simp [Item.mentions, mentions_of_enum b x h]
  | .enumDef _ b, x, h => by
    simp only [Item.mentionsEnum] at h
    simp [Item.mentions, mentions_of_enum b x h]
  | .fdef _ _ _ b, x, h | .proto b, x, h | .block b, x, h | .forS b, x, h | .sel b, x, h => mentions_of_enum b x h
  | .use _, x, h | .decl _ _, x, h | .temp _, x, h | .fdecl _, x, h | .param _ _, x, h | .tagRef _, x, h | .tagFwd _, x, h => by cases h
theorem mentions_of_enum : ∀ (is : Items) (x : Key), is.mentionsEnum x = true → is.mentions x = true
  | .nil, x, h => by cases h
  | .cons i r, x, h => by
    simp only [Items.mentionsEnum, Bool.or_eq_true] at h
    simp only [Items.mentions, Bool.or_eq_true]
    rcases h with h | h
    · exact .inl (mention_of_enum i x h)
    · exact .inr (mentions_of_enum r x h)
end

mutual
theorem sim_item : ∀ (i : Item) {P f fs φ} {st : St} {c : CSt}, At P f fs φ st c → i.Wf → (cItem i c).odd = [] →
    Fit P f fs i.hasBlock (fun x => i.mentions x) (fun x => i.mentionsEnum x) →
    Sim P fs φ st c (fun x => i.mentions x) (item i st) (cItem i c)
  | .use x, P, f, fs, φ, st, c, A, wf, odd, fit => by
    simp only [cItem, oddIf_odd, say_odd] at odd
    have hv : (visible (onVar x) c.past 0).map Prod.fst = fvar (f :: fs) x := by
      rw [A.rel.var x wf]
      cases h : visible (onVar x) c.past 0 with
      | none => rw [(visible_onVar x c.past 0).2 h]; rfl
      | some p =>
        obtain ⟨i, b⟩ := p
        rw [h] at odd
        cases b with
        | true => simp at odd
        | false => rw [(visible_onVar x c.past 0).1 i h]; rfl
    have e : item (.use x) st = .ok { st with log := st.log ++ [.var (fvar (f :: fs) x)] } := by
      simp only [item, view_findVar A.view, bind, Except.bind]
    rw [e]
    refine sim_same (st' := { st with log := st.log ++ [.var (fvar (f :: fs) x)] }) (c' := cItem (.use x) c) A rfl rfl (by simp [cItem]) (by simp [cItem]) ?_ _
    simp only [cItem, oddIf_log, say_log]
    rw [hv]
    exact A.log.sayVar _
  | .decl x id, P, f, fs, φ, st, c, A, wf, odd, fit => by
    simp only [cItem, declare_odd] at odd
    obtain ⟨s', e, hv⟩ := view_pushScope A.view x (.obj id)
    refine ⟨{ st with scopes := s' }, _, φ, P, [.var x (.obj id)], ?_, ⟨hv, ?_, ?_⟩, by simp [cItem], ?_, Ext.refl _, Nat.le_refl _, fun p hp => hp,
      fun p hp _ => hp, fun _ _ h => .inl h, ?_⟩
    · simp only [item, e, bind, Except.bind]
    · simpa [cItem] using A.rel.pushVar odd.2 x (.obj id)
    · simpa [cItem] using A.log
    · rw [odd.2]; exact .var _ _ _ (.nil _)
    · intro y n h; simpa [cItem, hereS, onTag] using h
  | .temp x, P, f, fs, φ, st, c, A, wf, odd, fit => by
    obtain ⟨s', e, hv⟩ := view_pushScope A.view x (.impl x)
    refine ⟨{ st with scopes := s' }, _, φ, P, [], ?_, ⟨hv, A.rel.pushTemp x wf _, A.log⟩, rfl, .nil _, Ext.refl _, Nat.le_refl _, fun p hp => hp,
      fun p hp _ => hp, fun _ _ h => .inl h, fun _ _ h => h⟩
    simp only [item, e, bind, Except.bind]
  | .fdecl x, P, f, fs, φ, st, c, A, wf, odd, fit => by
    obtain ⟨s, e, _, f', φ', P', evs, o⟩ := sim_func A x wf (fun y => (Item.fdecl x).mentions y) rfl odd
    exact ⟨_, f', φ', P', evs, by simp only [item, e, bind, Except.bind], o⟩
  | .fdef x ps va b, P, f, fs, φ, st, c, A, wf, odd, fit => by
    obtain ⟨wx, wps, wnd, wb⟩ := wf
    have hP : P = [] := fit.block rfl
    subst hP
    simp only [cItem, add_odd] at odd
    have oddb := cItems_odd b _ odd
    obtain ⟨s, e, hs, f', φ', P', evs, o⟩ := sim_func A x wx (fun y => b.mentions y) rfl oddb
    have hP' : P' = [] := List.eq_nil_iff_forall_not_mem.mpr fun p hp => by cases o.sub p hp
    subst hP'
    -- names for the two states
    generalize hc1 : ((c.oddIf (atFile (onDecl x) c.past == some .fn && (visible (onVar x) c.past 0).map Prod.fst != some .fn) .funShadow).declare x .fn) = c1
      at odd o
    have hci : cItem (.fdef x ps va b) c = (cItems b { past := ((implNames va).map fun (p : Key × Ident) => Ev.var p.1 p.2).reverse ++
        ((ps.map fun (p : Key × Nat) => Ev.var p.1 (.obj p.2)).reverse ++ .opened false :: c1.past), next := c1.next, log := c1.log, odd := c1.odd }).add .closed := by
      rw [← hc1]; rfl
    rw [hci]
    replace odd : (cItems b { past := ((implNames va).map fun (p : Key × Ident) => Ev.var p.1 p.2).reverse ++
        ((ps.map fun (p : Key × Nat) => Ev.var p.1 (.obj p.2)).reverse ++ .opened false :: c1.past), next := c1.next, log := c1.log, odd := c1.odd }).odd = [] := odd
    have o' := o
    have A1 := o.at'
    have R1 : Rel [] f' fs st.next c1.past c1.next φ' := A1.rel
    have R2 := R1.openHard
    -- parameters
    have hps : (ps.map fun (p : Key × Nat) => Ev.var p.1 (.obj p.2)) = (ps.map fun (p : Key × Nat) => (p.1, Ident.obj p.2)).map fun p => Ev.var p.1 p.2 := by
      simp [List.map_map, Function.comp_def]
    have R3 := sim_pushAll R2 rfl (ps.map fun (p : Key × Nat) => (p.1, Ident.obj p.2))
    rw [← hps] at R3
    have hs3 : inSoft ((ps.map fun (p : Key × Nat) => Ev.var p.1 (.obj p.2)).reverse ++ .opened false :: c1.past) 0 = false := by
      rw [hps, (bal_vars _).inSoft]; rfl
    have R4 := sim_pushAll R3 hs3 (implNames va)
    have hpast4 : ((implNames va).map fun (p : Key × Ident) => Ev.var p.1 p.2).reverse ++
        ((ps.map fun (p : Key × Nat) => Ev.var p.1 (.obj p.2)).reverse ++ .opened false :: c1.past) =
        (((implNames va).map fun (p : Key × Ident) => Ev.var p.1 p.2).reverse ++ (ps.map fun (p : Key × Nat) => Ev.var p.1 (.obj p.2)).reverse) ++
          .opened false :: c1.past := by simp
    have hb4 : Bal false (((implNames va).map fun (p : Key × Ident) => Ev.var p.1 p.2).reverse ++ (ps.map fun (p : Key × Nat) => Ev.var p.1 (.obj p.2)).reverse) := by
      rw [hps]
      exact (bal_vars _).append (bal_vars _)
    generalize hq : ((implNames va).map fun (p : Key × Ident) => Ev.var p.1 p.2).reverse ++
        ((ps.map fun (p : Key × Nat) => Ev.var p.1 (.obj p.2)).reverse ++ .opened false :: c1.past) = past4 at R4 odd hpast4
    generalize hev : (((implNames va).map fun (p : Key × Ident) => Ev.var p.1 p.2).reverse ++ (ps.map fun (p : Key × Nat) => Ev.var p.1 (.obj p.2)).reverse) = evs4
      at hpast4 hb4
    have hs4 : inSoft past4 0 = false := by rw [hpast4, hb4.inSoft]; rfl
    have hl4 : 0 < level past4 := by rw [hpast4, hb4.level, level]; have := R1.lev; omega
    have ht4 : ∀ y, hereS (onTag y) past4 0 = none := by
      intro y
      rw [← hq, hereS_vars, hps, hereS_vars]
      rfl
    have R5 := R4.extra hs4 hl4 ht4
    -- toycc
    obtain ⟨s3, e3, v3⟩ := view_pushAll (view_enter A1.view) (ps.reverse.map fun (p : Key × Nat) => (p.1, Ident.obj p.2))
    obtain ⟨s4, e4, v4⟩ := view_pushAll v3 (implNames va)
    have hrev : updAll F.empty (ps.reverse.map fun (p : Key × Nat) => (p.1, Ident.obj p.2)) = updAll F.empty (ps.map fun (p : Key × Nat) => (p.1, Ident.obj p.2)) := by
      rw [List.map_reverse, updAll_reverse]
      rw [List.map_map]
      exact wnd
    rw [hrev] at v4
    have v5 := view_enter v4
    have A5 : At [] F.empty _ φ' { st with scopes := enterScope s4 } { past := past4, next := c1.next, log := c1.log, odd := c1.odd } :=
      ⟨v5, R5, A1.log⟩
    obtain ⟨st6, f6, φ6, P6, evs6, e6, o6⟩ := sim_items b A5 wb odd ⟨fun _ => rfl, (fun p hp => by cases hp), (fun p hp => by cases hp)⟩
    obtain ⟨s7, e7, v7⟩ := view_leave o6.at'.view
    obtain ⟨s8, e8, v8⟩ := view_leave v7
    have hp6 : (cItems b { past := past4, next := c1.next, log := c1.log, odd := c1.odd }).past = (evs6 ++ evs4) ++ .opened false :: c1.past := by
      rw [o6.past, hpast4]; simp
    have hb6 : Bal false (evs6 ++ evs4) := by
      have := o6.bal
      rw [show inSoft (CSt.mk past4 c1.next c1.log c1.odd).past 0 = false from hs4] at this
      exact this.append hb4
    have hfin : ∀ evs0, c1.past = evs0 ++ c.past → Bal (inSoft c.past 0) evs0 → Sim [] fs φ st c (fun y => (Item.fdef x ps va b).mentions y) (item (.fdef x ps va b) st)
        ((cItems b { past := past4, next := c1.next, log := c1.log, odd := c1.odd }).add .closed) := by
      intro evs0 h0 hb0
      refine ⟨{ st6 with scopes := s8 }, f', φ6, [], .closed :: ((evs6 ++ evs4) ++ .opened false :: evs0), ?_, ⟨v8, ?_, o6.at'.log⟩, ?_, .closed _ _ _ _ _ hb6 hb0,
        o.ext.trans o6.ext, o6.next, (fun p hp => by cases hp), (fun p hp => by cases hp), ?_, ?_⟩
      · simp only [item, e, bind, Except.bind, e3, e4, e6, e7, e8]
      · rw [add_past, hp6]
        exact R1.closeHard o6.at'.rel o6.ext hb6 false
      · rw [add_past, hp6, h0]; simp
      · intro a m h
        rcases o6.fresh a m h with h | h
        · exact o.fresh a m h
        · exact .inr h
      · intro y m h
        rw [add_past, hp6, close_hereS _ hb6]
        exact o.keep y m h
    exact hfin evs o.past o.bal
  | .param x id, P, f, fs, φ, st, c, A, wf, odd, fit => by
    refine ⟨st, f, φ, P, [.param x id], rfl, ⟨A.view, ?_, A.log⟩, rfl, .param _ _ _ _ (.nil _), Ext.refl _, Nat.le_refl _, fun p hp => hp,
      fun p hp _ => hp, fun _ _ h => .inl h, ?_⟩
    · have R := A.rel
      exact
      { R with
        var := fun y hy => by rw [R.var y hy]; simp [cItem, visible, onDecl]
        file := fun y hy => by rw [R.file y hy]; simp [cItem, atFile, onDecl]
        tag := fun y hy => by rw [R.tag y hy]; simp [cItem, visible, onTag]
        here := fun y hy => by rw [R.here y hy]; simp [cItem, hereS, onTag]
        pend := fun y n hy => by
          obtain ⟨h1, h2, h3⟩ := R.pend y n hy
          exact ⟨h1, by simpa [cItem, hereS, onTag] using h2, h3⟩
        soft := fun h y => by simpa [cItem, Scope.here, onTag] using R.soft h y }
    · intro y n h; simpa [cItem, hereS, onTag] using h
  | .proto b, P, f, fs, φ, st, c, A, wf, odd, fit =>
    Sim.soft A (sim_items b (c := c.add (.opened true)) ⟨A.view, A.rel.openSoft, A.log⟩ wf odd fit)
  | .sel b, P, f, fs, φ, st, c, A, wf, odd, fit =>
    Sim.soft A (sim_items b (c := c.add (.opened true)) ⟨A.view, A.rel.openSoft, A.log⟩ wf odd fit)
  | .block b, P, f, fs, φ, st, c, A, wf, odd, fit => by
    have hP : P = [] := fit.block rfl
    subst hP
    exact Sim.hard A (sim_items b (c := c.add (.opened false)) ⟨view_enter A.view, A.rel.openHard, A.log⟩ wf odd
      ⟨fun _ => rfl, (fun p hp => by cases hp), (fun p hp => by cases hp)⟩)
  | .forS b, P, f, fs, φ, st, c, A, wf, odd, fit => by
    have hP : P = [] := fit.block rfl
    subst hP
    exact Sim.hard A (sim_items b (c := c.add (.opened false)) ⟨view_enter A.view, A.rel.openHard, A.log⟩ wf odd
      ⟨fun _ => rfl, (fun p hp => by cases hp), (fun p hp => by cases hp)⟩)
  | .tagRef x, P, f, fs, φ, st, c, A, wf, odd, fit => by
    have hm : (fun y => (Item.tagRef x).mentions y) x = true := by simp [Item.mentions]
    simp only [cItem] at odd ⊢
    cases hv : visible (onTag x) c.past 0 with
    | some n =>
      rcases pend_or P x with ⟨m, hp⟩ | hp
      · have h := visible_of_hereS _ _ _ _ (A.rel.pend x m hp).2.1
        rw [hv] at h
        cases h
        obtain ⟨st', f', e, o⟩ := ref_pending A x n hp (fit.mention _ hp hm) _ hm
        exact ⟨st', f', _, _, _, e, o⟩
      · have := A.rel.tag x hp
        rw [hv] at this
        obtain ⟨a, ha, hn⟩ := map_some_inj this
        exact ref_known A x a n ha hn _
    | none =>
      rw [hv] at odd
      simp only [say_odd, newTag_odd] at odd
      have hp : ∀ m, (x, m) ∉ P := fun m hp => by
        rw [visible_of_hereS _ _ _ _ (A.rel.pend x m hp).2.1] at hv; cases hv
      have := A.rel.tag x hp
      rw [hv] at this
      refine ref_new A x (map_none this) ?_ odd.2 _ hm
      cases hh : hereS (onTag x) c.past 0 with
      | none => rfl
      | some n => rw [visible_of_hereS _ _ _ _ hh] at hv; cases hv
  | .tagFwd x, P, f, fs, φ, st, c, A, wf, odd, fit => by
    have hm : (fun y => (Item.tagFwd x).mentions y) x = true := by simp [Item.mentions]
    simp only [cItem] at odd ⊢
    cases hv : here (onTag x) c.past 0 with
    | some n =>
      have hh : hereS (onTag x) c.past 0 = some n := by rw [← here_eq_hereS _ _ _ (A.rel.notSoft hv)]; exact hv
      rcases pend_or P x with ⟨m, hp⟩ | hp
      · have h := (A.rel.pend x m hp).2.1
        rw [hh] at h
        cases h
        obtain ⟨st', f', e, o⟩ := ref_pending A x n hp (fit.mention _ hp hm) _ hm
        exact ⟨st', f', _, _, _, e, o⟩
      · have := A.rel.tag x hp
        rw [visible_of_hereS _ _ _ _ hh] at this
        obtain ⟨a, ha, hn⟩ := map_some_inj this
        exact ref_known A x a n ha hn _
    | none =>
      rw [hv] at odd
      simp only [say_odd, newTag_odd, oddIf_odd, oddIf_past] at odd
      obtain ⟨⟨_, hvis⟩, hs⟩ := odd
      have hvis : visible (onTag x) c.past 0 = none := by
        cases h : visible (onTag x) c.past 0 with
        | none => rfl
        | some n => rw [h] at hvis; cases hvis
      have hp : ∀ m, (x, m) ∉ P := fun m hp => by
        rw [visible_of_hereS _ _ _ _ (A.rel.pend x m hp).2.1] at hvis; cases hvis
      have := A.rel.tag x hp
      rw [hvis] at this
      have hc : (c.oddIf (visible (onTag x) c.past 0).isSome .fwdShadow) = c := by rw [hvis]; rfl
      simp only [hc]
      exact ref_new A x (map_none this) (by rw [← here_eq_hereS _ _ _ hs]; exact hv) hs _ hm
  | .tagDef none b, P, f, fs, φ, st, c, A, wf, odd, fit => by
    have hsub : Fit P f fs b.hasBlock (fun y => b.mentions y) (fun y => b.mentionsEnum y) :=
      fit.sub (fun h => h) (fun y h => by simp [Item.mentions, h]) (fun y h => h)
    have A0 : At P f fs φ { st with next := st.next + 1 } (c.oddIf b.hasBlock .blockInType) :=
      ⟨A.view, by simpa using A.rel.mono (Nat.le_succ _), by simpa using A.log⟩
    obtain ⟨st1, f1, φ1, P1, evs1, e1, o1⟩ := sim_items b A0 wf odd hsub
    refine ⟨st1, f1, φ1, P1, evs1, ?_, o1.at', by simpa [cItem] using o1.past, by simpa using o1.bal, o1.ext, Nat.le_trans (Nat.le_succ _) o1.next, o1.sub, ?_, ?_, ?_⟩
    · simp only [item, e1, bind, Except.bind]
    · intro p hp hm
      exact o1.stay p hp (by simpa [Item.mentions] using hm)
    · intro a m h
      rcases o1.fresh a m h with h | h
      · exact .inl h
      · exact .inr (Nat.le_trans (Nat.le_succ _) h)
    · intro y m h; exact o1.keep y m (by simpa using h)
  | .tagDef (some x) b, P, f, fs, φ, st, c, A, wf, odd, fit => by
    simp only [cItem, oddIf_past, oddIf_next] at odd ⊢
    cases hv : here (onTag x) c.past 0 with
    | some n =>
      rw [hv] at odd
      simp only [say_odd] at odd
      have hh : hereS (onTag x) c.past 0 = some n := by rw [← here_eq_hereS _ _ _ (A.rel.notSoft hv)]; exact hv
      have hsub : Fit P f fs b.hasBlock (fun y => b.mentions y) (fun y => b.mentionsEnum y) :=
        fit.sub (fun h => h) (mentions_some x b) (fun y h => h)
      have A0 : At P f fs φ { st with next := st.next + 1 } ((c.oddIf b.hasBlock .blockInType).oddIf (b.mentionsEnum x) .selfTag) :=
        ⟨A.view, by simpa using A.rel.mono (Nat.le_succ _), by simpa using A.log⟩
      exact sim_def A x n P [] A0 (fun p hp => .inl hp) (fun p hp => hp) (by simp) (.nil _) (fun y m h => by simpa using h) (by simpa using hh)
        (sim_items b A0 wf odd hsub)
    | none =>
      rw [hv] at odd
      simp only [say_odd] at odd
      have hodd := cItems_odd b _ odd
      simp only [newTag_odd, oddIf_odd, oddIf_past] at hodd
      obtain ⟨⟨⟨_, hnb⟩, hself⟩, hs⟩ := hodd
      simp only [Bool.or_eq_false_iff] at hself
      have hh : hereS (onTag x) c.past 0 = none := by rw [← here_eq_hereS _ _ _ hs]; exact hv
      have hxP : ∀ m, (x, m) ∉ P := fun m hp => by rw [(A.rel.pend x m hp).2.1] at hh; cases hh
      have R0 := (A.rel.mono (Nat.le_succ st.next)).declTag x hh hs
      have A0 : At ((x, c.next) :: P) f fs φ { st with next := st.next + 1 }
          (((c.oddIf b.hasBlock .blockInType).oddIf ((visible (onTag x) c.past 0).isSome && b.mentions x || b.mentionsEnum x) .selfTag).newTag x) :=
        ⟨A.view, by simpa using R0, by simpa using A.log⟩
      have hfit : Fit ((x, c.next) :: P) f fs b.hasBlock (fun y => b.mentions y) (fun y => b.mentionsEnum y) := by
        refine ⟨fun h => (by rw [hnb] at h; cases h), ?_, ?_⟩
        · intro p hp hm
          rcases List.mem_cons.mp hp with e | hp
          · subst e
            have hm : b.mentions x = true := hm
            have hvn : visible (onTag x) c.past 0 = none := by
              have := hself.1
              rw [hm, Bool.and_true] at this
              cases h : visible (onTag x) c.past 0 with
              | none => rfl
              | some n => rw [h] at this; cases this
            have := A.rel.tag x hxP
            rw [hvn] at this
            exact map_none this
          · exact fit.mention p hp (mentions_some x b _ hm)
        · intro p hp
          rcases List.mem_cons.mp hp with e | hp
          · subst e; exact hself.2
          · exact fit.enum p hp
      refine sim_def A x c.next _ [.tag x c.next] A0 ?_ (fun p hp => List.mem_cons_of_mem _ hp) (by simp) (by rw [hs]; exact .tag _ _ _ (.nil _)) ?_ ?_
        (sim_items b A0 wf odd hfit)
      · intro p hp
        rcases List.mem_cons.mp hp with e | hp
        · exact .inr (by rw [e])
        · exact .inl hp
      · intro y m h
        by_cases hxy : x = y
        · subst hxy; rw [hh] at h; cases h
        · simpa [hereS, onTag, hxy] using h
      · simp [hereS, onTag]
  | .enumRef x, P, f, fs, φ, st, c, A, wf, odd, fit => by
    have hp : ∀ m, (x, m) ∉ P := fun m hp => by
      have := fit.enum _ hp
      simp [Item.mentionsEnum] at this
    have e : item (.enumRef x) st = .ok { st with log := st.log ++ [.tag (ftag (f :: fs) x)] } := by
      simp only [item, view_findTag A.view, bind, Except.bind]
    rw [e]
    refine sim_same (st' := { st with log := st.log ++ [.tag (ftag (f :: fs) x)] }) (c' := cItem (.enumRef x) c) A rfl rfl (by simp [cItem]) (by simp [cItem]) ?_ _
    exact A.log.sayTag (A.rel.tag x hp)
  | .enumDef none b, P, f, fs, φ, st, c, A, wf, odd, fit => by
    have hsub : Fit P f fs b.hasBlock (fun y => b.mentions y) (fun y => b.mentionsEnum y) :=
      fit.sub (fun h => h) (fun y h => by simp [Item.mentions, h]) (fun y h => h)
    have A0 : At P f fs φ { st with next := st.next + 1 } (c.oddIf b.hasBlock .blockInType) :=
      ⟨A.view, by simpa using A.rel.mono (Nat.le_succ _), by simpa using A.log⟩
    obtain ⟨st1, f1, φ1, P1, evs1, e1, o1⟩ := sim_items b A0 wf odd hsub
    refine ⟨st1, f1, φ1, P1, evs1, ?_, o1.at', by simpa [cItem] using o1.past, by simpa using o1.bal, o1.ext, Nat.le_trans (Nat.le_succ _) o1.next, o1.sub, ?_, ?_, ?_⟩
    · simp only [item, e1, bind, Except.bind]
    · intro p hp hm
      exact o1.stay p hp (by simpa [Item.mentions] using hm)
    · intro a m h
      rcases o1.fresh a m h with h | h
      · exact .inl h
      · exact .inr (Nat.le_trans (Nat.le_succ _) h)
    · intro y m h; exact o1.keep y m (by simpa using h)
  | .enumDef (some x) b, P, f, fs, φ, st, c, A, wf, odd, fit => by
    simp only [cItem, oddIf_past, oddIf_next, say_odd] at odd ⊢
    have hodd := cItems_odd b _ odd
    simp only [newTag_odd, oddIf_odd, oddIf_past] at hodd
    obtain ⟨⟨⟨⟨_, hnb⟩, hre⟩, hself⟩, hs⟩ := hodd
    have hv : here (onTag x) c.past 0 = none := by
      cases h : here (onTag x) c.past 0 with
      | none => rfl
      | some n => rw [h] at hre; cases hre
    have hh : hereS (onTag x) c.past 0 = none := by rw [← here_eq_hereS _ _ _ hs]; exact hv
    have R0 := (A.rel.mono (Nat.le_succ st.next)).declTag x hh hs
    have A0 : At ((x, c.next) :: P) f fs φ { st with next := st.next + 1 }
        ((((c.oddIf b.hasBlock .blockInType).oddIf (here (onTag x) c.past 0).isSome .enumRedef).oddIf (b.mentions x) .selfTag).newTag x) :=
      ⟨A.view, by simpa using R0, by simpa using A.log⟩
    have hme : b.mentionsEnum x = false := by
      cases h : b.mentionsEnum x with
      | false => rfl
      | true => rw [mentions_of_enum b x h] at hself; cases hself
    have hfit : Fit ((x, c.next) :: P) f fs b.hasBlock (fun y => b.mentions y) (fun y => b.mentionsEnum y) := by
      refine ⟨fun h => (by rw [hnb] at h; cases h), ?_, ?_⟩
      · intro p hp hm
        rcases List.mem_cons.mp hp with e | hp
        · subst e
          have hm : b.mentions x = true := hm
          rw [hm] at hself; cases hself
        · exact fit.mention p hp (by simpa [Item.mentions] using .inr hm)
      · intro p hp
        rcases List.mem_cons.mp hp with e | hp
        · subst e; exact hme
        · exact fit.enum p hp
    obtain ⟨st1, f1, φ1, P1, evs1, e1, o1⟩ := sim_items b A0 wf odd hfit
    have hnone : φ1 st.next = none := by
      cases h : φ1 st.next with
      | none => rfl
      | some m =>
        rcases o1.fresh _ _ h with h | h
        · rw [A.next_none] at h; cases h
        · exact absurd (show st.next + 1 ≤ st.next from h) (by omega)
    have hlt : st.next < st1.next := o1.next
    have hstay := o1.stay (x, c.next) List.mem_cons_self hself
    obtain ⟨s', es, hv'⟩ := view_pushTag o1.at'.view x st.next
    refine ⟨{ st1 with scopes := s', log := st1.log ++ [.tag (some st.next)] }, _, updφ φ1 st.next c.next, P1.filter (fun p => p.1 != x), evs1 ++ [.tag x c.next], ?_,
      ⟨hv', ?_, ?_⟩, ?_, ?_, o1.ext.trans (ext_updφ _ hnone), by have := o1.next; exact Nat.le_trans (Nat.le_succ _) this, ?_, ?_, ?_, ?_⟩
    · simp only [item, e1, bind, Except.bind, es]
    · exact o1.at'.rel.enterTag x c.next hstay st.next hnone (Nat.le_refl _) hlt
    · exact (o1.at'.log.ext (ext_updφ _ hnone)).sayTag (by simp [updφ])
    · rw [say_past, o1.past]; simp
    · have hb1 := o1.bal
      simp only [newTag_past, oddIf_past, oddIf_next] at hb1
      have : inSoft (.tag x c.next :: c.past) 0 = inSoft c.past 0 := rfl
      rw [this] at hb1
      refine hb1.append ?_
      rw [hs]; exact .tag _ _ _ (.nil _)
    · intro p hp
      obtain ⟨h1, h2⟩ := List.mem_filter.mp hp
      rcases List.mem_cons.mp (o1.sub p h1) with e | h
      · subst e; simp at h2
      · exact h
    · intro p hp hm
      simp only [Item.mentions, Bool.or_eq_false_iff] at hm
      refine List.mem_filter.mpr ⟨o1.stay p (List.mem_cons_of_mem _ hp) hm.2, ?_⟩
      simp only [bne_iff_ne, ne_eq]
      intro e
      rw [e] at hm
      simp at hm
    · intro a m h
      rcases updφ_some h with h | h
      · rcases o1.fresh a m h with h | h
        · exact .inl h
        · exact .inr (Nat.le_trans (Nat.le_succ _) h)
      · exact .inr (by omega)
    · intro y m h
      rw [say_past]
      apply o1.keep
      by_cases hxy : x = y
      · subst hxy; rw [hh] at h; cases h
      · simpa [hereS, onTag, hxy] using h
theorem sim_items : ∀ (is : Items) {P f fs φ} {st : St} {c : CSt}, At P f fs φ st c → is.Wf → (cItems is c).odd = [] →
    Fit P f fs is.hasBlock (fun x => is.mentions x) (fun x => is.mentionsEnum x) →
    Sim P fs φ st c (fun x => is.mentions x) (items is st) (cItems is c)
  | .nil, P, f, fs, φ, st, c, A, wf, odd, fit => sim_same A rfl rfl rfl rfl A.log _
  | .cons i r, P, f, fs, φ, st, c, A, wf, odd, fit => by
    have oddi := cItems_odd r _ odd
    have f1 : Fit P f fs i.hasBlock (fun x => i.mentions x) (fun x => i.mentionsEnum x) :=
      fit.sub (fun h => by simp [Items.hasBlock, h]) (fun y h => by simp [Items.mentions, h]) (fun y h => by simp [Items.mentionsEnum, h])
    have f2 : Fit P f fs r.hasBlock (fun x => r.mentions x) (fun x => r.mentionsEnum x) :=
      fit.sub (fun h => by simp [Items.hasBlock, h]) (fun y h => by simp [Items.mentions, h]) (fun y h => by simp [Items.mentionsEnum, h])
    obtain ⟨st1, g1, φ1, P1, evs1, e1, o1⟩ := sim_item i A wf.1 oddi f1
    obtain ⟨st2, g2, φ2, P2, evs2, e2, o2⟩ := sim_items r o1.at' wf.2 odd (f2.next o1)
    refine ⟨st2, g2, φ2, P2, _, ?_, o1.trans o2⟩
    simp only [items, e1, bind, Except.bind, e2]
end

end Toycc.Scope
