import Verif.Pp.TermLex
/-! Termination of macro expansion (C22): what one step does to the working list. -/
namespace Toycc.Pp
open Toycc.Lex (Kind asc)

/-- Every macro is filed under its own name (add_macro). -/
def Named (ms : List (Bytes × Macro)) : Prop := ∀ p ∈ ms, p.2.name = p.1

/-- hashmap_get2 on a table. -/
def look (ms : List (Bytes × Macro)) (name : Bytes) : Option Macro := (ms.find? fun p => p.1 == name).map (·.2)

theorem look_named {ms : List (Bytes × Macro)} (hn : Named ms) {name : Bytes} {m : Macro} (h : look ms name = some m) :
    m.name = name ∧ name ∈ ms.map (·.1) := by
  unfold look at h
  cases hf : ms.find? (fun p => p.1 == name) with
  | none => rw [hf] at h; cases h
  | some p =>
    rw [hf] at h
    cases h
    have h1 := List.mem_of_find?_eq_some hf
    have h2 := List.find?_some hf
    have h2 : p.1 = name := by simpa using h2
    exact ⟨by rw [hn p h1, h2], List.mem_map.mpr ⟨p, h1, h2⟩⟩

theorem findMacro_look (st : St) (t : PTok) (m : Macro) (h : findMacro st t = some m) :
    t.kind = .ident ∧ look st.macros t.text = some m := by
  unfold findMacro at h
  split at h
  · rename_i hk; exact ⟨by simpa using hk, h⟩
  · cases h

/-! ### Flags do not matter -/

/-- What the expansion of macros depends on, and the two ghost flags. -/
def view (t : PTok) : Core × Bool × Bool := (core t, t.own, t.tail)

theorem view_core {a b : List PTok} (h : a.map view = b.map view) : a.map core = b.map core := by
  have := congrArg (List.map Prod.fst) h
  rw [List.map_map, List.map_map] at this
  exact this

theorem view_own {a b : List PTok} (h : a.map view = b.map view) :
    (a.filter (·.own)).map core = (b.filter (·.own)).map core := by
  have := congrArg (fun l => (l.filter fun x : Core × Bool × Bool => x.2.1).map Prod.fst) h
  simp only [List.filter_map, List.map_map] at this
  exact this

theorem view_countOwn {a b : List PTok} (h : a.map view = b.map view) : a.countP (·.own) = b.countP (·.own) := by
  have := congrArg List.length (view_own h)
  rw [List.length_map, List.length_map, ← List.countP_eq_length_filter, ← List.countP_eq_length_filter] at this
  exact this

theorem view_tail {a b : List PTok} (h : a.map view = b.map view) (hb : ∀ t ∈ b, t.tail = true) : ∀ t ∈ a, t.tail = true := by
  intro t ht
  have : view t ∈ b.map view := by rw [← h]; exact List.mem_map_of_mem ht
  obtain ⟨u, hu, e⟩ := List.mem_map.mp this
  have : t.tail = u.tail := by
    have := congrArg (fun x => x.2.2) e
    exact this.symm
  rw [this]; exact hb u hu

theorem setFlags_view (b s : Bool) (l : List PTok) : (setFlags b s l).map view = l.map view := by
  cases l <;> rfl

theorem setFlags_append (b s : Bool) (x y : List PTok) :
    ∃ x' y', setFlags b s (x ++ y) = x' ++ y' ∧ x'.map view = x.map view ∧ y'.map view = y.map view := by
  cases x with
  | nil => exact ⟨[], setFlags b s y, rfl, rfl, setFlags_view _ _ _⟩
  | cons t x => exact ⟨{ t with bol := b, sp := s } :: x, y, rfl, rfl, rfl⟩

/-- The consumed nodes are those before the rest. -/
theorem consumed_eq (c r l : List PTok) (h : l.countP (·.own) = r.countP (·.own)) :
    consumed (c ++ r) l = c.filter (·.own) := by
  unfold consumed
  rw [h, List.countP_append, Nat.add_sub_cancel, List.filter_append, List.countP_eq_length_filter]
  exact List.take_left

/-! ### Tokens that have been expanded before -/

/-- None of the tokens would be expanded. -/
def Quiet (ms : List (Bytes × Macro)) : List Core → Prop
  | [] => True
  | c :: r => (c.2.1 ∈ c.2.2 ∨ c.1 ≠ .ident ∨ look ms c.2.1 = none ∨
      ∃ m, look ms c.2.1 = some m ∧ m.handler = none ∧ m.objlike = false ∧ ∀ u, r.head? = some u → u.2.1 ≠ asc "(") ∧ Quiet ms r

theorem quiet_of_inert (st : St) (l : List PTok) (h : inert st l = true) : Quiet st.macros (l.map core) := by
  induction l with
  | nil => trivial
  | cons t r ih =>
    simp only [inert, Bool.and_eq_true, Bool.or_eq_true] at h
    refine ⟨?_, ih h.2⟩
    rcases h.1 with h1 | ⟨_, h1 | h1⟩
    · refine Or.inr (Or.inl ?_)
      intro e
      have : t.kind = .ident := e
      simp [PTok.isEof, this] at h1
    · exact Or.inl ((hsContains_iff _ _).mp h1)
    · by_cases hk : t.kind = .ident
      · have hf : findMacro st t = look st.macros t.text := by
          unfold findMacro
          rw [if_pos (by simp [hk])]
          rfl
        rw [hf] at h1
        cases hl : look st.macros t.text with
        | none => exact Or.inr (Or.inr (Or.inl hl))
        | some m =>
          rw [hl] at h1
          simp only [Bool.and_eq_true, Bool.not_eq_true', Option.isNone_iff_eq_none] at h1
          refine Or.inr (Or.inr (Or.inr ⟨m, hl, h1.1.1, h1.1.2, ?_⟩))
          intro u hu
          cases r with
          | nil => cases hu
          | cons v r =>
            cases hu
            have h2 := h1.2
            simp only [List.head?_cons, Option.any_some, PTok.is, beq_eq_false_iff_ne] at h2
            exact h2
      · exact Or.inr (Or.inl hk)

theorem quiet_expand (env : Env) (rec : Rec) (st : St) (t : PTok) (r : List PTok)
    (hq : Quiet st.macros (core t :: r.map core)) :
    expandMacro env rec st t r = .ok none ∨ expandMacro env rec st t r = .error .null := by
  unfold expandMacro
  by_cases hc : hsContains t.hs t.text = true
  · rw [if_pos hc]; exact Or.inl rfl
  rw [if_neg hc]
  cases hf : findMacro st t with
  | none => exact Or.inl rfl
  | some m =>
    obtain ⟨hk, hl⟩ := findMacro_look _ _ _ hf
    rcases hq.1 with h | h | h | ⟨m', h1, h2, h3, h4⟩
    · exact absurd ((hsContains_iff _ _).mpr h) hc
    · exact absurd hk h
    · have h : look st.macros t.text = none := h
      rw [hl] at h; cases h
    · have h1 : look st.macros t.text = some m' := h1
      rw [hl] at h1
      cases h1
      dsimp only
      rw [h2]
      dsimp only
      rw [h3]
      simp only [Bool.false_eq_true, if_false]
      cases r with
      | nil => exact Or.inr rfl
      | cons u r =>
        have hu := h4 (core u) rfl
        have hu : u.is "(" = false := by
          simp only [PTok.is, beq_eq_false_iff_ne]
          exact hu
        simp [hu]

/-! ### One expansion -/

theorem place_own (t : PTok) (hs : List Bytes) (b r l : List PTok) (h : place t hs b r = .ok l) :
    ∃ exp, l = setFlags t.bol t.sp (exp ++ r) ∧ ∀ u ∈ exp, u.own = false ∧ ∀ s, s ∈ hs → s ∈ u.hs := by
  unfold place at h
  refine ⟨(body (addHideset b hs)).map (fun u => { u with origin := some (root t) }), ?_, ?_⟩
  · split at h
    · cases h
    · cases h; rfl
  · intro u hu
    obtain ⟨v, hv, rfl⟩ := List.mem_map.mp hu
    have hv := (List.takeWhile_sublist _).subset hv
    unfold addHideset at hv
    obtain ⟨w, _, rfl⟩ := List.mem_map.mp hv
    refine ⟨rfl, fun s hs' => ?_⟩
    show s ∈ hsUnion w.hs hs
    exact (hsContains_iff _ _).mp ((hsUnion_mem _ _ _).mpr (Or.inr ((hsContains_iff _ _).mpr hs')))

theorem readArgs_close (ps : List Bytes) (va : Option Bytes) (l : List PTok) (as : List Arg) (rp : PTok) (r : List PTok)
    (h : readArgs ps va l = .ok (as, rp, r)) : rp.is ")" = true := by
  unfold readArgs at h
  split at h
  · cases h
  · split at h
    · cases h
    · split at h
      · cases h
      · split at h
        · rename_i hp; cases h; exact hp
        · cases h

theorem expand_some (env : Env) (hs : env.strict = true) (rec : Rec) (ms : List (Bytes × Macro)) (hn : Named ms)
    (hk : Keep (fun st => st.macros = ms) rec) (st : St) (hst : st.macros = ms) (t : PTok) (r : List PTok) (st' : St)
    (l : List PTok) (h : expandMacro env rec st t r = .ok (some (st', l))) :
    st'.macros = ms ∧ t.kind = .ident ∧ t.text ∉ t.hs ∧ t.text ∈ ms.map (·.1) ∧
    ((∃ x, l = x :: r ∧ Dead x ∧ x.own = false) ∨
     ∃ arg rest exp, r = arg ++ rest ∧ l = setFlags t.bol t.sp (exp ++ rest) ∧ (∀ u ∈ exp, u.own = false ∧ t.text ∈ u.hs) ∧
       ((arg = [] ∧ ∀ u ∈ exp, ∀ s ∈ t.hs, s ∈ u.hs) ∨
        ∃ mid rp, arg = mid ++ [rp] ∧ rp.tail = false ∧ rp.is ")" = true ∧ ∀ u ∈ exp, ∀ s ∈ t.hs, s ∈ rp.hs → s ∈ u.hs)) := by
  unfold expandMacro at h
  split at h
  · cases h
  · rename_i hc
    split at h
    · cases h
    · rename_i m hm
      obtain ⟨hki, hl⟩ := findMacro_look _ _ _ hm
      rw [hst] at hl
      obtain ⟨hname, hmem⟩ := look_named hn hl
      have hnc : t.text ∉ t.hs := fun hin => hc ((hsContains_iff _ _).mpr hin)
      split at h
      · split at h
        · cases h
        · rename_i st1 x hx
          cases h
          obtain ⟨h1, h2, h3⟩ := runHandler_dead _ _ _ _ _ _ hx
          exact ⟨by rw [h3, hst], hki, hnc, hmem, Or.inl ⟨x, rfl, h1, h2⟩⟩
      · split at h
        · split at h
          · cases h
          · rename_i l1 hp
            cases h
            obtain ⟨exp, h1, h2⟩ := place_own _ _ _ _ _ hp
            refine ⟨hst, hki, hnc, hmem, Or.inr ⟨[], r, exp, rfl, h1, fun u hu => ⟨(h2 u hu).1, ?_⟩, Or.inl ⟨rfl, fun u hu s hs' => ?_⟩⟩⟩
            · refine (h2 u hu).2 _ ?_
              rw [← hname]
              exact List.mem_append_right _ (by simp)
            · exact (h2 u hu).2 _ (List.mem_append_left _ hs')
        · split at h
          · cases h
          · rename_i u r1
            split at h
            · cases h
            · rename_i hu
              split at h
              · cases h
              · rename_i args rp r2 hra
                split at h
                · cases h
                · rename_i htl
                  split at h
                  · cases h
                  · rename_i st1 b hsub
                    split at h
                    · cases h
                    · rename_i l1 hp
                      cases h
                      obtain ⟨exp, h1, h2⟩ := place_own _ _ _ _ _ hp
                      obtain ⟨x, hx⟩ := readArgs_suffix _ _ _ _ _ _ hra
                      have hkeep := subst_keep hk _ _ _ hsub hst
                      refine ⟨hkeep, hki, hnc, hmem, Or.inr ⟨u :: (x ++ [rp]), r2, exp, by rw [hx]; simp, h1,
                        fun w hw => ⟨(h2 w hw).1, ?_⟩, Or.inr ⟨u :: x, rp, rfl, ?_, readArgs_close _ _ _ _ _ _ hra, fun w hw s h4 h5 => ?_⟩⟩⟩
                      · refine (h2 w hw).2 _ ?_
                        rw [← hname]
                        exact List.mem_append_right _ (by simp)
                      · rw [hs] at htl; simpa using htl
                      · refine (h2 w hw).2 _ (List.mem_append_left _ ?_)
                        refine (hsContains_iff _ _).mp ((hsInter_mem _ _ _).mpr ⟨?_, ?_⟩)
                        · exact (hsContains_iff _ _).mpr h4
                        · exact (hsContains_iff _ _).mpr h5

/-- Where the closing parenthesis is not one of the tokens expanded before, it is in the part before them. -/
theorem split_before {L I mid rest : List PTok} {rp : PTok} (h : L ++ I = (mid ++ [rp]) ++ rest) (hI : ∀ t ∈ I, t.tail = true)
    (hr : rp.tail = false) : ∃ L2, L = (mid ++ [rp]) ++ L2 ∧ rest = L2 ++ I := by
  rcases List.append_eq_append_iff.mp h with ⟨a, h1, h2⟩ | ⟨a, h1, h2⟩
  · -- mid ++ [rp] = L ++ a, I = a ++ rest
    rcases List.eq_nil_or_concat a with rfl | ⟨a, x, rfl⟩
    · rw [List.append_nil] at h1
      exact ⟨[], by rw [List.append_nil]; exact h1.symm, by simpa using h2.symm⟩
    · exfalso
      rw [List.concat_eq_append, ← List.append_assoc] at h1
      have := List.append_inj' h1 rfl
      have hx : rp = x := by simpa using this.2
      have := hI x (by rw [h2]; simp)
      rw [← hx, hr] at this
      cases this
  · exact ⟨a, h1, h2⟩

/-- **One expansion.** -/
theorem step_some (env : Env) (hs : env.strict = true) (rec : Rec) (ms : List (Bytes × Macro)) (hn : Named ms)
    (hk : Keep (fun st => st.macros = ms) rec) (st : St) (hst : st.macros = ms) (t : PTok) (L I : List PTok) (st' : St)
    (l : List PTok) (h : expandMacro env rec st t (L ++ I) = .ok (some (st', l))) (hI : ∀ t ∈ I, t.tail = true) :
    st'.macros = ms ∧ ∃ c L1 L2 I2, t :: L = c ++ L1 ∧ c ≠ [] ∧ l = L2 ++ I2 ∧ I2.map view = I.map view ∧
      consumed (t :: (L ++ I)) l = c.filter (·.own) ∧ (L2.filter (·.own)).map core = (L1.filter (·.own)).map core ∧
      ∀ zs, Levels (ms.map (·.1)) zs → (t :: L).map core = zs.map (·.1) →
        ∃ zs2, L2.map core = zs2.map (·.1) ∧ Levels (ms.map (·.1)) zs2 ∧ Lt (ms.length + 1) (cnt zs2) (cnt zs) := by
  obtain ⟨h1, hki, hnc, hmem, hcase⟩ := expand_some env hs rec ms hn hk st hst t (L ++ I) st' l h
  refine ⟨h1, ?_⟩
  have hlen : (ms.map (·.1)).length + 1 = ms.length + 1 := by rw [List.length_map]
  rcases hcase with ⟨x, rfl, hd, hx⟩ | ⟨arg, rest, exp, hr, rfl, hexp, harg⟩
  · refine ⟨[t], L, x :: L, I, rfl, by simp, rfl, rfl, ?_, ?_, ?_⟩
    · exact consumed_eq [t] (L ++ I) _ (by rw [List.countP_cons]; simp [hx])
    · rw [List.filter_cons_of_neg (by simp [hx])]
    · intro zs hz hzs
      cases zs with
      | nil => cases hzs
      | cons z zs =>
        simp only [List.map_cons, List.cons.injEq] at hzs
        have hz' : Levels (ms.map (·.1)) ([] ++ z :: zs) := hz
        have hfz : t.text ∉ z.2 := by
          intro hin
          rcases hz.lv z (by simp) with h | h
          · rw [← hzs.1] at h; exact hnc (h _ hin)
          · rw [← hzs.1] at h; exact h.1 hki
        obtain ⟨q1, q2⟩ := replace_levels hz' t.text hmem hfz [core x] (fun b hb => by
          rw [List.mem_singleton.mp hb]; exact Or.inr hd)
        refine ⟨_, ?_, q1, by rw [← hlen]; exact q2⟩
        simp [hzs.2]
  · have key : ∀ L1 c, t :: L = c ++ L1 → c ≠ [] → rest = L1 ++ I → (∀ zs, Levels (ms.map (·.1)) zs → (t :: L).map core = zs.map (·.1) →
        ∃ front z zs1, zs = front ++ z :: zs1 ∧ L1.map core = zs1.map (·.1) ∧ t.text ∉ z.2 ∧ ∀ u ∈ exp, ∀ n ∈ z.2, n ∈ u.hs) →
        ∃ c L1 L2 I2, t :: L = c ++ L1 ∧ c ≠ [] ∧ setFlags t.bol t.sp (exp ++ rest) = L2 ++ I2 ∧ I2.map view = I.map view ∧
      consumed (t :: (L ++ I)) (setFlags t.bol t.sp (exp ++ rest)) = c.filter (·.own) ∧ (L2.filter (·.own)).map core = (L1.filter (·.own)).map core ∧
      ∀ zs, Levels (ms.map (·.1)) zs → (t :: L).map core = zs.map (·.1) →
        ∃ zs2, L2.map core = zs2.map (·.1) ∧ Levels (ms.map (·.1)) zs2 ∧ Lt (ms.length + 1) (cnt zs2) (cnt zs) := by
      intro L1 c hc hcne hrest hz
      obtain ⟨x', y', e1, e2, e3⟩ := setFlags_append t.bol t.sp (exp ++ L1) I
      have hno : exp.filter (·.own) = [] := by
        rw [List.filter_eq_nil_iff]
        intro u hu; rw [(hexp u hu).1]; simp
      refine ⟨c, L1, x', y', hc, hcne, by rw [hrest, ← List.append_assoc]; exact e1, e3, ?_, ?_, ?_⟩
      · have e : t :: (L ++ I) = c ++ rest := by
          rw [hrest, ← List.append_assoc, ← hc]; rfl
        rw [e]
        refine consumed_eq c rest _ ?_
        rw [view_countOwn (setFlags_view _ _ _), List.countP_append, List.countP_eq_length_filter, hno]
        simp
      · rw [view_own e2, List.filter_append, hno]; rfl
      · intro zs hl hzs
        obtain ⟨front, z, zs1, rfl, h2, h3, h4⟩ := hz zs hl hzs
        obtain ⟨q1, q2⟩ := replace_levels hl t.text hmem h3 (exp.map core) (fun b hb => by
          obtain ⟨u, hu, rfl⟩ := List.mem_map.mp hb
          refine Or.inl fun n hn => ?_
          rcases List.mem_cons.mp hn with rfl | hn
          · exact (hexp u hu).2
          · exact h4 u hu n hn)
        refine ⟨_, ?_, q1, by rw [← hlen]; exact q2⟩
        rw [view_core e2, List.map_append, List.map_append, h2, List.map_map, List.map_map]
        rfl
    rcases harg with ⟨rfl, hall⟩ | ⟨mid, rp, rfl, htl, hrp, hall⟩
    · refine key L [t] rfl (by simp) (by simpa using hr.symm) fun zs hz hzs => ?_
      cases zs with
      | nil => cases hzs
      | cons z zs =>
        simp only [List.map_cons, List.cons.injEq] at hzs
        have hsub : ∀ n ∈ z.2, n ∈ t.hs := by
          rcases hz.lv z (by simp) with h | h
          · rw [← hzs.1] at h; exact h
          · rw [← hzs.1] at h; exact absurd hki h.1
        exact ⟨[], z, zs, rfl, hzs.2, fun hin => hnc (hsub _ hin), fun u hu n hn => hall u hu n (hsub n hn)⟩
    · obtain ⟨L1, e1, e2⟩ := split_before hr hI htl
      refine key L1 (t :: (mid ++ [rp])) (by rw [e1]; rfl) (by simp) e2 fun zs hz hzs => ?_
      cases zs with
      | nil => cases hzs
      | cons zt zs =>
        simp only [List.map_cons, List.cons.injEq] at hzs
        have hsub : ∀ n ∈ zt.2, n ∈ t.hs := by
          rcases hz.lv zt (by simp) with h | h
          · rw [← hzs.1] at h; exact h
          · rw [← hzs.1] at h; exact absurd hki h.1
        have hz2 := hzs.2
        rw [e1, List.append_assoc, List.map_append] at hz2
        obtain ⟨zm, zr, rfl, hm1, hm2⟩ := List.map_eq_append_iff.mp hz2.symm
        cases zr with
        | nil => simp at hm2
        | cons z zs1 =>
          simp only [List.singleton_append, List.map_cons, List.cons.injEq] at hm2
          have hzt : ∀ n ∈ z.2, n ∈ zt.2 := (List.pairwise_cons.mp hz.mono).1 z (by simp)
          refine ⟨zt :: zm, z, zs1, rfl, hm2.2.symm, fun hin => hnc (hsub _ (hzt _ hin)), fun u hu n hn => ?_⟩
          refine hall u hu n (hsub n (hzt n hn)) ?_
          rcases hz.lv z (by simp) with h | h
          · rw [hm2.1] at h; exact h n hn
          · rw [hm2.1] at h
            have hrp : rp.text = asc ")" := by simpa [PTok.is] using hrp
            exact absurd hrp h.2

end Toycc.Pp
