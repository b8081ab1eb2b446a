import Verif.Ip.Main
/-! Designations, lists in braces and the induction (for C68). -/
namespace Toycc.Ip
open Toycc.Parse (Tok P)
open Toycc.Init (Ini Inis)
variable {α : Type} {O : Oracle α} {w : String → Nat}

theorem isNil_of {its : Items α} (h : its.isNil = true) : its = .nil := by
  cases its with
  | nil => rfl
  | cons => cases h

/-- A range of one element. -/
theorem range_one {b : ITy} {i : Nat} {ts ts' : List Tok} {x c c' : Ini α} (hc : child x i = .ok c) (h : Ev (fun n => desg O n b ts c) (c', ts')) :
    Ev (fun n => range O n b ts i i x) (setChild x i c', ts') := by
  refine Ev.of_succ ((h.bind (g := fun _ y => .ok (setChild x i y.1, y.2)) (Ev.pure _)).congr fun n => ?_)
  rw [range]
  simp only [bind, Except.bind, hc, Nat.lt_irrefl, if_false]

theorem pd_step {N : Nat} (hA : PA O w N) (hL : ∀ M < N, PL O w M) : PD O w N := by
  intro pd
  induction pd with
  | nil =>
    intro ds s its T V U p t x t1 fin cl hN hcl hV hVo hx hres hU hpl hg hts hrd hix hlast
    cases ds with
    | nil =>
      rw [List.append_nil] at hU hpl hg
      rw [hV] at hU; cases hU
      obtain ⟨x', its', t', a1, a2⟩ := hA s its T V p t x t1 fin cl hN hcl hV hVo hx hpl hg hts hrd
      refine ⟨x', its', t', Ev.of_succ (a1.congr fun n => ?_), by rw [List.append_nil]; exact a2⟩
      simp only [desText, List.nil_append, desg]
    | cons d ds =>
      exfalso
      cases d with
      | idx ts i =>
        cases V with
        | arr b k =>
          simp only [resolve] at hres
          by_cases hi : i < k
          · rw [if_pos hi] at hres
            cases hr : resolve b ds with
            | none => rw [hr] at hres; cases hres
            | some q => rw [hr] at hres; cases hres
          · rw [if_neg hi] at hres; cases hres
        | _ => cases hres
      | field y =>
        have : ∃ ms, V.mems = some ms ∧ ms.Ok := by
          cases V with
          | sc t => cases hres
          | arr b k => cases hres
          | struc n ms => rw [ITy.Ok] at hVo; exact ⟨ms, rfl, hVo.2⟩
          | union n ms => rw [ITy.Ok] at hVo; exact ⟨ms, rfl, hVo.2⟩
        obtain ⟨ms, h1, h2⟩ := this
        obtain ⟨k, V', ds', pd', _, _, _, h3, _⟩ := field_step h1 h2 hres []
        cases h3
  | cons k0 pd ih =>
    intro ds s its T V U p t x t1 fin cl hN hcl hV hVo hx hres hU hpl hg hts hrd hix hlast
    have hsp := Src.size_pos s
    have eP : p ++ k0 :: pd = (p ++ [k0]) ++ pd := by simp
    cases ds with
    | nil => cases hres
    | cons d ds =>
      cases d with
      | idx ts i =>
        cases V with
        | arr b k =>
          simp only [resolve] at hres
          by_cases hi : i < k
          · rw [if_pos hi] at hres
            cases hr : resolve b ds with
            | none => rw [hr] at hres; cases hres
            | some q =>
              rw [hr] at hres
              simp only [Option.map_some, Option.some.injEq, List.cons.injEq] at hres
              obtain ⟨rfl, rfl⟩ := hres
              have hch : (ITy.arr b k).child? i = some b := by simp only [ITy.child?, if_pos hi]
              rw [ITy.Ok] at hVo
              rw [eP] at hU hpl hg
              have hsub := sub_child hV hch
              have hcg : ∃ c, get x [i] = some c ∧ get t (p ++ [i]) = some c := by
                obtain ⟨y, hy⟩ := place_get hU hpl
                rw [get_append] at hy
                cases hg' : get t (p ++ [i]) with
                | none => rw [hg'] at hy; cases hy
                | some c =>
                  refine ⟨c, ?_, rfl⟩
                  rw [get_append, hx] at hg'; exact hg'
              obtain ⟨c, hc1, hc2⟩ := hcg
              obtain ⟨c', its1, t2, a1, a2, a3, a4, a5, a6⟩ := ih ds s its T b U (p ++ [i]) t c t1 fin cl hN hcl hsub hVo.2 hc2 hr hU hpl hg hts hrd
                (fun ts i h => hix ts i (List.mem_cons_of_mem _ h)) (fun h => (hlast h).2 b hch)
              obtain ⟨d1, _⟩ := down (V := b) hV hx a2
              rw [next_child hV hch (fun _ _ h => by cases h)] at a3 a6
              have := hL its.size (by omega) its1 T b k (i + 1) p t2 (upd (.arr b k) x i c') fin cl a4 hcl hV hVo.2 (at_of_put d1) (by omega) a3
              refine Res.comp d1 a4 a5 (by rw [eP]; exact a6.child) this fun v hv => Ev.of_succ ?_
              refine ((range_one (child_get hc1) a1).bind (g := fun n y => arr2 O n b k (i + 1) y.2 y.1) hv).congr fun n => ?_
              simp only [desText, Des.text, List.cons_append, List.append_assoc, List.nil_append, desg]
              rw [idx_step hi (hix ts i (List.mem_cons_self ..))]
              simp only [bind, Except.bind]
          · rw [if_neg hi] at hres; cases hres
        | _ => cases hres
      | field y =>
        have : ∃ ms, V.mems = some ms ∧ ms.Ok := by
          cases V with
          | sc t => cases hres
          | arr b k => cases hres
          | struc n ms => rw [ITy.Ok] at hVo; exact ⟨ms, rfl, hVo.2⟩
          | union n ms => rw [ITy.Ok] at hVo; exact ⟨ms, rfl, hVo.2⟩
        obtain ⟨ms, hms, hmo⟩ := this
        obtain ⟨k, b, ds', pd', h1, h2, hch, h3, hr, h5⟩ := field_step hms hmo hres (.p .eq :: (s.text ++ (its.text false ++ cl)))
        simp only [List.cons.injEq] at h3
        obtain ⟨rfl, rfl⟩ := h3
        rw [eP] at hU hpl hg
        have hsub := sub_child hV hch
        have hcg : ∃ c, get x [k0] = some c ∧ get t (p ++ [k0]) = some c := by
          obtain ⟨y, hy⟩ := place_get hU hpl
          rw [get_append] at hy
          cases hg' : get t (p ++ [k0]) with
          | none => rw [hg'] at hy; cases hy
          | some c =>
            refine ⟨c, ?_, rfl⟩
            rw [get_append, hx] at hg'; exact hg'
        obtain ⟨c, hc1, hc2⟩ := hcg
        obtain ⟨c', its1, t2, a1, a2, a3, a4, a5, a6⟩ := ih ds' s its T b U (p ++ [k0]) t c t1 fin cl hN hcl hsub (hmo.get h2) hc2 hr hU hpl hg hts hrd
          (fun ts i h => hix ts i (List.mem_cons_of_mem _ (h5 ts i h))) (fun h => (hlast h).2 b hch)
        obtain ⟨d1, d2⟩ := down (V := b) hV hx a2
        cases V with
        | sc t => cases hms
        | arr b k => cases hms
        | union n ms' =>
          cases hms
          rw [next_union hV hch] at a3 a6
          refine ⟨_, its1, t2, Ev.of_succ ?_, d1, a3, a4, a5, by rw [eP]; exact a6.child⟩
          refine (a1.bind (g := fun n y => .ok (setChild (setMem x k0) k0 y.1, y.2)) (Ev.pure _)).congr fun n => ?_
          simp only [desText, Des.text, List.cons_append, List.nil_append, desg, h1, bind, Except.bind, child_get hc1]
        | struc m ms' =>
          cases hms
          rw [next_child hV hch (fun _ _ h => by cases h)] at a3 a6
          have key : (Good O w T its1 (next T p) t2 fin ∧ Ext w T p its (next T ((p ++ [k0]) ++ pd ++ s.land w U)) its1 (next T p)) ∧ (ms.get? (k0 + 1) = none ∨ isEnd (its1.text false ++ cl) = true) := by
            cases hn : its.isNil with
            | true =>
              have := isNil_of hn; subst this
              have := Items.isNil_of_size (its := its1) (by simp only [Items.size] at a4; omega); subst this
              exact ⟨⟨a3.nil, .nil⟩, .inr (isEnd_nil hcl)⟩
            | false =>
              have hl := (hlast hn).1 m ms rfl
              rw [show (ITy.struc m ms).child? (k0 + 1) = none from hl] at a3 a6
              exact ⟨⟨a3, a6.child⟩, .inl hl⟩
          refine ⟨_, its1, t2, Ev.of_succ ?_, d1, key.1.1, a4, a5, by rw [eP]; exact key.1.2⟩
          have hs2 : Ev (fun n => struct2 O n ms true (k0 + 1) (its1.text false ++ cl) (setExpr (setChild x k0 c') none)) (upd (.struc m ms) x k0 c', its1.text false ++ cl) := by
            refine Ev.of_succ ((Ev.pure _).congr fun n => ?_)
            rw [show setExpr (setChild x k0 c') none = upd (.struc m ms) x k0 c' from d2 m ms rfl]
            rw [struct2]
            rcases key.2 with h | h
            · rw [h]
            · rw [h]; cases ms.get? (k0 + 1) <;> rfl
          refine (a1.bind (g := fun n y => struct2 O n ms true (k0 + 1) y.2 (setExpr (setChild x k0 y.1) none)) hs2).congr fun n => ?_
          simp only [desText, Des.text, List.cons_append, List.nil_append, desg, h1, bind, Except.bind, child_get hc1]

theorem Good.stop {T : ITy} {ds : List Des} {s : Src α} {r : Items α} {t fin : Ini α} (h : Good O w T (.cons ds s r) none t fin) (hd : ds.isEmpty = true) : False := by
  obtain ⟨p, _, _, h1, _⟩ := h.cons
  simp [hd] at h1

theorem sep_text (first : Bool) (ds : List Des) (s : Src α) (r : Items α) (cl : List Tok) :
    sep first ((Items.cons ds s r).text first ++ cl) = .ok (itemText ds s (r.text false ++ cl)) := by
  cases first
  · rw [text_false]; simp [sep, skip]
  · rw [text_true]; simp [sep]

theorem consumeEnd_text {s : Src α} (h : s.Reads O) (first : Bool) (ds : List Des) (r : Items α) (cl : List Tok) :
    consumeEnd ((Items.cons ds s r).text first ++ cl) = none := by
  obtain ⟨t, r', h1, h2, h3⟩ := itemText_start h ds (r.text false ++ cl)
  cases first
  · rw [text_false, h1]; exact consumeEnd_comma h2
  · rw [text_true, h1]; exact consumeEnd_start h2 h3

theorem next_one {U V : ITy} {i : Nat} (hV : U.child? i = some V) (hu : ∀ n ms, U ≠ .union n ms) :
    next U [i] = if (U.child? (i + 1)).isSome then some [i + 1] else none :=
  next_child (p := []) rfl hV hu

/-- A list in braces for an array. -/
theorem pb1_step {N : Nat} (hA : ∀ M < N, PA O w M) (hD : ∀ M < N, PD O w M) (hB : ∀ M < N, PB1 O w M) : PB1 O w N := by
  intro its b k i first c t fin r hN hb hg
  cases its with
  | nil =>
    have := hg.run
    rw [run] at this; cases this
    refine Ev.of_succ ((Ev.pure _).congr fun n => ?_)
    rw [Items.text, List.nil_append, arr1, consumeEnd_closing]
  | cons ds s its =>
    have hr := hg.reads
    rw [Items.Reads] at hr
    simp only [Items.size] at hN
    have hcl : EndCl (closing c ++ r) := ⟨c, r, rfl⟩
    obtain ⟨p, U, t1, h1, h2, h3, h4, h5, h6, h7, h8⟩ := hg.cons
    cases ds with
    | nil =>
      have hik : i < k := by
        rcases Nat.lt_or_ge i k with h | h
        · exact h
        · rw [child_arr, decide_eq_false (by omega)] at hg
          exact (hg.stop rfl).elim
      have hch : (ITy.arr b k).child? i = some b := by simp only [ITy.child?, if_pos hik]
      simp only [List.isEmpty_nil, if_true, hch, Option.isSome_some, Option.some.injEq] at h1
      subst h1
      have hsub : (ITy.arr b k).sub [i] = some b := by simp only [ITy.sub, hch]
      have hUb := Option.some.inj (hsub.symm.trans h2); subst hUb
      obtain ⟨x, hx⟩ := place_get hsub h3
      obtain ⟨c', its1, t2, a1, a2, a3, a4, _⟩ := hA (s.size + its.size) (by omega) s its _ b [i] t x t1 fin _ (Nat.le_refl _) hcl hsub hb hx h3 h4 h5 h7
      obtain ⟨rfl, _⟩ := put_upd a2
      rw [next_one hch (fun _ _ h => by cases h)] at a3
      have := hB its.size (by omega) its1 b k (i + 1) false c _ fin r a4 hb a3
      refine Ev.of_succ ((a1.bind (g := fun n y => arr1 O n b k false (i + 1) y.2 (setChild t i y.1)) this).congr fun n => ?_)
      rw [arr1, consumeEnd_text hr.2.1]
      simp only [sep_text, bind, Except.bind, itemText_nil]
      obtain ⟨t0, r0, e0, st0⟩ := Src.start hr.2.1
      rw [e0, List.cons_append]
      split
      · rename_i heq; cases heq; exact absurd rfl st0.2.1
      · simp only [if_pos hik, child_get hx]
    | cons d ds =>
      simp only [List.isEmpty_cons, Bool.false_eq_true, if_false] at h1
      cases d with
      | field y => cases h1
      | idx ts i' =>
        simp only [resolve] at h1
        by_cases hi : i' < k
        · rw [if_pos hi] at h1
          cases hres : resolve b ds with
          | none => rw [hres] at h1; cases h1
          | some q =>
            rw [hres] at h1
            simp only [Option.map_some, Option.some.injEq] at h1
            subst h1
            have hch : (ITy.arr b k).child? i' = some b := by simp only [ITy.child?, if_pos hi]
            have hsub : (ITy.arr b k).sub [i'] = some b := by simp only [ITy.sub, hch]
            have hx : ∃ x, get t [i'] = some x := by
              obtain ⟨y, hy⟩ := place_get h2 h3
              rw [show i' :: q = [i'] ++ q from rfl, get_append] at hy
              cases hg' : get t [i'] with
              | none => rw [hg'] at hy; cases hy
              | some c => exact ⟨c, rfl⟩
            obtain ⟨x, hx⟩ := hx
            obtain ⟨c', its1, t2, a1, a2, a3, a4, _⟩ := hD (s.size + its.size) (by omega) q ds s its _ b U [i'] t x t1 fin (closing c ++ r) (Nat.le_refl _) hcl hsub hb hx hres
              h2 h3 h4 h5 h7 (fun ts i h => h8 ts i (List.mem_cons_of_mem _ h)) (fun h => h6 (by simp) h i' q b rfl hch)
            obtain ⟨rfl, _⟩ := put_upd a2
            rw [next_one hch (fun _ _ h => by cases h)] at a3
            have := hB its.size (by omega) its1 b k (i' + 1) false c _ fin r a4 hb a3
            refine Ev.of_succ (((range_one (child_get hx) a1).bind (g := fun n y => arr1 O n b k false (i' + 1) y.2 y.1) this).congr fun n => ?_)
            rw [arr1, consumeEnd_text hr.2.1]
            simp only [sep_text, bind, Except.bind, itemText_cons, desText, Des.text, List.cons_append, List.append_assoc, List.nil_append]
            rw [idx_step hi (h8 ts i' (List.mem_cons_self ..))]
        · rw [if_neg hi] at h1; cases h1

/-- A list in braces for a structure. -/
theorem pb2_step {N : Nat} (hA : ∀ M < N, PA O w M) (hD : ∀ M < N, PD O w M) (hB : ∀ M < N, PB2 O w M) : PB2 O w N := by
  intro its m ms j first c t fin r hN ho hg
  cases its with
  | nil =>
    have := hg.run
    rw [run] at this; cases this
    refine Ev.of_succ ((Ev.pure _).congr fun n => ?_)
    rw [Items.text, List.nil_append, struct1, consumeEnd_closing]
  | cons ds s its =>
    have hr := hg.reads
    rw [Items.Reads] at hr
    simp only [Items.size] at hN
    have hcl : EndCl (closing c ++ r) := ⟨c, r, rfl⟩
    obtain ⟨p, U, t1, h1, h2, h3, h4, h5, h6, h7, h8⟩ := hg.cons
    cases ds with
    | nil =>
      cases hch : ms.get? j with
      | none =>
        rw [show (ITy.struc m ms).child? j = none from hch] at hg
        exact (hg.stop rfl).elim
      | some b =>
        have hch1 : (ITy.struc m ms).child? j = some b := hch
        simp only [List.isEmpty_nil, if_true, hch1, Option.isSome_some, Option.some.injEq] at h1
        subst h1
        have hsub : (ITy.struc m ms).sub [j] = some b := by simp only [ITy.sub, hch1]
        have hUb := Option.some.inj (hsub.symm.trans h2); subst hUb
        obtain ⟨x, hx⟩ := place_get hsub h3
        obtain ⟨c', its1, t2, a1, a2, a3, a4, _⟩ := hA (s.size + its.size) (by omega) s its _ b [j] t x t1 fin _ (Nat.le_refl _) hcl hsub (ho.get hch) hx h3 h4 h5 h7
        obtain ⟨rfl, _⟩ := put_upd a2
        rw [next_one hch1 (fun _ _ h => by cases h)] at a3
        have := hB its.size (by omega) its1 m ms (j + 1) false c _ fin r a4 ho a3
        refine Ev.of_succ ((a1.bind (g := fun n y => struct1 O n ms false (j + 1) y.2 (setChild t j y.1)) this).congr fun n => ?_)
        rw [struct1, consumeEnd_text hr.2.1]
        simp only [sep_text, bind, Except.bind, itemText_nil]
        obtain ⟨t0, r0, e0, st0⟩ := Src.start hr.2.1
        rw [e0, List.cons_append]
        split
        · rename_i heq; cases heq; exact absurd rfl st0.2.2.1
        · simp only [hch, child_get hx]
    | cons d ds =>
      simp only [List.isEmpty_cons, Bool.false_eq_true, if_false] at h1
      cases d with
      | idx ts i => cases h1
      | field y =>
        obtain ⟨k, b, ds', pd', e1, e2, hch, rfl, hres, e5⟩ := field_step rfl ho h1 (.p .eq :: (s.text ++ (its.text false ++ (closing c ++ r))))
        have hsub : (ITy.struc m ms).sub [k] = some b := by simp only [ITy.sub, hch]
        have hx : ∃ x, get t [k] = some x := by
          obtain ⟨y, hy⟩ := place_get h2 h3
          rw [show k :: pd' = [k] ++ pd' from rfl, get_append] at hy
          cases hg' : get t [k] with
          | none => rw [hg'] at hy; cases hy
          | some c => exact ⟨c, rfl⟩
        obtain ⟨x, hx⟩ := hx
        obtain ⟨c', its1, t2, a1, a2, a3, a4, _⟩ := hD (s.size + its.size) (by omega) pd' ds' s its _ b U [k] t x t1 fin (closing c ++ r) (Nat.le_refl _) hcl hsub (ho.get e2) hx hres
          h2 h3 h4 h5 h7 (fun ts i h => h8 ts i (List.mem_cons_of_mem _ (e5 ts i h))) (fun h => h6 (by simp) h k pd' b rfl hch)
        obtain ⟨rfl, _⟩ := put_upd a2
        rw [next_one hch (fun _ _ h => by cases h)] at a3
        have := hB its.size (by omega) its1 m ms (k + 1) false c _ fin r a4 ho a3
        refine Ev.of_succ ((a1.bind (g := fun n y => struct1 O n ms false (k + 1) y.2 (setChild t k y.1)) this).congr fun n => ?_)
        rw [struct1, consumeEnd_text hr.2.1]
        simp only [sep_text, bind, Except.bind, itemText_cons, desText, Des.text, List.cons_append, List.nil_append]
        rw [e1]
        simp only [child_get hx]

end Toycc.Ip
