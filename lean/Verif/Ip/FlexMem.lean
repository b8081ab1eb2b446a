import Verif.Ip.Flex
import Verif.Ip.FlexModel
/-!
Flexible array members: proofs for C68.
-/
namespace Toycc.Ip
open Toycc.Parse (Tok P)
open Toycc.Init (Ini Inis)
variable {α : Type}

/-! ### Members -/

theorem withLast_lt (x : String) (off : Nat) (b : ITy) (k k' : Nat) : ∀ (pre : IMems) (i : Nat), i ≠ pre.length → (withLast pre x off b k).get? i = (withLast pre x off b k').get? i
  | .nil, 0, h => absurd rfl h
  | .nil, i + 1, _ => rfl
  | .cons _ _ _ _ r, 0, _ => rfl
  | .cons _ _ _ _ r, i + 1, h => withLast_lt x off b k k' r i (fun e => h (by rw [e, IMems.length]))

theorem withLast_at (x : String) (off : Nat) (b : ITy) (k : Nat) : ∀ (pre : IMems), (withLast pre x off b k).get? pre.length = some (.arr b k)
  | .nil => rfl
  | .cons _ _ _ _ r => withLast_at x off b k r

theorem withLast_end (x : String) (off : Nat) (b : ITy) (k : Nat) : ∀ (pre : IMems) (i : Nat), pre.length < i → (withLast pre x off b k).get? i = none
  | .nil, 0, h => absurd h (by simp [IMems.length])
  | .nil, i + 1, _ => rfl
  | .cons _ _ _ _ r, 0, h => absurd h (by simp)
  | .cons _ _ _ _ r, i + 1, h => withLast_end x off b k r i (by rw [IMems.length] at h; omega)

theorem findMember_last (y x : String) (off : Nat) (b : ITy) (k k' : Nat) : ∀ (pre : IMems) (j i : Nat) (t : ITy) (a : Bool), findMember y (withLast pre x off b k) j = .ok (i, t, a) →
    (i ≠ j + pre.length ∧ findMember y (withLast pre x off b k') j = .ok (i, t, a)) ∨ (i = j + pre.length ∧ findMember y (withLast pre x off b k') j = .ok (i, .arr b k', a))
  | .nil, j, i, t, a, h => by
    simp only [withLast, findMember] at h ⊢
    by_cases e : x = y
    · rw [if_pos e] at h
      cases h
      exact .inr ⟨rfl, by rw [if_pos e]⟩
    · rw [if_neg e] at h; cases h
  | .cons (some z) o f u r, j, i, t, a, h => by
    simp only [withLast, findMember] at h ⊢
    by_cases e : z = y
    · simp only [if_pos e] at h ⊢
      cases h
      exact .inl ⟨by rw [IMems.length]; omega, rfl⟩
    · simp only [if_neg e] at h ⊢
      have := findMember_last y x off b k k' r (j + 1) i t a h
      rw [IMems.length, show j + (r.length + 1) = j + 1 + r.length by omega]
      exact this
  | .cons none o f (.struc sz ms) r, j, i, t, a, h => by
    simp only [withLast, findMember] at h ⊢
    cases hm : hasMember y ms with
    | error e => rw [hm] at h; cases h
    | ok v =>
      rw [hm] at h
      cases v with
      | true =>
        cases h
        exact .inl ⟨by rw [IMems.length]; omega, rfl⟩
      | false =>
        have h : findMember y (withLast r x off b k) (j + 1) = .ok (i, t, a) := h
        have := findMember_last y x off b k k' r (j + 1) i t a h
        rw [IMems.length, show j + (r.length + 1) = j + 1 + r.length by omega]
        exact this
  | .cons none o f (.sc _) r, j, i, t, a, h => by simp only [withLast, findMember] at h; cases h
  | .cons none o f (.arr _ _) r, j, i, t, a, h => by simp only [withLast, findMember] at h; cases h
  | .cons none o f (.union _ _) r, j, i, t, a, h => by simp only [withLast, findMember] at h; cases h

theorem structDesignator_last {x : String} {off : Nat} {b : ITy} {k : Nat} (k' : Nat) {pre : IMems} {ts r : List Tok} {i : Nat} {t : ITy} (h : structDesignator (withLast pre x off b k) ts = .ok (i, t, r)) :
    (i ≠ pre.length ∧ structDesignator (withLast pre x off b k') ts = .ok (i, t, r)) ∨ (i = pre.length ∧ structDesignator (withLast pre x off b k') ts = .ok (i, .arr b k', r)) := by
  unfold structDesignator at h ⊢
  split at h
  · rename_i y r'
    cases hf : findMember y (withLast pre x off b k) 0 with
    | error e => rw [hf] at h; cases h
    | ok v =>
      obtain ⟨i', t', a⟩ := v
      rw [hf] at h
      simp only [bind, Except.bind, Except.ok.injEq, Prod.mk.injEq] at h
      obtain ⟨rfl, rfl, rfl⟩ := h
      have := findMember_last y x off b k k' pre 0 i' t' a hf
      rw [Nat.zero_add] at this
      rcases this with ⟨h1, h2⟩ | ⟨h1, h2⟩
      · exact .inl ⟨h1, by simp only [h2, bind, Except.bind]⟩
      · exact .inr ⟨h1, by simp only [h2, bind, Except.bind]⟩
  · cases h

/-! ### Trees -/

theorem setI_comm : ∀ (cs : Inis α) (i j : Nat) (a b : Ini α), i ≠ j → setI (setI cs i a) j b = setI (setI cs j b) i a
  | .nil, _, _, _, _, _ => rfl
  | .cons _ _, 0, 0, _, _, h => absurd rfl h
  | .cons _ _, 0, _ + 1, _, _, _ => rfl
  | .cons _ _, _ + 1, 0, _, _, _ => rfl
  | .cons _ r, i + 1, j + 1, a, b, h => by simp only [setI]; rw [setI_comm r i j a b (fun e => h (by rw [e]))]

theorem get?_setI_ne : ∀ (cs : Inis α) (i j : Nat) (a : Ini α), i ≠ j → (setI cs i a).get? j = cs.get? j
  | .nil, _, _, _, _ => rfl
  | .cons _ _, 0, 0, _, h => absurd rfl h
  | .cons _ _, 0, _ + 1, _, _ => rfl
  | .cons _ _, _ + 1, 0, _, _ => rfl
  | .cons _ r, i + 1, j + 1, a, h => by simp only [setI, Inis.get?]; exact get?_setI_ne r i j a (fun e => h (by rw [e]))

theorem setChild_comm (t : Ini α) {i j : Nat} (a b : Ini α) (h : i ≠ j) : setChild (setChild t i a) j b = setChild (setChild t j b) i a := by
  cases t; simp only [setChild]; rw [setI_comm _ _ _ _ _ h]

theorem setChild_setChild (t : Ini α) (i : Nat) (a b : Ini α) : setChild (setChild t i a) i b = setChild t i b := by
  cases t; simp only [setChild]; rw [setI_setI]

theorem get_setChild_ne (t : Ini α) {i j : Nat} (a : Ini α) (h : i ≠ j) : get (setChild t i a) [j] = get t [j] := by
  cases t; simp only [setChild, get, get?_setI_ne _ _ _ _ h]

theorem blanks_last (x : String) (off : Nat) (b : ITy) (k k' : Nat) : ∀ pre : IMems, (blanks (withLast pre x off b k) : Inis α) = setI (blanks (withLast pre x off b k')) pre.length (blank (.arr b k))
  | .nil => rfl
  | .cons _ _ _ _ r => by simp only [withLast, blanks, IMems.length, setI]; rw [blanks_last x off b k k' r]

theorem blanks_get (x : String) (off : Nat) (b : ITy) (k : Nat) : ∀ pre : IMems, (blanks (withLast pre x off b k) : Inis α).get? pre.length = some (blank (.arr b k))
  | .nil => rfl
  | .cons _ _ _ _ r => by simp only [withLast, blanks, IMems.length, Inis.get?]; exact blanks_get x off b k r

variable {O : Oracle α} {w : String → Nat}

/-- The initialiser of the flexible member. -/
theorem place_member {T b : ITy} {k m : Nat} {s : Src α} {t t1 : Ini α} (hx : get t [m] = some (blank (.arr b k))) (hk : lengthIs O w b k s)
    (h : place O w T [m] (.arr b k) s t = some t1) :
    ∃ c, value O w (.arr b k) s = some c ∧ t1 = upd T t m c ∧ s.land w (.arr b k) = [] := by
  cases s with
  | expr ts e st wh =>
    rw [lengthIs] at hk
    obtain ⟨s, h1, h2, _⟩ := hk
    have hl : (Src.expr ts e st wh : Src α).land w (.arr b k) = [] := by simp only [Src.land, land, h1, h2, if_true]
    rw [place, hl] at h
    simp only [ITy.sub, Option.bind_eq_bind, Option.bind_some, List.append_nil] at h
    obtain ⟨U, c, c', _, e2, e3, e4⟩ := put_one h
    rw [hx] at e2; cases e2
    refine ⟨c', ?_, (put_upd e4).1, hl⟩
    rw [value, if_pos hl]; exact e3
  | list its cm =>
    rw [place] at h
    obtain ⟨U, c, c', _, e2, e3, e4⟩ := put_one h
    rw [hx] at e2; cases e2
    refine ⟨c', ?_, (put_upd e4).1, rfl⟩
    rw [value, place, put_nil]; exact e3

theorem memberFlex_eq {s : Src α} (b : ITy) (k : Nat) (hk : lengthIs O w b k s) (n : Nat) (r : List Tok) : memberFlex O n b (s.text ++ r) = initFlex O n b (s.text ++ r) := by
  cases s with
  | expr ts e st wh =>
    rw [lengthIs] at hk
    obtain ⟨s, h1, _⟩ := hk
    have hts : ts = [.str s] := by
      unfold litOf at h1
      split at h1
      · cases h1; rfl
      · cases h1
    subst hts
    rfl
  | list its c => rfl

/-- The member has not been initialised so far. -/
theorem unsized (hw : ∀ s, w s = 1 ∨ w s = 2 ∨ w s = 4) (sz : Nat) (pre : IMems) (x : String) (off : Nat) (b : ITy) (k : Nat) (ho : (withLast pre x off b k).Ok) (c : Bool) (r : List Tok) :
    ∀ (N : Nat) (its : Items α) (j : Nat) (first : Bool) (t fin : Ini α), its.size ≤ N → j ≤ pre.length →
      Good O w (.struc sz (withLast pre x off b k)) its (if ((ITy.struc sz (withLast pre x off b k)).child? j).isSome then some [j] else none) t fin →
      get t [pre.length] = some (blank (.arr b k)) →
      (firstFor w (.struc sz (withLast pre x off b k)) pre.length (fun p s => p = [] ∧ lengthIs O w b k s) its
          (if ((ITy.struc sz (withLast pre x off b k)).child? j).isSome then some [j] else none) →
        Ev (fun n => struct1F O n pre x off b first j (its.text first ++ (closing c ++ r)) (setChild t pre.length (blank (.arr b 0)))) (k, fin, r)) ∧
      (extent w (.struc sz (withLast pre x off b k)) its (if ((ITy.struc sz (withLast pre x off b k)).child? j).isSome then some [j] else none) ≤ pre.length →
        Ev (fun n => struct1F O n pre x off b first j (its.text first ++ (closing c ++ r)) (setChild t pre.length (blank (.arr b 0)))) (0, setChild fin pre.length (blank (.arr b 0)), r)) := by
  intro N
  induction N with
  | zero =>
    intro its j first t fin hN _ hg _
    have := Items.isNil_of_size (Nat.le_zero.mp hN)
    subst this
    have hrun := hg.run
    rw [run] at hrun; cases hrun
    refine ⟨fun h => by rw [firstFor] at h; exact h.elim, fun _ => Ev.of_succ ((Ev.pure _).congr fun n => ?_)⟩
    rw [Items.text, List.nil_append, struct1F, consumeEnd_closing]
  | succ N ih =>
    intro its j first t fin hN hj hg hm
    cases its with
    | nil =>
      have hrun := hg.run
      rw [run] at hrun; cases hrun
      refine ⟨fun h => by rw [firstFor] at h; exact h.elim, fun _ => Ev.of_succ ((Ev.pure _).congr fun n => ?_)⟩
      rw [Items.text, List.nil_append, struct1F, consumeEnd_closing]
    | cons ds s its =>
      generalize hT : ITy.struc sz (withLast pre x off b k) = T at *
      have hr := hg.reads
      rw [Items.Reads] at hr
      simp only [Items.size] at hN
      have hss := Src.size_pos s
      have hcl : EndCl (closing c ++ r) := ⟨c, r, rfl⟩
      have hTc : ∀ i, T.child? i = (withLast pre x off b k).get? i := fun i => by rw [← hT]; rfl
      have hnu : ∀ n ms, T ≠ .union n ms := fun n ms h => by rw [← hT] at h; cases h
      have hupd : ∀ t i c, upd T t i c = setChild t i c := fun t i (c : Ini α) => by rw [← hT]; rfl
      obtain ⟨p, U, t1, h1, h2, h3, h4, h5, h6, h7, h8⟩ := hg.cons
      -- the member itself
      have last : ∀ (hpm : p = [pre.length]) (hl : lengthIs O w b k s), ∃ c', Ev (fun n => memberFlex O n b (s.text ++ (its.text false ++ (closing c ++ r)))) (k, c', its.text false ++ (closing c ++ r)) ∧
          Ev (fun n => struct1 O n (withLast pre x off b k) false (pre.length + 1) (its.text false ++ (closing c ++ r)) (setChild (setChild t pre.length (blank (.arr b 0))) pre.length c')) (fin, r) := by
        intro hpm hl
        subst hpm
        have hsub : T.sub [pre.length] = some (.arr b k) := by simp only [ITy.sub, hTc, withLast_at]
        rw [hsub] at h2; cases h2
        obtain ⟨c', e1, e2, e3⟩ := place_member hm hl h3
        refine ⟨c', (flex_correct hw b k s _ c' (ho.get (withLast_at x off b k pre)) h5 h7 (stopE_text its hcl) hl e1).congr fun n => memberFlex_eq b k hl n _, ?_⟩
        rw [setChild_setChild, ← hupd, ← e2]
        rw [e3, List.append_nil, next_one (hTc _ ▸ withLast_at x off b k pre) hnu] at h4
        have := (all hw its.size).2.2.2.2.2 its sz (withLast pre x off b k) (pre.length + 1) false c t1 fin r (Nat.le_refl _) ho (by rw [hT]; exact h4)
        exact this
      cases ds with
      | nil =>
        have hch0 : ∃ V, (withLast pre x off b k).get? j = some V := by
          cases hch : (withLast pre x off b k).get? j with
          | none => rw [hTc, hch] at hg; exact (hg.stop rfl).elim
          | some V => exact ⟨V, rfl⟩
        obtain ⟨V, hch⟩ := hch0
        have hch1 : T.child? j = some V := (hTc j).trans hch
        simp only [List.isEmpty_nil, if_true, hch1, Option.isSome_some, Option.some.injEq] at h1
        subst h1
        have hsub : T.sub [j] = some V := by simp only [ITy.sub, hch1]
        have hUb := Option.some.inj (hsub.symm.trans h2); subst hUb
        simp only [hch1, Option.isSome_some, if_true, firstFor, extent, List.isEmpty_nil, hsub]
        by_cases hjm : j = pre.length
        · subst hjm
          rw [if_pos rfl]
          refine ⟨fun hq => ?_, fun he => absurd (Nat.le_trans (Nat.le_max_left _ _) he) (by omega)⟩
          obtain ⟨c', e1, e2⟩ := last rfl hq.2
          refine Ev.of_succ ((e1.bind (g := fun n y => (struct1 O n (withLast pre x off b y.1) false (pre.length + 1) y.2.2 (setChild (setChild t pre.length (blank (.arr b 0))) pre.length y.2.1)).bind
            fun z => .ok (y.1, z.1, z.2)) (e2.bind (g := fun _ z => .ok (k, z.1, z.2)) (Ev.pure _))).congr fun n => ?_)
          rw [struct1F, consumeEnd_text hr.2.1]
          simp only [sep_text, bind, Except.bind, itemText_nil]
          obtain ⟨t0, r0, e0, st0⟩ := Src.start hr.2.1
          rw [e0, List.cons_append]
          split
          · rename_i heq; cases heq; exact absurd rfl st0.2.2.1
          · rfl
        · rw [if_neg hjm]
          obtain ⟨y, hx⟩ := place_get hsub h3
          obtain ⟨c', its1, t2, a1, a2, a3, a4, _, a6⟩ := (all hw (s.size + its.size)).1 s its _ V [j] t y t1 fin _ (Nat.le_refl _) hcl hsub (ho.get hch) hx h3 h4 h5 h7
          obtain ⟨rfl, _⟩ := put_upd a2
          rw [next_one hch1 hnu] at a3 a6
          rw [hupd] at a3
          have hx' : get (setChild t pre.length (blank (.arr b 0))) [j] = some y := by rw [get_setChild_ne _ _ (Ne.symm hjm)]; exact hx
          have hm' : get (setChild t j c') [pre.length] = some (blank (.arr b k)) := by rw [get_setChild_ne _ _ hjm]; exact hm
          have h0 : (withLast pre x off b 0).get? j = some V := (withLast_lt x off b 0 k pre j hjm).trans hch
          obtain ⟨i1, i2⟩ := ih its1 (j + 1) false (setChild t j c') fin (by omega) (by omega) a3 hm'
          have step : ∀ v, Ev (fun n => struct1F O n pre x off b false (j + 1) (its1.text false ++ (closing c ++ r)) (setChild (setChild t j c') pre.length (blank (.arr b 0)))) v →
              Ev (fun n => struct1F O n pre x off b first j ((Items.cons [] s its).text first ++ (closing c ++ r)) (setChild t pre.length (blank (.arr b 0)))) v := by
            intro v hv
            rw [setChild_comm _ _ _ hjm] at hv
            refine Ev.of_succ ((a1.bind (g := fun n z => struct1F O n pre x off b false (j + 1) z.2 (setChild (setChild t pre.length (blank (.arr b 0))) j z.1)) hv).congr fun n => ?_)
            rw [struct1F, consumeEnd_text hr.2.1]
            simp only [sep_text, bind, Except.bind, itemText_nil]
            obtain ⟨t0, r0, e0, st0⟩ := Src.start hr.2.1
            rw [e0, List.cons_append]
            split
            · rename_i heq; cases heq; exact absurd rfl st0.2.2.1
            · simp only [if_neg hjm, h0, child_get hx']
          obtain ⟨x1, x2⟩ := a6 j [] rfl
          refine ⟨fun hq => step _ (i1 ((x2 _ _ hjm).mp hq)), fun he => step _ (i2 ?_)⟩
          have he : Nat.max (j + 1) _ ≤ pre.length := he
          rw [show [j] = j :: [] from rfl, List.cons_append, List.nil_append] at x1
          rw [List.cons_append, List.nil_append, x1] at he
          exact Nat.le_trans (Nat.le_max_right _ _) he
      | cons d ds =>
        simp only [List.isEmpty_cons, Bool.false_eq_true, if_false] at h1
        cases d with
        | idx ts i => rw [← hT] at h1; cases h1
        | field y =>
          obtain ⟨i, V, ds', pd', e1, e2, hch, rfl, hres, e5⟩ := field_step (ms := withLast pre x off b k) (by rw [← hT]; rfl) ho h1 (.p .eq :: (s.text ++ (its.text false ++ (closing c ++ r))))
          have hsub : T.sub [i] = some V := by simp only [ITy.sub, hch]
          simp only [firstFor, extent, List.isEmpty_cons, Bool.false_eq_true, if_false, h1, h2]
          rcases structDesignator_last 0 e1 with ⟨hne, e0⟩ | ⟨rfl, e0⟩
          · rw [if_neg hne]
            have hi : i < pre.length := by
              rcases Nat.lt_trichotomy i pre.length with h | h | h
              · exact h
              · exact absurd h hne
              · rw [withLast_end x off b k pre i h] at e2; cases e2
            have hx : ∃ x, get t [i] = some x := by
              obtain ⟨y, hy⟩ := place_get h2 h3
              rw [show i :: pd' = [i] ++ pd' from rfl, get_append] at hy
              cases hg' : get t [i] with
              | none => rw [hg'] at hy; cases hy
              | some c => exact ⟨c, rfl⟩
            obtain ⟨z, hx⟩ := hx
            obtain ⟨c', its1, t2, a1, a2, a3, a4, _, a6⟩ := (all hw (s.size + its.size)).2.1 pd' ds' s its _ V U [i] t z t1 fin (closing c ++ r) (Nat.le_refl _) hcl hsub (ho.get e2) hx hres
              h2 h3 h4 h5 h7 (fun ts i h => h8 ts i (List.mem_cons_of_mem _ (e5 ts i h))) (fun h => h6 (by simp) h i pd' V rfl hch)
            obtain ⟨rfl, _⟩ := put_upd a2
            rw [next_one hch hnu] at a3 a6
            rw [hupd] at a3
            have hx' : get (setChild t pre.length (blank (.arr b 0))) [i] = some z := by rw [get_setChild_ne _ _ (Ne.symm hne)]; exact hx
            have hm' : get (setChild t i c') [pre.length] = some (blank (.arr b k)) := by rw [get_setChild_ne _ _ hne]; exact hm
            obtain ⟨i1, i2⟩ := ih its1 (i + 1) false (setChild t i c') fin (by omega) (by omega) a3 hm'
            have step : ∀ v, Ev (fun n => struct1F O n pre x off b false (i + 1) (its1.text false ++ (closing c ++ r)) (setChild (setChild t i c') pre.length (blank (.arr b 0)))) v →
                Ev (fun n => struct1F O n pre x off b first j ((Items.cons (.field y :: ds) s its).text first ++ (closing c ++ r)) (setChild t pre.length (blank (.arr b 0)))) v := by
              intro v hv
              rw [setChild_comm _ _ _ hne] at hv
              refine Ev.of_succ ((a1.bind (g := fun n z => struct1F O n pre x off b false (i + 1) z.2 (setChild (setChild t pre.length (blank (.arr b 0))) i z.1)) hv).congr fun n => ?_)
              rw [struct1F, consumeEnd_text hr.2.1]
              simp only [sep_text, bind, Except.bind, itemText_cons, desText, Des.text, List.cons_append, List.nil_append]
              rw [e0]
              simp only [if_neg hne, child_get hx']
            obtain ⟨x1, x2⟩ := a6 i [] rfl
            refine ⟨fun hq => step _ (i1 ((x2 _ _ hne).mp hq)), fun he => step _ (i2 ?_)⟩
            have he : Nat.max (i + 1) _ ≤ pre.length := he
            rw [show [i] ++ pd' = i :: pd' from rfl] at x1
            rw [x1] at he
            exact Nat.le_trans (Nat.le_max_right _ _) he
          · rw [if_pos rfl]
            refine ⟨fun hq => ?_, fun he => absurd (Nat.le_trans (Nat.le_max_left _ _) he) (by omega)⟩
            obtain ⟨rfl, hl⟩ := hq
            have hds : ds' = [] := by
              rw [withLast_at] at e2; cases e2
              cases ds' with
              | nil => rfl
              | cons d ds' =>
                cases d with
                | field y => cases hres
                | idx ts i =>
                  simp only [resolve] at hres
                  by_cases hik : i < k
                  · rw [if_pos hik] at hres
                    cases hr2 : resolve b ds' with
                    | none => rw [hr2] at hres; cases hres
                    | some q => rw [hr2] at hres; cases hres
                  · rw [if_neg hik] at hres; cases hres
            subst hds
            obtain ⟨c', f1, f2⟩ := last rfl hl
            replace f1 : Ev (fun n => desgFlex O n b (.p .eq :: (s.text ++ (its.text false ++ (closing c ++ r))))) (k, c', its.text false ++ (closing c ++ r)) :=
              Ev.of_succ (f1.congr fun n => by simp only [desgFlex])
            refine Ev.of_succ ((f1.bind (g := fun n y => (struct1 O n (withLast pre x off b y.1) false (pre.length + 1) y.2.2 (setChild (setChild t pre.length (blank (.arr b 0))) pre.length y.2.1)).bind
              fun z => .ok (y.1, z.1, z.2)) (f2.bind (g := fun _ z => .ok (k, z.1, z.2)) (Ev.pure _))).congr fun n => ?_)
            rw [struct1F, consumeEnd_text hr.2.1]
            simp only [sep_text, bind, Except.bind, itemText_cons, desText, Des.text, List.cons_append, List.nil_append]
            rw [show structDesignator (withLast pre x off b 0) (.ident y :: (desText ds ++ (.p .eq :: (s.text ++ (its.text false ++ (closing c ++ r)))))) = _ from e0]
            simp only [if_true, desText, List.nil_append]

theorem struct_good {sz : Nat} {ms : IMems} {its : Items α} {c : Bool} {fin : Ini α} (ho : (ITy.struc sz ms).Ok) (ht : TameSrc w (.struc sz ms) (.list its c)) (hrd : (Src.list its c).Reads O)
    (h : value O w (.struc sz ms) (.list its c) = some fin) :
    Good O w (.struc sz ms) its (if ((ITy.struc sz ms).child? 0).isSome then some [0] else none) (blank (.struc sz ms)) fin := by
  rw [ITy.Ok] at ho
  rw [show ((ITy.struc sz ms).child? 0).isSome = true from ho.1, if_pos rfl]
  rw [TameSrc] at ht
  rw [Src.Reads] at hrd
  refine ⟨?_, ht, hrd⟩
  rw [value, place, put_nil] at h
  split at h
  · rw [bracesFor.eq_def] at h
    exact h
  · cases h

theorem flexmem_correct (hw : ∀ s, w s = 1 ∨ w s = 2 ∨ w s = 4) (sz : Nat) (pre : IMems) (x : String) (off : Nat) (b : ITy) (k : Nat) (its : Items α) (c : Bool) (r : List Tok) (fin : Ini α)
    (ho : (ITy.struc sz (withLast pre x off b k)).Ok) (ht : TameSrc w (.struc sz (withLast pre x off b k)) (.list its c)) (hrd : (Src.list its c).Reads O)
    (h : value O w (.struc sz (withLast pre x off b k)) (.list its c) = some fin) :
    (firstFor w (.struc sz (withLast pre x off b k)) pre.length (fun p s => p = [] ∧ lengthIs O w b k s) its (some [0]) →
      Ev (fun n => initStructFlex O n sz pre x off b ((Src.list its c).text ++ r)) (sz + b.size * k, k, fin, r)) ∧
    (extent w (.struc sz (withLast pre x off b k)) its (some [0]) ≤ pre.length →
      Ev (fun n => initStructFlex O n sz pre x off b ((Src.list its c).text ++ r)) (sz, 0, setChild fin pre.length (blank (.arr b 0)), r)) := by
  have hg := struct_good ho ht hrd h
  rw [ITy.Ok] at ho
  have hm : get (blank (.struc sz (withLast pre x off b k)) : Ini α) [pre.length] = some (blank (.arr b k)) := by
    have := blanks_get (α := α) x off b k pre
    simp only [blank] at this ⊢
    simp only [get, this]
  obtain ⟨h1, h2⟩ := unsized hw sz pre x off b k ho.2 c r its.size its 0 true _ fin (Nat.le_refl _) (Nat.zero_le _) hg hm
  rw [show ((ITy.struc sz (withLast pre x off b k)).child? 0).isSome = true from ho.1, if_pos rfl] at h1 h2
  have hb : setChild (blank (.struc sz (withLast pre x off b k)) : Ini α) pre.length (blank (.arr b 0)) = blank (.struc sz (withLast pre x off b 0)) := by
    have := blanks_last (α := α) x off b 0 k pre
    simp only [blank, setChild] at this ⊢
    rw [this]
  rw [hb] at h1 h2
  refine ⟨fun hq => ?_, fun he => ?_⟩
  · refine ((h1 hq).bind (g := fun _ y => .ok (sz + (ITy.arr b y.1).size, y.1, y.2.1, y.2.2)) (Ev.pure _)).congr fun n => ?_
    simp only [Src.text, List.cons_append, List.append_assoc, initStructFlex, bind]
  · refine ((h2 he).bind (g := fun _ y => .ok (sz + (ITy.arr b y.1).size, y.1, y.2.1, y.2.2)) (Ev.pure _)).congr fun n => ?_
    simp only [Src.text, List.cons_append, List.append_assoc, initStructFlex, bind]

/-! ### As if declared with the length -/

theorem bind_ok {β γ : Type} {a : Except IErr β} {f : β → Except IErr γ} {v : γ} (h : (a >>= f) = .ok v) : ∃ y, a = .ok y ∧ f y = .ok v := by
  cases a with
  | error e => cases h
  | ok y => exact ⟨y, rfl, h⟩

theorem memberFlex_init2 {n : Nat} {b : ITy} {ts r : List Tok} {k : Nat} {c : Ini α} (h : memberFlex O n b ts = .ok (k, c, r)) : init2 O n (.arr b k) ts (blank (.arr b k)) = .ok (c, r) := by
  have flex : ∀ ts, initFlex O n b ts = .ok (k, c, r) → init2 O n (.arr b k) ts (blank (.arr b k)) = .ok (c, r) := by
    intro ts h
    unfold initFlex at h
    split at h
    · obtain ⟨⟨x, r'⟩, e1, e2⟩ := bind_ok h
      cases e2; exact e1
    · obtain ⟨k', e0, h'⟩ := bind_ok h
      obtain ⟨⟨x, r'⟩, e1, e2⟩ := bind_ok h'
      cases e2; exact e1
    · cases h
  unfold memberFlex at h
  split at h
  · exact flex _ h
  · exact flex _ h
  · obtain ⟨k', e0, h'⟩ := bind_ok h
    obtain ⟨⟨x, r'⟩, e1, e2⟩ := bind_ok h'
    cases e2; exact e1

theorem desgFlex_desg {n : Nat} {b : ITy} {ts r : List Tok} {k : Nat} {c : Ini α} (h : desgFlex O n b ts = .ok (k, c, r)) : desg O n (.arr b k) ts (blank (.arr b k)) = .ok (c, r) := by
  cases n with
  | zero => cases h
  | succ n =>
    rw [desgFlex.eq_def] at h
    dsimp only at h
    split at h
    · obtain ⟨_, _, h'⟩ := bind_ok h
      cases h'
    · cases h
    · rw [desg]; exact memberFlex_init2 h
    · rename_i h1 h2 h3
      rw [desg.eq_def]
      dsimp only
      split
      · exact absurd rfl (h1 _)
      · exact absurd rfl (h2 _)
      · exact absurd rfl (h3 _)
      · exact memberFlex_init2 h

theorem get_child {t c : Ini α} {i : Nat} (h : child t i = .ok c) : get t [i] = some c := by
  cases t with
  | mk e m cs =>
    simp only [child] at h
    simp only [get]
    split at h
    · rename_i c' hc
      cases h; rw [hc]
    · cases h

theorem get_setChild (t : Ini α) {i : Nat} {c : Ini α} (a : Ini α) (h : get t [i] = some c) : get (setChild t i a) [i] = some a := by
  cases t with
  | mk e m cs =>
    simp only [get] at h
    cases hc : cs.get? i with
    | none => rw [hc] at h; cases h
    | some d => simp only [setChild, get, get?_setI cs i d a hc]

theorem struct1F_agrees (pre : IMems) (x : String) (off : Nat) (b : ITy) : ∀ (n : Nat) (first : Bool) (j : Nat) (ts r : List Tok) (t t' : Ini α) (k : Nat),
    get t [pre.length] = some (blank (.arr b 0)) → struct1F O n pre x off b first j ts t = .ok (k, t', r) →
    struct1 O n (withLast pre x off b k) first j ts (setChild t pre.length (blank (.arr b k))) = .ok (t', r) := by
  intro n
  induction n with
  | zero => intro first j ts r t t' k _ h; cases h
  | succ n ih =>
    intro first j ts r t t' k hm h
    rw [struct1F] at h
    rw [struct1]
    cases hc : consumeEnd ts with
    | some r' =>
      rw [hc] at h
      cases h
      have : setChild t pre.length (blank (.arr b 0)) = t := by
        cases t with
        | mk e m cs =>
          simp only [get] at hm
          cases hg : cs.get? pre.length with
          | none => rw [hg] at hm; cases hm
          | some d => rw [hg] at hm; cases hm; simp only [setChild, setI_self _ _ _ hg]
      rw [this]
    | none =>
      rw [hc] at h
      dsimp only at h ⊢
      obtain ⟨ts1, e1, h1⟩ := bind_ok h
      rw [e1]
      simp only [bind, Except.bind]
      split at h1
      · obtain ⟨⟨i, ty, ts2⟩, e2, h2⟩ := bind_ok h1
        dsimp only at h2
        have e2k := structDesignator_last k e2
        by_cases hi : i = pre.length
        · rw [if_pos hi] at h2
          subst hi
          obtain ⟨⟨k', c, ts3⟩, e3, h3⟩ := bind_ok h2
          obtain ⟨⟨t2, ts4⟩, e4, h4⟩ := bind_ok h3
          cases h4
          rcases e2k with ⟨h5, _⟩ | ⟨_, e5⟩
          · exact absurd rfl h5
          · dsimp only at e5 ⊢
            rw [e5]
            simp only [child_get (get_setChild t _ hm), desgFlex_desg e3, setChild_setChild]
            exact e4
        · rw [if_neg hi] at h2
          obtain ⟨c, e3, h3⟩ := bind_ok h2
          obtain ⟨⟨c', ts3⟩, e4, h4⟩ := bind_ok h3
          rcases e2k with ⟨_, e5⟩ | ⟨h5, _⟩
          · dsimp only at e5 ⊢
            rw [e5]
            have hg : get (setChild t pre.length (blank (.arr b k))) [i] = some c := by rw [get_setChild_ne _ _ (Ne.symm hi)]; exact get_child e3
            simp only [child_get hg, e4]
            rw [setChild_comm _ _ _ (Ne.symm hi)]
            exact ih _ _ _ _ _ _ _ (by rw [get_setChild_ne _ _ hi]; exact hm) h4
          · exact absurd h5 hi
      · rename_i hnd
        split
        · exact absurd rfl (hnd _)
        · by_cases hj : j = pre.length
          · subst hj
            rw [if_pos rfl] at h1
            obtain ⟨⟨k', c, ts3⟩, e3, h3⟩ := bind_ok h1
            obtain ⟨⟨t2, ts4⟩, e4, h4⟩ := bind_ok h3
            cases h4
            rw [withLast_at]
            simp only [child_get (get_setChild t _ hm), memberFlex_init2 e3, setChild_setChild]
            exact e4
          · rw [if_neg hj] at h1
            rw [withLast_lt x off b k 0 pre j hj]
            split at h1
            · rename_i ty hty
              obtain ⟨c, e3, h3⟩ := bind_ok h1
              obtain ⟨⟨c', ts3⟩, e4, h4⟩ := bind_ok h3
              have hg : get (setChild t pre.length (blank (.arr b k))) [j] = some c := by rw [get_setChild_ne _ _ (Ne.symm hj)]; exact get_child e3
              simp only [hty, child_get hg, e4]
              rw [setChild_comm _ _ _ (Ne.symm hj)]
              exact ih _ _ _ _ _ _ _ (by rw [get_setChild_ne _ _ hj]; exact hm) h4
            · rename_i hty
              obtain ⟨ts3, e3, h3⟩ := bind_ok h1
              simp only [hty, e3]
              exact ih _ _ _ _ _ _ _ hm h3

theorem flexmem_agrees (n sz : Nat) (pre : IMems) (x : String) (off : Nat) (b : ITy) (ts r : List Tok) (size k : Nat) (t : Ini α) (h : initStructFlex O n sz pre x off b ts = .ok (size, k, t, r)) :
    size = sz + b.size * k ∧ initializer O (n + 1) (.struc sz (withLast pre x off b k)) ts = .ok (t, r) := by
  unfold initStructFlex at h
  split at h
  · obtain ⟨⟨k', t', r'⟩, e1, e2⟩ := bind_ok h
    cases e2
    refine ⟨rfl, ?_⟩
    have hm : get (blank (.struc sz (withLast pre x off b 0)) : Ini α) [pre.length] = some (blank (.arr b 0)) := by
      have := blanks_get (α := α) x off b 0 pre
      simp only [blank] at this ⊢
      simp only [get, this]
    have := struct1F_agrees pre x off b n true 0 _ _ _ _ _ hm e1
    have hb : setChild (blank (.struc sz (withLast pre x off b 0)) : Ini α) pre.length (blank (.arr b k)) = blank (.struc sz (withLast pre x off b k)) := by
      have := blanks_last (α := α) x off b k 0 pre
      simp only [blank, setChild] at this ⊢
      rw [this]
    rw [hb] at this
    rw [initializer, init2]
    exact this
  · cases h

end Toycc.Ip
