import Verif.Src.ProgGeom
import Verif.Src.Calls
import Verif.Src.UntouchedC
import Verif.Src.Props
/-! Calls in the source program and in the compiled one. -/
namespace Toycc.Src
open Toycc.Rv Toycc.Cg Toycc.Low
open Toycc.Stm (Out Res Tgt End evC run)
open Toycc.Frame hiding St
open Toycc.Whole (Func envOf inObjs bindArgs envOf_valid envOf_fp envOf_sym sub_sixteen idx_down bytes_eq objs_idx temps_le)

theorem agreed_all {ι α : Type} {p : ι → Prop} {h : ι → Option α} {r : α} (e : agreed p h = some r) : (∃ i, p i) ∧ ∀ i, p i → h i = some r := by
  unfold agreed at e
  split at e
  · rename_i H
    rw [Option.some.injEq] at e
    subst e
    exact ⟨H.1, H.2.choose_spec⟩
  · cases e

theorem agreed_some {ι α : Type} {p : ι → Prop} {h : ι → Option α} {r : α} (h1 : ∃ i, p i) (h2 : ∀ i, p i → h i = some r) : agreed p h = some r := by
  have H : (∃ i, p i) ∧ ∃ r, ∀ i, p i → h i = some r := ⟨h1, r, h2⟩
  unfold agreed
  rw [dif_pos H]
  obtain ⟨i, hi⟩ := h1
  have := H.2.choose_spec i hi
  rw [h2 i hi] at this
  exact this.symm

/-- What a call of a function of the program is. -/
theorem callX_all {sym : Label → W} {lo hi it : Nat} {calls : (W → Bool) → W → Ty → List (Ty × Int) → Mem → Option (Int × Mem)} {f : XFunc} {fr : Frame} {valid : W → Bool}
    {vs : List Int} {m m' : Mem} {v : Int} (h : callX sym lo hi it calls f fr valid vs m = some (v, m')) :
    (∃ fp, Placed lo hi valid (f.objs fr) fp) ∧ ∀ (fp : W) (g : Mem), Placed lo hi valid (f.objs fr) fp →
      ∃ e m2, runX (envX sym fp (fun b => valid b || inObjs fp (f.objs fr) b) (calls fun b => valid b || inObjs fp (f.objs fr) b)) f.ret it none f.body
        (bindArgs fp (f.slots fr) vs fun b => if valid b then m b else g b) = .done e m2 ∧ f.result e = some v ∧ m' = fun b => if valid b then m2 b else m b := by
  unfold callX at h
  obtain ⟨⟨p, hp⟩, h⟩ := agreed_all h
  refine ⟨⟨p.1, hp⟩, fun fp g hfp => ?_⟩
  have h := h (fp, g) hfp
  dsimp only at h
  split at h
  · rename_i e m2 hr
    rw [Option.map_eq_some_iff] at h
    obtain ⟨w, h1, h2⟩ := h
    cases h2
    exact ⟨e, m2, hr, h1, rfl⟩
  · cases h

theorem result_range {f : XFunc} {e : End} {v : Int} (hr : f.result e = some v) (hs : f.ret.low.scalar = true) : inRange f.ret.low v = true := by
  have hv : f.ret ≠ .void := by intro h; rw [h] at hs; cases hs
  cases e with
  | ret w =>
    cases w with
    | none => simp only [XFunc.result, if_neg hv] at hr; cases hr
    | some w =>
      simp only [XFunc.result] at hr
      split at hr
      · rename_i h; cases hr; simp only [Bool.and_eq_true] at h; exact h.2
      · cases hr
  | fell =>
    simp only [XFunc.result, if_neg hv] at hr
    split at hr
    · rename_i h; cases hr; rw [h.2]; decide
    · cases hr

theorem result_low {f : XFunc} {g : Func} (h : f.low = some g) {e : End} {v : Int} (hr : f.result e = some v) : Whole.result g e = some v := by
  obtain ⟨_, _, _, _, _, _, rfl⟩ := low_eq h
  cases e with
  | ret w =>
    cases w with
    | none =>
      simp only [XFunc.result] at hr
      split at hr
      · rename_i hv
        simp only [Whole.result]
        rw [if_pos (by rw [hv]; rfl)]
        exact hr
      · cases hr
    | some w =>
      simp only [XFunc.result] at hr
      split at hr
      · rename_i hv
        rw [Bool.and_eq_true] at hv
        simp only [Whole.result]
        rw [if_pos (by rw [Bool.and_eq_true]; exact ⟨(scalar_low hv.1).1, hv.2⟩)]
        exact hr
      · cases hr
  | fell =>
    simp only [XFunc.result] at hr
    split at hr
    · rename_i hv
      simp only [Whole.result]
      rw [if_pos (by rw [hv]; rfl)]
      exact hr
    · split at hr
      · rename_i hv
        simp only [Whole.result]
        rw [hv.2, if_neg (by decide), if_pos ⟨hv.1, by decide⟩]
        exact hr
      · cases hr

variable {F : List XFunc} {Fl : List Func} {Y : ExtX} {X : Whole.Ext} {R : Nat} {sym : Label → W} {lo hi it : Nat}

/-- The two kinds of calls. -/
theorem callsX_cases {D : Nat} {valid : W → Bool} {fa : W} {ty : Ty} {vs : List (Ty × Int)} {m : Mem} {r : Int × Mem} (h : callsX F Y sym lo hi it D valid fa ty vs m = some r) :
    (F.find? (fun f => decide (sym (.sym f.name) = fa)) = none ∧ Y valid fa ty vs m = some r) ∨
    ∃ D' f fr, D = D' + 1 ∧ F.find? (fun f => decide (sym (.sym f.name) = fa)) = some f ∧ f.lay = some fr ∧ ty = f.ret.low ∧ vs.map (·.1) = f.params.map (·.low) ∧
      callX sym lo hi it (callsX F Y sym lo hi it D') f fr valid (vs.map (·.2)) m = some r := by
  cases D with
  | zero =>
    simp only [callsX] at h
    split at h
    · rename_i hf; exact .inl ⟨hf, h⟩
    · cases h
  | succ D =>
    simp only [callsX] at h
    split at h
    · rename_i hf; exact .inl ⟨hf, h⟩
    · rename_i f hf
      cases hl : f.lay with
      | none => rw [hl] at h; cases h
      | some fr =>
        rw [hl] at h
        dsimp only at h
        split at h
        · rename_i hc
          exact .inr ⟨D, f, fr, rfl, hf, hl, hc.1, hc.2, h⟩
        · cases h

theorem callsX_frames (hY : ExtSim Y X R) {D : Nat} {valid : W → Bool} {fa : W} {ty : Ty} {vs : List (Ty × Int)} {m m' : Mem} {v : Int}
    (h : callsX F Y sym lo hi it D valid fa ty vs m = some (v, m')) {b : W} (hb : valid b = false) : m' b = m b := by
  rcases callsX_cases h with ⟨_, h⟩ | ⟨_, f, fr, _, _, _, _, _, h⟩
  · exact hY.keeps _ _ _ _ _ _ _ h b hb
  · obtain ⟨⟨fp, hp⟩, h⟩ := callX_all h
    obtain ⟨_, _, _, _, rfl⟩ := h fp (fun _ => 0) hp
    dsimp only
    rw [hb]; rfl

theorem callsX_typed (hY : ExtSim Y X R) (hX : ∀ valid room fa ty vs m v m', X valid room fa ty vs m = some (v, m') → ty.scalar = true → inRange ty v = true) {D : Nat}
    {valid : W → Bool} {fa : W} {ty : Ty} {vs : List (Ty × Int)} {m m' : Mem} {v : Int} (h : callsX F Y sym lo hi it D valid fa ty vs m = some (v, m'))
    (hs : ty.scalar = true) : inRange ty v = true := by
  rcases callsX_cases h with ⟨_, h⟩ | ⟨_, f, fr, _, _, _, rfl, _, h⟩
  · obtain ⟨m1, h, _⟩ := hY.same _ _ _ _ _ _ _ h valid R m (Nat.le_refl _) (fun _ h => h) (fun _ _ => rfl)
    exact hX _ _ _ _ _ _ _ _ h hs
  · obtain ⟨⟨fp, hp⟩, h⟩ := callX_all h
    obtain ⟨_, _, _, hr, _⟩ := h fp (fun _ => 0) hp
    exact result_range hr hs

/-- The functions of the compiled program are found where those of the source program are. -/
theorem find_low : ∀ {F : List XFunc} {Fl : List Func}, F.mapM XFunc.low = some Fl → ∀ (fa : W),
    (F.find? (fun f => decide (sym (.sym f.name) = fa)) = none → Fl.find? (fun f => decide (sym (.sym f.name) = fa)) = none) ∧
    ∀ f, F.find? (fun f => decide (sym (.sym f.name) = fa)) = some f → ∃ g, f.low = some g ∧ Fl.find? (fun f => decide (sym (.sym f.name) = fa)) = some g
  | [], Fl, h, fa => by
    simp only [List.mapM_nil, Option.pure_def, Option.some.injEq] at h
    subst h
    exact ⟨fun _ => rfl, fun _ h => by cases h⟩
  | x :: r, Fl, h, fa => by
    simp only [List.mapM_cons, Option.bind_eq_bind, Option.bind_eq_some_iff, Option.pure_def, Option.some.injEq] at h
    obtain ⟨g, h1, gs, h2, rfl⟩ := h
    obtain ⟨i1, i2⟩ := find_low h2 fa
    have hn : g.name = x.name := by
      obtain ⟨_, _, _, _, _, _, rfl⟩ := low_eq h1
      rfl
    rw [List.find?_cons, List.find?_cons, hn]
    by_cases hc : sym (.sym x.name) = fa
    · rw [decide_eq_true hc]
      refine ⟨fun h => ?_, fun f h => ?_⟩
      · cases h
      · cases h
        exact ⟨g, h1, rfl⟩
    · rw [decide_eq_false hc]
      exact ⟨i1, i2⟩

theorem low_mem : ∀ {F : List XFunc} {Fl : List Func}, F.mapM XFunc.low = some Fl → ∀ f ∈ F, ∃ g ∈ Fl, f.low = some g
  | [], _, _, _, hf => by cases hf
  | x :: r, Fl, h, f, hf => by
    simp only [List.mapM_cons, Option.bind_eq_bind, Option.bind_eq_some_iff, Option.pure_def, Option.some.injEq] at h
    obtain ⟨g, h1, gs, h2, rfl⟩ := h
    rcases List.mem_cons.mp hf with rfl | hf
    · exact ⟨g, List.mem_cons_self, h1⟩
    · obtain ⟨g', h3, h4⟩ := low_mem h2 f hf
      exact ⟨g', List.mem_cons_of_mem _ h3, h4⟩

theorem run_le {ev : Stm.Ev} {s : Stm.SStmt} {n : Nat} {en : Option Tgt} {m m' : Mem} {e : End} (h : run ev n en s m = .done e m') : ∀ {k : Nat}, n ≤ k → run ev k en s m = .done e m' := by
  intro k hk
  induction hk with
  | refl => exact h
  | step _ ih =>
    rename_i k _
    rcases Stm.run_more (ev := ev) s k en m with h | h
    · rw [ih] at h; cases h
    · rw [h]; exact ih

theorem toNat_idx {B b : W} {n : Nat} (h : idx B b < n) (hn : n ≤ B.toNat) : b.toNat = B.toNat - 1 - idx B b := by
  unfold idx at *
  simp only [BitVec.toNat_sub, BitVec.toNat_ofNat, BitVec.ofNat_eq_ofNat] at *
  have := b.isLt
  have := B.isLt
  omega

theorem lay_ok {f : XFunc} {fr : Frame} (h : f.lay = some fr) : layout f.frame = .ok fr := by
  unfold XFunc.lay at h
  cases hx : layout f.frame with
  | error e => rw [hx] at h; cases h
  | ok x => rw [hx] at h; cases h; rfl

/-- What is assumed of a program. -/
structure Setup (F : List XFunc) (Fl : List Func) (Y : ExtX) (X : Whole.Ext) (R C : Nat) : Prop where
  low : F.mapM XFunc.low = some Fl
  wf : ∀ f ∈ F, f.Wf
  wfl : ∀ g ∈ Fl, Whole.Wf g
  neg : ∀ g ∈ Fl, ∀ fr, g.lay = some fr → ∀ p ∈ g.slots fr, p.2 ≤ 0
  ext : ExtSim Y X R
  typed : ∀ valid room fa ty vs m v m', X valid room fa ty vs m = some (v, m') → ty.scalar = true → inRange ty v = true
  cost : ∀ g ∈ Fl, ∀ fr, g.lay = some fr → Func.bytes fr / 8 + g.temps ≤ C
  rcost : R ≤ C

/-- What `calls_sim` says at depth `D`. -/
def Same (F : List XFunc) (Fl : List Func) (Y : ExtX) (X : Whole.Ext) (sym : Label → W) (lo hi it C D : Nat) : Prop :=
  ∀ (T n : Nat) (fp B : W) (vS vT : W → Bool) (room : Nat), it + D ≤ n → (D + 1) * C + T ≤ room →
    lo + 8 * room ≤ B.toNat → B.toNat ≤ hi → (∀ b, idx B b < 8 * room → vT b = false) → (∀ b, vS b = true → vT b = true) →
    ∀ fa ty vs (m m1 : Mem) v m' k, k ≤ T → (∀ b, vS b = true → m b = m1 b) → callsX F Y sym lo hi it D vS fa ty vs m = some (v, m') →
      ∃ m1', (envOf Fl X sym n fp B vT room).call fa k ty vs m1 = some (v, m1') ∧ (∀ b, vS b = true → m1' b = m' b) ∧ ∀ b, vS b = false → m1' b = m1 b

/-- The environments of a body are related as in C72. -/
theorem hidden_of {C D : Nat} (st : Setup F Fl Y X R C) (ih : Same F Fl Y X sym lo hi it C D) {f : XFunc} {g : Func} {fr : Frame} (hx : f.Wf) (hg : f.low = some g) (hgF : g ∈ Fl)
    (hl : layout f.frame = .ok fr) {n k room : Nat} {B : W} {vS vT : W → Bool} (hn : it + D ≤ n) (hfit : k + Func.bytes fr / 8 + (D + 1) * C + g.temps ≤ room)
    (hlo : lo + 8 * room ≤ B.toNat) (hhi : B.toNat ≤ hi) (hst : ∀ b, idx B b < 8 * room → vT b = false) (hsub : ∀ b, vS b = true → vT b = true) :
    let fp := B - BitVec.ofNat 64 (8 * k) - 8 - 8
    let live : W → Bool := fun b => vS b || inObjs fp (f.objs fr) b
    let S := envX sym fp live (callsX F Y sym lo hi it D live)
    let E := envOf Fl X sym n fp (B - BitVec.ofNat 64 (8 * (k + Func.bytes fr / 8))) (fun b => vT b || inObjs fp (g.objs fr) b) (room - (k + Func.bytes fr / 8))
    Hidden S { E with call := fun a d => if d ≤ g.temps then E.call a d else E.call a 0 } (f.tmp fr) (f.hid.length - 1) := by
  intro fp live S E
  have hw := st.wfl g hgF
  have hlg : layout g.frame = .ok fr := by rw [low_frame hg]; exact hl
  have hneg := st.neg g hgF fr (by unfold Func.lay; rw [hlg]; rfl)
  have hby := (bytes_eq hw hlg).1
  have hB := B.isLt
  have hinObj : ∀ b, inObjs fp (g.objs fr) b = true → idx B b < 8 * (k + Func.bytes fr / 8) := by
    intro b hb
    have h1 := (objs_idx hw hlg hneg (by omega) hb).2.1
    have := idx_down (B := B) (b := b) (K := 8 * k) (by omega)
    omega
  have htmp : ∀ b j, (b - (fp + BitVec.ofInt 64 (f.tmp fr j))).toNat < 8 → idx B b < 8 * (k + Func.bytes fr / 8) := by
    intro b j hb
    have h1 := (tmp_idx hx hg hw hl (by omega) hb).1
    have := idx_down (B := B) (b := b) (K := 8 * k) (by omega)
    omega
  have hdead : ∀ b, idx B b < 8 * (k + Func.bytes fr / 8) → vS b = false := by
    intro b hb
    cases hv : vS b with
    | false => rfl
    | true =>
      have h1 := hsub b hv
      rw [hst b (by omega)] at h1
      cases h1
  have hlive : ∀ b, live b = true → ∀ j, 8 ≤ (b - (fp + BitVec.ofInt 64 (f.tmp fr j))).toNat := by
    intro b hb j
    rcases Bool.or_eq_true_iff.mp hb with hb | hb
    · apply Nat.le_of_not_lt
      intro hlt
      rw [hdead b (htmp b j hlt)] at hb
      cases hb
    · exact tmp_apart_obj hx hg hw hl hneg (by omega) hb j
  refine ⟨envOf_fp .., envOf_sym .., ?_, ?_, ?_, ?_, ?_⟩
  · intro b hb
    show E.valid b = true
    rw [envOf_valid, Bool.or_eq_true_iff]
    rcases Bool.or_eq_true_iff.mp hb with hb | hb
    · exact .inl (hsub b hb)
    · exact .inr (inObjs_sub hx hg hb)
  · intro b j hb
    exact hlive b hb j
  · intro j i hj hi
    show E.valid _ = true
    rw [envOf_valid, Bool.or_eq_true_iff]
    exact .inr (tmp_valid hx hg hw hl (by omega) hi)
  · intro j j' b hj hj' hne hb
    exact tmp_disjoint hx hg hw hl (by omega) (by omega) (by omega) hne hb
  · intro a d ty vs m m1 v m' hag hc
    have hB' : (B - BitVec.ofNat 64 (8 * (k + Func.bytes fr / 8))).toNat = B.toNat - 8 * (k + Func.bytes fr / 8) := by
      rw [BitVec.toNat_sub, BitVec.toNat_ofNat]
      omega
    have key : ∀ d, d ≤ g.temps → ∃ m1', E.call a d ty vs m1 = some (v, m1') ∧ (∀ b, live b = true → m1' b = m' b) ∧ ∀ b, live b = false → m1' b = m1 b := by
      intro d hd
      refine ih g.temps n fp _ live (fun b => vT b || inObjs fp (g.objs fr) b) (room - (k + Func.bytes fr / 8)) hn (by omega) (by rw [hB']; omega) (by rw [hB']; omega) ?_ ?_ a ty vs m m1 v m' d hd
        (fun b hb => hag b (hlive b hb)) hc
      · intro b hb
        have e := idx_down (B := B) (b := b) (K := 8 * (k + Func.bytes fr / 8)) (by omega)
        rw [Bool.or_eq_false_iff]
        refine ⟨hst b (by omega), ?_⟩
        cases ho : inObjs fp (g.objs fr) b with
        | false => rfl
        | true => have := hinObj b ho; omega
      · intro b hb
        rw [Bool.or_eq_true_iff]
        rcases Bool.or_eq_true_iff.mp hb with hb | hb
        · exact .inl (hsub b hb)
        · exact .inr (inObjs_sub hx hg hb)
    have key2 : ∃ m1', (if d ≤ g.temps then E.call a d else E.call a 0) ty vs m1 = some (v, m1') ∧ (∀ b, live b = true → m1' b = m' b) ∧ ∀ b, live b = false → m1' b = m1 b := by
      split
      · rename_i hd; exact key d hd
      · exact key 0 (Nat.zero_le _)
    obtain ⟨m1', e1, e2, e3⟩ := key2
    refine ⟨m1', e1, ?_, ?_⟩
    · intro b hb
      cases hv : live b with
      | true => exact (e2 b hv).symm
      | false => rw [callsX_frames st.ext hc hv, e3 b hv]; exact hag b hb
    · intro j b hb
      apply e3
      cases hv : live b with
      | false => rfl
      | true =>
        exact absurd hb (Nat.not_lt.mpr (hlive b hv j))

theorem indep_some {h : Mem → Option (Int × Mem)} {r : Int × Mem} (e : ∀ g, h g = some r) : Whole.indep h = some r := by
  unfold Whole.indep
  rw [if_pos ⟨r, e⟩, e]

theorem temps_need {g : Func} : ∀ p ∈ g.body.uses, need p.2 ≤ g.temps := by
  intro p hp
  unfold Func.temps
  generalize g.body.uses = l at hp
  induction l with
  | nil => cases hp
  | cons a r ih =>
    rw [List.map_cons, List.foldr_cons]
    rcases List.mem_cons.mp hp with rfl | hp
    · exact Nat.le_max_left _ _
    · exact Nat.le_trans (ih hp) (Nat.le_max_right _ _)

/-- A call of a function of the program. -/
theorem fn_sim {C D : Nat} (st : Setup F Fl Y X R C) (ih : Same F Fl Y X sym lo hi it C D) {f : XFunc} {g : Func} {fr : Frame} (hx : f.Wf) (hg : f.low = some g) (hgF : g ∈ Fl)
    (hl : layout f.frame = .ok fr) {n k room : Nat} {B : W} {vS vT : W → Bool} (hn : it + D ≤ n) (hfit : k + Func.bytes fr / 8 + (D + 1) * C + g.temps ≤ room)
    (hlo : lo + 8 * room ≤ B.toNat) (hhi : B.toNat ≤ hi) (hst : ∀ b, idx B b < 8 * room → vT b = false) (hsub : ∀ b, vS b = true → vT b = true)
    {vs : List Int} {m m1 m' : Mem} {v : Int} (hm : ∀ b, vS b = true → m b = m1 b) (h : callX sym lo hi it (callsX F Y sym lo hi it D) f fr vS vs m = some (v, m')) :
    Whole.callFn (envOf Fl X sym n (B - BitVec.ofNat 64 (8 * k) - 8 - 8) (B - BitVec.ofNat 64 (8 * (k + Func.bytes fr / 8)))
      (fun b => vT b || inObjs (B - BitVec.ofNat 64 (8 * k) - 8 - 8) (g.objs fr) b) (room - (k + Func.bytes fr / 8))) n g fr vs m1 =
      some (v, fun b => if vS b then m' b else m1 b) := by
  have H := hidden_of st ih hx hg hgF hl hn hfit hlo hhi hst hsub
  dsimp only at H
  have hw := st.wfl g hgF
  have hlg : layout g.frame = .ok fr := by rw [low_frame hg]; exact hl
  have hneg := st.neg g hgF fr (by unfold Func.lay; rw [hlg]; rfl)
  have hby := (bytes_eq hw hlg).1
  have hB := B.isLt
  obtain ⟨fr', s, k', hl', htr, hk', hgeq⟩ := low_eq hg
  rw [hl] at hl'
  cases hl'
  have hinObj : ∀ b, inObjs (B - BitVec.ofNat 64 (8 * k) - 8 - 8) (g.objs fr) b = true → idx B b < 8 * (k + Func.bytes fr / 8) := by
    intro b hb
    have h1 := (objs_idx hw hlg hneg (by omega) hb).2.1
    have := idx_down (B := B) (b := b) (K := 8 * k) (by omega)
    omega
  have hdead : ∀ b, idx B b < 8 * (k + Func.bytes fr / 8) → vS b = false := by
    intro b hb
    cases hv : vS b with
    | false => rfl
    | true =>
      have h1 := hsub b hv
      rw [hst b (by omega)] at h1
      cases h1
  have hplaced : Placed lo hi vS (f.objs fr) (B - BitVec.ofNat 64 (8 * k) - 8 - 8) := by
    intro b hb
    have h1 := hinObj b (inObjs_sub hx hg hb)
    have h2 := toNat_idx h1 (by omega)
    exact ⟨hdead b h1, by omega, by omega⟩
  have hslots := low_slots (fr := fr) hg
  generalize hfp : B - BitVec.ofNat 64 (8 * k) - 8 - 8 = fp at *
  unfold Whole.callFn
  apply indep_some
  intro g0
  rw [envOf_fp, hslots]
  generalize hstart : (fun b => if inObjs fp (g.objs fr) b = true then g0 b else m1 b) = start
  have hstart' : (fun b => if vS b = true then m b else start b) = start := by
    funext b
    split
    · rename_i hv
      rw [hm b hv, ← hstart]
      dsimp only
      rw [if_neg]
      intro ho
      rw [hdead b (hinObj b ho)] at hv
      cases hv
    · rfl
  obtain ⟨e, m2, hrun, hres, hm'⟩ := (callX_all h).2 fp start hplaced
  rw [hstart'] at hrun
  generalize hbase : bindArgs fp (f.slots fr) vs start = base at hrun ⊢
  obtain ⟨s', k'', htr', hsim⟩ := Props.C72_rewritten_body_partial H (by
    intro a d ty vs m v m' hc hs
    exact callsX_typed st.ext st.typed hc hs) f.ret f.body hx.typed 0
  rw [htr] at htr'
  cases htr'
  obtain ⟨mt, hrun1, hag⟩ := (hsim (by omega) 0 it base base (fun _ _ => rfl)).1 e m2 hrun
  have hbody : g.body = s := by rw [hgeq]
  have hrun2 := run_calls (D := g.temps) (E := envOf Fl X sym n fp (B - BitVec.ofNat 64 (8 * (k + Func.bytes fr / 8))) (fun b => vT b || inObjs fp (g.objs fr) b) (room - (k + Func.bytes fr / 8)))
    (fun a d ty vs m hd => by rw [if_pos hd]) (by rw [← hbody]; exact temps_need) hrun1
  have hrun3 := run_le hrun2 (show it ≤ n by omega)
  rw [hbody, hrun3]
  dsimp only
  rw [result_low hg hres, Option.map_some]
  congr 2
  funext b
  have hbind : inObjs fp (g.objs fr) b = false → base b = m1 b := by
    intro ho
    rw [← hbase, ← hslots, Whole.bind_keep hw hlg ho, ← hstart]
    dsimp only
    rw [ho]; rfl
  cases ho : inObjs fp (g.objs fr) b with
  | true =>
    rw [if_pos rfl, if_neg]
    rw [hdead b (hinObj b ho)]
    exact Bool.false_ne_true
  | false =>
    rw [if_neg Bool.false_ne_true]
    have hapart : (∃ j, (b - slotA (envX sym fp (fun b => vS b || inObjs fp (f.objs fr) b) (callsX F Y sym lo hi it D (fun b => vS b || inObjs fp (f.objs fr) b))) (f.tmp fr) j).toNat < 8) → vT b = false ∧ vS b = false := by
      rintro ⟨j, hj⟩
      have hj' : (b - (B - BitVec.ofNat 64 (8 * k) - 8 - 8 + BitVec.ofInt 64 (f.tmp fr j))).toNat < 8 := by rw [hfp]; exact hj
      have h1 := (tmp_idx hx hg hw hl (by omega) hj').1
      have := idx_down (B := B) (b := b) (K := 8 * k) (by omega)
      exact ⟨hst b (by omega), hdead b (by omega)⟩
    cases hvT : vT b with
    | false =>
      have hvS : vS b = false := by
        cases hv : vS b with
        | false => rfl
        | true => have := hsub b hv; rw [hvT] at this; cases this
      rw [hvS, if_neg Bool.false_ne_true, ← hbind ho]
      exact run_keep (envOf_frames st.wfl st.ext.frames _ _ _ _ _) (by rw [envOf_valid, hvT, ho]; rfl) s _ _ _ _ _ hrun3
    | true =>
      have hall : ∀ j, 8 ≤ (b - slotA (envX sym fp (fun b => vS b || inObjs fp (f.objs fr) b) (callsX F Y sym lo hi it D (fun b => vS b || inObjs fp (f.objs fr) b))) (f.tmp fr) j).toNat := by
        intro j
        apply Nat.le_of_not_lt
        intro hj
        rw [(hapart ⟨j, hj⟩).1] at hvT
        cases hvT
      rw [← hag b hall]
      cases hvS : vS b with
      | true =>
        rw [if_pos rfl, hm']
        dsimp only
        rw [if_pos hvS]
      | false =>
        rw [if_neg Bool.false_ne_true, ← hbind ho]
        have hof : inObjs fp (f.objs fr) b = false := by
          cases hh : inObjs fp (f.objs fr) b with
          | false => rfl
          | true => rw [inObjs_sub hx hg hh] at ho; cases ho
        refine runX_keep ?_ ?_ f.ret f.body _ _ _ _ _ hrun
        · intro a d ty vs m v m' hc b hb
          exact callsX_frames st.ext hc hb
        · show (vS b || inObjs fp (f.objs fr) b) = false
          rw [hvS, hof]; rfl

/-- Calls do the same: `T` bounds the slots in use at the call. -/
theorem calls_sim {C : Nat} (st : Setup F Fl Y X R C) : ∀ D, Same F Fl Y X sym lo hi it C D := by
  intro D
  induction D with
  | zero => ?_
  | succ D ihD => ?_
  all_goals
    intro T n fp B vS vT room hn hroom hlo hhi hst hsub fa ty vs m m1 v m' k hk hm h
    rcases callsX_cases h with ⟨hf, h⟩ | ⟨D', f, fr, hD, hf, hlay, hty, hvs, h⟩
    · obtain ⟨m1', e1, e2, e3⟩ := st.ext.same _ _ _ _ _ _ _ h vT (room - k) m1 (by have := st.rcost; simp only [Nat.add_mul] at hroom; omega) hsub (fun b hb => (hm b hb).symm)
      refine ⟨m1', ?_, e2, e3⟩
      have hfl := (find_low (sym := sym) st.low fa).1 hf
      cases n with
      | zero => show (match Fl.find? (fun f => decide (sym (.sym f.name) = fa)) with | none => _ | some f => _) = _; rw [hfl]; exact e1
      | succ n => show (match Fl.find? (fun f => decide (sym (.sym f.name) = fa)) with | none => _ | some f => _) = _; rw [hfl]; exact e1
    · first
      | (cases hD; done)
      | (cases hD
         obtain ⟨g, hlow, hfl⟩ := (find_low (sym := sym) st.low fa).2 f hf
         obtain ⟨n, rfl⟩ : ∃ n', n = n' + 1 := ⟨n - 1, by omega⟩
         have hgF := (Whole.find_fn hfl).1
         have hl := lay_ok hlay
         have hlg : g.lay = some fr := by rw [low_lay hlow]; exact hlay
         have hc := st.cost g hgF fr hlg
         have hw := st.wfl g hgF
         have hbytes : k + Func.bytes fr / 8 + (D + 1) * C + g.temps ≤ room := by
           have e : (D + 1 + 1) * C = (D + 1) * C + C := by rw [Nat.succ_mul]
           omega
         have hcall := fn_sim st ihD (st.wf f (List.mem_of_find?_eq_some hf)) hlow hgF hl (n := n) (by omega) hbytes hlo hhi hst hsub hm h
         refine ⟨fun b => if vS b then m' b else m1 b, ?_, ?_, ?_⟩
         · show (match Fl.find? (fun f => decide (sym (.sym f.name) = fa)) with | none => _ | some f => _) = _
           rw [hfl]
           dsimp only
           rw [hlg]
           dsimp only
           rw [if_pos]
           · have e16 : B - BitVec.ofNat 64 (8 * k) - 16 = B - BitVec.ofNat 64 (8 * k) - 8 - 8 := (sub_sixteen _).symm
             rw [e16]
             exact hcall
           · obtain ⟨_, _, _, _, _, _, hgeq⟩ := low_eq hlow
             refine ⟨by rw [hgeq]; exact hty, by rw [hgeq]; exact hvs, by omega⟩
         · intro b hb
           dsimp only
           rw [if_pos hb]
         · intro b hb
           dsimp only
           rw [hb, if_neg Bool.false_ne_true])

end Toycc.Src
