import Verif.Whole.Emit
/-! Every function of the class is compiled. -/
namespace Toycc.Whole
open Toycc.Rv Toycc.Cg Toycc.Fn
open Toycc.Stm hiding exec
open Toycc.Frame hiding St

theorem paramOffsets_ints : ∀ (ps : List Ty) (g k : Nat) (top : Int), ps.length + g ≤ 8 →
    paramOffsets (ps.map intVar) g k top = .ok (ps.map fun _ => none, top)
  | [], _, _, _, _ => rfl
  | t :: ps, g, k, top, h => by
    simp only [List.length_cons] at h
    have hg : g < maxRegs := by unfold maxRegs; omega
    have h1 : place (intVar t) g k = .ok (.reg (g + 1) k) := by simp [place, intVar, hg]
    simp only [List.map_cons, paramOffsets, h1, bind, Except.bind]
    rw [paramOffsets_ints ps (g + 1) k top (by omega)]

theorem localOffsets_neg : ∀ (vs : List (Frame.Var × Option Int)) (bottom : Int) (os : List Int) (b : Int), 0 ≤ bottom → (∀ p ∈ vs, 0 < p.1.align ∧ p.2 = none) →
    localOffsets vs bottom = .ok (os, b) → ∀ o ∈ os, o ≤ 0
  | [], _, os, b, _, _, h => by simp only [localOffsets] at h; cases h; simp
  | (v, x) :: r, bottom, os, b, hb, hv, h => by
    obtain ⟨h1, h2⟩ := hv _ List.mem_cons_self
    dsimp only at h1 h2
    subst h2
    simp only [localOffsets, bind, Except.bind] at h
    cases ha : alignE (bottom + v.size) v.align with
    | error e => rw [ha] at h; cases h
    | ok n =>
      rw [ha] at h
      dsimp only at h
      have := (alignE_of (by omega) (by omega) ha).1
      cases hl : localOffsets r n with
      | error e => rw [hl] at h; cases h
      | ok q =>
        rw [hl] at h
        obtain ⟨os', b'⟩ := q
        simp only [Except.ok.injEq, Prod.mk.injEq] at h
        obtain ⟨rfl, rfl⟩ := h
        have ih := localOffsets_neg r n os' b' (by omega) (fun p hp => hv p (List.mem_cons_of_mem _ hp)) hl
        intro o ho
        rcases List.mem_cons.mp ho with rfl | ho
        · omega
        · exact ih o ho

/-- No variable is above the frame pointer. -/
theorem offs_neg {f : Func} (hw : Wf f) {fr : Frame} (hl : layout f.frame = .ok fr) : ∀ o ∈ fr.offs, o ≤ 0 := by
  simp only [layout, bind, Except.bind] at hl
  have hp : f.frame.params = f.params.map intVar := rfl
  have hv : f.frame.variadic = false := rfl
  rw [hp, paramOffsets_ints f.params 0 0 16 (by have := hw.few; omega)] at hl
  dsimp only at hl
  split at hl
  · cases hl
  · split at hl
    · cases hl
    · rename_i q hq
      obtain ⟨os, b⟩ := q
      dsimp only at hl
      split at hl
      · cases hl
      · cases hl
        refine localOffsets_neg _ 0 _ _ (Int.le_refl _) ?_ hq
        intro p hp
        obtain ⟨i, hi⟩ := List.getElem?_of_mem hp
        rw [List.getElem?_zip_eq_some] at hi
        refine ⟨hw.align _ (List.mem_of_getElem? hi.1), ?_⟩
        have := List.mem_of_getElem? hi.2
        rw [hv] at this
        simp only [Bool.false_eq_true, if_false, List.append_nil, List.mem_append, List.mem_map] at this
        rcases this with ⟨_, _, h⟩ | ⟨_, _, h⟩ <;> exact h.symm

theorem storeArgs_total {g : Nat} (hg : g < 8) (o : Int) (n : Nat) : ∃ c, storeArgs g o n = some c := by
  obtain ⟨r, hr⟩ := argReg_lt hg
  unfold storeArgs
  rw [hr]
  exact ⟨_, rfl⟩

theorem saves_total : ∀ (ps : List Ty) (os : List Int) (g k : Nat), ps.length + g ≤ 8 → (∀ o ∈ os, o ≤ 0) →
    ∃ q, saveParams ((ps.map intVar).zip os) g k = some q
  | [], _, _, _, _, _ => ⟨_, rfl⟩
  | _ :: _, [], _, _, _, _ => ⟨_, rfl⟩
  | t :: ps, o :: os, g, k, hg, ho => by
    simp only [List.length_cons] at hg
    have hg8 : g < maxRegs := by unfold maxRegs; omega
    obtain ⟨c, hc⟩ := storeArgs_total (g := g) (by omega) o t.size
    obtain ⟨q, hq⟩ := saves_total ps os (g + 1) k (by omega) (fun o h => ho o (List.mem_cons_of_mem _ h))
    have h0 : ¬ 0 < o := Int.not_lt.mpr (ho o List.mem_cons_self)
    refine ⟨(ints c ++ q.1, q.2), ?_⟩
    simp only [List.map_cons, List.zip_cons_cons, saveParams, saveParam, intVar, if_neg h0, if_pos hg8, hc, Option.map_some, Option.bind_eq_bind, Option.bind_some]
    rw [hq]
    rfl

theorem prologue_total {f : Func} (hw : Wf f) {fr : Frame} (hl : layout f.frame = .ok fr) : ∃ pro, prologue f.frame fr = some pro := by
  have hv : f.frame.variadic = false := rfl
  obtain ⟨c1, _⟩ := C48_frame f.frame fr hw.align hl
  have hlen : f.frame.params.length = f.params.length := by simp [Func.frame]
  obtain ⟨q, hq⟩ := saves_total f.params (fr.offs.drop (fr.offs.length - f.params.length)) 0 0 (by have := hw.few; omega)
    (fun o h => offs_neg hw hl o (List.mem_of_mem_drop h))
  have ha : f.others.length - 1 < fr.offs.length := by
    rw [c1, locals_eq, List.length_append]; have := hw.pos; omega
  have hp : f.frame.params = f.params.map intVar := rfl
  have ho : f.frame.others = f.others := rfl
  simp only [prologue, hv, Bool.false_eq_true, false_and, if_false, hlen, vaSaves, allocaOff, ho, List.getElem?_eq_getElem ha, Option.bind_eq_bind, Option.bind_some]
  rw [hp, hq]
  exact ⟨_, rfl⟩

theorem layout_total {f : Func} (hw : Wf f) : ∃ fr, layout f.frame = .ok fr := by
  refine C48_total f.frame hw.align ?_
  intro v hv
  obtain ⟨t, _, rfl⟩ := List.mem_map.mp hv
  exact ⟨by simp [intVar], by simp [intVar]⟩

theorem emitFn_total {f : Func} (hw : Wf f) {st : Stmt} {uid uid' : Nat} (he : elabBody uid f.body = some (st, uid')) (gs : GS) :
    ∃ q, emitFn f st gs = some q := by
  obtain ⟨fr, hl⟩ := layout_total hw
  obtain ⟨pro, hp⟩ := prologue_total hw hl
  obtain ⟨code, u2, g2, k1, k2⟩ := Props.compile_total hw.body f.name uid gs
  simp only [compileBody, bindSome, Option.some.injEq, Prod.mk.injEq] at k1
  obtain ⟨⟨st', u3⟩, k3, ⟨b', g3⟩, k4, rfl, rfl, rfl⟩ := k1
  rw [he] at k3
  cases k3
  simp only [emitFn, hl, Except.toOption, hp, push_push, genBody_up k4, Option.bind_eq_bind, Option.bind_some]
  exact ⟨_, rfl⟩

theorem emitFns_total : ∀ (ps : List (Func × Stmt)) (gs : GS), (∀ p ∈ ps, Wf p.1 ∧ ∃ uid uid', elabBody uid p.1.body = some (p.2, uid')) →
    ∃ q, emitFns ps gs = some q
  | [], _, _ => ⟨_, rfl⟩
  | (f, st) :: r, gs, hw => by
    obtain ⟨w, uid, uid', he⟩ := hw (f, st) List.mem_cons_self
    obtain ⟨⟨c, g1⟩, h1⟩ := emitFn_total w he gs
    obtain ⟨⟨cs, g2⟩, h2⟩ := emitFns_total r g1 (fun p hp => hw p (List.mem_cons_of_mem _ hp))
    dsimp only at h1
    simp only [emitFns, h1, h2, Option.bind_eq_bind, Option.bind_some]
    exact ⟨_, rfl⟩

theorem parseFns_total : ∀ (F : List Func) (uid : Nat), (∀ f ∈ F, Wf f) → ∃ q, parseFns uid F = some q
  | [], _, _ => ⟨_, rfl⟩
  | f :: r, uid, hw => by
    have h := (hw f List.mem_cons_self).body
    have := (elabBody_iff (uid + 2) f.body).mpr ⟨h.placed, h.gotos⟩
    obtain ⟨⟨st, u1⟩, h1⟩ := Option.isSome_iff_exists.mp this
    obtain ⟨⟨sts, u2⟩, h2⟩ := parseFns_total r u1 (fun f hf => hw f (List.mem_cons_of_mem _ hf))
    simp only [parseFns, h1, h2, Option.bind_eq_bind, Option.bind_some]
    exact ⟨_, rfl⟩

end Toycc.Whole
