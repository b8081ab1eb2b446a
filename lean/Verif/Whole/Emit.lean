import Verif.Whole.Prog
import Verif.Stm.FileProps
/-! The text of a file: the code of each function is in it, and no label is defined twice. -/
namespace Toycc.Whole
open Toycc.Rv Toycc.Cg Toycc.Fn
open Toycc.Stm hiding exec
open Toycc.Frame hiding St

theorem labels_storeArgs {t : Ty} (ht : t.scalar = true) {g : Nat} {o : Int} {c : List Instr} (h : storeArgs g o t.size = some c) : labels c = [] := by
  have hs : ∀ r off b, labels (storeReg r off b t.size) = [] := by
    intro r off b
    rcases scalar_size ht with h | h | h | h <;> rw [h] <;> rfl
  have h0 : t.size ≠ 0 := by rcases scalar_size ht with h | h | h | h <;> omega
  unfold storeArgs at h
  cases hr : argRegs[g]? with
  | none => rw [hr] at h; dsimp only at h; rw [if_neg h0] at h; cases h
  | some r =>
    rw [hr] at h
    simp only [Option.some.injEq] at h
    split at h
    · subst h; rw [labels_append, hs]; rfl
    · subst h; exact hs _ _ _

theorem labels_saves : ∀ (ps : List Ty) (os : List Int) (g k : Nat) (c : List PI) (g' : Nat),
    saveParams ((ps.map intVar).zip os) g k = some (c, g') → (∀ t ∈ ps, t.scalar = true) → ps.length + g ≤ 8 → labels (intOnly c) = []
  | [], os, g, k, c, g', h, _, _ => by
    simp only [List.map_nil, List.zip_nil_left, saveParams, Option.some.injEq, Prod.mk.injEq] at h
    obtain ⟨rfl, rfl⟩ := h
    rfl
  | t :: ps, [], g, k, c, g', h, _, _ => by
    simp only [List.map_cons, List.zip_nil_right, saveParams, Option.some.injEq, Prod.mk.injEq] at h
    obtain ⟨rfl, rfl⟩ := h
    rfl
  | t :: ps, o :: os, g, k, c, g', h, hs, hg => by
    simp only [List.map_cons, List.zip_cons_cons, saveParams, bindSome, Option.some.injEq, Prod.mk.injEq] at h
    obtain ⟨⟨c1, g1, k1⟩, h1, ⟨c2, g2⟩, h2, rfl, rfl⟩ := h
    dsimp only at h2 ⊢
    simp only [List.length_cons] at hg
    have hg8 : g < maxRegs := by unfold maxRegs; omega
    simp only [saveParam, intVar] at h1
    have ho : ¬ 0 < o := by
      intro ho
      rw [if_pos ho, if_pos hg8] at h1
      simp at h1
    rw [if_neg ho, if_pos hg8, Option.map_eq_some_iff] at h1
    obtain ⟨c0, h0, e⟩ := h1
    simp only [Prod.mk.injEq] at e
    obtain ⟨rfl, rfl, rfl⟩ := e
    rw [intOnly_append, intOnly_ints, labels_append, labels_storeArgs (hs t List.mem_cons_self) h0,
      labels_saves ps os (g + 1) k c2 g2 h2 (fun t h => hs t (List.mem_cons_of_mem _ h)) (by omega)]
    rfl

theorem labels_prologue {f : Func} (hw : Wf f) {fr : Frame} {pro : List PI} (hp : prologue f.frame fr = some pro) : labels (intOnly pro) = [] := by
  have hv : f.frame.variadic = false := rfl
  simp only [prologue, hv, Bool.false_eq_true, false_and, if_false, bindSome, Option.some.injEq] at hp
  obtain ⟨⟨c1, g⟩, h1, c2, h2, al, h3, rfl⟩ := hp
  simp only [vaSaves, hv, Bool.false_eq_true, if_false, Option.some.injEq] at h2
  subst h2
  have hz : vaSize f.frame = 0 := by simp [vaSize, hv]
  have := labels_saves f.params _ 0 0 c1 g h1 hw.scalar (by have := hw.few; omega)
  rw [hz, if_pos rfl]
  have hr : labels (reserve fr.size) = [] := by unfold reserve; split <;> rfl
  simp only [intOnly_append, intOnly_ints, intOnly_moves, labels_append, List.append_nil, List.nil_append, this, hr]
  rfl

theorem labels_epilogue (f : Func) : labels (intOnly (epilogue f.frame)) = [] := by
  have hz : vaSize f.frame = 0 := by simp [vaSize, Func.frame]
  rw [epilogue, hz, if_pos rfl, intOnly_append, intOnly_ints, intOnly_moves]
  rfl

theorem codeAt_after {P c : List Instr} {pos : Nat} {d : List Instr} (h : CodeAt c pos d) (hd : ∀ i, i < d.length → pos + i < c.length)
    : CodeAt (P ++ c) (P.length + pos) d := by
  intro i hi
  rw [List.getElem?_append_right (by omega), ← h i hi]
  congr 1
  omega

theorem codeAt_in {c d : List Instr} {pos : Nat} (h : CodeAt c pos d) : ∀ i, i < d.length → pos + i < c.length := by
  intro i hi
  have := h i hi
  rw [List.getElem?_eq_getElem hi] at this
  exact (List.getElem?_eq_some_iff.mp this).1

theorem codeOf_after {c : List Instr} {f : Func} {pos : Nat} (P : List Instr) (h : CodeOf c f pos) : CodeOf (P ++ c) f (P.length + pos) := by
  obtain ⟨fr, pro, c0, uid, uid', gs, gs', h1, h2, h3, h4, h5⟩ := h
  exact ⟨fr, pro, c0, uid, uid', gs, gs', h1, h2, h3, h4, codeAt_after h5 (codeAt_in h5)⟩

theorem push_push (gs : GS) : gs.push.push = up gs := rfl

theorem up_pop2 {gs : GS} : (up gs).pop.pop = gs := rfl

/-- One function. -/
theorem emitFn_code {f : Func} (hw : Wf f) {st : Stmt} {uid uid' : Nat} (he : elabBody uid f.body = some (st, uid')) {gs gs' : GS} {c : List Instr}
    (h : emitFn f st gs = some (c, gs')) :
    gs'.depth = gs.depth ∧ ∃ fr pro b, layout f.frame = .ok fr ∧ prologue f.frame fr = some pro ∧ genBody f.name st gs = some (b, gs') ∧
      c = .label (.sym f.name) :: (intOnly pro ++ b ++ intOnly (epilogue f.frame)) ∧ labels c = .sym f.name :: labels b := by
  simp only [emitFn, bindSome, Option.some.injEq, Prod.mk.injEq] at h
  obtain ⟨fr, h1, pro, h2, ⟨b, g1⟩, h3, rfl, rfl⟩ := h
  obtain ⟨code, u2, g2, k1, k2⟩ := Props.compile_total hw.body f.name uid gs
  simp only [compileBody, bindSome, Option.some.injEq, Prod.mk.injEq] at k1
  obtain ⟨⟨st', u3⟩, k3, ⟨b', g3⟩, k4, rfl, rfl, rfl⟩ := k1
  rw [he] at k3
  cases k3
  have k5 := genBody_up k4
  rw [push_push, k5] at h3
  simp only [Option.some.injEq, Prod.mk.injEq] at h3
  obtain ⟨rfl, rfl⟩ := h3
  dsimp only at k2 k4 ⊢
  rw [up_pop2]
  refine ⟨k2, fr, pro, b', ?_, h2, k4, rfl, ?_⟩
  · cases hl : layout f.frame with
    | error e => rw [hl] at h1; cases h1
    | ok x => rw [hl] at h1; cases h1; rfl
  · rw [labels_cons, labels_append, labels_append, labels_prologue hw h2, labels_epilogue]
    simp [labels]

/-- The code of all functions. -/
theorem emit_split : ∀ (ps : List (Func × Stmt)) (gs gs' : GS) (code : List Instr), emitFns ps gs = some (code, gs') → gs.depth = 0 →
    (∀ p ∈ ps, Wf p.1 ∧ ∃ uid uid', elabBody uid p.1.body = some (p.2, uid')) →
    gs'.depth = 0 ∧ (∃ code', emitFile (ps.map fun p => (p.1.name, p.2)) gs = some (code', gs') ∧ labels code = labels code') ∧
      ∀ p ∈ ps, ∃ pos, CodeOf code p.1 pos
  | [], gs, gs', code, h, hd, _ => by
    simp only [emitFns, Option.some.injEq, Prod.mk.injEq] at h
    obtain ⟨rfl, rfl⟩ := h
    exact ⟨hd, ⟨[], rfl, rfl⟩, by simp⟩
  | (f, st) :: r, gs, gs', code, h, hd, hw => by
    simp only [emitFns, bindSome, Option.some.injEq, Prod.mk.injEq] at h
    obtain ⟨⟨c, g1⟩, h1, ⟨cs, g2⟩, h2, rfl, rfl⟩ := h
    obtain ⟨w, uid, uid', he⟩ := hw (f, st) List.mem_cons_self
    obtain ⟨d1, fr, pro, b, q1, q2, q3, q4, q5⟩ := emitFn_code w he h1
    obtain ⟨d2, ⟨code', p1, p2⟩, p3⟩ := emit_split r g1 g2 cs h2 (by omega) (fun p hp => hw p (List.mem_cons_of_mem _ hp))
    refine ⟨d2, ⟨.label (.sym f.name) :: b ++ code', ?_, ?_⟩, ?_⟩
    · simp only [List.map_cons, emitFile, q3, p1, Option.bind_eq_bind, Option.bind_some]
    · rw [labels_append, q5, p2, List.cons_append, List.cons_append, labels_cons, labels_append]; rfl
    · intro p hp
      rcases List.mem_cons.mp hp with rfl | hp
      · refine ⟨0, fr, pro, b, uid, uid', gs, g1, q1, q2, ?_, hd, ?_⟩
        · simp only [compileBody, he, q3, Option.bind_eq_bind, Option.bind_some]
        · rw [← q4]
          exact (codeAt_self (c ++ cs)).left
      · obtain ⟨pos, hpos⟩ := p3 p hp
        exact ⟨_, codeOf_after c hpos⟩

theorem parse_split : ∀ (F : List Func) (uid : Nat) (ps : List (Func × Stmt)) (uid' : Nat), parseFns uid F = some (ps, uid') →
    parseFile uid (F.map fun f => (f.name, f.body)) = some (ps.map fun p => (p.1.name, p.2), uid') ∧ ps.map (·.1) = F ∧
      ∀ p ∈ ps, ∃ u u', elabBody u p.1.body = some (p.2, u')
  | [], uid, ps, uid', h => by
    simp only [parseFns, Option.some.injEq, Prod.mk.injEq] at h
    obtain ⟨rfl, rfl⟩ := h
    exact ⟨rfl, rfl, by simp⟩
  | f :: r, uid, ps, uid', h => by
    simp only [parseFns, bindSome, Option.some.injEq, Prod.mk.injEq] at h
    obtain ⟨⟨st, u1⟩, h1, ⟨sts, u2⟩, h2, rfl, rfl⟩ := h
    obtain ⟨q1, q2, q3⟩ := parse_split r _ _ _ h2
    refine ⟨?_, by simp [q2], ?_⟩
    · simp only [List.map_cons, parseFile, h1, q1, Option.bind_eq_bind, Option.bind_some]
    · intro p hp
      rcases List.mem_cons.mp hp with rfl | hp
      · exact ⟨_, _, h1⟩
      · exact q3 p hp

/-- What the text of a file contains. -/
theorem emitted_code {Fs : List Func} {uid uid' : Nat} {ps es : List (Func × Stmt)} {gs gs' : GS} {P : Prog}
    (hp : parseFns uid Fs = some (ps, uid')) (hs : PartOf es ps) (he : emitFns es gs = some (P, gs')) (hd : gs.depth = 0)
    (hn : (Fs.map (·.name)).Nodup) (hw : ∀ f ∈ Fs, Wf f) :
    UniqueLabels P ∧ (∀ p ∈ es, p.1 ∈ Fs ∧ ∃ pos, CodeOf P p.1 pos) ∧ (es.map (·.1.name)).Nodup := by
  obtain ⟨h1, h2, h3⟩ := parse_split _ _ _ _ hp
  have hmem : ∀ p ∈ es, p ∈ ps := fun p h => hs.subset _ h
  have hF : ∀ p ∈ es, p.1 ∈ Fs := by
    intro p h
    rw [← h2]
    exact List.mem_map_of_mem (hmem p h)
  obtain ⟨_, ⟨code', k1, k2⟩, k3⟩ := emit_split _ _ _ _ he hd (fun p h => ⟨hw _ (hF p h), h3 p (hmem p h)⟩)
  refine ⟨?_, fun p h => ⟨hF p h, k3 p h⟩, ?_⟩
  · apply unique_of_nodup
    rw [k2]
    refine Props.file_labels_nodup h1 (es := es.map fun p => (p.1.name, p.2)) ?_ k1 ?_
    · exact hs.map _
    · rw [List.map_map]; exact hn
  · refine (hs.map _).nodup ?_
    rw [← h2, List.map_map] at hn
    exact hn

end Toycc.Whole
