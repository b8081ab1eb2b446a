import Verif.Frame.CallMain
import Verif.Frame.LayProps
/-! The callee takes every parameter from its place. -/
namespace Toycc.Frame
open Toycc.Util

/-- The argument for a parameter: it has the type of the parameter (funcall, parser.c:48-50, converts it). -/
def argOf (v : Var) : Arg := ⟨v.cls, v.size, false⟩

theorem alignE_eq {n : Int} (hn : 0 ≤ n) : alignE n 8 = .ok ((n + 7) / 8 * 8) := by
  simp only [alignE, alignTo]
  rw [if_neg (by omega), Int.tdiv_eq_ediv_of_nonneg (by omega)]
  rw [show n + 8 - 1 = n + 7 by omega]

theorem place_eq (v : Var) (g f : Nat) (hs : (argOf v).sized) (hr : (argOf v).icls = .ld ∨ (argOf v).icls = .agg → g + (argOf v).gUse g f ≤ maxRegs) :
    place v g f = .ok (if (argOf v).stkWords g f = 0 then .reg (g + (argOf v).gUse g f) (f + (argOf v).fUse f)
      else .stack (g + (argOf v).gUse g f) (f + (argOf v).fUse f)) := by
  obtain ⟨c, z, al⟩ := v
  simp only [argOf] at *
  have hz : 0 < z → words z ≠ 0 := by unfold words; omega
  cases c with
  | int =>
    simp only [place, Arg.gUse, Arg.fUse, Arg.stkWords, Arg.big, Arg.stk, Arg.icls, Bool.false_eq_true, if_false]
    by_cases h : g < maxRegs <;> simp [h]
  | flt =>
    simp only [place, Arg.gUse, Arg.fUse, Arg.stkWords, Arg.big, Arg.stk, Arg.icls, Bool.false_eq_true, if_false]
    by_cases h : g < maxRegs <;> by_cases h2 : f < maxRegs <;> simp [h, h2]
  | ld =>
    have hr' := hr (.inl rfl)
    simp only [Arg.gUse, Arg.icls, Bool.false_eq_true, if_false] at hr'
    simp only [place, Arg.gUse, Arg.fUse, Arg.stkWords, Arg.big, Arg.stk, Arg.icls, Bool.false_eq_true, if_false]
    simp [hr']
  | agg =>
    have hr' := hr (.inr rfl)
    simp only [Arg.gUse, Arg.icls, Bool.false_eq_true, if_false] at hr'
    simp only [place, Arg.gUse, Arg.fUse, Arg.stkWords, Arg.big, Arg.stk, Arg.icls, Bool.false_eq_true, if_false]
    by_cases hw : words z ≤ 2
    · rw [if_pos hw] at hr'
      have : ¬ 2 < words z := by omega
      simp [hw, hr', this]
    · rw [if_neg hw] at hr'
      have h2 : 2 < words z := by omega
      have h3 : g < maxRegs := by omega
      have h4 : words z ≠ 0 := by omega
      simp [hw, h2, h3, h4]

/-- The offsets of the stack parameters. -/
def offsE : List Arg → Nat → Nat → Nat → List (Option Int)
  | [], _, _, _ => []
  | a :: r, g, f, w =>
    (if a.stkWords g f = 0 then none else some (16 + 8 * (w : Int))) :: offsE r (g + a.gUse g f) (f + a.fUse f) (w + a.stkWords g f)

theorem stkWords_size (a : Arg) (g f : Nat) (hs : a.sized) (hv : a.vararg = false) (h : a.stkWords g f ≠ 0) : a.stkWords g f = words a.size := by
  obtain ⟨c, z, v⟩ := a
  simp only at hv
  subst hv
  unfold Arg.stkWords at h ⊢
  cases hb : Arg.big ⟨c, z, false⟩ with
  | true => simp
  | false =>
    rw [hb] at h
    cases hst : Arg.stk ⟨c, z, false⟩ g f with
    | false => rw [hst] at h; simp at h
    | true =>
      simp only [Bool.false_eq_true, if_false, if_true]
      cases c
      · simp [Arg.sized] at hs; unfold words; omega
      · simp [Arg.sized] at hs; unfold words; omega
      · simp [Arg.stk, Arg.icls] at hst
      · simp [Arg.stk, Arg.icls] at hst

theorem paramOffsets_eq : ∀ (ps : List Var) (g f w : Nat) (top : Int), Tame (ps.map argOf) g f → 0 ≤ top → (top + 7) / 8 * 8 = 16 + 8 * (w : Int) →
    ∃ t, paramOffsets ps g f top = .ok (offsE (ps.map argOf) g f w, t) ∧ 0 ≤ t ∧ (t + 7) / 8 * 8 = 16 + 8 * ((w + sumStk (ps.map argOf) g f : Nat) : Int)
  | [], g, f, w, top, _, ht, h => ⟨top, rfl, ht, by simpa [sumStk] using h⟩
  | v :: r, g, f, w, top, hT, ht, h => by
    obtain ⟨t1, t2, t3⟩ := hT
    simp only [paramOffsets, bind, Except.bind, place_eq v g f t1 t2, List.map_cons, offsE, sumStk]
    by_cases hz : (argOf v).stkWords g f = 0
    · rw [if_pos hz, if_pos hz, hz]
      obtain ⟨t, e, e1, e2⟩ := paramOffsets_eq r _ _ w top t3 ht h
      refine ⟨t, ?_, e1, ?_⟩
      · simp only [e, Nat.add_zero]
      · rw [e2, Nat.zero_add]
    · rw [if_neg hz, if_neg hz]
      have hsz := stkWords_size (argOf v) g f t1 rfl hz
      have hsz' : (argOf v).stkWords g f = (v.size + 7) / 8 := hsz
      obtain ⟨t, e, e1, e2⟩ := paramOffsets_eq r _ _ (w + (argOf v).stkWords g f) (16 + 8 * (w : Int) + v.size) t3 (by omega) (by omega)
      refine ⟨t, ?_, e1, ?_⟩
      · simp only [alignE_eq ht, h, e]
      · rw [e2]; congr 2; omega

/-- The final offsets, given those of the first loop. -/
def Agree : List (Option Int) → List Int → Prop
  | [], [] => True
  | none :: r, o :: s => o ≤ 0 ∧ Agree r s
  | some x :: r, o :: s => o = x ∧ Agree r s
  | _, _ => False

theorem localOffsets_agree : ∀ (vs : List (Var × Option Int)) (b : Int) (os : List Int) (b' : Int), 0 ≤ b → (∀ p ∈ vs, 0 < p.1.align) →
    localOffsets vs b = .ok (os, b') → Agree (vs.map Prod.snd) os
  | [], _, _, _, _, _, h => by cases h; trivial
  | (v, some x) :: r, b, os, b', hb, hal, h => by
    simp only [localOffsets, bind, Except.bind] at h
    cases hr : localOffsets r b with
    | error e => rw [hr] at h; cases h
    | ok q =>
      rw [hr] at h; cases h
      exact ⟨rfl, localOffsets_agree r b q.1 q.2 hb (fun p hp => hal p (List.mem_cons_of_mem _ hp)) hr⟩
  | (v, none) :: r, b, os, b', hb, hal, h => by
    have hva : 0 < v.align := hal _ List.mem_cons_self
    simp only [localOffsets, bind, Except.bind] at h
    cases ha : alignE (b + v.size) v.align with
    | error e => rw [ha] at h; cases h
    | ok b2 =>
      rw [ha] at h
      simp only at h
      obtain ⟨ha1, -⟩ := alignE_of (by omega) (by omega) ha
      cases hr : localOffsets r b2 with
      | error e => rw [hr] at h; cases h
      | ok q =>
        rw [hr] at h; cases h
        exact ⟨by omega, localOffsets_agree r b2 q.1 q.2 (by omega) (fun p hp => hal p (List.mem_cons_of_mem _ hp)) hr⟩

theorem Agree.drop : ∀ (k : Nat) (os : List (Option Int)) (po : List Int), Agree os po → Agree (os.drop k) (po.drop k)
  | 0, _, _, h => h
  | _ + 1, [], [], h => h
  | k + 1, none :: r, o :: s, h => Agree.drop k r s h.2
  | k + 1, some x :: r, o :: s, h => Agree.drop k r s h.2
  | _ + 1, [], _ :: _, h => by cases h
  | _ + 1, none :: _, [], h => by cases h
  | _ + 1, some _ :: _, [], h => by cases h

theorem Agree.length : ∀ (os : List (Option Int)) (po : List Int), Agree os po → os.length = po.length
  | [], [], _ => rfl
  | none :: r, o :: s, h => by simp [Agree.length r s h.2]
  | some x :: r, o :: s, h => by simp [Agree.length r s h.2]
  | [], _ :: _, h => by cases h
  | none :: _, [], h => by cases h
  | some _ :: _, [], h => by cases h

/-- What assign_lvar_offsets does to the parameters. -/
theorem layout_eq (fn : Fn) (fr : Frame) (hal : ∀ v ∈ fn.locals, 0 < v.align) (hl : layout fn = .ok fr) (hT : Tame (fn.params.map argOf) 0 0) :
    Agree (offsE (fn.params.map argOf) 0 0 0) (fr.offs.drop (fr.offs.length - fn.params.length)) ∧
    (fn.variadic = true → fr.offs[fn.others.length]? = some (16 + 8 * (sumStk (fn.params.map argOf) 0 0 : Int))) := by
  obtain ⟨t, e, e1, e2⟩ := paramOffsets_eq fn.params 0 0 0 16 hT (by omega) (by decide)
  simp only [layout, bind, Except.bind, e, alignE_eq e1, e2, Nat.zero_add] at hl
  have hol : ∀ (as : List Arg) (g f w : Nat), (offsE as g f w).length = as.length := by
    intro as
    induction as with
    | nil => intros; rfl
    | cons a r ih => intro g f w; simp [offsE, ih]
  generalize hps : offsE (fn.params.map argOf) 0 0 0 = ps at *
  have hpl : ps.length = fn.params.length := by rw [← hps, hol]; simp
  generalize hva : (16 + 8 * (sumStk (fn.params.map argOf) 0 0 : Int)) = va at *
  generalize hpre : fn.others.map (fun _ => (none : Option Int)) ++ (if fn.variadic then [some va] else []) ++ ps = pre at hl
  have hlen : pre.length = fn.locals.length := by
    rw [← hpre]; unfold Fn.locals
    cases fn.variadic <;> simp [hpl]
  cases hlo : localOffsets (fn.locals.zip pre) 0 with
  | error e => rw [hlo] at hl; cases hl
  | ok q =>
    obtain ⟨os, b⟩ := q
    rw [hlo] at hl
    simp only at hl
    have hA := localOffsets_agree _ 0 os b (by omega) (fun p hp => hal p.1 (List.of_mem_zip hp).1) hlo
    rw [List.map_snd_zip (by omega)] at hA
    have hol := Agree.length _ _ hA
    cases hs : alignE b 8 with
    | error e => rw [hs] at hl; cases hl
    | ok sz =>
      rw [hs] at hl
      cases hl
      refine ⟨?_, ?_⟩
      · simp only
        have hd := hA.drop (os.length - fn.params.length)
        have : pre.drop (os.length - fn.params.length) = ps := by
          rw [← hol, ← hpre, ← hpl]
          simp only [List.length_append, List.length_map]
          rw [Nat.add_sub_cancel]
          rw [List.drop_left' (by simp)]
        rw [this] at hd
        exact hd
      · intro hv
        simp only
        have hd := hA.drop fn.others.length
        have : pre.drop fn.others.length = some va :: ps := by
          rw [← hpre, List.append_assoc, List.drop_left' (by simp)]; simp [hv]
        rw [this] at hd
        cases ho : os.drop fn.others.length with
        | nil => rw [ho] at hd; cases hd
        | cons o s =>
          rw [ho] at hd
          have h0 : (os.drop fn.others.length)[0]? = some o := by rw [ho]; rfl
          rw [List.getElem?_drop, Nat.add_zero] at h0
          rw [h0, hd.1]

theorem paramSrcs_eq : ∀ (ps : List Var) (po : List Int) (base : Int) (g f w : Nat), Tame (ps.map argOf) g f → g ≤ maxRegs →
    Agree (offsE (ps.map argOf) g f w) po → (base = -16 ∨ sumStk (ps.map argOf) g f = 0) →
    paramSrcs (ps.zip po) base g f = some (locs (ps.map argOf) g f w, gEnd (ps.map argOf) g f)
  | [], [], _, _, _, _, _, _, _, _ => rfl
  | [], _ :: _, _, _, _, _, _, _, h, _ => by cases h
  | v :: r, [], _, g, f, w, _, _, h, _ => by
    simp only [List.map_cons, offsE] at h
    split at h <;> cases h
  | v :: r, o :: po, base, g, f, w, hT, hg, hA, hb => by
    obtain ⟨t1, t2, t3⟩ := hT
    simp only [List.map_cons, offsE] at hA
    simp only [List.map_cons, sumStk] at hb
    have hg' : g + (argOf v).gUse g f ≤ maxRegs := by
      obtain ⟨c, z, al⟩ := v
      cases c
      · simp only [argOf, Arg.gUse, Arg.icls, Bool.false_eq_true, if_false]; split <;> omega
      · simp only [argOf, Arg.gUse, Arg.icls, Bool.false_eq_true, if_false]; split <;> (try split) <;> omega
      · exact t2 (.inl rfl)
      · exact t2 (.inr rfl)
    have ih : Agree (offsE (r.map argOf) (g + (argOf v).gUse g f) (f + (argOf v).fUse f) (w + (argOf v).stkWords g f)) po →
        paramSrcs (r.zip po) base (g + (argOf v).gUse g f) (f + (argOf v).fUse f) =
          some (locs (r.map argOf) (g + (argOf v).gUse g f) (f + (argOf v).fUse f) (w + (argOf v).stkWords g f), gEnd (r.map argOf) (g + (argOf v).gUse g f) (f + (argOf v).fUse f)) :=
      fun hA => paramSrcs_eq r po base _ _ _ t3 hg' hA (by omega)
    simp only [List.zip_cons_cons, List.map_cons, locs, gEnd]
    by_cases hz : (argOf v).stkWords g f = 0
    · rw [if_pos hz] at hA
      obtain ⟨ho, hA⟩ := hA
      have ih := ih hA
      have hbig : (argOf v).big = false := by
        cases hb : (argOf v).big with
        | false => rfl
        | true =>
          simp only [Arg.stkWords, hb, if_true] at hz
          simp only [Arg.big, decide_eq_true_eq] at hb
          omega
      have hst : (argOf v).stk g f = false := by
        cases hs : (argOf v).stk g f with
        | false => rfl
        | true => simp [Arg.stkWords, hbig, hs] at hz
      have hsrc : (argOf v).srcs g f w = match (argOf v).icls with
        | .int => [.g g] | .flt => if f < maxRegs then [.f f] else [.g g] | .ld => [.g g, .g (g + 1)]
        | .agg => (List.range (words (argOf v).size)).map fun j => .g (g + j) := by
        unfold Arg.srcs; rw [if_neg (by simp [hbig]), if_neg (by simp [hst])]
        cases (argOf v).icls <;> rfl
      rw [hsrc]
      rw [paramSrcs, if_neg (by omega)]
      obtain ⟨c, z, al⟩ := v
      cases c with
      | int =>
        have h : g < maxRegs := by simpa [argOf, Arg.stk, Arg.icls] using hst
        simp only [argOf, Arg.gUse, Arg.fUse, Arg.icls, Bool.false_eq_true, if_false, h, if_true] at ih ⊢
        simp only [reduceCtorEq, false_and, if_false, Nat.add_zero] at ih ⊢
        rw [ih]; rfl
      | flt =>
        by_cases hf : f < maxRegs
        · simp only [argOf, Arg.gUse, Arg.fUse, Arg.icls, Bool.false_eq_true, if_false, hf, if_true] at ih ⊢
          simp only [true_and, if_true, Nat.add_zero] at ih ⊢
          rw [ih]; rfl
        · have h : g < maxRegs := by
            simp only [argOf, Arg.stk, Arg.icls, Bool.false_eq_true, if_false, hf] at hst
            simpa using hst
          simp only [argOf, Arg.gUse, Arg.fUse, Arg.icls, Bool.false_eq_true, if_false, hf, h, if_true] at ih ⊢
          simp only [and_false, if_false, Nat.add_zero] at ih ⊢
          rw [ih]; rfl
      | ld =>
        have h : g + 1 < maxRegs := by have := t2 (.inl rfl); simp [argOf, Arg.gUse, Arg.icls] at this; omega
        simp only [argOf, Arg.gUse, Arg.fUse, Arg.icls, Bool.false_eq_true, if_false, h, if_true] at ih ⊢
        simp only [reduceCtorEq, false_and, if_false, Nat.add_zero] at ih ⊢
        rw [ih]; rfl
      | agg =>
        have hw : words z ≤ 2 := by simp [argOf, Arg.big, Arg.icls] at hbig; exact hbig
        have hpos : 0 < z := by simp [argOf, Arg.sized] at t1; exact t1
        simp only [argOf, Arg.gUse, Arg.fUse, Arg.icls, Bool.false_eq_true, if_false, hw, if_true] at ih ⊢
        simp only [reduceCtorEq, false_and, if_false, Nat.add_zero] at ih ⊢
        by_cases h8 : 8 < z
        · have e : words z = 2 := by unfold words at *; omega
          rw [e] at ih
          rw [if_pos h8, ih, e]; rfl
        · have e : words z = 1 := by unfold words at *; omega
          rw [e] at ih
          rw [if_neg h8, ih, e]; rfl
    · rw [if_neg hz] at hA
      obtain ⟨ho, hA⟩ := hA
      have ih := ih hA
      have hbase : base = -16 := by omega
      have hsz := stkWords_size (argOf v) g f t1 rfl hz
      have hsrc : (argOf v).srcs g f w = (List.range (words v.size)).map fun (j : Nat) => Src.mem (base + o + 8 * (j : Int)) := by
        have hfun : (fun (j : Nat) => Src.mem (base + o + 8 * (j : Int))) = fun (j : Nat) => Src.mem (8 * ((w + j : Nat) : Int)) := by
          funext j; congr 1; rw [hbase, ho]; omega
        rw [hfun]
        unfold Arg.srcs
        cases hb : (argOf v).big with
        | true => rfl
        | false =>
          cases hs : (argOf v).stk g f with
          | false => simp [Arg.stkWords, hb, hs] at hz
          | true =>
            have : words v.size = 1 := by
              have : (argOf v).stkWords g f = 1 := by simp [Arg.stkWords, hb, hs]
              rw [hsz] at this; exact this
            rw [this]; simp
      rw [hsrc, paramSrcs, if_pos (by omega)]
      by_cases hlt : g < maxRegs
      · -- an aggregate above 16 bytes
        have hb : (argOf v).big = true := by
          cases hb : (argOf v).big with
          | true => rfl
          | false =>
            exfalso
            cases hs : (argOf v).stk g f with
            | false => simp [Arg.stkWords, hb, hs] at hz
            | true =>
              unfold Arg.stk at hs
              split at hs
              · simp [hlt] at hs
              · simp [hlt] at hs
              · cases hs
        have hagg : v.cls = .agg := by simp [Arg.big, argOf, Arg.icls] at hb; exact hb.1
        have hw : 2 < words v.size := by simp [Arg.big, argOf, Arg.icls] at hb; exact hb.2
        have hgu : (argOf v).gUse g f = 1 := by
          simp only [Arg.gUse, argOf, Arg.icls, hagg, Bool.false_eq_true, if_false]; rw [if_neg (by omega)]
        have hfu : (argOf v).fUse f = 0 := by simp [Arg.fUse, argOf, Arg.icls, hagg]
        rw [hgu, hfu] at ih
        rw [hgu, hfu]
        simp only [Nat.add_zero] at ih ⊢
        rw [if_pos hlt, if_pos hagg, ih]; rfl
      · have hge : g = maxRegs := by omega
        have hgu : (argOf v).gUse g f = 0 := by omega
        have hfu : (argOf v).fUse f = 0 := by
          unfold Arg.fUse
          rw [if_neg]
          rintro ⟨hc, hf⟩
          apply hz
          have hb : (argOf v).big = false := by simp [Arg.big, hc]
          simp [Arg.stkWords, hb, Arg.stk, hc, hf]
        rw [hgu, hfu] at ih
        rw [hgu, hfu]
        simp only [Nat.add_zero] at ih ⊢
        rw [if_neg hlt, ih]; rfl

end Toycc.Frame
