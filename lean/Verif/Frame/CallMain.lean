import Verif.Frame.Caller
/-! The state at a call. -/
namespace Toycc.Frame

theorem popArgs_eq (as : List Arg) : ∀ (i g f w : Nat) (s : St), Tame as g f →
    (∀ (k : Nat) x, (regW as i g f)[k]? = some x → s.mem (s.sp + k) = x) →
    (popArgs as g f s).sp = s.sp + (regW as i g f).length ∧ (popArgs as g f s).mem = s.mem ∧
    (popArgs as g f s).depth = s.depth - (regW as i g f).length ∧
    (∀ r, r < g → (popArgs as g f s).g r = s.g r) ∧ (∀ r, r < f → (popArgs as g f s).f r = s.f r) ∧
    (∀ (n j : Nat) ss src, (locs as g f w)[n]? = some ss → ss[j]? = some src →
      (∀ r, src = .g r → (popArgs as g f s).g r = .arg (i + n) j) ∧ (∀ r, src = .f r → (popArgs as g f s).f r = .arg (i + n) j)) := by
  induction as with
  | nil =>
    intro i g f w s _ _
    simp [popArgs, regW, locs]
  | cons a r ih =>
    intro i g f w s ht hm
    obtain ⟨t1, t2, t3⟩ := ht
    have hm1 : ∀ (k : Nat) x, (if a.stk g f then [] else pw i a)[k]? = some x → s.mem (s.sp + k) = x := by
      intro k x hk
      refine hm k x ?_
      simp only [regW]
      rw [List.getElem?_append_left (List.getElem?_eq_some_iff.mp hk).1]
      exact hk
    obtain ⟨s1, e, p1, p2, p3, p4, p5, p6⟩ := popArg_eq a i g f w s t1 t2 hm1
    have hm2 : ∀ (k : Nat) x, (regW r (i + 1) (g + a.gUse g f) (f + a.fUse f))[k]? = some x → s1.mem (s1.sp + k) = x := by
      intro k x hk
      rw [p2, p1]
      have := hm ((if a.stk g f then [] else pw i a).length + k) x (by
        simp only [regW]
        rw [List.getElem?_append_right (by omega)]
        rw [Nat.add_sub_cancel_left]; exact hk)
      rw [← this]; congr 1; omega
    obtain ⟨q1, q2, q3, q4, q5, q6⟩ := ih (i + 1) (g + a.gUse g f) (f + a.fUse f) (w + a.stkWords g f) s1 t3 hm2
    have e' : popArgs (a :: r) g f s = popArgs r (g + a.gUse g f) (f + a.fUse f) s1 := by simp only [popArgs, e]
    rw [e']
    refine ⟨?_, by rw [q2, p2], ?_, ?_, ?_, ?_⟩
    · rw [q1, p1]; simp only [regW, List.length_append]; omega
    · rw [q3, p3]; simp only [regW, List.length_append]; omega
    · intro x hx; rw [q4 x (by omega), p4 x hx]
    · intro x hx; rw [q5 x (by omega), p5 x hx]
    · intro n j ss src hn hj
      cases n with
      | zero =>
        simp only [locs, List.getElem?_cons_zero, Option.some.injEq] at hn
        subst hn
        rw [Nat.add_zero]
        cases hb : a.big with
        | true =>
          have hsrc : a.srcs g f w = (List.range (words a.size)).map fun (j : Nat) => .mem (8 * ((w + j : Nat) : Int)) := by unfold Arg.srcs; rw [if_pos hb]
          rw [hsrc, List.getElem?_map, Option.map_eq_some_iff] at hj
          obtain ⟨_, _, rfl⟩ := hj
          exact ⟨(fun _ h => by cases h), (fun _ h => by cases h)⟩
        | false =>
          cases hst : a.stk g f with
          | true =>
            have hsrc : a.srcs g f w = [.mem (8 * (w : Int))] := by unfold Arg.srcs; simp [hb, hst]
            rw [hsrc] at hj
            cases j with
            | zero => simp at hj; subst hj; exact ⟨(fun _ h => by cases h), (fun _ h => by cases h)⟩
            | succ j => simp at hj
          | false =>
            rcases p6 hst hb j src hj with ⟨x, rfl, hx, hv⟩ | ⟨x, rfl, hx, hv⟩
            · exact ⟨(fun y h => by cases h; rw [q4 x hx, hv]), (fun _ h => by cases h)⟩
            · exact ⟨(fun _ h => by cases h), (fun y h => by cases h; rw [q5 x hx, hv])⟩
      | succ n =>
        have := q6 n j ss src (by simpa [locs] using hn) hj
        rw [show i + (n + 1) = i + 1 + n by omega]
        exact this

/-- The words on the stack, in the order of the arguments. -/
def ordW : List Arg → Nat → Nat → Nat → List Word
  | [], _, _, _ => []
  | a :: r, i, g, f =>
    (if a.big then (List.range (words a.size)).map (.arg i) else if a.stk g f then [.arg i 0] else []) ++ ordW r (i + 1) (g + a.gUse g f) (f + a.fUse f)

theorem ordW_head_length (a : Arg) (i g f : Nat) :
    (if a.big then (List.range (words a.size)).map (Word.arg i) else if a.stk g f then [.arg i 0] else []).length = a.stkWords g f := by
  unfold Arg.stkWords
  cases a.big <;> cases a.stk g f <;> simp

theorem locs_mem : ∀ (as : List Arg) (i g f w n j : Nat) (ss : List Src) (o : Int), (locs as g f w)[n]? = some ss → ss[j]? = some (.mem o) →
    ∃ k : Nat, o = 8 * ((w + k : Nat) : Int) ∧ (ordW as i g f)[k]? = some (.arg (i + n) j)
  | [], _, _, _, _, _, _, _, _, h, _ => by simp [locs] at h
  | a :: r, i, g, f, w, n + 1, j, ss, o, h, hj => by
    obtain ⟨k, h1, h2⟩ := locs_mem r (i + 1) _ _ (w + a.stkWords g f) n j ss o (by simpa [locs] using h) hj
    refine ⟨a.stkWords g f + k, by rw [h1]; congr 2; omega, ?_⟩
    simp only [ordW]
    rw [← ordW_head_length a i g f, List.getElem?_append_right (by omega), Nat.add_sub_cancel_left, h2]
    congr 2; omega
  | a :: r, i, g, f, w, 0, j, ss, o, h, hj => by
    simp only [locs, List.getElem?_cons_zero, Option.some.injEq] at h
    subst h
    cases hb : a.big with
    | true =>
      have hsrc : a.srcs g f w = (List.range (words a.size)).map fun (j : Nat) => .mem (8 * ((w + j : Nat) : Int)) := by unfold Arg.srcs; rw [if_pos hb]
      rw [hsrc, List.getElem?_map, Option.map_eq_some_iff] at hj
      obtain ⟨j', hj', e⟩ := hj
      have hl := (List.getElem?_eq_some_iff.mp hj').1
      simp at hl
      rw [List.getElem?_range hl] at hj'
      cases hj'
      cases e
      refine ⟨j, rfl, ?_⟩
      simp only [ordW, hb, if_true]
      rw [List.getElem?_append_left (by simpa using hl)]
      simp [hl]
    | false =>
      cases hst : a.stk g f with
      | true =>
        have hsrc : a.srcs g f w = [.mem (8 * (w : Int))] := by unfold Arg.srcs; simp [hb, hst]
        rw [hsrc] at hj
        cases j with
        | zero => simp at hj; exact ⟨0, by rw [← hj]; simp, by simp [ordW, hb, hst]⟩
        | succ j => simp at hj
      | false =>
        exfalso
        unfold Arg.srcs at hj
        rw [if_neg (by simp [hb]), if_neg (by simp [hst])] at hj
        cases hc : a.icls with
        | int => rw [hc] at hj; rcases j with _ | j <;> simp at hj
        | flt =>
          rw [hc] at hj
          simp only at hj
          split at hj <;> (rcases j with _ | j <;> simp at hj)
        | ld => rw [hc] at hj; rcases j with _ | _ | j <;> simp at hj
        | agg => rw [hc] at hj; simp at hj

theorem ordW_of_noStk : ∀ (as : List Arg) (i g f : Nat), anyStk as g f = false → ordW as i g f = bigW as i ∧ stkW as i g f = []
  | [], _, _, _, _ => ⟨rfl, rfl⟩
  | a :: r, i, g, f, h => by
    simp only [anyStk, Bool.or_eq_false_iff] at h
    obtain ⟨e1, e2⟩ := ordW_of_noStk r (i + 1) _ _ h.2
    simp [ordW, bigW, stkW, h.1, e1, e2]

theorem ordW_of_noBig : ∀ (as : List Arg) (i g f : Nat), (∀ a ∈ as, a.big = false) → ordW as i g f = stkW as i g f ∧ bigW as i = []
  | [], _, _, _, _ => ⟨rfl, rfl⟩
  | a :: r, i, g, f, h => by
    have hb := h a List.mem_cons_self
    obtain ⟨e1, e2⟩ := ordW_of_noBig r (i + 1) (g + a.gUse g f) (f + a.fUse f) (fun x hx => h x (List.mem_cons_of_mem _ hx))
    simp [ordW, bigW, stkW, hb, e1, e2]

/-- The state at the call. -/
theorem call_eq (hidden : Bool) (as : List Arg) (s : St) (ht : Tame as (if hidden then 1 else 0) 0) :
    (call hidden as s).1.sp = s.sp - ((call hidden as s).2 : Int) ∧
    (call hidden as s).1.depth = s.depth + ((call hidden as s).2 : Int) ∧
    (s.depth + ((call hidden as s).2 : Int)) % 2 = 0 ∧
    (∀ a, s.sp ≤ a → (call hidden as s).1.mem a = s.mem a) ∧
    (hidden = true → (call hidden as s).1.g 0 = .buf) ∧
    (∀ (n j : Nat) ss src, (locs as (if hidden then 1 else 0) 0 0)[n]? = some ss → ss[j]? = some src →
      (∀ r, src = .g r → (call hidden as s).1.g r = .arg n j) ∧ (∀ r, src = .f r → (call hidden as s).1.f r = .arg n j)) ∧
    (∀ (k : Nat) x, (stkW as 0 (if hidden then 1 else 0) 0 ++ bigW as 0)[k]? = some x → (call hidden as s).1.mem ((call hidden as s).1.sp + k) = x) := by
  generalize hg0 : (if hidden then 1 else 0 : Nat) = g0 at ht
  obtain ⟨e1, e2, e3, e4⟩ := passes as 0 g0 0 ht
  have ec := countArgs_eq as ⟨g0, 0, 0, 0⟩ ht
  simp only [Nat.zero_add] at ec
  have hlen := stkW_length as 0 g0 0 ht
  have hbl := bigW_length as 0
  -- the pad
  generalize hodd : (decide ((s.depth + (sumStk as g0 0 : Nat)) % 2 = 1) : Bool) = odd
  generalize hs1 : (if odd then { s with sp := s.sp - 1, depth := s.depth + 1 } else s : St) = s1
  generalize hstack : (if odd then sumStk as g0 0 + 1 else sumStk as g0 0 : Nat) = stack
  have hs1' : s1.sp = s.sp - (stack - sumStk as g0 0 : Int) ∧ s1.depth = s.depth + (stack - sumStk as g0 0 : Int) ∧ s1.mem = s.mem ∧ s1.sp ≤ s.sp := by
    rw [← hs1, ← hstack]; cases odd <;> simp <;> omega
  obtain ⟨a1, a2, a3, a4⟩ := hs1'
  have heven : (s.depth + (stack : Int)) % 2 = 0 := by
    rw [← hstack]
    cases odd with
    | false => simp only [decide_eq_false_iff_not] at hodd; simp; omega
    | true => simp only [decide_eq_true_eq] at hodd; simp; omega
  generalize hs2 : ({ s1 with t1 := s1.sp, sp := s1.sp - (sumBig as : Nat) } : St) = s2
  have hs2' : s2.sp = s1.sp - (sumBig as : Nat) ∧ s2.t1 = s1.sp ∧ s2.depth = s1.depth ∧ s2.mem = s1.mem := by rw [← hs2]; exact ⟨rfl, rfl, rfl, rfl⟩
  obtain ⟨b1, b2, b3, b4⟩ := hs2'
  have P1 := pushArgs2_pushed (as.zip (flags as g0 0)) 0 true s2 (by rw [e2]; simp; omega)
  rw [e1, e2] at P1
  generalize hs3 : pushArgs2 (as.zip (flags as g0 0)) 0 true s2 = s3 at P1
  have P2 := pushArgs2_pushed (as.zip (flags as g0 0)) 0 false s3 (by
    rw [e4, hbl, P1.sp, P1.t1]; simp; omega)
  rw [e3, e4] at P2
  generalize hs4 : pushArgs2 (as.zip (flags as g0 0)) 0 false s3 = s4 at P2
  have P := P1.trans P2 (by rw [hbl]; simp; omega)
  simp only [List.append_nil] at P
  -- the calls
  have hpush : pushArgs hidden as s = (if hidden then s4.push .buf else s4, stack) := by
    simp only [pushArgs, hg0, ec]
    rw [hodd, hs1, hstack, hs2, hs3, hs4]
  -- after the hidden argument
  generalize hs5 : (if hidden then ((if hidden then s4.push .buf else s4 : St)).popG 0 else (if hidden then s4.push .buf else s4 : St)) = s5
  have hs5' : s5.sp = s4.sp ∧ s5.depth = s4.depth ∧ (∀ a, s4.sp ≤ a → s5.mem a = s4.mem a) ∧ (hidden = true → s5.g 0 = .buf) := by
    rw [← hs5]
    cases hidden with
    | false => exact ⟨rfl, rfl, fun _ _ => rfl, fun h => by cases h⟩
    | true =>
      refine ⟨by simp [St.push, St.popG], by simp [St.push, St.popG], ?_, ?_⟩
      · intro a ha
        simp only [St.push, St.popG, set, if_true]
        rw [if_neg (by omega)]
      · intro _; simp [St.push, St.popG, set]
  obtain ⟨c1, c2, c3, c4⟩ := hs5'
  have hcall : call hidden as s = (popArgs as g0 0 s5, stack) := by
    simp only [call, hpush]
    cases hidden with
    | false => simp at hg0 hs5; subst hg0; subst hs5; rfl
    | true => simp at hg0 hs5; subst hg0; subst hs5; rfl
  rw [hcall]
  have hreg : ∀ (k : Nat) x, (regW as 0 g0 0)[k]? = some x → s5.mem (s5.sp + k) = x := by
    intro k x hk
    rw [c3 _ (by omega), c1]
    exact P.pushed k x (by rw [List.getElem?_append_left (List.getElem?_eq_some_iff.mp hk).1]; exact hk)
  obtain ⟨q1, q2, q3, q4, q5, q6⟩ := popArgs_eq as 0 g0 0 0 s5 ht hreg
  have hsp := P.sp
  have hd := P.depth
  have ht1 := P.t1
  simp only [List.length_append] at hsp hd
  have hspf : (popArgs as g0 0 s5).sp = s.sp - (stack : Int) := by rw [q1, c1, hsp]; omega
  refine ⟨hspf, ?_, heven, ?_, ?_, ?_, ?_⟩
  · rw [q3, c2, hd]; omega
  · intro a ha
    rw [q2, c3 a (by omega), P.rest a (by omega) (.inr (by omega)), b4, a3]
  · intro h
    have : 0 < g0 := by rw [← hg0, if_pos h]; omega
    simp only
    rw [q4 0 this]; exact c4 h
  · intro n j ss src h1 h2
    have := q6 n j ss src h1 h2
    rw [Nat.zero_add] at this
    exact this
  · intro k x hk
    simp only
    rw [q2, q1]
    by_cases hlt : k < (stkW as 0 g0 0).length
    · rw [List.getElem?_append_left hlt] at hk
      rw [c3 _ (by omega), c1]
      have := P.pushed ((regW as 0 g0 0).length + k) x (by rw [List.getElem?_append_right (by omega), Nat.add_sub_cancel_left]; exact hk)
      rw [← this]; congr 1; omega
    · rw [List.getElem?_append_right (by omega)] at hk
      have hl := (List.getElem?_eq_some_iff.mp hk).1
      rw [c3 _ (by omega)]
      have := P.copied _ x hk
      rw [← this]; congr 1; omega

end Toycc.Frame
