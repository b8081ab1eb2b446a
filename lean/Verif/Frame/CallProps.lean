import Verif.Frame.Callee
/-! C49, C50: calls. -/
namespace Toycc.Frame
open Toycc.Util

theorem srcs_length {a : Arg} (hs : a.sized) (g f w : Nat) : (a.srcs g f w).length = words a.size := by
  obtain ⟨c, z, v⟩ := a
  unfold Arg.srcs
  cases hb : Arg.big ⟨c, z, v⟩ with
  | true => simp
  | false =>
    have h1 : c = .int ∨ c = .flt → words z = 1 := by
      rintro (rfl | rfl) <;> simp [Arg.sized] at hs <;> (unfold words; omega)
    cases hst : Arg.stk ⟨c, z, v⟩ g f with
    | true =>
      cases c
      · simp [h1]
      · simp [h1]
      · simp [Arg.sized] at hs; simp [Arg.stk, Arg.icls, hs.2] at hst
      · simp [Arg.sized] at hs; simp [Arg.stk, Arg.icls, hs.2] at hst
    | false =>
      simp only [Bool.false_eq_true, if_false]
      cases c
      · have : Arg.icls ⟨.int, z, v⟩ = .int := by simp [Arg.icls]
        simp [this, h1]
      · cases v
        · simp only [Arg.icls, Bool.false_eq_true, if_false]; split <;> simp [h1]
        · simp [Arg.icls, h1]
      · simp [Arg.sized] at hs
        simp [Arg.icls, hs, words]
      · simp [Arg.sized] at hs
        simp [Arg.icls, hs]

theorem locs_length : ∀ (as : List Arg) (g f w : Nat), (locs as g f w).length = as.length
  | [], _, _, _ => rfl
  | a :: r, g, f, w => by simp [locs, locs_length r]

theorem locs_get : ∀ (as : List Arg) (g f w n : Nat) (a : Arg), Tame as g f → as[n]? = some a →
    ∃ ss, (locs as g f w)[n]? = some ss ∧ ss.length = words a.size
  | [], _, _, _, _, _, _, h => by simp at h
  | b :: r, g, f, w, 0, a, hT, h => by
    simp at h; subst h
    exact ⟨_, rfl, srcs_length hT.1 g f w⟩
  | b :: r, g, f, w, n + 1, a, hT, h => by
    obtain ⟨ss, h1, h2⟩ := locs_get r _ _ (w + b.stkWords g f) n a hT.2.2 (by simpa using h)
    exact ⟨ss, by simpa [locs] using h1, h2⟩

/-- What is at the places at the call. -/
theorem call_at (hidden : Bool) (as : List Arg) (s : St) (ht : Tame as (if hidden then 1 else 0) 0)
    (hor : anyStk as (if hidden then 1 else 0) 0 = false ∨ ∀ a ∈ as, a.big = false) (n j : Nat) (ss : List Src) (src : Src)
    (h1 : (locs as (if hidden then 1 else 0) 0 0)[n]? = some ss) (h2 : ss[j]? = some src) :
    (call hidden as s).1.at src = .arg n j := by
  obtain ⟨-, -, -, -, -, q, m⟩ := call_eq hidden as s ht
  cases src with
  | g r => exact (q n j ss _ h1 h2).1 r rfl
  | f r => exact (q n j ss _ h1 h2).2 r rfl
  | mem o =>
    obtain ⟨k, e, hk⟩ := locs_mem as 0 _ _ 0 n j ss o h1 h2
    have hord : ordW as 0 (if hidden then 1 else 0) 0 = stkW as 0 (if hidden then 1 else 0) 0 ++ bigW as 0 := by
      rcases hor with h | h
      · obtain ⟨x, y⟩ := ordW_of_noStk as 0 _ _ h; rw [x, y]; rfl
      · obtain ⟨x, y⟩ := ordW_of_noBig as 0 (if hidden then 1 else 0) 0 h; rw [x, y]; simp
    rw [hord] at hk
    have := m k _ hk
    rw [Nat.zero_add] at this
    simp only [St.at, e]
    rw [← this]; congr 1; omega

/-- The hidden parameter of functions that return aggregates above 16 bytes (a pointer). -/
def hiddenVar : Var := ⟨.int, 8, 8⟩

/-- C49 for non-variadic functions. The parameters of the definition, with a hidden one in front if the result is an aggregate above 16 bytes; a call
with arguments of these types, from any state. At the call, each word of each argument is in the register or the word of the stack from which the prologue of the
function takes this word of the parameter. `Tame`: registers are left for each long double and each aggregate; and not both scalars and aggregates above 16
bytes are on the stack. -/
theorem C49_agree_partial (fn : Fn) (fr : Frame) (hidden : Bool) (ps : List Var) (s : St) (hp : fn.params = (if hidden then [hiddenVar] else []) ++ ps)
    (hv : fn.variadic = false) (hal : ∀ v ∈ fn.locals, 0 < v.align) (hl : layout fn = .ok fr)
    (ht : Tame (ps.map argOf) (if hidden then 1 else 0) 0)
    (hor : anyStk (ps.map argOf) (if hidden then 1 else 0) 0 = false ∨ ∀ v ∈ ps, v.cls = .agg → v.size ≤ 16) :
    ∃ srcs g, sources fn fr = some (srcs, g) ∧ srcs.length = fn.params.length ∧
      (hidden = true → ∃ src, srcs[0]? = some [src] ∧ (call hidden (ps.map argOf) s).1.at src = .buf) ∧
      ∀ (n j : Nat) v, ps[n]? = some v → j < words v.size →
        ∃ ss src, srcs[(if hidden then 1 else 0) + n]? = some ss ∧ ss[j]? = some src ∧ (call hidden (ps.map argOf) s).1.at src = .arg n j := by
  have hT : Tame (fn.params.map argOf) 0 0 := by
    rw [hp]
    cases hidden with
    | false => simpa using ht
    | true =>
      simp only [if_true, List.cons_append, List.nil_append, List.map_cons]
      refine ⟨by simp [argOf, hiddenVar, Arg.sized], ?_, ?_⟩
      · simp [argOf, hiddenVar, Arg.icls]
      · simpa [argOf, hiddenVar, Arg.gUse, Arg.fUse, Arg.icls, maxRegs] using ht
  obtain ⟨hA, -⟩ := layout_eq fn fr hal hl hT
  have hbase : fpOff fn = -16 := by simp [fpOff, vaSize, hv]
  have hsrc := paramSrcs_eq fn.params _ (fpOff fn) 0 0 0 hT (by decide) hA (.inl hbase)
  have hbig : (∀ v ∈ ps, v.cls = .agg → v.size ≤ 16) → ∀ a ∈ ps.map argOf, a.big = false := by
    intro h a ha
    obtain ⟨v, hv, rfl⟩ := List.mem_map.mp ha
    cases hb : (argOf v).big with
    | false => rfl
    | true =>
      simp [Arg.big, argOf, Arg.icls] at hb
      have := h v hv hb.1
      have := hb.2
      unfold words at this; omega
  have hor' : anyStk (ps.map argOf) (if hidden then 1 else 0) 0 = false ∨ ∀ a ∈ ps.map argOf, a.big = false := hor.imp id hbig
  have hlocs : locs (fn.params.map argOf) 0 0 0 = (if hidden then [[.g 0]] else []) ++ locs (ps.map argOf) (if hidden then 1 else 0) 0 0 := by
    rw [hp]
    cases hidden with
    | false => simp
    | true =>
      simp only [if_true, List.cons_append, List.nil_append, List.map_cons, locs]
      congr 1
  refine ⟨_, _, hsrc, by rw [locs_length]; simp, ?_, ?_⟩
  · intro h
    refine ⟨.g 0, by rw [hlocs, h]; rfl, ?_⟩
    obtain ⟨-, -, -, -, hb, -⟩ := call_eq hidden (ps.map argOf) s ht
    exact hb h
  · intro n j v hn hj
    obtain ⟨ss, h1, h2⟩ := locs_get (ps.map argOf) (if hidden then 1 else 0) 0 0 n (argOf v) ht (by simp [hn])
    have hlt : j < ss.length := by rw [h2]; exact hj
    refine ⟨ss, ss[j], ?_, List.getElem?_eq_getElem hlt, call_at hidden _ s ht hor' n j ss _ h1 (List.getElem?_eq_getElem hlt)⟩
    rw [hlocs]
    cases hidden with
    | false => simpa using h1
    | true => rw [if_pos rfl, if_pos rfl, Nat.add_comm]; exact h1

/-! ### Variadic functions -/

theorem Tame.append : ∀ (as bs : List Arg) (g f : Nat), Tame (as ++ bs) g f ↔ Tame as g f ∧ Tame bs (gEnd as g f) (fEnd as g f)
  | [], _, _, _ => by simp [Tame, gEnd, fEnd]
  | a :: r, bs, g, f => by simp only [List.cons_append, Tame, gEnd, fEnd, Tame.append r bs, and_assoc]

theorem locs_append : ∀ (as bs : List Arg) (g f w : Nat), locs (as ++ bs) g f w = locs as g f w ++ locs bs (gEnd as g f) (fEnd as g f) (w + sumStk as g f)
  | [], _, _, _, _ => rfl
  | a :: r, bs, g, f, w => by simp only [List.cons_append, locs, gEnd, fEnd, sumStk, locs_append r bs, Nat.add_assoc]

/-- Variable arguments: the remaining registers, then the stack. -/
theorem locs_varargs : ∀ (vs : List Arg) (g f w k : Nat) (a : Arg), (∀ a ∈ vs, a.vararg = true) → g ≤ maxRegs → vs[k]? = some a →
    (locs vs g f w)[k]? = some [if g + k < maxRegs then .g (g + k) else .mem (8 * ((w + (g + k - maxRegs) : Nat) : Int))]
  | [], _, _, _, _, _, _, _, h => by simp at h
  | b :: r, g, f, w, k, a, hv, hg, h => by
    have hb : b.icls = .int := by simp [Arg.icls, hv b List.mem_cons_self]
    have hbig : b.big = false := by simp [Arg.big, hb]
    by_cases hlt : g < maxRegs
    · have hst : b.stk g f = false := by simp [Arg.stk, hb, hlt]
      have hgu : b.gUse g f = 1 := by simp [Arg.gUse, hb, hlt]
      have hsw : b.stkWords g f = 0 := by simp [Arg.stkWords, hbig, hst]
      have hsr : b.srcs g f w = [.g g] := by unfold Arg.srcs; simp [hbig, hst, hb]
      simp only [locs, hgu, hsw, hsr, Nat.add_zero]
      cases k with
      | zero => simp [hlt]
      | succ k =>
        have := locs_varargs r (g + 1) (f + b.fUse f) w k a (fun x hx => hv x (List.mem_cons_of_mem _ hx)) (by omega) (by simpa using h)
        rw [List.getElem?_cons_succ, this, show g + 1 + k = g + (k + 1) by omega]
    · have hge : g = maxRegs := by omega
      have hst : b.stk g f = true := by simp [Arg.stk, hb, hlt]
      have hgu : b.gUse g f = 0 := by simp [Arg.gUse, hb, hlt]
      have hsw : b.stkWords g f = 1 := by simp [Arg.stkWords, hbig, hst]
      have hsr : b.srcs g f w = [.mem (8 * (w : Int))] := by unfold Arg.srcs; simp [hbig, hst]
      simp only [locs, hgu, hsw, hsr, Nat.add_zero]
      cases k with
      | zero => simp [hge]
      | succ k =>
        have := locs_varargs r g (f + b.fUse f) (w + 1) k a (fun x hx => hv x (List.mem_cons_of_mem _ hx)) hg (by simpa using h)
        rw [List.getElem?_cons_succ, this]
        rw [if_neg (by omega), if_neg (by omega)]
        congr 5
        omega

/-- The registers counted by the prologue of a variadic function. -/
theorem vaGp_eq : ∀ (ps : List Var) (G g f : Nat), (∀ v ∈ ps, v.cls = .int ∨ v.cls = .flt) → g = min maxRegs G →
    gEnd (ps.map argOf) g f = min maxRegs (vaGp ps G f) ∧ (vaGp ps G f < maxRegs → sumStk (ps.map argOf) g f = 0)
  | [], G, g, f, _, h => ⟨h, fun _ => rfl⟩
  | v :: r, G, g, f, hc, h => by
    have hr : ∀ v ∈ r, v.cls = .int ∨ v.cls = .flt := fun w hw => hc w (List.mem_cons_of_mem _ hw)
    have hmono : ∀ (ps : List Var) (G f : Nat), G ≤ vaGp ps G f := by
      intro ps
      induction ps with
      | nil => intro G f; exact Nat.le_refl _
      | cons v r ih =>
        intro G f
        simp only [vaGp]
        split
        · split
          · exact ih _ _
          · exact Nat.le_trans (by omega) (ih _ _)
        · exact Nat.le_trans (by omega) (ih _ _)
    simp only [List.map_cons, gEnd, sumStk, vaGp]
    obtain ⟨c, z, al⟩ := v
    rcases hc _ List.mem_cons_self with e | e
    · simp only at e; subst e
      have hbig : Arg.big (argOf ⟨.int, z, al⟩) = false := by simp [argOf, Arg.big, Arg.icls]
      have hfu : Arg.fUse (argOf ⟨.int, z, al⟩) f = 0 := by simp [argOf, Arg.fUse, Arg.icls]
      rw [if_neg (by simp), hfu, Nat.add_zero]
      by_cases hlt : g < maxRegs
      · have hgu : Arg.gUse (argOf ⟨.int, z, al⟩) g f = 1 := by simp [argOf, Arg.gUse, Arg.icls, hlt]
        have hst : Arg.stk (argOf ⟨.int, z, al⟩) g f = false := by simp [argOf, Arg.stk, Arg.icls, hlt]
        have hsw : Arg.stkWords (argOf ⟨.int, z, al⟩) g f = 0 := by simp [Arg.stkWords, hbig, hst]
        rw [hgu, hsw, Nat.zero_add]
        exact vaGp_eq r (G + 1) (g + 1) f hr (by omega)
      · have hgu : Arg.gUse (argOf ⟨.int, z, al⟩) g f = 0 := by simp [argOf, Arg.gUse, Arg.icls, hlt]
        rw [hgu, Nat.add_zero]
        obtain ⟨x, -⟩ := vaGp_eq r (G + 1) g f hr (by omega)
        exact ⟨x, fun hx => by have := hmono r (G + 1) f; omega⟩
    · simp only at e; subst e
      have hbig : Arg.big (argOf ⟨.flt, z, al⟩) = false := by simp [argOf, Arg.big, Arg.icls]
      rw [if_pos rfl]
      by_cases hf : f < maxRegs
      · have hfu : Arg.fUse (argOf ⟨.flt, z, al⟩) f = 1 := by simp [argOf, Arg.fUse, Arg.icls, hf]
        have hgu : Arg.gUse (argOf ⟨.flt, z, al⟩) g f = 0 := by simp [argOf, Arg.gUse, Arg.icls, hf]
        have hst : Arg.stk (argOf ⟨.flt, z, al⟩) g f = false := by simp [argOf, Arg.stk, Arg.icls, hf]
        have hsw : Arg.stkWords (argOf ⟨.flt, z, al⟩) g f = 0 := by simp [Arg.stkWords, hbig, hst]
        rw [if_pos hf, hfu, hgu, hsw, Nat.add_zero, Nat.zero_add]
        exact vaGp_eq r G g (f + 1) hr h
      · have hfu : Arg.fUse (argOf ⟨.flt, z, al⟩) f = 0 := by simp [argOf, Arg.fUse, Arg.icls, hf]
        rw [if_neg hf, hfu, Nat.add_zero]
        by_cases hlt : g < maxRegs
        · have hgu : Arg.gUse (argOf ⟨.flt, z, al⟩) g f = 1 := by simp [argOf, Arg.gUse, Arg.icls, hlt, hf]
          have hst : Arg.stk (argOf ⟨.flt, z, al⟩) g f = false := by simp [argOf, Arg.stk, Arg.icls, hlt]
          have hsw : Arg.stkWords (argOf ⟨.flt, z, al⟩) g f = 0 := by simp [Arg.stkWords, hbig, hst]
          rw [hgu, hsw, Nat.zero_add]
          exact vaGp_eq r (G + 1) (g + 1) f hr (by omega)
        · have hgu : Arg.gUse (argOf ⟨.flt, z, al⟩) g f = 0 := by simp [argOf, Arg.gUse, Arg.icls, hlt, hf]
          rw [hgu, Nat.add_zero]
          obtain ⟨x, -⟩ := vaGp_eq r (G + 1) g f hr (by omega)
          exact ⟨x, fun hx => by have := hmono r (G + 1) f; omega⟩

theorem Tame.scalars : ∀ (as : List Arg) (g f : Nat), (∀ a ∈ as, a.sized ∧ (a.icls = .int ∨ a.icls = .flt)) → Tame as g f
  | [], _, _, _ => trivial
  | a :: r, g, f, h => by
    obtain ⟨h1, h2⟩ := h a List.mem_cons_self
    refine ⟨h1, ?_, Tame.scalars r _ _ fun x hx => h x (List.mem_cons_of_mem _ hx)⟩
    rintro (h3 | h3) <;> rcases h2 with h2 | h2 <;> rw [h2] at h3 <;> cases h3

/-- C49 for variadic functions, all of whose parameters and arguments are scalars other than long double: each parameter is where the callee takes it from; each
variable argument is found in the area for the variable arguments, in order, 8 bytes each, after the prologue has saved the registers there; and the registers are
saved within the space that the prologue has reserved. -/
theorem C49_variadic_partial (fn : Fn) (fr : Frame) (hidden : Bool) (ps : List Var) (vs : List Arg) (s : St)
    (hp : fn.params = (if hidden then [hiddenVar] else []) ++ ps) (hv : fn.variadic = true) (hal : ∀ v ∈ fn.locals, 0 < v.align) (hl : layout fn = .ok fr)
    (hps : ∀ v ∈ ps, (v.cls = .int ∨ v.cls = .flt) ∧ 0 < v.size ∧ v.size ≤ 8)
    (hvs : ∀ a ∈ vs, a.vararg = true ∧ (a.cls = .int ∨ a.cls = .flt) ∧ 0 < a.size ∧ a.size ≤ 8) :
    ∃ srcs g off, sources fn fr = some (srcs, g) ∧ vaOff fn fr = some off ∧
      (∀ (n j : Nat) v, ps[n]? = some v → j < words v.size →
        ∃ ss src, srcs[(if hidden then 1 else 0) + n]? = some ss ∧ ss[j]? = some src ∧ (call hidden (ps.map argOf ++ vs) s).1.at src = .arg n j) ∧
      (∀ (k : Nat), k < vs.length → (call hidden (ps.map argOf ++ vs) s).1.at (vaSrc off (fpOff fn) g k) = .arg (ps.length + k) 0) ∧
      (g = maxRegs ∨ off + 8 * ((maxRegs - g : Nat) : Int) = 16 + vaSize fn) := by
  have hc : ∀ v ∈ fn.params, (v.cls = .int ∨ v.cls = .flt) ∧ 0 < v.size ∧ v.size ≤ 8 := by
    rw [hp]
    intro v hv
    rcases List.mem_append.mp hv with h | h
    · cases hidden with
      | false => simp at h
      | true => simp at h; subst h; decide
    · exact hps v h
  have hsc : ∀ (l : List Var), (∀ v ∈ l, (v.cls = .int ∨ v.cls = .flt) ∧ 0 < v.size ∧ v.size ≤ 8) →
      ∀ a ∈ l.map argOf, a.sized ∧ (a.icls = .int ∨ a.icls = .flt) := by
    intro l hl a ha
    obtain ⟨v, hv, rfl⟩ := List.mem_map.mp ha
    obtain ⟨h1, h2⟩ := hl v hv
    obtain ⟨c, z, al⟩ := v
    simp only at h1 h2
    rcases h1 with rfl | rfl <;> exact ⟨by simpa [argOf, Arg.sized] using h2, by simp [argOf, Arg.icls]⟩
  have hsv : ∀ a ∈ vs, a.sized ∧ (a.icls = .int ∨ a.icls = .flt) := by
    intro a ha
    obtain ⟨h1, h2, h3⟩ := hvs a ha
    obtain ⟨c, z, v⟩ := a
    simp only at h1 h2 h3
    subst h1
    rcases h2 with rfl | rfl <;> exact ⟨by simpa [Arg.sized] using h3, by simp [Arg.icls]⟩
  have hT : Tame (fn.params.map argOf) 0 0 := Tame.scalars _ _ _ (hsc _ hc)
  have hTa : Tame (ps.map argOf ++ vs) (if hidden then 1 else 0) 0 := Tame.scalars _ _ _ (fun a ha => by
    rcases List.mem_append.mp ha with h | h
    · exact hsc ps hps a h
    · exact hsv a h)
  have hnb : ∀ a ∈ ps.map argOf ++ vs, a.big = false := by
    intro a ha
    have : a.icls = .int ∨ a.icls = .flt := by
      rcases List.mem_append.mp ha with h | h
      · exact (hsc ps hps a h).2
      · exact (hsv a h).2
    rcases this with h | h <;> simp [Arg.big, h]
  obtain ⟨hA, hoff⟩ := layout_eq fn fr hal hl hT
  obtain ⟨hge, hz⟩ := vaGp_eq fn.params 0 0 0 (fun v hv => (hc v hv).1) (by decide)
  have hbase : fpOff fn = -16 ∨ sumStk (fn.params.map argOf) 0 0 = 0 := by
    by_cases hlt : vaGp fn.params 0 0 < maxRegs
    · exact .inr (hz hlt)
    · left; simp [fpOff, vaSize, hlt]
  have hsrc := paramSrcs_eq fn.params _ (fpOff fn) 0 0 0 hT (by decide) hA hbase
  have hsplit : locs (fn.params.map argOf) 0 0 0 = (if hidden then [[.g 0]] else []) ++ locs (ps.map argOf) (if hidden then 1 else 0) 0 0 ∧
      gEnd (fn.params.map argOf) 0 0 = gEnd (ps.map argOf) (if hidden then 1 else 0) 0 ∧
      sumStk (fn.params.map argOf) 0 0 = sumStk (ps.map argOf) (if hidden then 1 else 0) 0 := by
    rw [hp]
    cases hidden with
    | false => simp
    | true =>
      simp only [if_true, List.cons_append, List.nil_append, List.map_cons, locs, gEnd, sumStk]
      refine ⟨by congr 1, by congr 1, ?_⟩
      have : (argOf hiddenVar).stkWords 0 0 = 0 := by decide
      rw [this, Nat.zero_add]; congr 1
  obtain ⟨hlocs, hgend, hsum⟩ := hsplit
  refine ⟨_, _, _, hsrc, by rw [vaOff, if_pos hv]; exact hoff hv, ?_, ?_, ?_⟩
  · intro n j v hn hj
    have ht : Tame (ps.map argOf) (if hidden then 1 else 0) 0 := ((Tame.append _ _ _ _).mp hTa).1
    obtain ⟨ss, h1, h2⟩ := locs_get (ps.map argOf) (if hidden then 1 else 0) 0 0 n (argOf v) ht (by simp [hn])
    have hlt : j < ss.length := by rw [h2]; exact hj
    have h1' : (locs (ps.map argOf ++ vs) (if hidden then 1 else 0) 0 0)[n]? = some ss := by
      rw [locs_append, List.getElem?_append_left (List.getElem?_eq_some_iff.mp h1).1]; exact h1
    refine ⟨ss, ss[j], ?_, List.getElem?_eq_getElem hlt, call_at hidden _ s hTa (.inr hnb) n j ss _ h1' (List.getElem?_eq_getElem hlt)⟩
    rw [hlocs]
    cases hidden with
    | false => simpa using h1
    | true => rw [if_pos rfl, if_pos rfl, Nat.add_comm]; exact h1
  · intro k hk
    have hgle : gEnd (ps.map argOf) (if hidden then 1 else 0) 0 ≤ maxRegs := by rw [← hgend, hge]; omega
    have hv := locs_varargs vs (gEnd (ps.map argOf) (if hidden then 1 else 0) 0) (fEnd (ps.map argOf) (if hidden then 1 else 0) 0)
      (0 + sumStk (ps.map argOf) (if hidden then 1 else 0) 0) k vs[k] (fun a ha => (hvs a ha).1) hgle (List.getElem?_eq_getElem hk)
    have h1 : (locs (ps.map argOf ++ vs) (if hidden then 1 else 0) 0 0)[ps.length + k]? =
        some [if gEnd (ps.map argOf) (if hidden then 1 else 0) 0 + k < maxRegs then .g (gEnd (ps.map argOf) (if hidden then 1 else 0) 0 + k)
          else .mem (8 * ((0 + sumStk (ps.map argOf) (if hidden then 1 else 0) 0 + (gEnd (ps.map argOf) (if hidden then 1 else 0) 0 + k - maxRegs) : Nat) : Int))] := by
      rw [locs_append, List.getElem?_append_right (by rw [locs_length]; simp), locs_length]
      simp only [List.length_map, Nat.add_sub_cancel_left]
      exact hv
    have := call_at hidden (ps.map argOf ++ vs) s hTa (.inr hnb) (ps.length + k) 0 _ _ h1 rfl
    rw [← this]
    congr 1
    rw [← hgend, ← hsum] at *
    unfold vaSrc
    by_cases hlt : gEnd (fn.params.map argOf) 0 0 + k < maxRegs
    · rw [if_pos hlt, if_pos hlt]
    · rw [if_neg hlt, if_neg hlt]
      congr 1
      unfold fpOff vaSize
      by_cases hva : vaGp fn.params 0 0 < maxRegs
      · have h0 := hz hva
        rw [if_pos ⟨by assumption, hva⟩]
        omega
      · rw [if_neg (by simp [hva])]
        omega
  · by_cases hva : vaGp fn.params 0 0 < maxRegs
    · right
      have h0 := hz hva
      unfold vaSize
      rw [if_pos ⟨hv, hva⟩]
      omega
    · left; omega

/-! ### The stack pointer at calls -/

/-- The number of bytes from the stack pointer to the frame pointer, in units of 8, is kept by the compiler in `depth` (2 for ra and fp, counted before fp is set): the
state `s` of a function with the frame `fr`, entered with the stack pointer `entry` (in bytes). Words of `St` are counted from the stack pointer after the
prologue. -/
def spBytes (fn : Fn) (fr : Frame) (entry : Int) (s : St) : Int := entry + fpOff fn - fr.size + 8 * s.sp

/-- C50: with a stack pointer that corresponds to the depth counter (C39), it is at each call a multiple of 16 exactly if the size of the frame and the space for
variable arguments are so together; and the call restores it. -/
theorem C50_aligned_partial (fn : Fn) (fr : Frame) (entry : Int) (he : 16 ∣ entry) (hidden : Bool) (as : List Arg) (s : St) (hs : s.sp = -(s.depth - 2))
    (ht : Tame as (if hidden then 1 else 0) 0) :
    (16 ∣ spBytes fn fr entry (call hidden as s).1 ↔ 16 ∣ fr.size + vaSize fn) ∧
    (afterCall (call hidden as s).1 (call hidden as s).2).sp = s.sp ∧ (afterCall (call hidden as s).1 (call hidden as s).2).depth = s.depth := by
  obtain ⟨h1, h2, h3, -⟩ := call_eq hidden as s ht
  refine ⟨?_, ?_, ?_⟩
  · unfold spBytes fpOff
    rw [h1, hs]
    omega
  · simp only [afterCall, h1]; omega
  · simp only [afterCall, h2]; omega

/-! ### Examples -/

/-- A state in a function whose arguments are all on the stack below address 0. -/
def st0 : St := ⟨fun _ => .junk, 0, 0, 2, fun _ => .junk, fun _ => .junk, []⟩

def int8 : Var := ⟨.int, 8, 8⟩
def dbl : Var := ⟨.flt, 8, 8⟩
def ldbl : Var := ⟨.ld, 16, 16⟩
def strc (n : Nat) : Var := ⟨.agg, n, 8⟩
/-- `__alloca_size__`. -/
def alloc : Var := ⟨.int, 8, 8⟩

/-- `struct B f(long, double, struct {long a, b;}, long double, int, long, long, long, long)` meets the hypotheses of C49 (with stack arguments). -/
def exPs : List Var := [int8, dbl, strc 16, ldbl, ⟨.int, 4, 4⟩, int8, int8, int8, dbl]

def exF : Fn := ⟨[alloc], false, hiddenVar :: exPs⟩

example : Tame (exPs.map argOf) 1 0 := by
  simp [exPs, Tame, argOf, Arg.sized, Arg.icls, Arg.gUse, Arg.fUse, int8, dbl, strc, ldbl, maxRegs, words]
example : anyStk (exPs.map argOf) 1 0 = true := by decide +kernel
example : (∀ v ∈ exPs, v.cls = .agg → v.size ≤ 16) ∧ (∀ v ∈ exF.locals, 0 < v.align) ∧ (layout exF).isOk = true := by decide +kernel

/-- The same with two aggregates above 16 bytes and no scalar on the stack. -/
def exPs2 : List Var := [int8, strc 24, dbl, strc 40, int8]
example : Tame (exPs2.map argOf) 0 0 := by
  simp [exPs2, Tame, argOf, Arg.sized, Arg.icls, Arg.gUse, Arg.fUse, int8, dbl, strc, maxRegs, words]
example : anyStk (exPs2.map argOf) 0 0 = false ∧ (layout ⟨[alloc], false, exPs2⟩).isOk = true := by decide +kernel

/-- `int printf(char *, ...)` called with nine arguments. -/
def exV : Fn := ⟨[alloc], true, [int8]⟩
example : (∀ v ∈ exV.locals, 0 < v.align) ∧ (layout exV).isOk = true := by decide +kernel
example : (∀ v ∈ exV.params, (v.cls = .int ∨ v.cls = .flt) ∧ 0 < v.size ∧ v.size ≤ 8) ∧
    ∀ a ∈ ([⟨.int, 4, true⟩, ⟨.flt, 8, true⟩] ++ List.replicate 7 ⟨.int, 8, true⟩ : List Arg), a.vararg = true ∧ (a.cls = .int ∨ a.cls = .flt) ∧ 0 < a.size ∧ a.size ≤ 8 := by
  decide +kernel

/-! ### What is missing from C49 -/

/-- The word of the call at the place from which the callee takes the `j`th word of the `n`th parameter. -/
def received (fn : Fn) (as : List Arg) (n j : Nat) : Option Word := do
  let fr ← (layout fn).toOption
  let (srcs, _) ← sources fn fr
  let ss ← srcs[n]?
  let src ← ss[j]?
  some ((call false as st0).1.at src)

/-- A scalar on the stack before an aggregate above 16 bytes is exchanged with it: `f(struct {long a[3];} s, long ×7, long x)`: the aggregate is pushed last
but allocated first. -/
theorem C49_violated_mixed :
    let ps := [strc 24] ++ List.replicate 7 int8 ++ [int8]
    received ⟨[alloc], false, ps⟩ (ps.map argOf) 0 0 = some (.arg 8 0) ∧ received ⟨[alloc], false, ps⟩ (ps.map argOf) 8 0 = some (.arg 0 2) := by
  decide +kernel

/-- `f(long ×7, struct {long a, b;} s)`: one register is left for the two words of the aggregate. The compiler stops with an error. -/
theorem C49_half_struct : layout ⟨[alloc], false, List.replicate 7 int8 ++ [strc 16]⟩ = .error .halfStruct := by decide +kernel

/-- `f(long ×8, struct {long a;} s, double d)`: the aggregate is pushed with the arguments for registers though no register is left for it, and its word is
popped into the register of `d`. -/
theorem C49_violated_exhausted :
    let ps := List.replicate 8 int8 ++ [strc 8, dbl]
    received ⟨[alloc], false, ps⟩ (ps.map argOf) 9 0 = some (.arg 8 0) := by
  decide +kernel

/-- `f(long ×8, long x, struct {long a;} s)`: `x` and `s` are exchanged. -/
theorem C49_violated_order :
    let ps := List.replicate 8 int8 ++ [int8, strc 8]
    received ⟨[alloc], false, ps⟩ (ps.map argOf) 8 0 = some (.arg 9 0) ∧ received ⟨[alloc], false, ps⟩ (ps.map argOf) 9 0 = some (.arg 8 0) := by
  decide +kernel

/-- `f(struct {} e, long x)`: the callee takes `x` from a1, the caller has it in a0. -/
theorem C49_violated_empty :
    let ps := [⟨.agg, 0, 1⟩, int8]
    received ⟨[alloc], false, ps⟩ (ps.map argOf) 1 0 = some .junk ∧ (call false (ps.map argOf) st0).1.g 0 = .arg 1 0 := by
  decide +kernel

/-- `f()` called as `f(1.0)` where the definition is `f(double d)`: funcall (parser.c:53-70) takes the arguments for variable ones. -/
theorem C49_violated_unprototyped : received ⟨[alloc], false, [dbl]⟩ [⟨.flt, 8, true⟩] 0 0 = some .junk := by decide +kernel

/-- `f(long double, ...)` called with seven variable arguments: one register is counted for the parameter where it takes two; the last variable argument
is looked for 8 bytes below its place, and something else is found there. -/
theorem C49_violated_variadic :
    let fn : Fn := ⟨[alloc], true, [ldbl]⟩
    let fr : Frame := ⟨[-8, 16, -32], 32⟩
    let c := (call false (⟨.ld, 16, false⟩ :: List.replicate 7 ⟨.int, 8, true⟩) st0).1
    layout fn = .ok fr ∧ (sources fn fr).map Prod.snd = some 2 ∧ vaOff fn fr = some 16 ∧ vaSrc 16 (fpOff fn) 2 6 = .mem (-8) ∧
      c.at (.mem (-8)) ≠ .arg 7 0 ∧ c.at (.mem 0) = .arg 7 0 := by
  decide +kernel

/-! ### C50 -/

/-- A function for which calls are aligned. -/
example : (layout ⟨[⟨.int, 4, 4⟩, alloc], false, []⟩).toOption.map Frame.size = some 16 := by decide +kernel

/-- `void f(void) { g(); }`: the frame (of __alloca_size__ alone) has 8 bytes; each call from it has a stack pointer that is not a multiple of 16. -/
theorem C50_violated_frame : ∃ fr, layout ⟨[alloc], false, []⟩ = .ok fr ∧ ¬ 16 ∣ fr.size + vaSize ⟨[alloc], false, []⟩ ∧
    ∀ entry : Int, 16 ∣ entry → ∀ s : St, s.sp = -(s.depth - 2) → ¬ 16 ∣ spBytes ⟨[alloc], false, []⟩ fr entry (call false [] s).1 := by
  refine ⟨⟨[-8], 8⟩, by decide +kernel, by decide +kernel, fun entry he s hs => ?_⟩
  have h := C50_aligned_partial ⟨[alloc], false, []⟩ ⟨[-8], 8⟩ entry he false [] s hs trivial
  rw [h.1]; decide +kernel

/-- A variadic function with a frame of 16 bytes and one named parameter saves seven registers. -/
theorem C50_violated_variadic : ∃ fr, layout ⟨[alloc], true, [int8]⟩ = .ok fr ∧ fr.size = 16 ∧ vaSize ⟨[alloc], true, [int8]⟩ = 56 ∧
    ∀ entry : Int, 16 ∣ entry → ∀ s : St, s.sp = -(s.depth - 2) → ¬ 16 ∣ spBytes ⟨[alloc], true, [int8]⟩ fr entry (call false [] s).1 := by
  refine ⟨⟨[-8, 16, -16], 16⟩, by decide +kernel, by decide +kernel, by decide +kernel, fun entry he s hs => ?_⟩
  have h := C50_aligned_partial ⟨[alloc], true, [int8]⟩ ⟨[-8, 16, -16], 16⟩ entry he false [] s hs trivial
  rw [h.1]; decide +kernel

/-- `f(x, g())` where `g` returns an aggregate of 24 bytes: three words are reserved for it before the arguments are evaluated, but they are counted only after
`g()` is evaluated. So the counter is 3 (one for alignment) where the stack pointer is 4 words down, when `g` is called. -/
theorem C50_violated_nested :
    (call false [⟨.int, 8, false⟩, ⟨.agg, 24, false⟩] st0).1.evals = [(1, 3, -4), (0, 7, -5)] := by decide +kernel

end Toycc.Frame
