import Verif.Frame.CallSpec
/-! The caller puts every argument at its place. -/
namespace Toycc.Frame

/-- The words that an argument pushes. -/
def pw (i : Nat) (a : Arg) : List Word :=
  match a.cls with
  | .agg => if words a.size ≤ 2 then (List.range (words a.size)).map (.arg i) else [.ptr i]
  | .ld => [.arg i 0, .arg i 1]
  | _ => [.arg i 0]

/-- The words that an argument copies. -/
def cw (i : Nat) (a : Arg) : List Word :=
  match a.cls with
  | .agg => if words a.size ≤ 2 then [] else (List.range (words a.size)).map (.arg i)
  | _ => []

/-- The effect of pushing `P` and copying `A`. -/
structure Pushed (s s' : St) (P A : List Word) : Prop where
  sp : s'.sp = s.sp - P.length
  t1 : s'.t1 = s.t1 - A.length
  depth : s'.depth = s.depth + P.length + A.length
  g : s'.g = s.g
  f : s'.f = s.f
  pushed : ∀ (k : Nat) w, P[k]? = some w → s'.mem (s'.sp + k) = w
  copied : ∀ (k : Nat) w, A[k]? = some w → s'.mem (s'.t1 + k) = w
  rest : ∀ a, s.sp ≤ a → a < s'.t1 ∨ s.t1 ≤ a → s'.mem a = s.mem a

theorem Pushed.refl (s : St) : Pushed s s [] [] :=
  ⟨by simp, by simp, by simp, rfl, rfl, by simp, by simp, fun _ _ _ => rfl⟩

theorem Pushed.trans {s s1 s2 : St} {P1 A1 P2 A2 : List Word} (h1 : Pushed s s1 P1 A1) (h2 : Pushed s1 s2 P2 A2)
    (hr : s.sp ≤ s.t1 - A1.length - A2.length) : Pushed s s2 (P2 ++ P1) (A2 ++ A1) := by
  have e1 := h1.sp; have e2 := h2.sp; have t1 := h1.t1; have t2 := h2.t1
  refine ⟨by simp; omega, by simp; omega, ?_, by rw [h2.g, h1.g], by rw [h2.f, h1.f], ?_, ?_, ?_⟩
  · have := h1.depth; have := h2.depth; simp; omega
  · intro k w hk
    by_cases hlt : k < P2.length
    · rw [List.getElem?_append_left hlt] at hk
      exact h2.pushed k w hk
    · rw [List.getElem?_append_right (by omega)] at hk
      have hl := (List.getElem?_eq_some_iff.mp hk).1
      have := h1.pushed _ w hk
      rw [h2.rest _ (by omega) (.inl (by omega)), ← this]
      congr 1; omega
  · intro k w hk
    by_cases hlt : k < A2.length
    · rw [List.getElem?_append_left hlt] at hk
      exact h2.copied k w hk
    · rw [List.getElem?_append_right (by omega)] at hk
      have hl := (List.getElem?_eq_some_iff.mp hk).1
      have := h1.copied _ w hk
      rw [h2.rest _ (by omega) (.inr (by omega)), ← this]
      congr 1; omega
  · intro a ha hb
    rw [h2.rest a (by omega) (by omega), h1.rest a ha (by omega)]

theorem push_pushed (s : St) (w : Word) : Pushed s (s.push w) [w] [] := by
  refine ⟨by simp [St.push], by simp [St.push], by simp [St.push], rfl, rfl, ?_, by simp, ?_⟩
  · intro k v hk
    cases k with
    | zero => simp at hk; subst hk; simp [St.push, set]
    | succ k => simp at hk
  · intro a ha _
    simp only [St.push, set]
    rw [if_neg (by omega)]

theorem range_succ_map {α : Type} (n : Nat) (f : Nat → α) : (List.range (n + 1)).map f = (List.range n).map f ++ [f n] := by
  rw [List.range_succ]; simp

theorem pushWords_pushed : ∀ (n : Nat) (s : St) (i : Nat), s.sp ≤ s.t1 → Pushed s (s.pushWords i n) ((List.range n).map (.arg i)) []
  | 0, s, i, _ => Pushed.refl s
  | n + 1, s, i, h => by
    have h1 := push_pushed s (.arg i n)
    have h2 := pushWords_pushed n (s.push (.arg i n)) i (by simp [St.push]; omega)
    have := h1.trans h2 (by simpa using h)
    rw [range_succ_map]
    exact this

theorem copyWords_at (m : Int → Word) (t1 : Int) (i : Nat) : ∀ n, (∀ k < n, copyWords m t1 i n (t1 + k) = .arg i k) ∧
    (∀ a, a < t1 ∨ t1 + n ≤ a → copyWords m t1 i n a = m a)
  | 0 => ⟨by simp, fun _ _ => rfl⟩
  | n + 1 => by
    obtain ⟨h1, h2⟩ := copyWords_at m t1 i n
    constructor
    · intro k hk
      simp only [copyWords, set]
      by_cases e : k = n
      · subst e; simp
      · rw [if_neg (by omega)]; exact h1 k (by omega)
    · intro a ha
      simp only [copyWords, set]
      rw [if_neg (by omega)]
      exact h2 a (by omega)

theorem pushArg_pushed (i : Nat) (a : Arg) (s : St) (h : s.sp ≤ s.t1 - (cw i a).length) : Pushed s (pushArg i a s) (pw i a) (cw i a) := by
  have h0 : Pushed s { s with evals := s.evals ++ [(i, s.depth, s.sp)] } [] [] :=
    ⟨by simp, by simp, by simp, rfl, rfl, by simp, by simp, fun _ _ _ => rfl⟩
  obtain ⟨c, z, v⟩ := a
  cases c with
  | int =>
    have := h0.trans (push_pushed _ (.arg i 0)) (by simpa [cw] using h)
    simpa [pw, cw, pushArg] using this
  | flt =>
    have := h0.trans (push_pushed _ (.arg i 0)) (by simpa [cw] using h)
    simpa [pw, cw, pushArg] using this
  | ld =>
    refine ⟨by simp [pushArg, pw], by simp [pushArg, cw], by simp [pushArg, pw, cw], rfl, rfl, ?_, by simp [cw], ?_⟩
    · intro k w hk
      simp only [pw] at hk
      rcases k with _ | _ | k
      · simp at hk; subst hk; simp [pushArg, set]
      · simp at hk; subst hk
        simp only [pushArg, set]
        rw [if_neg (by omega), if_pos (by omega)]
      · simp at hk
    · intro a ha _
      simp only [pushArg, set]
      rw [if_neg (by omega), if_neg (by omega)]
  | agg =>
    by_cases hn : words z ≤ 2
    · simp only [cw, if_pos hn] at h ⊢
      simp only [pushArg, pw, if_pos hn]
      have := h0.trans (pushWords_pushed (words z) _ i (by simpa using h)) (by simpa using h)
      simpa using this
    · simp only [cw, if_neg hn] at h ⊢
      simp only [pushArg, pw, if_neg hn]
      simp only [List.length_map, List.length_range] at h
      have h1 : Pushed s { { s with evals := s.evals ++ [(i, s.depth, s.sp)] } with t1 := s.t1 - (words z : Int), mem := copyWords s.mem (s.t1 - (words z : Int)) i (words z), depth := s.depth + (words z : Int) }
          [] ((List.range (words z)).map (.arg i)) := by
        obtain ⟨c1, c2⟩ := copyWords_at s.mem (s.t1 - (words z : Int)) i (words z)
        refine ⟨by simp, by simp, by simp, rfl, rfl, by simp, ?_, ?_⟩
        · intro k w hk
          simp only [List.getElem?_map, Option.map_eq_some_iff] at hk
          obtain ⟨j, hj, rfl⟩ := hk
          have hl := (List.getElem?_eq_some_iff.mp hj).1
          simp at hl
          rw [List.getElem?_range hl] at hj
          cases hj
          exact c1 k hl
        · intro a ha hb
          exact c2 a (by simp only at hb; omega)
      have := h1.trans (push_pushed _ (.ptr i)) (by simp; omega)
      simpa using this

/-- The words pushed, and copied, by one pass over the arguments. -/
def pws : List (Arg × Bool) → Nat → Bool → List Word
  | [], _, _ => []
  | (a, b) :: r, i, first => (if b = first then pw i a else []) ++ pws r (i + 1) first
def cws : List (Arg × Bool) → Nat → Bool → List Word
  | [], _, _ => []
  | (a, b) :: r, i, first => (if b = first then cw i a else []) ++ cws r (i + 1) first

theorem pushArgs2_pushed : ∀ (r : List (Arg × Bool)) (i : Nat) (first : Bool) (s : St), s.sp ≤ s.t1 - (cws r i first).length →
    Pushed s (pushArgs2 r i first s) (pws r i first) (cws r i first)
  | [], _, _, s, _ => Pushed.refl s
  | (a, b) :: r, i, first, s, h => by
    simp only [cws, List.length_append] at h
    have h1 := pushArgs2_pushed r (i + 1) first s (by omega)
    simp only [pushArgs2, pws, cws]
    by_cases e : b = first
    · simp only [if_pos e] at h ⊢
      have h2 := pushArg_pushed i a (pushArgs2 r (i + 1) first s) (by rw [h1.sp, h1.t1]; omega)
      exact h1.trans h2 (by omega)
    · simp only [if_neg e, List.nil_append]
      exact h1

/-! ### The registers -/

theorem Cnt.some_eq : ∀ (n : Nat) (c : Cnt), c.g + n ≤ maxRegs → c.some n = { c with g := c.g + n }
  | 0, _, _ => rfl
  | n + 1, c, h => by
    rw [Cnt.some, if_pos (by omega), Cnt.some_eq n _ (by simp only; omega)]
    simp only [Nat.add_assoc, Nat.add_comm 1 n]

/-- The number of words an argument copies. -/
def Arg.bigWords (a : Arg) : Nat := if a.big then words a.size else 0

theorem icls_eq {a : Arg} (h : a.sized) (hc : a.cls = .ld ∨ a.cls = .agg) : a.icls = a.cls := by
  obtain ⟨c, z, v⟩ := a
  unfold Arg.icls
  cases c
  · simp at hc
  · simp at hc
  · simp [Arg.sized] at h; simp [h]
  · simp [Arg.sized] at h; simp [h]

theorem countArg_eq (a : Arg) (c : Cnt) (hs : a.sized) (hr : a.icls = .ld ∨ a.icls = .agg → c.g + a.gUse c.g c.f ≤ maxRegs) :
    countArg a c = (⟨c.g + a.gUse c.g c.f, c.f + a.fUse c.f, c.stack + a.stkWords c.g c.f, c.structStack + a.bigWords⟩, a.stk c.g c.f) := by
  obtain ⟨k, z, v⟩ := a
  obtain ⟨g, f, st, ss⟩ := c
  simp only at hr
  cases v with
  | true =>
    simp only [countArg, Arg.gUse, Arg.fUse, Arg.stkWords, Arg.bigWords, Arg.big, Arg.stk, Arg.icls, if_true]
    by_cases h : g < maxRegs <;> simp [h]
  | false =>
    cases k with
    | int =>
      simp only [countArg, Arg.gUse, Arg.fUse, Arg.stkWords, Arg.bigWords, Arg.big, Arg.stk, Arg.icls, Bool.false_eq_true, if_false]
      by_cases h : g < maxRegs <;> simp [h]
    | flt =>
      simp only [countArg, Arg.gUse, Arg.fUse, Arg.stkWords, Arg.bigWords, Arg.big, Arg.stk, Arg.icls, Bool.false_eq_true, if_false]
      by_cases h : g < maxRegs <;> by_cases h2 : f < maxRegs <;> simp [h, h2]
    | ld =>
      have hr' := hr (.inl rfl)
      simp only [Arg.gUse, Arg.icls, Bool.false_eq_true, if_false] at hr'
      simp only [countArg, Arg.gUse, Arg.fUse, Arg.stkWords, Arg.bigWords, Arg.big, Arg.stk, Arg.icls, Bool.false_eq_true, if_false]
      rw [Cnt.some_eq 2 _ hr']
      simp
    | agg =>
      have hr' := hr (.inr rfl)
      simp only [Arg.gUse, Arg.icls, Bool.false_eq_true, if_false] at hr'
      simp only [countArg, Arg.gUse, Arg.fUse, Arg.stkWords, Arg.bigWords, Arg.big, Arg.stk, Arg.icls, Bool.false_eq_true, if_false]
      by_cases hw : words z ≤ 2
      · rw [if_pos hw] at hr' ⊢
        rw [Cnt.some_eq _ _ hr']
        have : ¬ 2 < words z := by omega
        simp [this]
      · rw [if_neg hw] at hr' ⊢
        rw [Cnt.some_eq 1 _ hr']
        have : 2 < words z := by omega
        simp [this, hw]

/-- The sums over the arguments. -/
def sumStk : List Arg → Nat → Nat → Nat
  | [], _, _ => 0
  | a :: r, g, f => a.stkWords g f + sumStk r (g + a.gUse g f) (f + a.fUse f)
def sumBig : List Arg → Nat
  | [] => 0
  | a :: r => a.bigWords + sumBig r
/-- Which scalars are passed on the stack. -/
def flags : List Arg → Nat → Nat → List Bool
  | [], _, _ => []
  | a :: r, g, f => a.stk g f :: flags r (g + a.gUse g f) (f + a.fUse f)
/-- The counters at the end. -/
def gEnd : List Arg → Nat → Nat → Nat
  | [], g, _ => g
  | a :: r, g, f => gEnd r (g + a.gUse g f) (f + a.fUse f)
def fEnd : List Arg → Nat → Nat → Nat
  | [], _, f => f
  | a :: r, g, f => fEnd r (g + a.gUse g f) (f + a.fUse f)

theorem countArgs_eq : ∀ (as : List Arg) (c : Cnt), Tame as c.g c.f →
    countArgs as c = (⟨gEnd as c.g c.f, fEnd as c.g c.f, c.stack + sumStk as c.g c.f, c.structStack + sumBig as⟩, flags as c.g c.f)
  | [], c, _ => rfl
  | a :: r, c, h => by
    obtain ⟨h1, h2, h3⟩ := h
    simp only [countArgs, countArg_eq a c h1 h2]
    rw [countArgs_eq r _ h3]
    simp only [gEnd, fEnd, sumStk, sumBig, flags, Nat.add_assoc]

theorem cw_length (i : Nat) (a : Arg) (h : a.sized) : (cw i a).length = a.bigWords := by
  obtain ⟨k, z, v⟩ := a
  cases k
  · simp only [cw, Arg.bigWords, Arg.big, Arg.icls]; cases v <;> simp
  · simp only [cw, Arg.bigWords, Arg.big, Arg.icls]; cases v <;> simp
  · simp only [cw, Arg.bigWords, Arg.big, Arg.icls]; cases v <;> simp
  · simp [Arg.sized] at h
    simp only [cw, Arg.bigWords, Arg.big, Arg.icls, h.2]
    by_cases hw : words z ≤ 2
    · have : ¬ 2 < words z := by omega
      simp [hw, this]
    · have : 2 < words z := by omega
      simp [hw, this]

/-- All words that are pushed for registers, from the arguments themselves. -/
def regW : List Arg → Nat → Nat → Nat → List Word
  | [], _, _, _ => []
  | a :: r, i, g, f => (if a.stk g f then [] else pw i a) ++ regW r (i + 1) (g + a.gUse g f) (f + a.fUse f)
/-- All words of scalars pushed for the stack. -/
def stkW : List Arg → Nat → Nat → Nat → List Word
  | [], _, _, _ => []
  | a :: r, i, g, f => (if a.stk g f then [.arg i 0] else []) ++ stkW r (i + 1) (g + a.gUse g f) (f + a.fUse f)
/-- All words copied. -/
def bigW : List Arg → Nat → List Word
  | [], _ => []
  | a :: r, i => (if a.big then (List.range (words a.size)).map (.arg i) else []) ++ bigW r (i + 1)

theorem stk_scalar {a : Arg} (hs : a.sized) {g f : Nat} (h : a.stk g f = true) : pw i a = [.arg i 0] ∧ cw i a = [] ∧ a.big = false := by
  obtain ⟨k, z, v⟩ := a
  cases k
  · refine ⟨rfl, rfl, ?_⟩
    simp only [Arg.big, Arg.icls]; cases v <;> simp
  · refine ⟨rfl, rfl, ?_⟩
    simp only [Arg.big, Arg.icls]; cases v <;> simp
  · simp [Arg.sized] at hs; simp [Arg.stk, Arg.icls, hs.2] at h
  · simp [Arg.sized] at hs; simp [Arg.stk, Arg.icls, hs.2] at h

theorem cw_eq (i : Nat) {a : Arg} (h : a.sized) : cw i a = if a.big then (List.range (words a.size)).map (.arg i) else [] := by
  obtain ⟨k, z, v⟩ := a
  cases k
  · simp only [cw, Arg.big, Arg.icls]; cases v <;> simp
  · simp only [cw, Arg.big, Arg.icls]; cases v <;> simp
  · simp only [cw, Arg.big, Arg.icls]; cases v <;> simp
  · simp [Arg.sized] at h
    simp only [cw, Arg.big, Arg.icls, h.2]
    by_cases hw : words z ≤ 2
    · have : ¬ 2 < words z := by omega
      simp [hw, this]
    · have : 2 < words z := by omega
      simp [hw, this]

theorem passes : ∀ (as : List Arg) (i g f : Nat), Tame as g f →
    pws (as.zip (flags as g f)) i true = stkW as i g f ∧ cws (as.zip (flags as g f)) i true = [] ∧
    pws (as.zip (flags as g f)) i false = regW as i g f ∧ cws (as.zip (flags as g f)) i false = bigW as i
  | [], _, _, _, _ => ⟨rfl, rfl, rfl, rfl⟩
  | a :: r, i, g, f, h => by
    obtain ⟨h1, h2, h3⟩ := h
    obtain ⟨e1, e2, e3, e4⟩ := passes r (i + 1) _ _ h3
    simp only [flags, List.zip_cons_cons, pws, cws, stkW, regW, bigW, e1, e2, e3, e4]
    cases hst : a.stk g f with
    | true =>
      obtain ⟨x, y, z⟩ := stk_scalar (i := i) h1 hst
      simp [x, y, z]
    | false => simp [cw_eq i h1]

theorem bigW_length : ∀ (as : List Arg) (i : Nat), (bigW as i).length = sumBig as
  | [], _ => rfl
  | a :: r, i => by
    simp only [bigW, sumBig, List.length_append, bigW_length r (i + 1), Arg.bigWords]
    cases a.big <;> simp

theorem stkW_length : ∀ (as : List Arg) (i g f : Nat), Tame as g f → (stkW as i g f).length + sumBig as = sumStk as g f
  | [], _, _, _, _ => rfl
  | a :: r, i, g, f, h => by
    obtain ⟨h1, h2, h3⟩ := h
    have ih := stkW_length r (i + 1) _ _ h3
    simp only [stkW, sumBig, sumStk, List.length_append, Arg.bigWords, Arg.stkWords]
    cases hst : a.stk g f with
    | true =>
      obtain ⟨x, y, z⟩ := stk_scalar (i := i) h1 hst
      simp [z]; omega
    | false => cases a.big <;> simp <;> omega

/-! ### Popping -/

theorem popSome_eq : ∀ (n g : Nat) (s : St), g + n ≤ maxRegs →
    ∃ s', popSome n g s = (g + n, s') ∧ s'.sp = s.sp + n ∧ s'.mem = s.mem ∧ s'.f = s.f ∧ s'.depth = s.depth - n ∧
      (∀ k, k < n → s'.g (g + k) = s.mem (s.sp + k)) ∧ (∀ r, r < g → s'.g r = s.g r)
  | 0, g, s, _ => ⟨s, rfl, by simp, rfl, rfl, by simp, by omega, fun _ _ => rfl⟩
  | n + 1, g, s, h => by
    obtain ⟨s', e, h1, h2, h3, h4, h5, h6⟩ := popSome_eq n (g + 1) (s.popG g) (by omega)
    refine ⟨s', ?_, ?_, h2, h3, ?_, ?_, ?_⟩
    · rw [popSome, if_pos (by omega), e]; simp [Nat.add_assoc, Nat.add_comm 1 n]
    · rw [h1]; simp [St.popG]; omega
    · rw [h4]; simp [St.popG]; omega
    · intro k hk
      cases k with
      | zero => rw [Nat.add_zero, h6 g (by omega)]; simp [St.popG]
      | succ k =>
        have := h5 k (by omega)
        rw [show g + (k + 1) = g + 1 + k by omega, this]
        simp only [St.popG]
        congr 1; omega
    · intro r hr
      rw [h6 r (by omega)]; simp only [St.popG]; rw [if_neg (by omega)]

/-- What popping one argument does. -/
def PopOK (a : Arg) (i g f w : Nat) (s : St) : Prop :=
    ∃ s', popArg a g f s = (g + a.gUse g f, f + a.fUse f, s') ∧ s'.sp = s.sp + (if a.stk g f then [] else pw i a).length ∧ s'.mem = s.mem ∧
      s'.depth = s.depth - (if a.stk g f then [] else pw i a).length ∧
      (∀ r, r < g → s'.g r = s.g r) ∧ (∀ r, r < f → s'.f r = s.f r) ∧
      (a.stk g f = false → a.big = false → ∀ (j : Nat) src, (a.srcs g f w)[j]? = some src →
        (∃ r, src = .g r ∧ r < g + a.gUse g f ∧ s'.g r = .arg i j) ∨ (∃ r, src = .f r ∧ r < f + a.fUse f ∧ s'.f r = .arg i j))

/-- The pop of one argument. -/
theorem popArg_eq (a : Arg) (i g f w : Nat) (s : St) (hs : a.sized) (hr : a.icls = .ld ∨ a.icls = .agg → g + a.gUse g f ≤ maxRegs)
    (hm : ∀ (k : Nat) w, (if a.stk g f then [] else pw i a)[k]? = some w → s.mem (s.sp + k) = w) :
    PopOK a i g f w s := by
  have hG : ∀ (s : St), g < maxRegs → (s.popG g).sp = s.sp + 1 ∧ (s.popG g).mem = s.mem ∧ (s.popG g).depth = s.depth - 1 ∧
      (∀ r, r < g → (s.popG g).g r = s.g r) ∧ (∀ r, r < f → (s.popG g).f r = s.f r) ∧ (s.popG g).g g = s.mem s.sp := by
    intro s _
    refine ⟨rfl, rfl, rfl, ?_, fun _ _ => rfl, by simp [St.popG]⟩
    intro r hr; simp only [St.popG]; rw [if_neg (by omega)]
  -- an argument that goes like an integer
  have intCase : a.icls = .int → pw i a = [.arg i 0] → popArg a g f s = (if g < maxRegs then (g + 1, f, s.popG g) else (g, f, s)) → PopOK a i g f w s := by
    intro hc hpw hp
    by_cases h : g < maxRegs
    · have hst : a.stk g f = false := by simp [Arg.stk, hc, h]
      obtain ⟨x1, x2, x3, x4, x5, x6⟩ := hG s h
      refine ⟨s.popG g, ?_, ?_, x2, ?_, x4, x5, ?_⟩
      · rw [hp, if_pos h]; simp [Arg.gUse, Arg.fUse, hc, h]
      · simp [hst, hpw, x1]
      · simp [hst, hpw, x3]
      · intro _ hb j src hj
        have hsrc : a.srcs g f w = [.g g] := by unfold Arg.srcs; simp [hb, hst, hc]
        rw [hsrc] at hj
        cases j with
        | zero =>
          simp at hj
          refine .inl ⟨g, hj.symm, by simp [Arg.gUse, hc, h], ?_⟩
          rw [x6]
          have := hm 0 (.arg i 0) (by simp [hst, hpw])
          simpa using this
        | succ j => simp at hj
    · have hst : a.stk g f = true := by simp [Arg.stk, hc, h]
      refine ⟨s, ?_, by simp [hst], rfl, by simp [hst], fun _ _ => rfl, fun _ _ => rfl, ?_⟩
      · rw [hp, if_neg h]; simp [Arg.gUse, Arg.fUse, hc, h]
      · intro h' ; rw [hst] at h'; cases h'
  obtain ⟨k, z, v⟩ := a
  cases v with
  | true =>
    cases k with
    | int => exact intCase rfl rfl (by simp [popArg])
    | flt => exact intCase rfl rfl (by simp [popArg])
    | ld => simp [Arg.sized] at hs
    | agg => simp [Arg.sized] at hs
  | false =>
    cases k with
    | int => exact intCase rfl rfl (by simp [popArg])
    | flt =>
      have hc : Arg.icls ⟨.flt, z, false⟩ = .flt := rfl
      have hbig : Arg.big ⟨.flt, z, false⟩ = false := by simp [Arg.big, hc]
      by_cases hf : f < maxRegs
      · have hst : Arg.stk ⟨.flt, z, false⟩ g f = false := by simp [Arg.stk, hc, hf]
        refine ⟨s.popF f, ?_, ?_, rfl, ?_, fun _ _ => rfl, ?_, ?_⟩
        · simp [popArg, Arg.gUse, Arg.fUse, hc, hf]
        · simp [hst, pw, St.popF]
        · simp [hst, pw, St.popF]
        · intro r hr; simp only [St.popF]; rw [if_neg (by omega)]
        · intro _ _ j src hj
          have hsrc : Arg.srcs ⟨.flt, z, false⟩ g f w = [.f f] := by unfold Arg.srcs; simp [hbig, hst, hc, hf]
          rw [hsrc] at hj
          cases j with
          | zero =>
            simp at hj
            refine .inr ⟨f, hj.symm, by simp [Arg.fUse, hc, hf], ?_⟩
            have := hm 0 (.arg i 0) (by simp [hst, pw])
            simpa [St.popF] using this
          | succ j => simp at hj
      · by_cases h : g < maxRegs
        · have hst : Arg.stk ⟨.flt, z, false⟩ g f = false := by simp [Arg.stk, hc, h]
          obtain ⟨x1, x2, x3, x4, x5, x6⟩ := hG s h
          refine ⟨s.popG g, ?_, ?_, x2, ?_, x4, x5, ?_⟩
          · simp [popArg, Arg.gUse, Arg.fUse, hc, hf, h]
          · simp [hst, pw, x1]
          · simp [hst, pw, x3]
          · intro _ _ j src hj
            have hsrc : Arg.srcs ⟨.flt, z, false⟩ g f w = [.g g] := by unfold Arg.srcs; simp [hbig, hst, hc, hf]
            rw [hsrc] at hj
            cases j with
            | zero =>
              simp at hj
              refine .inl ⟨g, hj.symm, by simp [Arg.gUse, hc, h, hf], ?_⟩
              rw [x6]
              have := hm 0 (.arg i 0) (by simp [hst, pw])
              simpa using this
            | succ j => simp at hj
        · have hst : Arg.stk ⟨.flt, z, false⟩ g f = true := by simp [Arg.stk, hc, h, hf]
          refine ⟨s, ?_, by simp [hst], rfl, by simp [hst], fun _ _ => rfl, fun _ _ => rfl, ?_⟩
          · simp [popArg, Arg.gUse, Arg.fUse, hc, hf, h]
          · intro h'; rw [hst] at h'; cases h'
    | ld =>
      have hc : Arg.icls ⟨.ld, z, false⟩ = .ld := rfl
      have hbig : Arg.big ⟨.ld, z, false⟩ = false := by simp [Arg.big, hc]
      have hst : Arg.stk ⟨.ld, z, false⟩ g f = false := by simp [Arg.stk, hc]
      have hr' := hr (.inl rfl)
      simp only [Arg.gUse, hc] at hr'
      obtain ⟨s', e, h1, h2, h3, h4, h5, h6⟩ := popSome_eq 2 g s hr'
      refine ⟨s', ?_, ?_, h2, ?_, h6, fun _ _ => by rw [h3], ?_⟩
      · simp only [popArg]; rw [e]; simp [Arg.gUse, Arg.fUse, hc]
      · simp [hst, pw, h1]
      · simp [hst, pw, h4]
      · intro _ _ j src hj
        have hsrc : Arg.srcs ⟨.ld, z, false⟩ g f w = [.g g, .g (g + 1)] := by unfold Arg.srcs; simp [hbig, hst, hc]
        rw [hsrc] at hj
        rcases j with _ | _ | j
        · simp at hj
          refine .inl ⟨g, hj.symm, by simp [Arg.gUse, hc], ?_⟩
          have := h5 0 (by omega)
          rw [Nat.add_zero] at this
          rw [this]
          exact hm 0 _ (by simp [hst, pw])
        · simp at hj
          refine .inl ⟨g + 1, hj.symm, by simp [Arg.gUse, hc], ?_⟩
          rw [h5 1 (by omega)]
          exact hm 1 _ (by simp [hst, pw])
        · simp at hj
    | agg =>
      have hc : Arg.icls ⟨.agg, z, false⟩ = .agg := rfl
      have hst : Arg.stk ⟨.agg, z, false⟩ g f = false := by simp [Arg.stk, hc]
      have hr' := hr (.inr rfl)
      simp only [Arg.gUse, hc] at hr'
      by_cases hw : words z ≤ 2
      · rw [if_pos hw] at hr'
        obtain ⟨s', e, h1, h2, h3, h4, h5, h6⟩ := popSome_eq (words z) g s hr'
        refine ⟨s', ?_, ?_, h2, ?_, h6, fun _ _ => by rw [h3], ?_⟩
        · simp only [popArg]; rw [e]; simp [Arg.gUse, Arg.fUse, hc, hw]
        · simp [hst, pw, h1, hw]
        · simp [hst, pw, h4, hw]
        · intro _ hb j src hj
          have hsrc : Arg.srcs ⟨.agg, z, false⟩ g f w = (List.range (words z)).map fun j => .g (g + j) := by unfold Arg.srcs; simp [hb, hst, hc]
          rw [hsrc] at hj
          simp only [List.getElem?_map, Option.map_eq_some_iff] at hj
          obtain ⟨j', hj', rfl⟩ := hj
          have hl := (List.getElem?_eq_some_iff.mp hj').1
          simp at hl
          rw [List.getElem?_range hl] at hj'
          cases hj'
          refine .inl ⟨g + j, rfl, by simp [Arg.gUse, hc, hw, hl], ?_⟩
          rw [h5 j hl]
          exact hm j _ (by simp [hst, pw, hw, hl])
      · have hbig : Arg.big ⟨.agg, z, false⟩ = true := by simp [Arg.big, hc]; omega
        rw [if_neg hw] at hr'
        have hg : g < maxRegs := by omega
        obtain ⟨x1, x2, x3, x4, x5, x6⟩ := hG s hg
        refine ⟨s.popG g, ?_, ?_, x2, ?_, x4, x5, ?_⟩
        · simp [popArg, Arg.gUse, Arg.fUse, hc, hw, hg]
        · simp [hst, pw, hw, x1]
        · simp [hst, pw, hw, x3]
        · intro _ hb; rw [hbig] at hb; cases hb

end Toycc.Frame
