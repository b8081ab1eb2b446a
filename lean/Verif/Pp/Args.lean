import Verif.Pp.Model
import Verif.Lex.LitProps
/-! Properties C24 (hide sets), C25 (macro arguments) and C26 (stringizing). -/
namespace Toycc.Pp
open Toycc.Lex (Kind Payload Host TErr asc Elem)

/-! ### C24 -/

/-- **C24** `hideset_contains` is membership. -/
theorem hsContains_iff (h : List Bytes) (s : Bytes) : hsContains h s = true ↔ s ∈ h := by
  induction h with
  | nil => simp [hsContains]
  | cons n r ih =>
    simp only [hsContains, Bool.or_eq_true, beq_iff_eq, ih, List.mem_cons]
    exact or_congr ⟨Eq.symm, Eq.symm⟩ Iff.rfl

/-- **C24** The members of `hideset_union` are those of the two sets. -/
theorem hsUnion_mem (a b : List Bytes) (s : Bytes) :
    hsContains (hsUnion a b) s = true ↔ hsContains a s = true ∨ hsContains b s = true := by
  simp [hsContains_iff, hsUnion]

/-- **C24** The members of `hideset_intersection` are those in both sets. -/
theorem hsInter_mem (a b : List Bytes) (s : Bytes) :
    hsContains (hsInter a b) s = true ↔ hsContains a s = true ∧ hsContains b s = true := by
  induction a with
  | nil => simp [hsInter, hsContains]
  | cons n r ih =>
    simp only [hsInter]
    split
    · rename_i hb
      simp only [hsContains, Bool.or_eq_true, beq_iff_eq, ih]
      constructor
      · rintro (rfl | ⟨h1, h2⟩)
        · exact ⟨.inl rfl, hb⟩
        · exact ⟨.inr h1, h2⟩
      · rintro ⟨rfl | h1, h2⟩
        · exact .inl rfl
        · exact .inr ⟨h1, h2⟩
    · rename_i hb
      simp only [hsContains, Bool.or_eq_true, beq_iff_eq, ih]
      constructor
      · rintro ⟨h1, h2⟩; exact ⟨.inr h1, h2⟩
      · rintro ⟨rfl | h1, h2⟩
        · exact absurd h2 hb
        · exact ⟨h1, h2⟩

/-- **C24** `add_hideset` adds exactly the given names to every token and changes nothing else the preprocessor
looks at: spelling, kind, flags and origin stay. -/
theorem addHideset_spec (l : List PTok) (hs : List Bytes) :
    (addHideset l hs).length = l.length ∧
    ∀ (i : Nat) (t : PTok), l[i]? = some t → ∃ u : PTok, (addHideset l hs)[i]? = some u ∧
      (∀ s, hsContains u.hs s = true ↔ hsContains t.hs s = true ∨ hsContains hs s = true) ∧
      u.kind = t.kind ∧ u.text = t.text ∧ u.bol = t.bol ∧ u.sp = t.sp ∧ u.origin = t.origin ∧ u.payload = t.payload := by
  refine ⟨by simp [addHideset], ?_⟩
  intro i t h
  refine ⟨{ t with hs := hsUnion t.hs hs, own := false }, by simp [addHideset, h], ?_, rfl, rfl, rfl, rfl, rfl, rfl⟩
  intro s
  exact hsUnion_mem _ _ _

example : hsInter [asc "a", asc "b", asc "c"] [asc "c", asc "x", asc "b"] = [asc "b", asc "c"] ∧
    hsContains (hsUnion [asc "a"] [asc "b"]) (asc "b") = true ∧ hsContains [asc "ab"] (asc "a") = false := by decide +kernel

/-! ### C25 -/

/-- Parenthesis depth: opening minus closing parentheses. -/
def depth (l : List PTok) : Int := (l.countP (·.is "(") : Int) - l.countP (·.is ")")

/-- A token list that is the text of one macro argument: its parentheses balance, and no token outside of inner
parentheses is a closing parenthesis or (unless commas are allowed, as in the variadic argument) a comma. -/
def Inside (commas : Bool) (a : List PTok) : Prop :=
  depth a = 0 ∧ ∀ p u s, a = p ++ u :: s → u.isEof = false ∧
    (depth p = 0 → u.is ")" = false ∧ (commas = false → u.is "," = false))

/-- A token that ends an argument. -/
def Ends (commas : Bool) (t : PTok) : Prop := t.is ")" = true ∨ (commas = false ∧ t.is "," = true)

/-- The argument as it is passed on: the tokens, ended by a TK_EOF made from the terminating token. -/
def argToks (a : List PTok) (t : PTok) : List PTok :=
  a.map ownTok ++ [ownTok (newEof t)]

def InsideL (commas : Bool) (lvl : Nat) (a : List PTok) : Prop :=
  (lvl : Int) + depth a = 0 ∧ ∀ p u s, a = p ++ u :: s → u.isEof = false ∧
    ((lvl : Int) + depth p = 0 → u.is ")" = false ∧ (commas = false → u.is "," = false))

theorem depth_nil : depth [] = 0 := rfl

theorem paren_ne (t : PTok) (h : t.is "(" = true) : t.is ")" = false := by
  simp only [PTok.is, beq_iff_eq] at *
  rw [h]; decide +kernel

theorem depth_cons (t : PTok) (l : List PTok) :
    depth (t :: l) = (if t.is "(" then 1 else if t.is ")" then -1 else 0) + depth l := by
  unfold depth
  rw [List.countP_cons, List.countP_cons]
  by_cases h1 : t.is "(" = true
  · have h2 := paren_ne t h1
    simp [h1, h2]; omega
  · by_cases h2 : t.is ")" = true
    · simp [h1, h2]; omega
    · simp [h1, h2]

theorem insideL_cons (commas : Bool) (lvl : Nat) (t : PTok) (a : List PTok) (hlvl : lvl ≠ 0 ∨ t.is ")" = false) :
    InsideL commas lvl (t :: a) ↔
      t.isEof = false ∧ (lvl = 0 → t.is ")" = false ∧ (commas = false → t.is "," = false)) ∧
      InsideL commas (if t.is "(" then lvl + 1 else if t.is ")" then lvl - 1 else lvl) a := by
  have hd : ∀ q, ((lvl : Int) + depth (t :: q)) =
      ((if t.is "(" then lvl + 1 else if t.is ")" then lvl - 1 else lvl : Nat) : Int) + depth q := by
    intro q
    rw [depth_cons]
    split
    · push_cast; omega
    · split
      · rename_i h1 h2
        have : lvl ≠ 0 := by rcases hlvl with h | h; exact h; rw [h2] at h; cases h
        omega
      · omega
  constructor
  · rintro ⟨h1, h2⟩
    obtain ⟨h3, h4⟩ := h2 [] t a rfl
    refine ⟨h3, fun h => h4 (by simp [depth_nil, h]), by rw [← hd]; exact h1, ?_⟩
    intro p u s hp
    obtain ⟨h5, h6⟩ := h2 (t :: p) u s (by rw [hp]; rfl)
    exact ⟨h5, fun h => h6 (by rw [hd]; exact h)⟩
  · rintro ⟨h1, h2, h3, h4⟩
    refine ⟨by rw [hd]; exact h3, ?_⟩
    intro p u s hp
    cases p with
    | nil =>
      simp only [List.nil_append, List.cons.injEq] at hp
      obtain ⟨rfl, rfl⟩ := hp
      exact ⟨h1, fun h => h2 (by rw [depth_nil] at h; omega)⟩
    | cons x p =>
      simp only [List.cons_append, List.cons.injEq] at hp
      obtain ⟨rfl, hp⟩ := hp
      obtain ⟨h5, h6⟩ := h4 p u s hp
      exact ⟨h5, fun h => h6 (by rw [← hd]; exact h)⟩

theorem readArg_iff (commas : Bool) (lvl : Nat) (l x l' : List PTok) :
    readArg commas lvl l = .ok (x, l') ↔
      ∃ a t r, l = a ++ t :: r ∧ l' = t :: r ∧ x = argToks a t ∧ InsideL commas lvl a ∧ Ends commas t := by
  induction l generalizing lvl x l' with
  | nil => simp [readArg]
  | cons t l ih =>
    have hstop : ∀ a, InsideL commas lvl (t :: a) → lvl = 0 → Ends commas t → False := by
      intro a h h0 he
      obtain ⟨-, h2⟩ := h.2 [] t a rfl
      obtain ⟨h3, h4⟩ := h2 (by simp [depth_nil, h0])
      rcases he with he | ⟨hc, he⟩
      · rw [he] at h3; cases h3
      · rw [h4 hc] at he; cases he
    have hsplit : (∃ a u r, t :: l = a ++ u :: r ∧ l' = u :: r ∧ x = argToks a u ∧ InsideL commas lvl a ∧ Ends commas u) ↔
        ((l' = t :: l ∧ x = argToks [] t ∧ lvl = 0 ∧ Ends commas t) ∨
         (∃ a u r, l = a ++ u :: r ∧ l' = u :: r ∧ x = argToks (t :: a) u ∧ InsideL commas lvl (t :: a) ∧ Ends commas u)) := by
      constructor
      · rintro ⟨a, u, r, h1, h2, h3, h4, h5⟩
        cases a with
        | nil =>
          simp only [List.nil_append, List.cons.injEq] at h1
          obtain ⟨rfl, rfl⟩ := h1
          exact .inl ⟨h2, h3, by have := h4.1; rw [depth_nil] at this; omega, h5⟩
        | cons y a =>
          simp only [List.cons_append, List.cons.injEq] at h1
          obtain ⟨rfl, rfl⟩ := h1
          exact .inr ⟨a, u, r, rfl, h2, h3, h4, h5⟩
      · rintro (⟨h1, h2, h3, h4⟩ | ⟨a, u, r, h1, h2, h3, h4, h5⟩)
        · refine ⟨[], t, l, rfl, h1, h2, ⟨by rw [depth_nil]; omega, ?_⟩, h4⟩
          intro p u s h; simp at h
        · exact ⟨t :: a, u, r, by rw [h1]; rfl, h2, h3, h4, h5⟩
    rw [hsplit, readArg]
    by_cases hc : (lvl = 0 ∧ Ends commas t)
    · obtain ⟨h0, he⟩ := hc
      have e1 : (lvl == 0 && t.is ")") = true ∨ ((lvl == 0 && t.is ")") = false ∧ (lvl == 0 && !commas && t.is ",") = true) := by
        rcases he with he | ⟨hc, he⟩
        · left; simp [h0, he]
        · cases h : t.is ")"
          · right; simp [h0, hc, he]
          · left; simp [h0]
      have this : ∀ X : Except PErr (List PTok × List PTok), (if (lvl == 0 && t.is ")") = true then Except.ok ([ownTok (newEof t)], t :: l)
          else if (lvl == 0 && !commas && t.is ",") = true then Except.ok ([ownTok (newEof t)], t :: l)
          else X) = Except.ok ([ownTok (newEof t)], t :: l) := by
        intro X
        rcases e1 with h | ⟨h, h'⟩
        · rw [if_pos h]
        · rw [if_neg (by rw [h]; decide), if_pos h']
      rw [this]
      simp only [Except.ok.injEq, Prod.mk.injEq]
      constructor
      · rintro ⟨rfl, rfl⟩
        exact .inl ⟨rfl, rfl, h0, he⟩
      · rintro (⟨rfl, rfl, -, -⟩ | ⟨a, u, r, -, -, -, h4, -⟩)
        · exact ⟨rfl, rfl⟩
        · exact (hstop a h4 h0 he).elim
    · have e1 : (lvl == 0 && t.is ")") = false := by
        cases h : (lvl == 0 && t.is ")") with
        | false => rfl
        | true => simp at h; exact (hc ⟨h.1, .inl h.2⟩).elim
      have e2 : (lvl == 0 && !commas && t.is ",") = false := by
        cases h : (lvl == 0 && !commas && t.is ",") with
        | false => rfl
        | true => simp at h; exact (hc ⟨h.1.1, .inr ⟨h.1.2, h.2⟩⟩).elim
      have hlvl : lvl ≠ 0 ∨ t.is ")" = false := by
        by_cases h0 : lvl = 0
        · right; simpa [h0] using e1
        · exact .inl h0
      rw [e1, e2]
      simp only [Bool.false_eq_true, if_false]
      constructor
      · intro h
        split at h
        · cases h
        · rename_i hne
          split at h
          · cases h
          · rename_i a0 l0 hra
            simp only [Except.ok.injEq, Prod.mk.injEq] at h
            obtain ⟨rfl, rfl⟩ := h
            obtain ⟨a, u, r, h1, h2, h3, h4, h5⟩ := (ih _ _ _).mp hra
            refine .inr ⟨a, u, r, h1, h2, by rw [h3]; rfl, (insideL_cons _ _ _ _ hlvl).mpr ⟨by simpa using hne, ?_, h4⟩, h5⟩
            intro h0
            refine ⟨by rcases hlvl with h | h; exact (h h0).elim; exact h, fun hcm => ?_⟩
            simpa [h0, hcm] using e2
      · rintro (⟨-, -, h0, he⟩ | ⟨a, u, r, h1, h2, h3, h4, h5⟩)
        · exact (hc ⟨h0, he⟩).elim
        · obtain ⟨g1, g2, g3⟩ := (insideL_cons _ _ _ _ hlvl).mp h4
          rw [g1]
          simp only [Bool.false_eq_true, if_false]
          rw [(ih _ _ _).mpr ⟨a, u, r, h1, h2, rfl, g3, h5⟩]
          rw [h3]; rfl

/-- **C25** One argument: reading succeeds exactly on `a ++ t :: r` where `a` is the text of an argument and `t` the
comma or closing parenthesis outside inner parentheses that ends it. -/
theorem C25_one_argument (commas : Bool) (l x l' : List PTok) :
    readArg commas 0 l = .ok (x, l') ↔
      ∃ a t r, l = a ++ t :: r ∧ l' = t :: r ∧ x = argToks a t ∧ Inside commas a ∧ Ends commas t := by
  rw [readArg_iff]
  simp only [InsideL, Inside, Int.natCast_zero, Int.zero_add, Int.ofNat_zero]

/-- The source text of a list of arguments, each with the token that ends it. -/
def argText (ps : List (List PTok × PTok)) : List PTok := ps.flatMap fun p => p.1 ++ [p.2]

/-- The arguments read, with the names of the parameters. -/
def argsOf (names : List Bytes) (ps : List (List PTok × PTok)) : List Arg :=
  (names.zip ps).map fun x => { name := x.1, toks := argToks x.2.1 x.2.2 }

theorem skip_ok (s : String) (l l' : List PTok) : skip s l = .ok l' ↔ ∃ t, l = t :: l' ∧ t.is s = true := by
  cases l with
  | nil => simp [skip]
  | cons t r =>
    simp only [skip]
    split
    · rename_i h; simp only [Except.ok.injEq, List.cons.injEq]
      constructor
      · rintro rfl; exact ⟨t, ⟨rfl, rfl⟩, h⟩
      · rintro ⟨u, ⟨rfl, rfl⟩, -⟩; rfl
    · rename_i h
      simp only [List.cons.injEq, reduceCtorEq, false_iff]
      rintro ⟨u, ⟨rfl, rfl⟩, h2⟩; exact h h2

/-- Pieces read so far: the last one is ended by `t`, the first token of what remains. -/
def Pieces (names : List Bytes) (l : List PTok) (as : List Arg) (l' : List PTok) : Prop :=
  ∃ ps : List (List PTok × PTok), ps.length = names.length ∧ (∀ p ∈ ps, Inside false p.1 ∧ Ends false p.2) ∧
    (∀ p ∈ ps.dropLast, p.2.is "," = true) ∧ as = argsOf names ps ∧
    ∃ q t r, ps.getLast? = some (q, t) ∧ l' = t :: r ∧ l = argText ps ++ r

theorem readParams_iff (p : Bytes) (ps : List Bytes) (l : List PTok) (as : List Arg) (l' : List PTok) :
    readParams true (p :: ps) l = .ok (as, l') ↔ Pieces (p :: ps) l as l' := by
  induction ps generalizing p l as l' with
  | nil =>
    simp only [readParams]
    simp only [if_true]
    constructor
    · intro h
      split at h
      · cases h
      · rename_i a l2 hr
        simp only [Except.ok.injEq, Prod.mk.injEq] at h
        obtain ⟨rfl, rfl⟩ := h
        obtain ⟨a, t, r, h1, h2, h3, h4, h5⟩ := (C25_one_argument _ _ _ _).mp hr
        refine ⟨[(a, t)], rfl, by simpa using ⟨h4, h5⟩, by simp, by simp [argsOf, h3], a, t, r, rfl, h2, by simp [argText, h1]⟩
    · rintro ⟨ps, h1, h2, h3, h4, q, t, r, h5, h6, h7⟩
      obtain ⟨⟨a, u⟩, rfl⟩ := List.length_eq_one_iff.mp h1
      simp only [List.getLast?_singleton, Option.some.injEq, Prod.mk.injEq] at h5
      obtain ⟨g1, g2⟩ := h2 (a, u) (by simp)
      rw [h5.1] at g1 h7 h4; rw [h5.2] at g2 h7 h4
      rw [(C25_one_argument _ _ _ _).mpr ⟨q, t, r, by simpa [argText] using h7, h6, rfl, g1, g2⟩, h4]
      rfl
  | cons p2 ps ih =>
    have hfalse : ∀ l, readParams false (p2 :: ps) l = match skip "," l with
        | .error e => .error e
        | .ok l1 => readParams true (p2 :: ps) l1 := by
      intro l
      simp only [readParams]
      simp only [Bool.false_eq_true, if_false, if_true]
      cases skip "," l <;> rfl
    rw [readParams]
    simp only [if_true]
    constructor
    · intro h
      split at h
      · cases h
      · rename_i a l2 hr
        obtain ⟨a, t, r, h1, h2, h3, h4, h5⟩ := (C25_one_argument _ _ _ _).mp hr
        rw [hfalse] at h
        split at h
        · cases h
        · rename_i as2 l3 hr2
          simp only [Except.ok.injEq, Prod.mk.injEq] at h
          obtain ⟨rfl, rfl⟩ := h
          split at hr2
          · cases hr2
          · rename_i l1 hsk
            obtain ⟨u, hu1, hu2⟩ := (skip_ok _ _ _).mp hsk
            rw [h2] at hu1
            simp only [List.cons.injEq] at hu1
            obtain ⟨rfl, rfl⟩ := hu1
            obtain ⟨qs, g1, g2, g3, g4, q, v, r3, g5, g6, g7⟩ := (ih _ _ _ _).mp hr2
            refine ⟨(a, t) :: qs, by simp [g1], ?_, ?_, ?_, q, v, r3, ?_, g6, ?_⟩
            · intro x hx
              rcases List.mem_cons.mp hx with rfl | hx
              · exact ⟨h4, h5⟩
              · exact g2 x hx
            · intro x hx
              have hq : qs ≠ [] := by intro h; rw [h] at g1; simp at g1
              rw [List.dropLast_cons_of_ne_nil hq] at hx
              rcases List.mem_cons.mp hx with rfl | hx
              · exact hu2
              · exact g3 x hx
            · simp only [argsOf, List.zip_cons_cons, List.map_cons, List.cons.injEq]
              exact ⟨by rw [h3], g4⟩
            · rw [List.getLast?_cons, g5]; rfl
            · rw [h1, g7]; simp [argText]
    · rintro ⟨qs, g1, g2, g3, g4, q, v, r3, g5, g6, g7⟩
      cases qs with
      | nil => simp at g1
      | cons y qs =>
      cases qs with
      | nil => simp at g1
      | cons x qs =>
        obtain ⟨a, t⟩ := y
        obtain ⟨k1, k2⟩ := g2 (a, t) (by simp)
        have ht : t.is "," = true := g3 (a, t) (by simp)
        rw [(C25_one_argument _ _ _ _).mpr ⟨a, t, argText (x :: qs) ++ r3, by rw [g7]; simp [argText], rfl, rfl, k1, k2⟩]
        dsimp only
        rw [hfalse, (skip_ok _ _ _).mpr ⟨t, rfl, ht⟩]
        dsimp only
        have hp : Pieces (p2 :: ps) (argText (x :: qs) ++ r3) (argsOf (p2 :: ps) (x :: qs)) l' := by
          refine ⟨x :: qs, by simpa using g1, fun y hy => g2 y (by simp [hy]), fun y hy => g3 y ?_, rfl, q, v, r3, ?_, g6, rfl⟩
          · rw [List.dropLast_cons_of_ne_nil (by simp)]; exact List.mem_cons_of_mem _ hy
          · simpa [List.getLast?_cons] using g5
        rw [(ih _ _ _ _).mpr hp]
        simp only [g4, argsOf, List.zip_cons_cons, List.map_cons]

/-- **C25** The arguments of a macro without variadic part: `read_macro_args` succeeds exactly when the text after
the opening parenthesis is `a₁ , a₂ , ... aₙ )`, one piece for each parameter, where the pieces have balanced
parentheses and no comma outside of inner ones; the result is those pieces, the closing parenthesis, and what
follows it. -/
theorem C25_arguments (p : Bytes) (ps : List Bytes) (l : List PTok) (as : List Arg) (rp : PTok) (r : List PTok) :
    readArgs (p :: ps) none l = .ok (as, rp, r) ↔
      ∃ qs : List (List PTok × PTok), qs.length = ps.length + 1 ∧ (∀ q ∈ qs, Inside false q.1) ∧
        (∀ q ∈ qs.dropLast, q.2.is "," = true) ∧ (∃ a, qs.getLast? = some (a, rp)) ∧ rp.is ")" = true ∧
        l = argText qs ++ r ∧ as = argsOf (p :: ps) qs := by
  unfold readArgs
  constructor
  · intro h
    split at h
    · cases h
    · rename_i as1 l1 hr
      obtain ⟨qs, g1, g2, g3, g4, q, v, r3, g5, g6, g7⟩ := (readParams_iff _ _ _ _ _).mp hr
      simp only [readVa] at h
      rw [g6] at h
      dsimp only at h
      split at h
      · rename_i hrp
        simp only [Except.ok.injEq, Prod.mk.injEq, List.append_nil] at h
        obtain ⟨rfl, rfl, rfl⟩ := h
        exact ⟨qs, by simpa using g1, fun q hq => (g2 q hq).1, g3, ⟨q, g5⟩, hrp, g7, g4⟩
      · cases h
  · rintro ⟨qs, g1, g2, g3, ⟨a, g4⟩, g5, g6, g7⟩
    have hp : Pieces (p :: ps) l as (rp :: r) := by
      refine ⟨qs, by simpa using g1, ?_, g3, g7, a, rp, r, g4, rfl, g6⟩
      intro q hq
      refine ⟨g2 q hq, ?_⟩
      have hne : qs ≠ [] := by intro h; rw [h] at hq; cases hq
      rcases List.mem_append.mp (by rw [List.dropLast_concat_getLast hne]; exact hq : q ∈ qs.dropLast ++ [qs.getLast hne]) with h | h
      · exact .inr ⟨rfl, g3 q h⟩
      · simp only [List.mem_singleton] at h
        rw [List.getLast?_eq_some_getLast hne] at g4
        simp only [Option.some.injEq] at g4
        rw [g4] at h; rw [h]; exact .inl g5
    rw [(readParams_iff _ _ _ _ _).mpr hp]
    simp only [readVa, g5, if_true, List.append_nil]

/-- **C25** A macro with no parameters takes nothing but the closing parenthesis. -/
theorem C25_no_parameters (l : List PTok) (as : List Arg) (rp : PTok) (r : List PTok) :
    readArgs [] none l = .ok (as, rp, r) ↔ as = [] ∧ rp.is ")" = true ∧ l = rp :: r := by
  simp only [readArgs, readParams, readVa]
  cases l with
  | nil => simp
  | cons t l =>
    dsimp only
    split
    · rename_i h
      simp only [List.append_nil, Except.ok.injEq, Prod.mk.injEq, List.cons.injEq]
      constructor
      · rintro ⟨rfl, rfl, rfl⟩; exact ⟨rfl, h, rfl, rfl⟩
      · rintro ⟨rfl, -, rfl, rfl⟩; exact ⟨rfl, rfl, rfl⟩
    · rename_i h
      simp only [reduceCtorEq, List.cons.injEq, false_iff]
      rintro ⟨-, h2, rfl, rfl⟩; exact h h2

/-- **C25** The variadic argument takes everything up to the matching closing parenthesis, commas included: for a
macro with parameters `p, ps` and `...`, a call `a₁ , ... , aₙ , w )` gives the pieces as before and `w`. -/
theorem C25_variadic (p : Bytes) (ps : List Bytes) (va : Bytes) (qs : List (List PTok × PTok)) (w : List PTok)
    (rp : PTok) (r : List PTok) (h1 : qs.length = ps.length + 1)
    (h2 : ∀ q ∈ qs, Inside false q.1 ∧ q.2.is "," = true) (h3 : Inside true w) (h4 : rp.is ")" = true) :
    readArgs (p :: ps) (some va) (argText qs ++ w ++ rp :: r) =
      .ok (argsOf (p :: ps) qs ++ [{ name := va, isVa := true, toks := argToks w rp }], rp, r) := by
  have hne : qs ≠ [] := by intro h; rw [h] at h1; simp at h1
  obtain ⟨⟨a, c⟩, hl⟩ : ∃ x, qs.getLast? = some x := ⟨qs.getLast hne, List.getLast?_eq_some_getLast hne⟩
  have hmem : (a, c) ∈ qs := List.mem_of_getLast? hl
  have hp : Pieces (p :: ps) (argText qs ++ (w ++ rp :: r)) (argsOf (p :: ps) qs) (c :: (w ++ rp :: r)) :=
    ⟨qs, by simpa using h1, fun q hq => ⟨(h2 q hq).1, .inr ⟨rfl, (h2 q hq).2⟩⟩,
      fun q hq => (h2 q (List.dropLast_subset _ hq)).2, rfl, a, c, _, hl, rfl, rfl⟩
  unfold readArgs
  rw [List.append_assoc, (readParams_iff _ _ _ _ _).mpr hp]
  have hc := (h2 _ hmem).2
  have hc' : c.is ")" = false := by
    dsimp only at hc
    simp only [PTok.is, beq_iff_eq] at *
    rw [hc]; decide +kernel
  simp only [readVa, hc', Bool.false_eq_true, if_false, List.isEmpty_cons]
  rw [(skip_ok _ _ _).mpr ⟨c, rfl, hc⟩]
  dsimp only
  rw [(C25_one_argument _ _ _ _).mpr ⟨w, rp, r, rfl, rfl, rfl, h3, .inl h4⟩]
  simp [h4]

/-- **C25** ... and when the call stops after the named arguments, the variadic argument is empty. -/
theorem C25_variadic_absent (p : Bytes) (ps : List Bytes) (va : Bytes) (qs : List (List PTok × PTok))
    (rp : PTok) (r a : List PTok) (h1 : qs.length = ps.length + 1) (h2 : ∀ q ∈ qs, Inside false q.1)
    (h3 : ∀ q ∈ qs.dropLast, q.2.is "," = true) (h4 : qs.getLast? = some (a, rp)) (h5 : rp.is ")" = true) :
    readArgs (p :: ps) (some va) (argText qs ++ r) =
      .ok (argsOf (p :: ps) qs ++ [{ name := va, isVa := true, toks := argToks [] rp }], rp, r) := by
  have hp : readParams true (p :: ps) (argText qs ++ r) = .ok (argsOf (p :: ps) qs, rp :: r) := by
    have := (C25_arguments p ps (argText qs ++ r) _ rp r).mpr ⟨qs, h1, h2, h3, ⟨a, h4⟩, h5, rfl, rfl⟩
    unfold readArgs at this
    split at this
    · cases this
    · rename_i as1 l1 hr
      simp only [readVa] at this
      cases l1 with
      | nil => cases this
      | cons t l1 =>
        dsimp only at this
        split at this
        · simp only [Except.ok.injEq, Prod.mk.injEq, List.append_nil] at this
          obtain ⟨rfl, rfl, rfl⟩ := this
          exact hr
        · cases this
  unfold readArgs
  rw [hp]
  simp [readVa, h5, argToks]

/-- Test tokens: identifiers, punctuators, and the end. -/
def tk (s : String) (k : Kind := .ident) : PTok := { kind := k, text := asc s, bol := false, sp := false }
def pn (s : String) : PTok := tk s .punct
def eofTok : PTok := { kind := .eof, text := [], bol := true, sp := false }

/-- A call `f((a,b),c)` with parameters `x` and `y`. -/
example : (readArgs [asc "x", asc "y"] none
      [pn "(", tk "a", pn ",", tk "b", pn ")", pn ",", tk "c", pn ")", pn ";", eofTok]).map
        (fun r => (r.1.map fun a => a.toks.map (·.text), r.2.1.text, r.2.2.map (·.text))) =
    .ok ([[asc "(", asc "a", asc ",", asc "b", asc ")", []], [asc "c", []]], asc ")", [asc ";", []]) := by decide +kernel

/-! ### C26 -/

/-- The size of the buffer join_tokens allocates, preprocess.c:444-450. -/
def joinSize : List PTok → Nat
  | [] => 1
  | t :: r => 1 + t.text.length + (r.map fun u => (if u.sp then 1 else 0) + u.text.length).sum

/-- The size of the buffer quote_string allocates, preprocess.c:470-475. -/
def quoteSize (s : Bytes) : Nat := 3 + (s.map fun b => if b == 92 || b == 34 then 2 else 1).sum

/-- **C26** The joined text and its NUL fill the allocated buffer exactly. -/
theorem C26_join_fits (l : List PTok) : (joinToks l).length + 1 = joinSize l := by
  cases l with
  | nil => rfl
  | cons t r =>
    simp only [joinToks, joinSize, List.length_append, List.length_flatMap]
    have : (r.map fun u => ((if u.sp then [32] else [] : Bytes) ++ u.text).length) =
        r.map fun u => (if u.sp then 1 else 0) + u.text.length := by
      apply List.map_congr_left
      intro u _
      rw [List.length_append]; split <;> rfl
    simp only [List.length_append] at this
    rw [this]; omega

/-- **C26** The quoted text and its NUL fill the allocated buffer exactly. -/
theorem C26_quote_fits (s : Bytes) : (quoteString s).length + 1 = quoteSize s := by
  simp only [quoteString, quoteSize, List.length_append, List.length_flatMap, List.length_cons, List.length_nil]
  have : (s.map fun b => (if b == 92 || b == 34 then [92, b] else [b] : Bytes).length) =
      s.map fun b => if b == 92 || b == 34 then 2 else 1 := by
    apply List.map_congr_left
    intro b _
    split <;> rfl
  rw [this]; omega

theorem quoted_body (s : Bytes) (hs : (10 : UInt8) ∉ s) :
    Lex.Body (s.flatMap fun b => if b == 92 || b == 34 then [92, b] else [b]) := by
  induction s with
  | nil => exact .nil
  | cons b s ih =>
    simp only [List.mem_cons, not_or] at hs
    simp only [List.flatMap_cons]
    split
    · exact .esc _ _ (ih hs.2)
    · rename_i h
      simp only [Bool.or_eq_true, beq_iff_eq, not_or] at h
      exact .plain _ _ (by exact h.2) (fun h => hs.1 h.symm) h.1 (ih hs.2)

theorem quoted_units (h : Host) (s r : Bytes) :
    Lex.narrowLoop h (s.flatMap fun b => if b == 92 || b == 34 then [92, b] else [b]).length
      ((s.flatMap fun b => if b == 92 || b == 34 then [92, b] else [b]) ++ r) = .ok (s.map UInt8.toNat) := by
  induction s with
  | nil => rw [Lex.narrowLoop.eq_def]; simp
  | cons b s ih =>
    simp only [List.flatMap_cons]
    by_cases hb : (b == 92 || b == 34) = true
    · rw [if_pos hb, Lex.narrowLoop.eq_def, if_neg (by simp)]
      have he : Lex.readEscaped h (b :: ((s.flatMap fun b => if b == 92 || b == 34 then [92, b] else [b]) ++ r)) =
          .ok (b.toNat, 1) := by
        simp only [Bool.or_eq_true, beq_iff_eq] at hb
        rw [Lex.readEscaped.eq_def]
        rcases hb with rfl | rfl <;> cases h <;> simp [Lex.charVal, Lex.isOct]
      simp only [List.cons_append, List.nil_append, if_true, he, List.drop_one, List.tail_cons, List.length_cons]
      rw [show ∀ n, n + 1 + 1 - (1 + 1) = n by omega, ih]
      simp only [Lex.wrapU, List.map_cons, Except.ok.injEq, List.cons.injEq, and_true]
      have : b.toNat < 256 := b.toNat_lt
      omega
    · rw [if_neg hb, Lex.narrowLoop.eq_def, if_neg (by simp)]
      simp only [Bool.or_eq_true, beq_iff_eq, not_or] at hb
      simp only [List.cons_append, List.nil_append, hb.1, if_false, List.length_cons]
      rw [show ∀ n, n + 1 - 1 = n by omega, ih]
      rfl

/-- **C26** The token made from a text without newlines is a single plain string literal whose elements are the bytes of
the text followed by one zero: reading undoes quoting. -/
theorem C26_string_token (env : Env) (s : Bytes) (tmpl : PTok) (hs : (10 : UInt8) ∉ s) :
    ∃ t, newStr env s tmpl = .ok t ∧ t.kind = .str ∧ t.text = quoteString s ∧
      t.payload = .str .char (s.map UInt8.toNat ++ [0]) := by
  have hb := quoted_body s hs
  have hu := quoted_units env.host s [34]
  generalize hq : (s.flatMap fun b => if b == 92 || b == 34 then [92, b] else [b] : Bytes) = q at hb hu
  have hqs : quoteString s = 34 :: (q ++ [34]) := by simp only [quoteString, hq, List.cons_append, List.nil_append]
  have hread : Lex.readString env.host 0 .char (q ++ [34]) =
      .ok (.tok .str (0 + 1 + q.length + 1) (.str .char (s.map UInt8.toNat ++ [0]))) := by
    unfold Lex.readString
    rw [(Lex.C19_string_end (q ++ [34]) q.length).mpr ⟨q, [], rfl, rfl, hb⟩]
    simp only [hu]
  have hone : Lex.lexOne env.host (34 :: (q ++ [34])) =
      .ok (.tok .str (0 + 1 + q.length + 1) (.str .char (s.map UInt8.toNat ++ [0]))) := by
    simp only [Lex.lexOne, Lex.lexCons]
    rw [if_neg (by simp [Lex.startsWith, asc]), if_neg (by simp [Lex.startsWith, asc]), if_neg (by decide),
      if_neg (by decide), if_neg (by simp [Lex.isDig])]
    simp only [if_true]
    exact hread
  have hscan : Lex.scan env.host 0 (34 :: (q ++ [34])) true false = .ok
      [{ kind := .str, loc := 0, len := q.length + 2, atBol := true, hasSpace := false,
         payload := .str .char (s.map UInt8.toNat ++ [0]) },
       { kind := .eof, loc := q.length + 2, len := 0, atBol := false, hasSpace := false, payload := .none }] := by
    rw [Lex.scan, if_neg (by simp)]
    split
    · rename_i e he; rw [hone] at he; cases he
    · rename_i n he; rw [hone] at he; cases he
    · rename_i n he; rw [hone] at he; cases he
    · rename_i he; rw [hone] at he; cases he
    · rename_i he; rw [hone] at he; cases he
    · rename_i k n pl he
      rw [hone] at he
      simp only [Except.ok.injEq, Lex.Piece.tok.injEq] at he
      obtain ⟨rfl, rfl, rfl⟩ := he
      have hd : (34 :: (q ++ [34])).drop (0 + 1 + q.length + 1) = ([] : Bytes) := by
        apply List.drop_eq_nil_of_le; simp; omega
      rw [hd, Lex.scan, if_pos rfl]
      simp only [Except.ok.injEq, List.cons.injEq, Lex.Tok.mk.injEq, and_true, true_and]
      omega
  unfold newStr firstTok tokens
  rw [Lex.tokenize_eq, hqs, hscan]
  simp only [Except.map, List.map_cons]
  refine ⟨_, rfl, rfl, ?_, rfl⟩
  simp only [ofLex, Lex.setLine, List.drop_zero]
  apply List.take_of_length_le
  simp

/-- **C26** The `#` operator: the replacement of `# param` is one string literal that spells the current tokens of the argument,
separated by one space exactly where the source had white space (and none before the first). -/
theorem C26_hash_operator_partial (env : Env) (rec : Rec) (s : Sub) (t u : PTok) (r : List PTok) (a : Arg)
    (ht : t.is "#" = true) (ha : findArg s.args u = some a) (hn : (10 : UInt8) ∉ joinToks (body a.toks)) :
    ∃ x, substStep env rec s t (u :: r) = .ok { s with acc := x :: s.acc, rest := r } ∧ x.kind = .str ∧
      x.payload = .str .char ((joinToks (body a.toks)).map UInt8.toNat ++ [0]) := by
  obtain ⟨x, h1, h2, -, h3⟩ := C26_string_token env (joinToks (body a.toks)) t hn
  refine ⟨x, ?_, h2, h3⟩
  unfold substStep stringize
  rw [if_pos ht]
  dsimp only
  rw [ha]
  dsimp only
  rw [h1]

/-- The environment of the examples: the constant expressions `0` and others. -/
def exEnv : Env :=
  { host := .x86, constExpr := fun l => match l with | t :: r => some (if t.is "0" then 0 else 1, r) | [] => none }

/-- Spellings of the output of a translation unit. -/
def outTexts (env : Env) (n : Nat) (src : String) : Option (List Bytes) :=
  match tokens env ⟨some 0, asc "a.c"⟩ (asc src) with
  | .error _ => none
  | .ok ts => match preprocess env n {} ts with
    | .error _ => none
    | .ok (_, out) => some (out.map (·.text))

/-- `#define S(x) #x` / `S(a + "b\n")` gives `"a + \"b\\n\""`. -/
example : outTexts exEnv 60 "#define S(x) #x\nS(a + \"b\\n\")\n" = some [asc "\"a + \\\"b\\\\n\\\"\"", []] := by decide +kernel

/-- **C26** fails for an argument that has been used before in the body: with `#define B 2` and `#define S(x) x #x`,
`S(a B)` stringizes `a 2`, although the argument is spelled `a B` (the expansion of the first `x` relinks the
argument's list). -/
theorem C26_reuse_wrong :
    outTexts exEnv 60 "#define B 2\n#define S(x) x #x\nS(a B)\n" = some [asc "a", asc "2", asc "\"a 2\"", []] := by decide +kernel

end Toycc.Pp
