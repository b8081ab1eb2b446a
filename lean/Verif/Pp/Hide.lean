import Verif.Pp.Incl
/-! C23: a macro is not expanded again inside its own expansion. -/
namespace Toycc.Pp
open Toycc.Lex (asc)

/-- **C23** (hidden tokens). A token whose hide set contains its own name is not expanded, whatever macros are defined
and whatever follows; unless it is a `#` at the beginning of a line, it is output as it is. -/
theorem C23_hidden (env : Env) (n : Nat) (top : Bool) (st : St) (t : PTok) (r : List PTok) (hh : t.text ∈ t.hs)
    (he : t.isEof = false) (hd : isHash t = false) :
    (pp env (n + 1) top st (t :: r)).map (fun x => (x.1, x.2.1)) =
      (pp env n top st r).map fun x => (x.1, mark st t :: x.2.1) := by
  have hx : expandMacro env (pp env n false) st t r = .ok none := by
    unfold expandMacro
    rw [if_pos ((hsContains_iff _ _).mpr hh)]
  rw [pp, hx]
  simp only [he, hd, Bool.not_false, Bool.false_eq_true, if_false, if_true]
  cases pp env n top st r with
  | error e => rfl
  | ok x => rfl

/-- Only position, spacing and the recorded file state differ. -/
theorem mark_text (st : St) (t : PTok) : (mark st t).text = t.text ∧ (mark st t).kind = t.kind ∧ (mark st t).bol = t.bol ∧
    (mark st t).sp = t.sp ∧ (mark st t).hs = t.hs := ⟨rfl, rfl, rfl, rfl, rfl⟩

theorem skip_len (s : String) (l l' : List PTok) (h : skip s l = .ok l') : ∃ a, l = a ++ l' := by
  obtain ⟨t, rfl, _⟩ := (skip_ok s l l').mp h
  exact ⟨[t], rfl⟩

theorem readArg_suffix (b : Bool) (lvl : Nat) (l a r : List PTok) (h : readArg b lvl l = .ok (a, r)) : ∃ x, l = x ++ r := by
  induction l generalizing lvl a r with
  | nil => simp [readArg] at h
  | cons t l ih =>
    rw [readArg] at h
    split at h
    · cases h; exact ⟨[], rfl⟩
    · split at h
      · cases h; exact ⟨[], rfl⟩
      · split at h
        · cases h
        · split at h
          · cases h
          · rename_i h2
            cases h
            obtain ⟨x, hx⟩ := ih _ _ _ h2
            exact ⟨t :: x, by rw [hx]; rfl⟩

theorem readParams_suffix (first : Bool) (ps : List Bytes) (l : List PTok) (as : List Arg) (r : List PTok)
    (h : readParams first ps l = .ok (as, r)) : ∃ x, l = x ++ r := by
  induction ps generalizing first l as r with
  | nil => cases h; exact ⟨[], rfl⟩
  | cons p ps ih =>
    rw [readParams] at h
    split at h
    · cases h
    · rename_i l1 h1
      have hx : ∃ x, l = x ++ l1 := by
        cases first with
        | true => cases h1; exact ⟨[], rfl⟩
        | false => exact skip_len _ _ _ h1
      obtain ⟨x, hx⟩ := hx
      split at h
      · cases h
      · rename_i a l2 h2
        obtain ⟨y, hy⟩ := readArg_suffix _ _ _ _ _ h2
        split at h
        · cases h
        · rename_i as' l3 h3
          cases h
          obtain ⟨z, hz⟩ := ih _ _ _ _ h3
          exact ⟨x ++ (y ++ z), by rw [hx, hy, hz]; simp⟩

/-- The arguments are read from the tokens up to the closing parenthesis. -/
theorem readArgs_suffix (ps : List Bytes) (va : Option Bytes) (l : List PTok) (as : List Arg) (rp : PTok) (r : List PTok)
    (h : readArgs ps va l = .ok (as, rp, r)) : ∃ x, l = x ++ rp :: r := by
  unfold readArgs at h
  split at h
  · cases h
  · rename_i as1 l1 h1
    obtain ⟨x, hx⟩ := readParams_suffix _ _ _ _ _ h1
    split at h
    · cases h
    · rename_i as2 l2 h2
      have hy : ∃ y, l1 = y ++ l2 := by
        unfold readVa at h2
        split at h2
        · cases h2; exact ⟨[], rfl⟩
        · split at h2
          · cases h2
          · rename_i t0 r0
            split at h2
            · cases h2; exact ⟨[], rfl⟩
            · split at h2
              · cases h2
              · rename_i l3 h3
                have hz : ∃ z, t0 :: r0 = z ++ l3 := by
                  split at h3
                  · cases h3; exact ⟨[], rfl⟩
                  · exact skip_len _ _ _ h3
                obtain ⟨z, hz⟩ := hz
                split at h2
                · cases h2
                · rename_i a l4 h4
                  cases h2
                  obtain ⟨w, hw⟩ := readArg_suffix _ _ _ _ _ h4
                  exact ⟨z ++ w, by rw [hz, hw]; simp⟩
      obtain ⟨y, hy⟩ := hy
      split at h
      · cases h
      · split at h
        · cases h
          exact ⟨x ++ y, by rw [hx, hy]; simp⟩
        · cases h

theorem place_eq (t : PTok) (hs : List Bytes) (b r l : List PTok) (h : place t hs b r = .ok l) :
    ∃ exp, l = setFlags t.bol t.sp (exp ++ r) ∧ exp.map (·.text) = (body b).map (·.text) ∧
      ∀ u ∈ exp, ∀ s, s ∈ hs → s ∈ u.hs := by
  unfold place at h
  refine ⟨(body (addHideset b hs)).map (fun u => { u with origin := some (root t) }), ?_, ?_, ?_⟩
  · split at h
    · cases h
    · cases h; rfl
  · rw [List.map_map]
    clear h
    induction b with
    | nil => rfl
    | cons u b ih =>
      unfold body addHideset at *
      simp only [List.map_cons, List.takeWhile_cons]
      have hk : PTok.isEof { u with hs := hsUnion u.hs hs, own := false } = u.isEof := rfl
      rw [hk]
      cases u.isEof
      · simp only [Bool.not_false, if_true, List.map_cons]
        rw [ih]; rfl
      · rfl
  · intro u hu s hs'
    obtain ⟨v, hv, rfl⟩ := List.mem_map.mp hu
    have hv := (List.takeWhile_sublist _).subset hv
    unfold addHideset at hv
    obtain ⟨w, _, rfl⟩ := List.mem_map.mp hv
    show s ∈ hsUnion w.hs hs
    exact (hsContains_iff _ _).mp ((hsUnion_mem _ _ _).mpr (Or.inr ((hsContains_iff _ _).mpr hs')))

/-- **C23** (the expansion carries the name). When a token is expanded by a macro `m`, the tokens read are the token
and, for a function-like macro, the following ones up to the closing parenthesis; and every token put in their place
has `m` in its hide set. -/
theorem C23_carry (env : Env) (rec : Rec) (st : St) (t : PTok) (r : List PTok) (st' : St) (l : List PTok) (m : Macro)
    (h : expandMacro env rec st t r = .ok (some (st', l))) (hm : findMacro st t = some m) (hh : m.handler = none) :
    t.text ∉ t.hs ∧ ∃ arg rest exp, r = arg ++ rest ∧ l = setFlags t.bol t.sp (exp ++ rest) ∧ (∀ u ∈ exp, m.name ∈ u.hs) ∧
      (m.objlike = true → arg = [] ∧ st' = st ∧ exp.map (·.text) = (body m.body).map (·.text) ∧ ∀ u ∈ exp, ∀ s ∈ t.hs, s ∈ u.hs) ∧
      (m.objlike = false → ∃ lp mid rp, arg = lp :: (mid ++ [rp]) ∧ lp.is "(" = true ∧ ∀ u ∈ exp, ∀ s ∈ t.hs, s ∈ rp.hs → s ∈ u.hs) := by
  unfold expandMacro at h
  split at h
  · cases h
  · rename_i hc
    refine ⟨fun hin => hc ((hsContains_iff _ _).mpr hin), ?_⟩
    rw [hm] at h
    dsimp only at h
    rw [hh] at h
    dsimp only at h
    split at h
    · rename_i ho
      split at h
      · cases h
      · rename_i l1 hp
        cases h
        obtain ⟨exp, h1, h2, h3⟩ := place_eq _ _ _ _ _ hp
        refine ⟨[], r, exp, rfl, h1, ?_, ?_, ?_⟩
        · intro u hu
          exact h3 u hu _ ((hsContains_iff _ _).mp ((hsUnion_mem _ _ _).mpr (Or.inr ((hsContains_iff _ _).mpr (by simp)))))
        · intro _
          refine ⟨rfl, rfl, h2, fun u hu s hs => h3 u hu s ?_⟩
          exact (hsContains_iff _ _).mp ((hsUnion_mem _ _ _).mpr (Or.inl ((hsContains_iff _ _).mpr hs)))
        · intro hf; rw [ho] at hf; cases hf
    · rename_i ho
      split at h
      · cases h
      · rename_i u r1
        split at h
        · cases h
        · rename_i hu
          split at h
          · cases h
          · rename_i args rp r2 hra
            split at h
            · cases h
            split at h
            · cases h
            · rename_i st1 b hs
              split at h
              · cases h
              · rename_i l1 hp
                cases h
                obtain ⟨exp, h1, h2, h3⟩ := place_eq _ _ _ _ _ hp
                obtain ⟨x, hx⟩ := readArgs_suffix _ _ _ _ _ _ hra
                refine ⟨u :: (x ++ [rp]), r2, exp, by rw [hx]; simp, h1, ?_, ?_, ?_⟩
                · intro w hw
                  exact h3 w hw _ ((hsContains_iff _ _).mp ((hsUnion_mem _ _ _).mpr (Or.inr ((hsContains_iff _ _).mpr (by simp)))))
                · intro hf; exact absurd hf ho
                · intro _
                  refine ⟨u, x, rp, rfl, by simpa using hu, fun w hw s h4 h5 => h3 w hw s ?_⟩
                  refine (hsContains_iff _ _).mp ((hsUnion_mem _ _ _).mpr (Or.inl ?_))
                  exact (hsInter_mem _ _ _).mpr ⟨(hsContains_iff _ _).mpr h4, (hsContains_iff _ _).mpr h5⟩

/-- The expansion `b` of an object-like macro put in place of `t`: each token of the body, in order, with the macro's
name in its hide set. -/
def expansion (t : PTok) (m : Macro) : List PTok :=
  (body m.body).map fun u => { u with hs := u.hs ++ (t.hs ++ [m.name]), own := false, origin := some (root t) }

/-- Output of a list of tokens. -/
def marked (st : St) (l : List PTok) : List PTok := l.map (mark st)

/-- **C23** (self-reference). If the replacement of an object-like macro mentions no other macro (it may mention the
macro itself, any number of times), then an occurrence of the macro is replaced by the replacement, once: the output is
the tokens of the replacement, and preprocessing goes on after the occurrence. -/
theorem C23_object_like (env : Env) (st : St) (t : PTok) (r : List PTok) (m : Macro) (u : PTok) (us : List PTok)
    (hm : findMacro st t = some m) (hh : m.handler = none) (ho : m.objlike = true) (ht : t.text ∉ t.hs) (he : t.isEof = false)
    (hb : body m.body = u :: us)
    (hbody : ∀ w ∈ body m.body, w.is "#" = false ∧ (findMacro st w = none ∨ w.text = m.name)) :
    Steps env st (t :: r) (marked st (setFlags t.bol t.sp (expansion t m))) st r := by
  have hst : (t :: r) = t :: r := rfl
  have hexp : ∀ rec, expandMacro env rec st t r = .ok (some (st, setFlags t.bol t.sp (expansion t m) ++ r)) := by
    intro rec
    unfold expandMacro
    have hc : ¬ hsContains t.hs t.text = true := fun h => ht ((hsContains_iff _ _).mp h)
    rw [if_neg hc, hm]
    dsimp only
    rw [hh, ho]
    dsimp only
    have hbe : ∀ l : List PTok, body (addHideset l (hsUnion t.hs [m.name])) = (body l).map fun u => { u with hs := u.hs ++ (t.hs ++ [m.name]), own := false } := by
      intro l
      induction l with
      | nil => rfl
      | cons v l ih =>
        unfold body addHideset at *
        simp only [List.map_cons, List.takeWhile_cons]
        have hk : PTok.isEof { v with hs := hsUnion v.hs (hsUnion t.hs [m.name]), own := false } = v.isEof := rfl
        rw [hk]
        cases v.isEof
        · simp only [Bool.not_false, if_true, List.map_cons]
          rw [ih]; rfl
        · rfl
    have hpl : place t (hsUnion t.hs [m.name]) m.body r = .ok (setFlags t.bol t.sp (expansion t m) ++ r) := by
      unfold place
      rw [hbe, List.map_map, hb]
      have : expansion t m = (body m.body).map fun u => { u with hs := u.hs ++ (t.hs ++ [m.name]), own := false, origin := some (root t) } := rfl
      rw [this, hb]
      rfl
    rw [hpl]
    rfl
  have step1 : Steps env st (t :: r) [] st (setFlags t.bol t.sp (expansion t m) ++ r) := by
    refine ⟨1, 0, fun n _ => ?_⟩
    unfold ppO
    rw [pp, hexp]
    simp only [he, Bool.false_eq_true, if_false]
    cases pp env n true st (setFlags t.bol t.sp (expansion t m) ++ r) with
    | error e => rfl
    | ok x => rfl
  have hpass : ∀ (l rest : List PTok), (∀ w ∈ l, w.isEof = false ∧ w.is "#" = false ∧ (findMacro st w = none ∨ w.text ∈ w.hs)) →
      Steps env st (l ++ rest) (marked st l) st rest := by
    intro l
    induction l with
    | nil => intro rest _; exact Steps.refl _ _ _
    | cons w l ih =>
      intro rest h
      obtain ⟨h1, h2, h3⟩ := h w (by simp)
      have hp : Steps env st (w :: (l ++ rest)) [mark st w] st (l ++ rest) :=
        Steps.pass h1 (by simp [isHash, h2]) (h3.imp id fun h => (hsContains_iff _ _).mpr h)
      exact hp.trans (ih rest fun v hv => h v (by simp [hv]))
  have := step1.trans (hpass (setFlags t.bol t.sp (expansion t m)) r ?_)
  · simpa using this
  · have hall : ∀ w ∈ expansion t m, w.isEof = false ∧ w.is "#" = false ∧ (findMacro st w = none ∨ w.text ∈ w.hs) := by
      intro w hw
      obtain ⟨v, hv, rfl⟩ := List.mem_map.mp hw
      obtain ⟨h1, h2⟩ := hbody v hv
      have h0 : v.isEof = false := by
        have hmem : v ∈ m.body.takeWhile fun t => !t.isEof := hv
        have := List.all_eq_true.mp (List.all_takeWhile (l := m.body) (p := fun t => !t.isEof)) v hmem
        simpa using this
      refine ⟨h0, h1, h2.imp id fun h => ?_⟩
      show v.text ∈ v.hs ++ (t.hs ++ [m.name])
      rw [h]; simp
    intro w hw
    cases hx : expansion t m with
    | nil => rw [hx] at hw; cases hw
    | cons v vs =>
      rw [hx] at hw hall
      simp only [setFlags, List.mem_cons] at hw
      rcases hw with rfl | hw
      · exact hall v (by simp)
      · exact hall w (by simp [hw])

/-- The macro `#define x x + x` in the table. -/
def selfMacro : Macro := { name := asc "x", objlike := true, body := [tk "x", pn "+", tk "x", eofTok] }

example : Steps exEnv { macros := [(asc "x", selfMacro)] } [tk "x", eofTok]
    (marked { macros := [(asc "x", selfMacro)] } (setFlags false false (expansion (tk "x") selfMacro)))
    { macros := [(asc "x", selfMacro)] } [eofTok] :=
  C23_object_like exEnv _ (tk "x") [eofTok] selfMacro (tk "x") [pn "+", tk "x"] (by decide +kernel) rfl rfl (by decide +kernel) rfl
    (by decide +kernel) (by decide +kernel)

/-- Whole runs: direct and mutual recursion, and a function-like macro that mentions itself. -/
example : outTexts exEnv 60 "#define x x + x\nx\n" = some [asc "x", asc "+", asc "x", []] := by decide +kernel
example : outTexts exEnv 60 "#define a b\n#define b a\na b\n" = some [asc "a", asc "b", []] := by decide +kernel
example : outTexts exEnv 90 "#define f(x) f(x)+1\nf(f(2))\n" =
    some [asc "f", asc "(", asc "f", asc "(", asc "2", asc ")", asc "+", asc "1", asc ")", asc "+", asc "1", []] := by decide +kernel

end Toycc.Pp
