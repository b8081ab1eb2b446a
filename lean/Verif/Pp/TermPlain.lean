import Verif.Pp.TermTop
import Verif.Pp.Unstrict
/-! Texts on which the strict mode has nothing to object to: no directives, and macros that use neither `#` nor `##`
and each of their parameters at most once. -/
namespace Toycc.Pp
open Toycc.Lex (Kind asc isDig scan tokenize_eq)

/-- A token that is neither a `#` nor a node that has been through preprocess2 before. -/
def Clean (t : PTok) : Prop := t.text ≠ asc "#" ∧ t.tail = false

/-- The macros use neither `#` nor `##`, and no parameter twice. -/
structure Linear (ms : List (Bytes × Macro)) : Prop where
  clean : ∀ p ∈ ms, ∀ u ∈ p.2.body, Clean u ∧ u.text ≠ asc "##"
  once : ∀ p ∈ ms, ∀ n, (n ∈ p.2.params ∨ p.2.va = some n) → p.2.body.countP (·.text == n) ≤ 1

def Hard {α : Type} (a : Except PErr α) : Prop := ∀ e, a = .error e → e.silent = true → e = .fuel

theorem hard_ok {α : Type} (a : α) : Hard (.ok a : Except PErr α) := fun _ h => by cases h
theorem hard_err {α : Type} {e : PErr} (h : e.silent = true → e = .fuel) : Hard (.error e : Except PErr α) :=
  fun _ h' => by cases h'; exact h
theorem hard_err_of {α β : Type} {a : Except PErr α} {e : PErr} (ha : Hard a) (h : a = .error e) : Hard (.error e : Except PErr β) :=
  hard_err (ha e h)
theorem hard_of_not {α : Type} {a : Except PErr α} (h : ∀ e, a = .error e → e.silent = false) : Hard a :=
  fun e h1 h2 => by rw [h e h1] at h2; cases h2
theorem hard_map {α β : Type} {a : Except PErr α} (f : α → β) (h : Hard a) : Hard (a.map f) := by
  cases a with
  | ok x => exact hard_ok _
  | error e => exact hard_err (h e rfl)

theorem tokens_hard (env : Env) (f : FileRef) (b : Bytes) : Hard (tokens env f b) := by
  unfold tokens; split
  · exact hard_err (by intro h; cases h)
  · exact hard_ok _

theorem firstTok_hard (env : Env) (f : FileRef) (b : Bytes) : Hard (firstTok env f b) := by
  unfold firstTok; split
  · rename_i h; exact hard_err_of (tokens_hard _ _ _) h
  · exact hard_err (by intro h; cases h)
  · exact hard_ok _

theorem runHandler_hard (env : Env) (st : St) (h : Handler) (t : PTok) : Hard (runHandler env st h t) := by
  unfold runHandler; cases h <;> exact hard_map _ (firstTok_hard _ _ _)

theorem firstTok_clean (env : Env) (f : FileRef) (c : UInt8) (r : List UInt8) (hc : isDig c = true ∨ c = 0x22 ∨ c = 0x2D)
    (x : PTok) (hx : firstTok env f (c :: r) = .ok x) : Clean x := by
  have h41 : c ≠ 35 := by rcases hc with hc | rfl | rfl <;> first | decide | (intro e; subst e; revert hc; decide)
  unfold firstTok tokens at hx
  rw [tokenize_eq] at hx
  cases hs : scan env.host 0 (c :: r) true false with
  | error e => rw [hs] at hx; simp [Except.map] at hx
  | ok ts =>
    rw [hs] at hx
    obtain ⟨t, ts', rfl, hk, hl⟩ := scan_dead _ _ _ hc _ _ _ hs
    simp only [Except.map, List.map_cons] at hx
    cases hx
    refine ⟨?_, rfl⟩
    show ((c :: r).drop t.loc).take t.len ≠ asc "#"
    have e : asc "#" = [35] := by decide +kernel
    rw [e, hl, List.drop_zero]
    cases t.len with
    | zero => simp
    | succ n => simp [h41]

theorem runHandler_clean (env : Env) (st : St) (h : Handler) (t : PTok) (st' : St) (x : PTok)
    (hx : runHandler env st h t = .ok (st', x)) : Clean x := by
  have hstr : ∀ s tm y, newStr env s tm = .ok y → Clean y := fun s tm y hy =>
    firstTok_clean env _ 34 _ (Or.inr (Or.inl rfl)) y hy
  have hnum : ∀ v tm y, newNum env v tm = .ok y → Clean y := by
    intro v tm y hy
    unfold newNum at hy
    obtain ⟨c, r, e, hc⟩ := decimal_head v
    rw [e] at hy
    exact firstTok_clean env _ c r hc y hy
  unfold runHandler at hx
  cases h <;> (obtain ⟨y, hy, e⟩ := map_ok _ _ _ hx; cases e)
  · exact hstr _ _ _ hy
  · exact hnum _ _ _ hy
  · exact hnum _ _ _ hy
  · exact hstr _ _ _ hy
  · exact hstr _ _ _ hy

theorem setFlags_clean (b s : Bool) (l : List PTok) (h : ∀ t ∈ l, Clean t) : ∀ t ∈ setFlags b s l, Clean t := by
  cases l with
  | nil => exact h
  | cons t r =>
    intro u hu
    rcases List.mem_cons.mp hu with rfl | hu
    · exact h t (by simp)
    · exact h u (List.mem_cons_of_mem _ hu)

theorem body_mem {l : List PTok} {t : PTok} (h : t ∈ body l) : t ∈ l := (List.takeWhile_sublist _).subset h

theorem place_clean (t : PTok) (hs : List Bytes) (b r l : List PTok) (h : place t hs b r = .ok l)
    (hb : ∀ u ∈ b, u.text ≠ asc "#" ∧ u.tail = false) (hr : ∀ u ∈ r, Clean u) : ∀ u ∈ l, Clean u := by
  unfold place at h
  split at h
  · cases h
  · rename_i heq
    cases h
    refine setFlags_clean _ _ _ fun u hu => ?_
    rcases List.mem_append.mp hu with hu | hu
    · obtain ⟨v, hv, rfl⟩ := List.mem_map.mp hu
      obtain ⟨w, hw, rfl⟩ := List.mem_map.mp (body_mem hv)
      exact hb w hw
    · exact hr u hu

theorem place_hard (t : PTok) (hs : List Bytes) (b r : List PTok) : Hard (place t hs b r) := by
  unfold place; split
  · exact hard_err (by intro h; cases h)
  · exact hard_ok _

theorem copyTok_clean {t : PTok} (h : t.text ≠ asc "#") : Clean (copyTok t) := ⟨h, rfl⟩

theorem ownTok_clean {t : PTok} (h : Clean t) : Clean (ownTok t) := h
theorem eof_clean (t : PTok) : Clean (ownTok (newEof t)) := ⟨by show ([] : Bytes) ≠ asc "#"; decide +kernel, rfl⟩

theorem readArg_clean (b : Bool) (lvl : Nat) (l a r : List PTok) (h : readArg b lvl l = .ok (a, r)) (hl : ∀ t ∈ l, Clean t) :
    ∀ t ∈ a, Clean t := by
  induction l generalizing lvl a r with
  | nil => cases h
  | cons t l ih =>
    rw [readArg] at h
    split at h
    · cases h; intro u hu; rw [List.mem_singleton] at hu; rw [hu]; exact eof_clean _
    · split at h
      · cases h; intro u hu; rw [List.mem_singleton] at hu; rw [hu]; exact eof_clean _
      · split at h
        · cases h
        · split at h
          · cases h
          · rename_i h2
            cases h
            intro u hu
            rcases List.mem_cons.mp hu with rfl | hu
            · exact ownTok_clean (hl t (by simp))
            · exact ih _ _ _ h2 (fun t ht => hl t (List.mem_cons_of_mem _ ht)) u hu

theorem suffix_clean {l r : List PTok} (h : r <:+ l) (hl : ∀ t ∈ l, Clean t) : ∀ t ∈ r, Clean t :=
  fun t ht => hl t (h.subset ht)

theorem readParams_clean (first : Bool) (ps : List Bytes) (l : List PTok) (as : List Arg) (r : List PTok)
    (h : readParams first ps l = .ok (as, r)) (hl : ∀ t ∈ l, Clean t) :
    (∀ a ∈ as, a.name ∈ ps ∧ ∀ t ∈ a.toks, Clean t) ∧ r <:+ l := by
  induction ps generalizing first l as r with
  | nil => cases h; exact ⟨by simp, List.suffix_refl _⟩
  | cons p ps ih =>
    rw [readParams] at h
    split at h
    · cases h
    · rename_i l1 h1
      have hs1 : l1 <:+ l := by
        split at h1
        · cases h1; exact List.suffix_refl _
        · exact skip_suffix _ _ _ h1
      split at h
      · cases h
      · rename_i a l2 h2
        obtain ⟨y, hy⟩ := readArg_suffix _ _ _ _ _ h2
        have hs2 : l2 <:+ l1 := ⟨y, hy.symm⟩
        split at h
        · cases h
        · rename_i as' l3 h3
          cases h
          obtain ⟨g1, g2⟩ := ih _ _ _ _ h3 (suffix_clean (hs2.trans hs1) hl)
          refine ⟨?_, g2.trans (hs2.trans hs1)⟩
          intro b hb
          rcases List.mem_cons.mp hb with rfl | hb
          · exact ⟨by simp, readArg_clean _ _ _ _ _ h2 (suffix_clean hs1 hl)⟩
          · exact ⟨List.mem_cons_of_mem _ (g1 b hb).1, (g1 b hb).2⟩

theorem readVa_clean (ps : List Bytes) (va : Option Bytes) (l : List PTok) (as : List Arg) (r : List PTok)
    (h : readVa ps va l = .ok (as, r)) (hl : ∀ t ∈ l, Clean t) :
    (∀ a ∈ as, va = some a.name ∧ ∀ t ∈ a.toks, Clean t) ∧ r <:+ l := by
  unfold readVa at h
  split at h
  · cases h; exact ⟨by simp, List.suffix_refl _⟩
  · split at h
    · cases h
    · rename_i name t tl
      split at h
      · cases h
        refine ⟨?_, List.suffix_refl _⟩
        intro a ha
        rw [List.mem_singleton] at ha
        rw [ha]
        exact ⟨rfl, fun t ht => by rw [List.mem_singleton] at ht; rw [ht]; exact eof_clean _⟩
      · split at h
        · cases h
        · rename_i l3 h3
          have hs3 : l3 <:+ t :: tl := by
            split at h3
            · cases h3; exact List.suffix_refl _
            · exact skip_suffix _ _ _ h3
          split at h
          · cases h
          · rename_i a l4 h4
            cases h
            obtain ⟨y, hy⟩ := readArg_suffix _ _ _ _ _ h4
            refine ⟨?_, List.IsSuffix.trans ⟨y, hy.symm⟩ hs3⟩
            intro b hb
            rw [List.mem_singleton] at hb
            rw [hb]
            exact ⟨rfl, readArg_clean _ _ _ _ _ h4 (suffix_clean hs3 hl)⟩

theorem readArgs_clean (ps : List Bytes) (va : Option Bytes) (l : List PTok) (as : List Arg) (c : PTok) (r : List PTok)
    (h : readArgs ps va l = .ok (as, c, r)) (hl : ∀ t ∈ l, Clean t) :
    (∀ a ∈ as, (a.name ∈ ps ∨ va = some a.name) ∧ ∀ t ∈ a.toks, Clean t) ∧ Clean c ∧ r <:+ l := by
  unfold readArgs at h
  split at h
  · cases h
  · rename_i as1 l1 h1
    obtain ⟨g1, g2⟩ := readParams_clean _ _ _ _ _ h1 hl
    have hl1 := suffix_clean g2 hl
    split at h
    · cases h
    · rename_i as2 l2 h2
      have hva := readVa_clean _ _ _ _ _ h2 hl1
      split at h
      · cases h
      · rename_i t r'
        split at h
        · cases h
          have hl2 := suffix_clean hva.2 hl1
          refine ⟨?_, hl2 _ (by simp), (List.suffix_cons _ _).trans (hva.2.trans g2)⟩
          intro a ha
          rcases List.mem_append.mp ha with ha | ha
          · exact ⟨Or.inl (g1 a ha).1, (g1 a ha).2⟩
          · exact ⟨Or.inr (hva.1 a ha).1, (hva.1 a ha).2⟩
        · cases h

theorem skip_hard (s : String) (l : List PTok) : Hard (skip s l) := by
  unfold skip; split
  · exact hard_err (by intro h; cases h)
  · split
    · exact hard_ok _
    · exact hard_err (by intro h; cases h)

theorem readArg_hard (b : Bool) (lvl : Nat) (l : List PTok) : Hard (readArg b lvl l) := by
  induction l generalizing lvl with
  | nil => exact hard_err (by intro h; cases h)
  | cons t l ih =>
    rw [readArg]
    split
    · exact hard_ok _
    · split
      · exact hard_ok _
      · split
        · exact hard_err (by intro h; cases h)
        · split
          · rename_i h; exact hard_err_of (ih _) h
          · exact hard_ok _

theorem readArgs_hard (ps : List Bytes) (va : Option Bytes) (l : List PTok) : Hard (readArgs ps va l) := by
  have hp : ∀ (first : Bool) (ps : List Bytes) (l : List PTok), Hard (readParams first ps l) := by
    intro first ps
    induction ps generalizing first with
    | nil => intro l; exact hard_ok _
    | cons p ps ih =>
      intro l
      rw [readParams]
      split
      · rename_i e h
        split at h
        · cases h
        · exact hard_err_of (skip_hard _ _) h
      · split
        · rename_i h; exact hard_err_of (readArg_hard _ _ _) h
        · split
          · rename_i h; exact hard_err_of (ih _ _) h
          · exact hard_ok _
  have hv : ∀ l, Hard (readVa ps va l) := by
    intro l
    unfold readVa
    split
    · exact hard_ok _
    · split
      · exact hard_err (by intro h; cases h)
      · split
        · exact hard_ok _
        · split
          · rename_i e h
            split at h
            · cases h
            · exact hard_err_of (skip_hard _ _) h
          · split
            · rename_i h; exact hard_err_of (readArg_hard _ _ _) h
            · exact hard_ok _
  unfold readArgs
  split
  · rename_i h; exact hard_err_of (hp _ _ _) h
  · split
    · rename_i h; exact hard_err_of (hv _) h
    · split
      · exact hard_err (by intro h; cases h)
      · split
        · exact hard_ok _
        · exact hard_err (by intro h; cases h)

/-! ### The body of a macro -/

/-- What the calls of preprocess2 on arguments give. -/
def Tame (ms : List (Bytes × Macro)) (rec : Rec) : Prop :=
  ∀ st l, st.macros = ms → (∀ t ∈ l, Clean t) → Hard (rec st l) ∧ ∀ st' out pre, rec st l = .ok (st', out, pre) →
    st'.macros = ms ∧ ∀ t ∈ out, Clean t

/-- The state of the loop of `subst`: clean output, and arguments that are clean as long as they are needed. -/
structure Sane (ms : List (Bytes × Macro)) (s : Sub) : Prop where
  macros : s.st.macros = ms
  acc : ∀ t ∈ s.acc, Clean t
  rest : ∀ u ∈ s.rest, Clean u ∧ u.text ≠ asc "##"
  once : ∀ a ∈ s.args, s.rest.countP (·.text == a.name) ≤ 1
  args : ∀ a ∈ s.args, (∃ u ∈ s.rest, u.text = a.name) → ∀ t ∈ a.toks, Clean t

theorem is_eq (t : PTok) (s : String) : t.is s = true ↔ t.text = asc s := by simp [PTok.is]

theorem Sane.next {ms : List (Bytes × Macro)} {s s' : Sub} (h : Sane ms s) (h1 : s'.st.macros = ms) (h2 : s'.args = s.args)
    (h3 : s'.rest <:+ s.rest) (h4 : ∀ t ∈ s'.acc, Clean t) : Sane ms s' where
  macros := h1
  acc := h4
  rest := fun u hu => h.rest u (h3.subset hu)
  once := fun a ha => Nat.le_trans h3.sublist.countP_le (h.once a (h2 ▸ ha))
  args := fun a ha ⟨u, hu, e⟩ => h.args a (h2 ▸ ha) ⟨u, h3.subset hu, e⟩

theorem copies_clean {l acc : List PTok} (h1 : ∀ t ∈ l, t.text ≠ asc "#") (h2 : ∀ t ∈ acc, Clean t) :
    ∀ t ∈ (l.map copyTok).reverse ++ acc, Clean t := by
  intro t ht
  rcases List.mem_append.mp ht with ht | ht
  · rw [List.mem_reverse] at ht
    obtain ⟨u, hu, rfl⟩ := List.mem_map.mp ht
    exact copyTok_clean (h1 u hu)
  · exact h2 t ht

theorem substVaOpt_sane {ms : List (Bytes × Macro)} {s : Sub} (h : Sane ms s) (r : List PTok) (hr : r <:+ s.rest) :
    Hard (substVaOpt s r) ∧ ∀ s', substVaOpt s r = .ok s' → Sane ms s' := by
  unfold substVaOpt
  constructor
  · split
    · rename_i he; exact hard_err_of (readArg_hard _ _ _) he
    · split
      · rename_i he; exact hard_err_of (skip_hard _ _) he
      · exact hard_ok _
  · intro s' hs
    split at hs
    · cases hs
    · rename_i x r2 h1
      split at hs
      · cases hs
      · rename_i r3 h2
        cases hs
        obtain ⟨y, hy⟩ := readArg_suffix _ _ _ _ _ h1
        have hsf : r3 <:+ r := (skip_suffix _ _ _ h2).trans ⟨y, hy.symm⟩
        refine h.next h.macros rfl (hsf.trans hr) ?_
        have hx := readArg_clean _ _ _ _ _ h1 fun t ht => (h.rest t (hr.subset ht)).1
        show ∀ t ∈ (if hasVarargs s.args then (body x).map copyTok else []).reverse ++ s.acc, Clean t
        split
        · exact copies_clean (fun t ht => (hx t (body_mem ht)).1) h.acc
        · simpa using h.acc

theorem substArg_sane {ms : List (Bytes × Macro)} {env : Env} {rec : Rec} (ht : Tame ms rec) {s : Sub} (h : Sane ms s) (t : PTok)
    (r : List PTok) (hr : s.rest = t :: r) (a : Arg) (ha : findArg s.args t = some a) :
    Hard (substArg env rec s a t r) ∧ ∀ s', substArg env rec s a t r = .ok s' → Sane ms s' := by
  have hma := List.mem_of_find?_eq_some ha
  have hna : a.name = t.text := by have := List.find?_some ha; simpa using this
  obtain ⟨g1, g2⟩ := ht s.st a.toks h.macros (h.args a hma ⟨t, by rw [hr]; simp, hna.symm⟩)
  have hnone : ∀ u ∈ r, u.text ≠ a.name := by
    intro u hu e
    have := h.once a hma
    rw [hr, List.countP_cons, hna] at this
    have hp : 0 < r.countP (·.text == t.text) := List.countP_pos_iff.mpr ⟨u, hu, by simp [e, hna]⟩
    simp only [beq_self_eq_true, if_true] at this
    omega
  have hany : (r.any fun u => u.text == a.name) = false := by
    rw [List.any_eq_false]; intro u hu; simpa using hnone u hu
  unfold substArg
  constructor
  · split
    · rename_i he; exact hard_err_of g1 he
    · split
      · exact hard_err (by intro h; cases h)
      · dsimp only
        rw [hany, Bool.and_false, Bool.false_and, if_neg (by decide)]
        exact hard_ok _
  · intro s' hs
    split at hs
    · cases hs
    · rename_i st' out pre he
      obtain ⟨g3, g4⟩ := g2 _ _ _ he
      split at hs
      · cases hs
      · dsimp only at hs
        rw [hany, Bool.and_false, Bool.false_and, if_neg (by decide)] at hs
        cases hs
        have hsub : r <:+ s.rest := by rw [hr]; exact List.suffix_cons _ _
        have hnames : ∀ b ∈ setArg s.args a.name (residue pre (setFlags t.bol t.sp out)),
            ∃ b' ∈ s.args, b.name = b'.name ∧ (b.name ≠ a.name → b = b') := by
          intro b hb
          obtain ⟨b', hb', e⟩ := List.mem_map.mp hb
          refine ⟨b', hb', ?_⟩
          split at e
          · rename_i hc
            rw [← e]
            exact ⟨rfl, fun hne => absurd (by simpa using hc) hne⟩
          · exact ⟨by rw [e], fun _ => e.symm⟩
        exact {
          macros := g3
          acc := copies_clean (fun u hu => (setFlags_clean _ _ _ g4 u (body_mem hu)).1) h.acc
          rest := fun u hu => h.rest u (hsub.subset hu)
          once := by
            intro b hb
            obtain ⟨b', hb', e, _⟩ := hnames b hb
            rw [e]
            exact Nat.le_trans hsub.sublist.countP_le (h.once b' hb')
          args := by
            rintro b hb ⟨u, hu, e⟩
            obtain ⟨b', hb', e1, e2⟩ := hnames b hb
            have hne : b.name ≠ a.name := by rw [← e]; exact hnone u hu
            rw [e2 hne]
            exact h.args b' hb' ⟨u, hsub.subset hu, by rw [e, e1]⟩ }

theorem substStep_sane {ms : List (Bytes × Macro)} {env : Env} {rec : Rec} (ht : Tame ms rec) {s : Sub} (h : Sane ms s) (t : PTok)
    (r : List PTok) (hr : s.rest = t :: r) :
    Hard (substStep env rec s t r) ∧ ∀ s', substStep env rec s t r = .ok s' → Sane ms s' := by
  have ht' := h.rest t (by rw [hr]; simp)
  have hsub : r <:+ s.rest := by rw [hr]; exact List.suffix_cons _ _
  have hn : nextIs r "##" = false := by
    cases r with
    | nil => rfl
    | cons u r2 =>
      have := (h.rest u (by rw [hr]; simp)).2
      show (u.is "##") = false
      rw [Bool.eq_false_iff]
      exact fun e => this ((is_eq _ _).mp e)
  have e : substStep env rec s t r =
      match findArg s.args t with
      | some a =>
        if t.is "__VA_OPT__" && nextIs r "(" then substVaOpt s (r.drop 1)
        else substArg env rec s a t r
      | none =>
        if t.is "__VA_OPT__" && nextIs r "(" then substVaOpt s (r.drop 1)
        else .ok { s with acc := copyTok t :: s.acc, rest := r } := by
    unfold substStep
    rw [if_neg (fun e => ht'.1.1 ((is_eq _ _).mp e))]
    simp only [hn, Bool.and_false, Bool.false_eq_true, if_false]
    rw [if_neg (fun e => ht'.2 ((is_eq _ _).mp e))]
    rfl
  rw [e]
  have hva := substVaOpt_sane h (r.drop 1) ((List.drop_suffix _ _).trans hsub)
  split
  · rename_i a ha
    split
    · exact hva
    · exact substArg_sane ht h t r hr a ha
  · split
    · exact hva
    · refine ⟨hard_ok _, fun s' hs => ?_⟩
      cases hs
      refine h.next h.macros rfl hsub ?_
      intro u hu
      rcases List.mem_cons.mp hu with rfl | hu
      · exact copyTok_clean ht'.1.1
      · exact h.acc u hu

theorem subst_sane {ms : List (Bytes × Macro)} {env : Env} {rec : Rec} (ht : Tame ms rec) (s : Sub) (h : Sane ms s) :
    Hard (subst env rec s) ∧ ∀ st' b, subst env rec s = .ok (st', b) → st'.macros = ms ∧ ∀ t ∈ b, Clean t := by
  have key : ∀ n, ∀ s : Sub, s.rest.length ≤ n → Sane ms s →
      Hard (subst env rec s) ∧ ∀ st' b, subst env rec s = .ok (st', b) → st'.macros = ms ∧ ∀ t ∈ b, Clean t := by
    intro n
    induction n with
    | zero =>
      intro s hs h
      have : s.rest = [] := List.length_eq_zero_iff.mp (by omega)
      rw [subst.eq_def]
      split
      · exact ⟨hard_err (by intro h; cases h), fun _ _ h => by cases h⟩
      · rename_i h; rw [this] at h; cases h
    | succ n ih =>
      intro s hs h
      rw [subst.eq_def]
      split
      · exact ⟨hard_err (by intro h; cases h), fun _ _ h => by cases h⟩
      · rename_i t r hr
        obtain ⟨g1, g2⟩ := substStep_sane (env := env) ht h t r hr
        split
        · refine ⟨hard_ok _, fun st' b hb => ?_⟩
          cases hb
          refine ⟨h.macros, fun u hu => ?_⟩
          rcases List.mem_append.mp hu with hu | hu
          · exact h.acc u (List.mem_reverse.mp hu)
          · rw [List.mem_singleton] at hu
            rw [hu]
            exact (h.rest t (by rw [hr]; simp)).1
        · split
          · rename_i e he
            exact ⟨hard_err_of g1 he, fun _ _ h => by cases h⟩
          · rename_i s2 he
            have := substStep_len _ _ _ _ _ _ he
            rw [hr] at hs
            simp only [List.length_cons] at hs
            exact ih s2 (by omega) (g2 s2 he)
  exact key _ s (Nat.le_refl _) h

theorem findMacro_mem {st : St} {t : PTok} {m : Macro} (h : findMacro st t = some m) : ∃ n, (n, m) ∈ st.macros := by
  unfold findMacro at h
  split at h
  · unfold lookup at h
    cases hf : st.macros.find? fun p => p.1 == t.text with
    | none => rw [hf] at h; cases h
    | some p =>
      rw [hf] at h
      cases h
      exact ⟨p.1, List.mem_of_find?_eq_some hf⟩
  · cases h

theorem expandMacro_sane {ms : List (Bytes × Macro)} (hm : Linear ms) {env : Env} {rec : Rec} (ht : Tame ms rec) (st : St) (hst : st.macros = ms)
    (t : PTok) (r : List PTok) (hl : ∀ u ∈ t :: r, Clean u) :
    Hard (expandMacro env rec st t r) ∧ ∀ st' l, expandMacro env rec st t r = .ok (some (st', l)) →
      st'.macros = ms ∧ ∀ u ∈ l, Clean u := by
  have hr : ∀ u ∈ r, Clean u := fun u hu => hl u (List.mem_cons_of_mem _ hu)
  unfold expandMacro
  split
  · exact ⟨hard_ok _, fun _ _ h => by cases h⟩
  · split
    · exact ⟨hard_ok _, fun _ _ h => by cases h⟩
    · rename_i m hfm
      obtain ⟨nm, hmem⟩ := findMacro_mem hfm
      rw [hst] at hmem
      split
      · rename_i h _
        split
        · rename_i he; exact ⟨hard_err_of (runHandler_hard _ _ _ _) he, fun _ _ h => by cases h⟩
        · rename_i st2 x he
          refine ⟨hard_ok _, fun st' l hh => ?_⟩
          cases hh
          refine ⟨by rw [(runHandler_dead _ _ _ _ _ _ he).2.2, hst], fun u hu => ?_⟩
          rcases List.mem_cons.mp hu with rfl | hu
          · exact runHandler_clean _ _ _ _ _ _ he
          · exact hr u hu
      · split
        · split
          · rename_i he; exact ⟨hard_err_of (place_hard _ _ _ _) he, fun _ _ h => by cases h⟩
          · rename_i l he
            refine ⟨hard_ok _, fun st' l hh => ?_⟩
            cases hh
            exact ⟨hst, place_clean _ _ _ _ _ he (fun u hu => (hm.clean _ hmem u hu).1) hr⟩
        · split
          · exact ⟨hard_err (by intro h; cases h), fun _ _ h => by cases h⟩
          · rename_i u r1
            split
            · exact ⟨hard_ok _, fun _ _ h => by cases h⟩
            · split
              · rename_i he; exact ⟨hard_err_of (readArgs_hard _ _ _) he, fun _ _ h => by cases h⟩
              · rename_i args rp r2 he
                obtain ⟨g1, g2, g3⟩ := readArgs_clean _ _ _ _ _ _ he fun v hv => hr v (List.mem_cons_of_mem _ hv)
                rw [if_neg (by rw [g2.2]; simp)]
                have hsane : Sane ms { st := st, args := args, acc := [], rest := m.body } := {
                  macros := hst
                  acc := by simp
                  rest := fun u hu => hm.clean _ hmem u hu
                  once := fun a ha => hm.once _ hmem _ (g1 a ha).1
                  args := fun a ha _ => (g1 a ha).2 }
                obtain ⟨k1, k2⟩ := subst_sane (env := env) ht _ hsane
                split
                · rename_i he; exact ⟨hard_err_of k1 he, fun _ _ h => by cases h⟩
                · rename_i st2 b hb
                  obtain ⟨k3, k4⟩ := k2 _ _ hb
                  split
                  · rename_i he; exact ⟨hard_err_of (place_hard _ _ _ _) he, fun _ _ h => by cases h⟩
                  · rename_i l hp
                    refine ⟨hard_ok _, fun st' l' hh => ?_⟩
                    cases hh
                    refine ⟨k3, place_clean _ _ _ _ _ hp (fun u hu => k4 u hu) fun v hv => ?_⟩
                    exact hr v (List.mem_cons_of_mem _ (g3.subset hv))

/-- On clean texts the strict mode has nothing to object to. -/
theorem pp_tame {ms : List (Bytes × Macro)} (hm : Linear ms) (env : Env) (n : Nat) (top : Bool) : Tame ms (pp env n top) := by
  induction n generalizing top with
  | zero => exact fun st l _ _ => ⟨hard_err fun _ => rfl, fun _ _ _ h => by cases h⟩
  | succ n ih =>
    intro st l hst hl
    cases l with
    | nil => exact ⟨hard_err (by intro h; cases h), fun _ _ _ h => by cases h⟩
    | cons t r =>
      rw [pp]
      split
      · refine ⟨hard_ok _, fun st' out pre h => ?_⟩
        cases h
        exact ⟨hst, fun u hu => hl u (by rw [List.mem_singleton] at hu; simp [hu])⟩
      · obtain ⟨g1, g2⟩ := expandMacro_sane hm (env := env) (ih false) st hst t r hl
        split
        · rename_i he; exact ⟨hard_err_of g1 he, fun _ _ _ h => by cases h⟩
        · rename_i st' l' he
          obtain ⟨g3, g4⟩ := g2 _ _ he
          obtain ⟨k1, k2⟩ := ih top st' l' g3 g4
          split
          · rename_i he; exact ⟨hard_err_of k1 he, fun _ _ _ h => by cases h⟩
          · rename_i he2
            refine ⟨hard_ok _, fun _ _ _ h => ?_⟩
            cases h
            exact k2 _ _ _ he2
        · have hh : isHash t = false := by
            have := (hl t (by simp)).1
            unfold isHash
            rw [Bool.and_eq_false_iff]
            right
            rw [Bool.eq_false_iff]
            exact fun e => this ((is_eq _ _).mp e)
          rw [hh]
          simp only [Bool.not_false, if_true]
          obtain ⟨k1, k2⟩ := ih top st r hst fun u hu => hl u (List.mem_cons_of_mem _ hu)
          split
          · rename_i he; exact ⟨hard_err_of k1 he, fun _ _ _ h => by cases h⟩
          · rename_i he2
            refine ⟨hard_ok _, fun _ _ _ h => ?_⟩
            cases h
            refine ⟨(k2 _ _ _ he2).1, fun u hu => ?_⟩
            rcases List.mem_cons.mp hu with rfl | hu
            · exact hl t (by simp)
            · exact (k2 _ _ _ he2).2 u hu

end Toycc.Pp
