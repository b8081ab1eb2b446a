import Verif.Pp.DynSpec
import Verif.Pp.Hide
/-! C89: lemmas. -/
namespace Toycc.Pp.Dyn
open Toycc.Lex (asc Kind)

/-! ### Numbers -/

theorem decimal_digits (n : Nat) : ∃ a r, decimal (n : Int) = a :: r ∧ ∀ x ∈ a :: r, Lex.isDig x = true := by
  have hd : ∀ ch : Char, ch.isDigit = true → Lex.isDig (UInt8.ofNat ch.toNat) = true := by
    intro ch h
    have : 48 ≤ ch.toNat ∧ ch.toNat ≤ 57 := by
      simp only [Char.isDigit, Bool.and_eq_true, decide_eq_true_eq] at h
      exact ⟨h.1, h.2⟩
    have hall : ∀ n, 48 ≤ n → n ≤ 57 → Lex.isDig (UInt8.ofNat n) = true := by
      intro n h1 h2
      have : n = 48 ∨ n = 49 ∨ n = 50 ∨ n = 51 ∨ n = 52 ∨ n = 53 ∨ n = 54 ∨ n = 55 ∨ n = 56 ∨ n = 57 := by omega
      rcases this with rfl | rfl | rfl | rfl | rfl | rfl | rfl | rfl | rfl | rfl <;> decide
    exact hall _ this.1 this.2
  have e : decimal (n : Int) = (Nat.toDigits 10 n).map fun ch => UInt8.ofNat ch.toNat := by
    show asc (toString (Int.ofNat n)) = _
    have e : toString (Int.ofNat n) = toString n := rfl
    rw [e]
    have e : (toString n).toList = Nat.toDigits 10 n := by
      show (Nat.repr n).toList = _
      simp [Nat.repr]
    unfold asc
    rw [e]
  have hne : Nat.toDigits 10 n ≠ [] := Nat.toDigits_ne_nil
  rw [e]
  cases h : Nat.toDigits 10 n with
  | nil => exact absurd h hne
  | cons ch cs =>
    refine ⟨_, _, rfl, fun x hx => ?_⟩
    rw [← List.map_cons (f := fun ch : Char => UInt8.ofNat ch.toNat), ← h] at hx
    obtain ⟨y, hy, rfl⟩ := List.mem_map.mp hx
    exact hd y (Nat.isDigit_of_mem_toDigits (b := 10) (n := n) (by decide) (by decide) hy)

theorem digit_alnum : ∀ x : UInt8, Lex.isDig x = true → Lex.isAlnum x = true := by decide +kernel

theorem ppLoop_digits : ∀ r : Bytes, (∀ x ∈ r, Lex.isDig x = true) → Lex.ppLoop r = r.length
  | [], _ => by rw [Lex.ppLoop.eq_def]; rfl
  | [a], h => by
    have : Lex.isAlnum a = true := digit_alnum a (h a (by simp))
    rw [Lex.ppLoop.eq_def]
    simp [this]
  | a :: b :: r, h => by
    have ha : Lex.isAlnum a = true := digit_alnum a (h a (by simp))
    have hb : ∀ b : UInt8, Lex.isDig b = true → (b == 0x2B || b == 0x2D) = false := by decide +kernel
    have hb' := hb b (h b (by simp))
    simp only [Bool.or_eq_false_iff, beq_eq_false_iff_ne, ne_eq] at hb'
    rw [Lex.ppLoop.eq_def]
    simp [ha, hb', ppLoop_digits (b :: r) (fun x hx => h x (by simp at hx ⊢; exact .inr hx)), Nat.add_comm]

theorem digits_tok (h : Lex.Host) (a : UInt8) (r : Bytes) (hd : ∀ x ∈ a :: r, Lex.isDig x = true) :
    Lex.scan h 0 (a :: r) true false = .ok
      [{ kind := .ppNum, loc := 0, len := r.length + 1, atBol := true, hasSpace := false, payload := .none },
       { kind := .eof, loc := r.length + 1, len := 0, atBol := false, hasSpace := false, payload := .none }] := by
  have h1 : Lex.isDig a = true := hd a (by simp)
  have key : ∀ b : UInt8, Lex.isDig b = true → b ≠ 0x2F ∧ b ≠ 10 ∧ Lex.isSpace b = false := by decide +kernel
  obtain ⟨k1, k2, k3⟩ := key a h1
  have hsl : ∀ q : List UInt8, q.head? = some 0x2F → ¬ Lex.startsWith (a :: r) q = true := by
    intro q hm hs
    cases q with
    | nil => cases hm
    | cons x q =>
      cases hm
      obtain ⟨t, ht⟩ := List.isPrefixOf_iff_prefix.mp hs
      injection ht with e _
      exact k1 e.symm
  have hone : Lex.lexOne h (a :: r) = .ok (.tok .ppNum (1 + r.length) .none) := by
    show Lex.lexCons h a r = _
    unfold Lex.lexCons
    rw [if_neg (hsl _ (by decide)), if_neg (hsl _ (by decide)), if_neg k2, if_neg (by simp [k3]), if_pos (by simp [h1]),
      ppLoop_digits r fun x hx => hd x (by simp [hx])]
  rw [Lex.scan, if_neg (by simp)]
  split
  · rename_i e he; rw [hone] at he; cases he
  · rename_i n he; rw [hone] at he; cases he
  · rename_i n he; rw [hone] at he; cases he
  · rename_i he; rw [hone] at he; cases he
  · rename_i he; rw [hone] at he; cases he
  · rename_i k n pl he
    rw [hone] at he
    simp only [Except.ok.injEq, Lex.Piece.tok.injEq] at he
    obtain ⟨rfl, rfl, rfl⟩ := he
    have hd : (a :: r).drop (1 + r.length) = ([] : Bytes) := by
      apply List.drop_eq_nil_of_le; simp; omega
    rw [hd, Lex.scan, if_pos rfl]
    simp only [Except.ok.injEq, List.cons.injEq, Lex.Tok.mk.injEq, and_true, true_and]
    omega

/-- The token made from a number. -/
theorem newNum_tok (env : Env) (n : Nat) (t : PTok) : ∃ x, newNum env (n : Int) t = .ok x ∧ (Out.num n).IsTok x ∧ x.hs = [] := by
  obtain ⟨a, r, e, hd⟩ := decimal_digits n
  unfold newNum firstTok tokens
  rw [Lex.tokenize_eq, e, digits_tok _ _ _ hd]
  simp only [Except.map, List.map_cons]
  refine ⟨_, rfl, ⟨rfl, ?_⟩, rfl⟩
  have e' : asc (toString n) = a :: r := e
  rw [e']
  simp only [ofLex, Lex.setLine, List.drop_zero]
  apply List.take_of_length_le
  simp

theorem newStr_tok (env : Env) (s : Bytes) (t : PTok) (hs : (10 : UInt8) ∉ s) : ∃ x, newStr env s t = .ok x ∧ (Out.str s).IsTok x ∧ x.hs = [] := by
  obtain ⟨x, h1, h2, h3, h4⟩ := C26_string_token env s t hs
  refine ⟨x, h1, ⟨h2, h4⟩, ?_⟩
  unfold newStr firstTok tokens at h1
  cases hl : Lex.tokenize env.host (quoteString s) with
  | error e => rw [hl] at h1; cases h1
  | ok ts =>
    rw [hl] at h1
    cases ts with
    | nil => cases h1
    | cons u ts => cases h1; rfl

/-! ### Steps -/

theorem Steps.expand {env : Env} {st st' : St} {t : PTok} {r l : List PTok} (he : t.isEof = false)
    (h : ∀ n, expandMacro env (pp env n false) st t r = .ok (some (st', l))) : Steps env st (t :: r) [] st' l := by
  refine ⟨1, 0, fun n _ => ?_⟩
  unfold ppO
  rw [pp, h n]
  simp only [he, Bool.false_eq_true, if_false]
  cases pp env n true st' l with
  | error e => rfl
  | ok r => rfl

/-- A number or a string is passed through. -/
theorem pass_out {env : Env} {st : St} {t : PTok} {r : List PTok} (hk : t.kind = .ppNum ∨ t.kind = .str) (ht : t.text ≠ asc "#") :
    Steps env st (t :: r) [mark st t] st r := by
  refine Steps.pass ?_ ?_ (.inl ?_)
  · unfold PTok.isEof; rcases hk with h | h <;> rw [h] <;> rfl
  · unfold isHash PTok.is; simp [ht]
  · unfold findMacro; rcases hk with h | h <;> rw [h] <;> rfl

theorem num_not_hash {n : Nat} {x : PTok} (h : (Out.num n).IsTok x) : x.text ≠ asc "#" := by
  obtain ⟨a, r, e, hd⟩ := decimal_digits n
  obtain ⟨-, h2⟩ := h
  rw [h2, show asc (toString n) = a :: r from e, show asc "#" = [35] from by decide]
  intro h
  injection h with h _
  have := hd a (by simp)
  rw [h] at this
  revert this; decide

theorem str_not_hash {env : Env} {s : Bytes} {t x : PTok} (hs : (10 : UInt8) ∉ s) (h : newStr env s t = .ok x) : x.text ≠ asc "#" := by
  obtain ⟨y, h1, -, h3, -⟩ := C26_string_token env s t hs
  rw [h] at h1
  cases h1
  rw [h3, show asc "#" = [35] from by decide]
  unfold quoteString
  intro h
  simp only [List.cons_append] at h
  injection h with h _
  revert h; decide

theorem mark_tok (o : Out) (st : St) (t : PTok) (h : o.IsTok t) : o.IsTok (mark st t) := by
  cases o <;> exact h

theorem All2.append {α β : Type} {R : α → β → Prop} {a1 a2 : List α} {b1 b2 : List β} (h1 : All2 R a1 b1) (h2 : All2 R a2 b2) : All2 R (a1 ++ a2) (b1 ++ b2) := by
  induction h1 with
  | nil => exact h2
  | cons h _ ih => exact .cons h ih

/-! ### Tokens on the way -/

/-- A token of the list that stands for `s`, with the hidden macros `H`. -/
def Rep (f : FileRef) (H : List Bytes) (s : SrcTok) (t : PTok) : Prop :=
  t.kind = s.kind ∧ t.text = s.text ∧ root t = (f, s.line) ∧ (∀ x, x ∈ t.hs ↔ x ∈ H) ∧ t.isEof = false ∧ t.text ≠ asc "#"

theorem Written.rep {f : FileRef} {s : SrcTok} {t : PTok} (h : Written f s t) : Rep f [] s t := by
  obtain ⟨h1, h2, h3, h4, h5, h6, h7, h8⟩ := h
  refine ⟨h1, h2, ?_, fun x => by rw [h6], h7, h8⟩
  unfold root
  rw [h5, h3, h4]; rfl

theorem Rep.flags {f : FileRef} {H : List Bytes} {s : SrcTok} {t : PTok} (h : Rep f H s t) (b sp : Bool) : Rep f H s { t with bol := b, sp := sp } := h

theorem All2.imp {α β : Type} {R S : α → β → Prop} {as : List α} {bs : List β} (h : All2 R as bs) (hi : ∀ a b, R a b → S a b) : All2 S as bs := by
  induction h with
  | nil => exact .nil
  | cons h _ ih => exact .cons (hi _ _ h) ih

theorem takeWhile_all {l : List PTok} {e : PTok} (h : ∀ t ∈ l, t.isEof = false) (he : e.isEof = true) : body (l ++ [e]) = l := by
  induction l with
  | nil => simp [body, he]
  | cons a l ih =>
    have := ih fun t ht => h t (by simp [ht])
    unfold body at this ⊢
    rw [List.cons_append, List.takeWhile_cons, if_pos (by simp [h a (by simp)]), this]

/-- The tokens of a replacement list as they are put into the list. -/
theorem place_rep {f : FileRef} {H : List Bytes} {s : SrcTok} {t : PTok} (ht : Rep f H s t) {ts : List PTok} (hne : ts ≠ [])
    (hb : ∀ u ∈ ts, u.isEof = false ∧ u.hs = [] ∧ u.text ≠ asc "#") (r : List PTok) :
    ∃ us, place t (hsUnion t.hs [s.text]) (ts ++ [lineEnd]) r = .ok (us ++ r) ∧
      All2 (Rep f (s.text :: H)) ((ts.map fun u => (u.kind, u.text)).map fun x => ⟨x.1, x.2, s.line⟩) us := by
  have hbody : body (addHideset (ts ++ [lineEnd]) (hsUnion t.hs [s.text])) = ts.map fun u => { u with hs := hsUnion u.hs (hsUnion t.hs [s.text]), own := false } := by
    unfold addHideset
    rw [List.map_append]
    refine takeWhile_all (fun x hx => ?_) rfl
    obtain ⟨u, hu, rfl⟩ := List.mem_map.mp hx
    exact (hb u hu).1
  have hrep : ∀ u ∈ ts, Rep f (s.text :: H) ⟨u.kind, u.text, s.line⟩
      { ({ u with hs := hsUnion u.hs (hsUnion t.hs [s.text]), own := false } : PTok) with origin := some (root t) } := by
    intro u hu
    obtain ⟨h1, h2, h3⟩ := hb u hu
    obtain ⟨-, -, g1, g2, -, -⟩ := ht
    refine ⟨rfl, rfl, g1, fun x => ?_, h1, h3⟩
    show x ∈ hsUnion u.hs (hsUnion t.hs [s.text]) ↔ _
    unfold hsUnion
    rw [h2]
    simp only [List.nil_append, List.mem_append, List.mem_cons, List.not_mem_nil, or_false, g2]
    exact Or.comm
  unfold place
  rw [hbody, List.map_map]
  cases ts with
  | nil => exact absurd rfl hne
  | cons u ts =>
    refine ⟨_ :: _, rfl, ?_⟩
    refine .cons ((hrep u (by simp)).flags _ _) ?_
    have : ∀ l : List PTok, (∀ u ∈ l, u ∈ u :: ts) → (∀ v ∈ l, Rep f (s.text :: H) ⟨v.kind, v.text, s.line⟩
      { ({ v with hs := hsUnion v.hs (hsUnion t.hs [s.text]), own := false } : PTok) with origin := some (root t) }) →
      All2 (Rep f (s.text :: H)) ((l.map fun u => (u.kind, u.text)).map fun x => (⟨x.1, x.2, s.line⟩ : SrcTok))
        (l.map ((fun u => { u with origin := some (root t) }) ∘ fun u => { u with hs := hsUnion u.hs (hsUnion t.hs [s.text]), own := false })) := by
      intro l _ h
      clear hb hrep hbody
      induction l with
      | nil => exact .nil
      | cons v l ih => exact .cons (h v (by simp)) (ih (by simp) fun w hw => h w (by simp [hw]))
    exact this ts (by simp) fun v hv => hrep v (by simp [hv])

/-! ### Text -/

theorem knows_at {D : Bytes → Meaning} {st : St} (h : Knows D st) (c : Nat) : Knows D { st with counter := c } := h

theorem shown_at {st : St} {f : FileRef} {p : Pres} (h : Shown st f p) (c : Nat) : Shown { st with counter := c } f p := h

theorem becomes_steps {D : Bytes → Meaning} {env : Env} {f : FileRef} {p : Pres} (hn : (10 : UInt8) ∉ p.name) (hb : (10 : UInt8) ∉ env.base)
    {H : List Bytes} {c c' : Nat} {ss : List SrcTok} {os : List Out} (h : Becomes D env.base p H c ss os c') :
    ∀ (st : St), Knows D st → Shown st f p → st.counter = c → ∀ (ts r : List PTok), All2 (Rep f H) ss ts →
      ∃ out, Steps env st (ts ++ r) out { st with counter := c' } r ∧ All2 Out.IsTok os out := by
  induction h with
  | nil =>
    intro st _ _ hc ts r ha
    cases ha
    subst hc
    exact ⟨[], Steps.refl _ _ _, .nil⟩
  | same hs _ ih =>
    intro st hk hsh hc ts r ha
    cases ha with
    | @cons s t _ ts hr ha =>
    obtain ⟨out, g1, g2⟩ := ih st hk hsh hc ts r ha
    obtain ⟨r1, r2, r3, r4, r5, r6⟩ := hr
    refine ⟨mark st t :: out, (Steps.pass (r := ts ++ r) r5 (by unfold isHash PTok.is; simp [r6]) ?_).trans g1, .cons ⟨r1, r2⟩ g2⟩
    rcases hs with hs | hs | hs
    · left; unfold findMacro; rw [if_neg (by simp [r1, hs])]
    · left
      unfold findMacro
      split
      · have := hk t.text
        rw [r2, hs] at this
        rw [r2]; exact this
      · rfl
    · right; rw [hsContains_iff, r4, r2]; exact hs
  | line hki hnh hd hv _ ih =>
    intro st hk hsh hc ts r ha
    cases ha with
    | @cons s t _ ts hr ha =>
    obtain ⟨out, g1, g2⟩ := ih st hk hsh hc ts r ha
    obtain ⟨r1, r2, r3, r4, r5, r6⟩ := hr
    have hm := hk t.text
    rw [r2, hd] at hm
    obtain ⟨m, hm, hh⟩ := hm
    obtain ⟨x, x1, x2, x3⟩ := newNum_tok env _ t
    refine ⟨mark st x :: out, (Steps.expand (l := x :: (ts ++ r)) (st' := st) r5 fun n => ?_).trans ((pass_out (.inl x2.1) (num_not_hash x2)).trans g1), .cons (mark_tok _ _ _ x2) g2⟩
    unfold expandMacro
    rw [if_neg (by rw [hsContains_iff, r4, r2]; exact hnh), show findMacro st t = some m from by unfold findMacro; rw [if_pos (by simp [r1, hki]), r2, hm]]
    simp only [hh]
    unfold runHandler
    rw [r3]
    simp only
    rw [hsh]
    simp only [hv, x1, Except.map]
    rfl
  | file hki hnh hd _ ih =>
    intro st hk hsh hc ts r ha
    cases ha with
    | @cons s t _ ts hr ha =>
    obtain ⟨out, g1, g2⟩ := ih st hk hsh hc ts r ha
    obtain ⟨r1, r2, r3, r4, r5, r6⟩ := hr
    have hm := hk t.text
    rw [r2, hd] at hm
    obtain ⟨m, hm, hh⟩ := hm
    obtain ⟨x, x1, x2, x3⟩ := newStr_tok env p.name t hn
    refine ⟨mark st x :: out, (Steps.expand (l := x :: (ts ++ r)) (st' := st) r5 fun n => ?_).trans ((pass_out (.inr x2.1) (str_not_hash hn x1)).trans g1), .cons (mark_tok _ _ _ x2) g2⟩
    unfold expandMacro
    rw [if_neg (by rw [hsContains_iff, r4, r2]; exact hnh), show findMacro st t = some m from by unfold findMacro; rw [if_pos (by simp [r1, hki]), r2, hm]]
    simp only [hh]
    unfold runHandler
    rw [r3]
    simp only
    rw [hsh]
    simp only [x1, Except.map]
    rfl
  | baseFile hki hnh hd _ ih =>
    intro st hk hsh hc ts r ha
    cases ha with
    | @cons s t _ ts hr ha =>
    obtain ⟨out, g1, g2⟩ := ih st hk hsh hc ts r ha
    obtain ⟨r1, r2, r3, r4, r5, r6⟩ := hr
    have hm := hk t.text
    rw [r2, hd] at hm
    obtain ⟨m, hm, hh⟩ := hm
    obtain ⟨x, x1, x2, x3⟩ := newStr_tok env env.base t hb
    refine ⟨mark st x :: out, (Steps.expand (l := x :: (ts ++ r)) (st' := st) r5 fun n => ?_).trans ((pass_out (.inr x2.1) (str_not_hash hb x1)).trans g1), .cons (mark_tok _ _ _ x2) g2⟩
    unfold expandMacro
    rw [if_neg (by rw [hsContains_iff, r4, r2]; exact hnh), show findMacro st t = some m from by unfold findMacro; rw [if_pos (by simp [r1, hki]), r2, hm]]
    simp only [hh]
    unfold runHandler
    simp only [x1, Except.map]
    rfl
  | @counter H c _ _ _ _ hki hnh hd _ ih =>
    intro st hk hsh hc ts r ha
    cases ha with
    | @cons s t _ ts hr ha =>
    obtain ⟨out, g1, g2⟩ := ih { st with counter := c + 1 } hk hsh rfl ts r ha
    obtain ⟨r1, r2, r3, r4, r5, r6⟩ := hr
    have hm := hk t.text
    rw [r2, hd] at hm
    obtain ⟨m, hm, hh⟩ := hm
    obtain ⟨x, x1, x2, x3⟩ := newNum_tok env c t
    refine ⟨mark { st with counter := c + 1 } x :: out, (Steps.expand (l := x :: (ts ++ r)) (st' := { st with counter := c + 1 }) r5 fun n => ?_).trans ((pass_out (.inl x2.1) (num_not_hash x2)).trans g1), .cons (mark_tok _ _ _ x2) g2⟩
    unfold expandMacro
    rw [if_neg (by rw [hsContains_iff, r4, r2]; exact hnh), show findMacro st t = some m from by unfold findMacro; rw [if_pos (by simp [r1, hki]), r2, hm]]
    simp only [hh]
    unfold runHandler
    simp only [hc, x1, Except.map]
    rfl
  | @object H c _ _ _ _ c1 _ b hki hnh hd hne _ _ ih1 ih2 =>
    intro st hk hsh hc ts r ha
    cases ha with
    | @cons s t _ ts hr ha =>
    have hm := hk t.text
    rw [hr.2.1, hd] at hm
    obtain ⟨m, bs, hm, m1, m2, m3, m4, m5, m6⟩ := hm
    obtain ⟨us, q1, q2⟩ := place_rep hr (ts := bs) (by rintro rfl; exact hne (by rw [← m5]; rfl)) m6 (ts ++ r)
    rw [m5] at q2
    obtain ⟨o1, g1, g2⟩ := ih1 st hk hsh hc us (ts ++ r) q2
    obtain ⟨o2, g3, g4⟩ := ih2 { st with counter := c1 } hk hsh rfl ts r ha
    obtain ⟨r1, r2, r3, r4, r5, r6⟩ := hr
    refine ⟨o1 ++ o2, ((Steps.expand (l := us ++ (ts ++ r)) (st' := st) r5 fun n => ?_).trans g1).trans g3, g2.append g4⟩
    unfold expandMacro
    rw [if_neg (by rw [hsContains_iff, r4, r2]; exact hnh), show findMacro st t = some m from by unfold findMacro; rw [if_pos (by simp [r1, hki]), r2, hm]]
    simp only [m1, m2, if_true, m3, m4]
    rw [show place t (hsUnion t.hs [_]) _ (List.append ts r) = _ from q1]

/-! ### Line markers -/

/-- The state after a line marker in file `id` on line `l`. -/
def afterMarker (st : St) (id : Nat) (s : Bytes) (d : Int) : St := { st with lines := (id, (s, d)) :: st.lines.filter fun p => p.1 != id }

theorem after_shown (st : St) (id : Nat) (nm s : Bytes) (d : Int) : lineState (afterMarker st id s d) ⟨some id, nm⟩ = (s, d) := by
  unfold lineState afterMarker
  simp

theorem after_others (st : St) (id : Nat) (s : Bytes) (d : Int) (f : FileRef) (h : f.id ≠ some id) : lineState (afterMarker st id s d) f = lineState st f := by
  unfold lineState afterMarker
  cases hf : f.id with
  | none => rfl
  | some n =>
    have hne : n ≠ id := by rintro rfl; exact h hf
    dsimp only
    rw [List.find?_cons_of_neg (by simp; exact fun e => hne e.symm)]
    have : ∀ l : List (Nat × (Bytes × Int)), (l.filter fun p => p.1 != id).find? (fun p => p.1 == n) = l.find? fun p => p.1 == n := by
      intro l
      induction l with
      | nil => rfl
      | cons a l ih =>
        by_cases ha : a.1 = id
        · rw [List.filter_cons_of_neg (by simp [ha]), ih, List.find?_cons_of_neg (by simp [ha]; exact fun e => hne e.symm)]
        · rw [List.filter_cons_of_pos (by simp [ha])]
          by_cases hb : a.1 = n
          · rw [List.find?_cons_of_pos (by simp [hb]), List.find?_cons_of_pos (by simp [hb])]
          · rw [List.find?_cons_of_neg (by simp [hb]), List.find?_cons_of_neg (by simp [hb]), ih]
    rw [this]

/-- The run over the tokens of a marker, which are not replaced. -/
theorem marker_run {env : Env} {st : St} {l : List PTok} {e : PTok} (he : e.isEof = true) (hl : ∀ t ∈ l, (t.kind = .ppNum ∨ t.kind = .str) ∧ t.bol = false) :
    ∀ n, l.length < n → ∃ x, pp env n false st (l ++ [e]) = .ok (st, l.map (mark st) ++ [e], x) := by
  induction l with
  | nil =>
    intro n hn
    cases n with
    | zero => cases hn
    | succ n => exact ⟨[], by rw [List.nil_append, pp, if_pos he]; rfl⟩
  | cons t l ih =>
    intro n hn
    cases n with
    | zero => cases hn
    | succ n =>
      obtain ⟨hk, hb⟩ := hl t (by simp)
      obtain ⟨x, hx⟩ := ih (fun u hu => hl u (by simp [hu])) n (by simp at hn; omega)
      have h1 : t.isEof = false := by unfold PTok.isEof; rcases hk with h | h <;> rw [h] <;> rfl
      have h2 : findMacro st t = none := by unfold findMacro; rcases hk with h | h <;> rw [h] <;> rfl
      have h3 : expandMacro env (pp env n false) st t (l ++ [e]) = .ok none := by
        unfold expandMacro
        split
        · rfl
        · rw [h2]
      rw [List.cons_append, pp, h3]
      simp only [h1, isHash, hb, hx, Bool.false_eq_true, if_false, Bool.false_and, Bool.not_false, if_true]
      exact ⟨_, rfl⟩

theorem takeWhile_name (name : Bytes) (h : (0 : UInt8) ∉ name) : ((name.map UInt8.toNat ++ [0]).takeWhile (· ≠ 0)).map UInt8.ofNat = name := by
  induction name with
  | nil => rfl
  | cons a l ih =>
    have ha : a.toNat ≠ 0 := by
      intro e
      apply h
      have : a = 0 := UInt8.toNat_inj.mp e
      rw [this]; simp
    rw [List.map_cons, List.cons_append, List.takeWhile_cons, if_pos (by simpa using ha), List.map_cons, ih fun hm => h (by simp [hm])]
    simp

theorem lineNumber_const {n : PTok} {v : Nat} (hk : n.kind = .ppNum) (hc : Lex.IntConst n.text v .int) : lineNumber n = some (v : Int) := by
  unfold lineNumber
  rw [hk]
  have := Lex.C17_value_and_type n.text [] v .int hc (by intro b r h; cases h)
  rw [List.append_nil] at this
  simp only [this]

theorem readMarker {env : Env} {st : St} (hc : st.conds = []) {f : FileRef} {id : Nat} (hid : f.id = some id) {n : PTok} {s r : List PTok} {v : Nat} {name : Option Bytes}
    (hb : n.bol = false) (hk : n.kind = .ppNum) (hf : n.file = f) (hv : Lex.IntConst n.text v .int) (hs : NameToks name s) (hr : ∃ u q, r = u :: q ∧ u.bol = true) :
    ∀ k, 4 ≤ k → readLineMarker (pp env k false) st (n :: (s ++ r)) =
      .ok (afterMarker st id (name.getD (lineState st f).1) ((v : Int) - n.line), r) := by
  intro k hk4
  obtain ⟨u, q, rfl, hu⟩ := hr
  have hsb : ∀ t ∈ s, t.bol = false := by cases hs with | none => simp | some h => simpa using h
  have hcl := copyLine_line (n :: s) u q (by intro t ht; rcases List.mem_cons.mp ht with rfl | ht; exact hb; exact hsb t ht) hu
  have hrun := marker_run (env := env) (st := st) (l := (n :: s).map ownTok) (e := ownTok (newEof u)) rfl (by
    intro t0 ht0
    obtain ⟨t, ht, rfl⟩ := List.mem_map.mp ht0
    clear ht0
    rcases List.mem_cons.mp ht with rfl | ht
    · exact ⟨.inl hk, hb⟩
    · cases hs with
      | none => cases ht
      | some h1 h2 h3 => simp only [List.mem_cons, List.not_mem_nil, or_false] at ht; subst ht; exact ⟨.inr h2, h1⟩) k (by
        have : s.length ≤ 1 := by cases hs <;> simp
        simp; omega)
  obtain ⟨x, hx⟩ := hrun
  unfold readLineMarker
  rw [List.cons_append] at hcl
  rw [List.map_cons, List.cons_append] at hx hcl
  simp only [hcl, hx, hc, List.isEmpty_nil, Bool.not_true, Bool.false_eq_true, if_false, List.map_cons, List.cons_append]
  rw [show lineNumber (mark st (ownTok n)) = some (v : Int) from lineNumber_const hk hv]
  simp only [hf, hid]
  cases hs with
  | none => simp only [afterMarker, hc]; rfl
  | @some s nm h1 h2 h3 h4 =>
    have e1 : (mark st (ownTok s)).isEof = false := by show s.isEof = false; unfold PTok.isEof; rw [h2]; rfl
    have e2 : (mark st (ownTok s)).kind = .str := h2
    have e3 : (mark st (ownTok s)).payload = .str .char (nm.map UInt8.toNat ++ [0]) := h3
    simp only [List.map_cons, List.map_nil, List.cons_append, List.nil_append, e1, e2, e3, Bool.false_eq_true, if_false]
    rw [takeWhile_name nm h4]
    simp only [afterMarker, hc]; rfl

end Toycc.Pp.Dyn
