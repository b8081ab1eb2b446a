import Verif.Src.MacRun
/-! Arguments, parameters and the replacement of a macro. -/
namespace Toycc.Src
open Toycc.Lex (asc Kind IntConst)
open Toycc.Pp (PTok Bytes)
open Toycc.Parse (Tok P)

/-- No token of a program starts with `#`. -/
theorem no_hash {t : Tok} {p : PTok} (h : Is t p) : p.text.head? ≠ some 35 := by
  obtain ⟨hs, -⟩ := h
  generalize p.text = w at hs
  generalize p.kind = k at hs
  have hw : ∀ {s}, Word s → (asc s).head? ≠ some 35 := by
    intro s hw e
    obtain ⟨b, r, e', hb, -⟩ := word_bytes hw
    rw [e'] at e
    injection e with e
    subst e
    exact absurd hb (by decide)
  have hd : ∀ {w v t}, IntConst w v t → w.head? ≠ some 35 := by
    intro w v t hc e
    obtain ⟨a, r, e', h1, -⟩ := const_bytes hc
    rw [e'] at e
    injection e with e
    subst e
    exact absurd h1 (by decide)
  cases hs with
  | sign q => cases q <;> decide +kernel
  | kw hk => exact hw (keyword_isWord _ ((isKeyword_spec _).mp hk))
  | name h => exact hw h
  | int h => exact hd h
  | uint h => exact hd h
  | long h => exact hd h
  | ulong h => exact hd h
  | chr => intro h; cases h

theorem no_hash_is {t : Tok} {p : PTok} (h : Is t p) : p.is "#" = false ∧ p.is "##" = false := by
  have h0 := no_hash h
  have h1 : asc "#" = [35] := by decide +kernel
  have h2 : asc "##" = [35, 35] := by decide +kernel
  constructor
  · cases hc : p.is "#" with
    | false => rfl
    | true =>
      have hx : p.text = asc "#" := by simpa [Pp.PTok.is] using hc
      rw [hx, h1] at h0
      exact absurd rfl h0
  · cases hc : p.is "##" with
    | false => rfl
    | true =>
      have hx : p.text = asc "##" := by simpa [Pp.PTok.is] using hc
      rw [hx, h2] at h0
      exact absurd rfl h0

theorem sign_has {p : PTok} {q : P} (h : Is (.p q) p) : p.text = asc (sign q) := by
  obtain ⟨hs, -⟩ := h
  generalize p.text = w at hs ⊢
  generalize p.kind = k at hs
  cases hs with
  | sign => rfl

theorem sign_eq {t : Tok} {p : PTok} (h : Is t p) (q : P) : (p.text == asc (sign q)) = decide (t = .p q) := by
  by_cases ht : t = .p q
  · subst ht
    rw [sign_has h]; simp
  · rw [decide_eq_false ht]
    cases hc : p.text == asc (sign q) with
    | false => rfl
    | true => exact absurd (sign_is h (by simpa using hc)) ht

theorem is_lpar {t : Tok} {p : PTok} (h : Is t p) : p.is "(" = decide (t = .p .lpar) := sign_eq h .lpar
theorem is_rpar {t : Tok} {p : PTok} (h : Is t p) : p.is ")" = decide (t = .p .rpar) := sign_eq h .rpar
theorem is_comma {t : Tok} {p : PTok} (h : Is t p) : p.is "," = decide (t = .p .comma) := sign_eq h .comma

/-! ### Arguments -/

section
variable {R : Tok → PTok → Prop} (hR : ∀ t p, R t p → Is t p)
include hR

theorem readArg_text (rest : Bool) {c : Bool} {a : List Tok} (h : ArgText c a) : ∀ {ps : List PTok} (lvl : Nat) (q : List PTok), Each R a ps → (c = true → rest = true ∨ 0 < lvl) →
    Pp.readArg rest lvl (ps ++ q) = (Pp.readArg rest lvl q).map fun r => (ps.map Pp.ownTok ++ r.1, r.2) := by
  induction h with
  | nil =>
    intro ps lvl q ha _
    cases ha
    cases h : Pp.readArg rest lvl q with
    | error e => simp [h, Except.map]
    | ok r => simp [h, Except.map]
  | @tok c t a h1 h2 h3 _ ih =>
    intro ps lvl q ha hc
    cases ha with
    | @cons _ p _ ps hp ha =>
      have hi := hR _ _ hp
      rw [List.cons_append, Pp.readArg, is_rpar hi, is_comma hi, is_lpar hi, decide_eq_false h1, decide_eq_false h2, (is_hash hi).1]
      have h4 : ((lvl == 0 && !rest && decide (t = .p .comma)) = true) = False := by
        refine eq_false ?_
        intro he
        simp only [Bool.and_eq_true, beq_iff_eq, decide_eq_true_eq, Bool.not_eq_true'] at he
        cases c with
        | true =>
          rcases hc rfl with h | h
          · rw [h] at he; exact absurd he.1.2 (by decide)
          · exact absurd he.1.1 (by omega)
        | false => exact h3 rfl he.2
      simp only [Bool.and_false, Bool.false_eq_true, if_false, h4]
      rw [ih lvl q ha hc]
      cases Pp.readArg rest lvl q <;> rfl
  | @group c a b _ _ ih1 ih2 =>
    intro ps lvl q ha hc
    cases ha with
    | @cons _ p _ ps hp ha =>
      obtain ⟨p1, p2, rfl, ha1, ha2⟩ := ha.split
      cases ha2 with
      | @cons _ p' _ p2 hp' ha2 =>
        have hi := hR _ _ hp
        have hi' := hR _ _ hp'
        rw [List.cons_append, Pp.readArg, is_rpar hi, is_comma hi, is_lpar hi, (is_hash hi).1]
        simp only [show decide (Tok.p .lpar = Tok.p .rpar) = false from rfl, show decide (Tok.p .lpar = Tok.p .comma) = false from rfl, decide_true,
          Bool.and_false, Bool.false_eq_true, if_false, if_true]
        rw [List.append_assoc, ih1 (lvl + 1) _ ha1 (fun _ => .inr (Nat.succ_pos _)), List.cons_append, Pp.readArg, is_rpar hi', is_comma hi', is_lpar hi', (is_hash hi').1]
        simp only [decide_true, show decide (Tok.p .rpar = Tok.p .comma) = false from rfl, show decide (Tok.p .rpar = Tok.p .lpar) = false from rfl,
          Bool.and_false, Bool.false_eq_true, if_false, if_true, Bool.and_true, show (lvl + 1 == 0) = false from rfl, Nat.add_sub_cancel]
        rw [ih2 lvl q ha2 hc]
        cases Pp.readArg rest lvl q with
        | error e => rfl
        | ok r => simp [Except.map]

/-- Reading the argument up to the comma or parenthesis. -/
theorem readArg_end {a : List Tok} (h : ArgText false a) {ps : List PTok} (ha : Each R a ps) {u : Tok} {c : PTok} (hc : R u c) (hu : u = .p .comma ∨ u = .p .rpar) (q : List PTok) :
    Pp.readArg false 0 (ps ++ c :: q) = .ok (ps.map Pp.ownTok ++ [Pp.ownTok (Pp.newEof c)], c :: q) := by
  rw [readArg_text hR false h 0 (c :: q) ha (by intro h; cases h), Pp.readArg, is_rpar (hR _ _ hc), is_comma (hR _ _ hc)]
  rcases hu with rfl | rfl <;> rfl

/-- The arguments that are read: `T` says what an argument is with the tokens read for it. -/
inductive Read (R : Tok → PTok → Prop) : List String → List (List Tok) → List Pp.Arg → Prop where
  | nil : Read R [] [] []
  | cons {p ps a as tl e args v} : Each R a tl → e.isEof = true → e.own = true → Read R ps as args →
      Read R (p :: ps) (a :: as) ({ name := asc p, isVa := v, toks := tl.map Pp.ownTok ++ [e] } :: args)

/-- The arguments after the first. -/
def more (as : List (List Tok)) : List Tok := as.flatMap fun a => .p .comma :: a

theorem sepBy_cons (a : List Tok) (as : List (List Tok)) : sepBy (a :: as) = a ++ more as := by
  induction as generalizing a with
  | nil => simp [sepBy, more]
  | cons b as ih => rw [sepBy, ih]; · rfl
                    · simp

theorem readParams_more : ∀ {ps : List String} {as : List (List Tok)} {tl : List PTok}, as.length = ps.length → (∀ a ∈ as, ArgText false a) → Each R (more as) tl →
    ∀ {u : Tok} {c : PTok} (q : List PTok), u = .p .comma ∨ u = .p .rpar → R u c → ∃ args, Pp.readParams false (ps.map asc) (tl ++ c :: q) = .ok (args, c :: q) ∧ Read R ps as args
  | [], [], tl, _, _, ha, u, c, q, _, _ => by cases ha; exact ⟨[], rfl, .nil⟩
  | p :: ps, a :: as, tl, hl, hat, ha, u, c, q, hu, hc => by
    cases ha with
    | @cons _ k _ tl hk ha =>
      obtain ⟨t1, t2, rfl, ha1, ha2⟩ := Each.split (t1 := a) ha
      obtain ⟨args, h1, h2⟩ := readParams_more (by simpa using hl) (fun b hb => hat b (List.mem_cons_of_mem _ hb)) ha2 q hu hc
      have hrd : Pp.readArg false 0 (t1 ++ (t2 ++ c :: q)) = .ok (t1.map Pp.ownTok ++ [Pp.ownTok (Pp.newEof ((t2 ++ c :: q).headD c))], t2 ++ c :: q) := by
        cases as with
        | nil => cases ha2; exact readArg_end hR (hat a List.mem_cons_self) ha1 hc hu q
        | cons b as =>
          cases ha2 with
          | cons hk2 _ => exact readArg_end hR (hat a List.mem_cons_self) ha1 hk2 (.inl rfl) _
      refine ⟨_, ?_, .cons (e := Pp.ownTok (Pp.newEof ((t2 ++ c :: q).headD c))) (v := false) ha1 rfl rfl h2⟩
      have hkc : (k.is ",") = true := by rw [is_comma (hR _ _ hk)]; rfl
      rw [List.map_cons, Pp.readParams, List.cons_append, Pp.skip, hkc]
      simp only [Bool.false_eq_true, if_false, if_true]
      rw [List.append_assoc, hrd]
      dsimp only
      rw [h1]

theorem readParams_key {ps : List String} {as : List (List Tok)} {tl : List PTok} (hl : as.length = ps.length) (hat : ∀ a ∈ as, ArgText false a) (ha : Each R (sepBy as) tl)
    {u : Tok} {c : PTok} (q : List PTok) (hu : u = .p .comma ∨ u = .p .rpar) (hc : R u c) : ∃ args, Pp.readParams true (ps.map asc) (tl ++ c :: q) = .ok (args, c :: q) ∧ Read R ps as args := by
  cases as with
  | nil =>
    cases ps with
    | nil => cases ha; exact ⟨[], rfl, .nil⟩
    | cons _ _ => cases hl
  | cons a as =>
    cases ps with
    | nil => cases hl
    | cons p ps =>
      rw [sepBy_cons hR] at ha
      obtain ⟨t1, t2, rfl, ha1, ha2⟩ := Each.split (t1 := a) ha
      obtain ⟨args, h1, h2⟩ := readParams_more hR (by simpa using hl) (fun b hb => hat b (List.mem_cons_of_mem _ hb)) ha2 q hu hc
      have hrd : Pp.readArg false 0 (t1 ++ (t2 ++ c :: q)) = .ok (t1.map Pp.ownTok ++ [Pp.ownTok (Pp.newEof ((t2 ++ c :: q).headD c))], t2 ++ c :: q) := by
        cases as with
        | nil => cases ha2; exact readArg_end hR (hat a List.mem_cons_self) ha1 hc hu q
        | cons b as =>
          cases ha2 with
          | cons hk2 _ => exact readArg_end hR (hat a List.mem_cons_self) ha1 hk2 (.inl rfl) _
      refine ⟨_, ?_, .cons (e := Pp.ownTok (Pp.newEof ((t2 ++ c :: q).headD c))) (v := false) ha1 rfl rfl h2⟩
      rw [List.map_cons, Pp.readParams]
      simp only [if_true]
      rw [List.append_assoc, hrd]
      dsimp only
      rw [h1]

theorem readParams_all {ps : List String} {as : List (List Tok)} {tl : List PTok} (hl : as.length = ps.length) (hat : ∀ a ∈ as, ArgText false a) (ha : Each R (sepBy as) tl)
    {c : PTok} (q : List PTok) (hc : R (.p .rpar) c) : ∃ args, Pp.readArgs (ps.map asc) none (tl ++ c :: q) = .ok (args, c, q) ∧ Read R ps as args := by
  obtain ⟨args, h1, h2⟩ := readParams_key hR hl hat ha q (.inr rfl) hc
  refine ⟨args, ?_, h2⟩
  have hcr : (c.is ")") = true := by rw [is_rpar (hR _ _ hc)]; rfl
  unfold Pp.readArgs
  rw [h1]
  simp only [Pp.readVa, hcr, if_true, List.append_nil]

theorem Read.snoc {ps : List String} {as : List (List Tok)} {args : List Pp.Arg} (h : Read R ps as args) {va : String} {w : List Tok} {tl : List PTok} {e : PTok} (ha : Each R w tl) (he : e.isEof = true)
    (ho : e.own = true) : Read R (ps ++ [va]) (as ++ [w]) (args ++ [{ name := asc va, isVa := true, toks := tl.map Pp.ownTok ++ [e] }]) := by
  induction h with
  | nil => exact .cons ha he ho .nil
  | cons h1 h2 h3 _ ih => exact .cons h1 h2 h3 ih

/-- Reading the arguments of a variadic macro. -/
theorem readVar_all {ps : List String} {as : List (List Tok)} {w tx : List Tok} {tl : List PTok} (hl : as.length = ps.length) (hat : ∀ a ∈ as, ArgText false a) (hw : ArgText true w)
    (hv : VarText as w tx) (ha : Each R tx tl) (va : String) {c : PTok} (q : List PTok) (hc : R (.p .rpar) c) :
    ∃ args, Pp.readArgs (ps.map asc) (some (asc va)) (tl ++ c :: q) = .ok (args, c, q) ∧ Read R (ps ++ [va]) (as ++ [w]) args := by
  have hcr : (c.is ")") = true := by rw [is_rpar (hR _ _ hc)]; rfl
  have none : ∀ {as : List (List Tok)}, as.length = ps.length → (∀ a ∈ as, ArgText false a) → Each R (sepBy as) tl →
      ∃ args, Pp.readArgs (ps.map asc) (some (asc va)) (tl ++ c :: q) = .ok (args, c, q) ∧ Read R (ps ++ [va]) (as ++ [[]]) args := by
    intro as hl hat ha
    obtain ⟨args, h1, h2⟩ := readParams_key hR hl hat ha q (.inr rfl) hc
    refine ⟨_, ?_, Read.snoc hR h2 (tl := []) (e := Pp.ownTok (Pp.newEof c)) .nil rfl rfl⟩
    unfold Pp.readArgs
    rw [h1]
    simp only [Pp.readVa, hcr, if_true]
    rfl
  -- the variable arguments
  have var : ∀ {wl : List PTok}, Each R w wl → Pp.readArg true 0 (wl ++ c :: q) = .ok (wl.map Pp.ownTok ++ [Pp.ownTok (Pp.newEof c)], c :: q) := by
    intro wl hwl
    rw [readArg_text hR true hw 0 (c :: q) hwl (fun _ => .inl rfl), Pp.readArg, hcr]
    rfl
  cases hv with
  | none => exact none hl hat ha
  | only =>
    cases ps with
    | cons _ _ => cases hl
    | nil =>
      cases ha with
      | nil => exact none (as := []) rfl (fun _ h => by cases h) .nil
      | @cons t p w tl hp ha =>
        have hpr : p.is ")" = false := by
          rw [is_rpar (hR _ _ hp)]
          refine decide_eq_false ?_
          cases hw with
          | tok _ h _ _ => exact h
          | group _ _ => exact fun e => by cases e
        refine ⟨_, ?_, Read.snoc hR .nil (tl := p :: tl) (e := Pp.ownTok (Pp.newEof c)) (.cons hp ha) rfl rfl⟩
        have hv := var (.cons hp ha)
        unfold Pp.readArgs
        rw [List.map_nil, Pp.readParams]
        dsimp only
        unfold Pp.readVa
        rw [List.cons_append]
        dsimp only
        rw [hpr]
        simp only [Bool.false_eq_true, if_false, List.isEmpty_nil, if_true]
        rw [List.cons_append] at hv
        rw [hv]
        simp only [hcr, if_true]
  | @some a as w =>
    cases ps with
    | nil => cases hl
    | cons p ps =>
      obtain ⟨t1, t2, rfl, ha1, ha2⟩ := Each.split ha
      cases ha2 with
      | @cons _ k _ wl hk ha2 =>
        obtain ⟨args, h1, h2⟩ := readParams_key hR hl hat ha1 (wl ++ c :: q) (.inl rfl) hk
        refine ⟨_, ?_, Read.snoc hR h2 (tl := wl) (e := Pp.ownTok (Pp.newEof c)) ha2 rfl rfl⟩
        have hkr : k.is ")" = false := by rw [is_rpar (hR _ _ hk)]; rfl
        have hkc : k.is "," = true := by rw [is_comma (hR _ _ hk)]; rfl
        unfold Pp.readArgs
        rw [List.append_assoc, List.cons_append, h1]
        dsimp only
        unfold Pp.readVa
        dsimp only
        rw [hkr]
        simp only [Bool.false_eq_true, if_false, List.map_cons, List.isEmpty_cons, Pp.skip, hkc, if_true]
        rw [var ha2]
        simp only [hcr, if_true]

end

/-! ### Arguments are replaced -/

section
variable (env : Pp.Env) (st : Pp.St) (H : List String)

/-- How a list is replaced as an argument: first nodes that all vanish, then from the first on that is passed through. -/
def Splits (ts us : List Tok) : Prop :=
  ∃ t1 t2 u1 u2 z, ts = t1 ++ t2 ∧ us = u1 ++ u2 ∧ Sem env st (defsOf st) (some true) true H t1 u1 z ∧ (t2 = [] ∧ u2 = [] ∨ TailSem env st (defsOf st) H t2 u2)

/-- The nodes of an argument that becomes `x`. -/
def ArgOk (x : List Tok) (l : List PTok) : Prop :=
  (∀ u ∈ x, Stop (defsOf st) H u) ∧ ∃ ts ps e, l = ps ++ [e] ∧ e.isEof = true ∧ e.own = true ∧ Splits env st H ts x ∧ Each (HidT (defsOf st) H) ts ps ∧ ∀ p ∈ ps, p.own = true

variable {env st H}

theorem pp_eof {e : PTok} (he : e.isEof = true) (o : Option (Bool × Bool)) (n : Nat) (top : Bool) : ∃ b sp, Pp.pp env (n + 1) top st (upd o [e]) = .ok (st, [{ e with bol := b, sp := sp }], []) := by
  obtain ⟨b, sp, h⟩ := upd_cons o e []
  refine ⟨b, sp, ?_⟩
  rw [h, Pp.pp]
  have : ({ e with bol := b, sp := sp } : PTok).isEof = true := he
  rw [this]; rfl

theorem dropWhile_own {a b : List PTok} (ha : a.any (·.own) = false) : (a ++ b).dropWhile (fun t => !t.own) = b.dropWhile fun t => !t.own := by
  induction a with
  | nil => rfl
  | cons p a ih =>
    simp only [List.any_cons, Bool.or_eq_false_iff] at ha
    rw [List.cons_append, List.dropWhile_cons, ha.1]
    exact ih ha.2

theorem setFlags_append {b sp : Bool} {a c : List PTok} (h : a ≠ []) : ∃ a', Pp.setFlags b sp (a ++ c) = a' ++ c ∧ a'.any (·.own) = a.any (·.own) := by
  cases a with
  | nil => exact absurd rfl h
  | cons p a => exact ⟨{ p with bol := b, sp := sp } :: a, rfl, rfl⟩

/-- Where the flags end up. -/
theorem residue_eq {b sp : Bool} {pre a c : List PTok} {q : PTok} (ha : a.any (·.own) = false) (hq : q.own = true) :
    ∃ b' sp', Pp.residue pre (Pp.setFlags b sp (a ++ q :: c)) = pre ++ ({ q with bol := b', sp := sp' } :: c).map Pp.tailTok := by
  unfold Pp.residue
  by_cases h : a = []
  · subst h
    refine ⟨b, sp, ?_⟩
    rw [List.nil_append, setFlags_cons, List.dropWhile_cons]
    simp only [hq, Bool.not_true, Bool.false_eq_true, if_false]
  · obtain ⟨a', e, h'⟩ := setFlags_append (b := b) (sp := sp) (c := q :: c) h
    refine ⟨q.bol, q.sp, ?_⟩
    rw [e, dropWhile_own (by rw [h']; exact ha), List.dropWhile_cons, if_neg (by rw [hq]; exact Bool.false_ne_true)]

theorem arg_run {x : List Tok} {l : List PTok} (h : ArgOk env st H x l) : ∃ out e pre N, (∀ n, N ≤ n → Pp.pp env n false st l = .ok (st, out ++ [e], pre)) ∧ e.isEof = true ∧
    Each (OutT H) x out ∧ ∀ b sp, ArgOk env st H x (Pp.residue pre (Pp.setFlags b sp (out ++ [e]))) := by
  obtain ⟨hst, ts, ps, e, rfl, he, heo, ⟨t1, t2, u1, u2, z, rfl, rfl, hs1, hs2⟩, ha, ho⟩ := h
  obtain ⟨p1, p2, rfl, ha1, ha2⟩ := ha.split
  obtain ⟨out1, pre1, o1, a1, ⟨k, N, a2⟩, -, -, a5⟩ := hs1 false p1 (p2 ++ [e]) none ha1 (fun x e p hp => by cases e; exact ho p (List.mem_append_left _ hp)) (by simp)
  obtain ⟨i1, i2, i3⟩ := a5 rfl
  rw [List.append_assoc]
  replace a2 : ∀ n, N ≤ n → Pp.pp env (n + k) false st (p1 ++ (p2 ++ [e])) = _ := a2
  rcases hs2 with ⟨rfl, rfl⟩ | ht
  · cases ha2
    obtain ⟨b1, sp1, -⟩ := pp_eof (env := env) (st := st) he o1 0 false
    have hend : ∃ e', e'.isEof = true ∧ e'.own = true ∧ ∀ n, Pp.pp env (n + 1) false st (upd o1 ([] ++ [e])) = .ok (st, [e'], []) := by
      obtain ⟨b1, sp1, hu⟩ := upd_cons o1 e []
      refine ⟨_, (by exact he : ({ e with bol := b1, sp := sp1 } : PTok).isEof = true), heo, fun n => ?_⟩
      rw [List.nil_append, hu, Pp.pp]
      have : ({ e with bol := b1, sp := sp1 } : PTok).isEof = true := he
      rw [this]; rfl
    obtain ⟨e', he', heo', hend⟩ := hend
    refine ⟨out1, e', pre1, N + 1 + k, fun n hn => ?_, he', by rw [List.append_nil]; exact a1, fun b sp => ?_⟩
    · obtain ⟨m, rfl⟩ : ∃ m, n = m + 1 + k := ⟨n - 1 - k, by omega⟩
      rw [a2 (m + 1) (by omega), hend m]
      simp only [Except.map, addTo, i1, Bool.false_eq_true, if_false, List.append_nil]
    · obtain ⟨b', sp', hr⟩ := residue_eq (b := b) (sp := sp) (pre := pre1) (c := []) (q := e') i1 heo'
      rw [hr]
      refine ⟨hst, t1, pre1, _, rfl, he', rfl, ⟨t1, [], u1, [], z, by simp, by simp, hs1, .inl ⟨rfl, rfl⟩⟩, i2, i3⟩
  · obtain ⟨q, out2, o2, c1, ⟨k2, N2, c2⟩, c3⟩ := ht false p2 [e] o1 ha2 (fun p hp => ho p (List.mem_append_right _ hp)) (by simp)
    have hend : ∃ e', e'.isEof = true ∧ e'.own = true ∧ ∀ n, Pp.pp env (n + 1) false st (upd o2 [e]) = .ok (st, [e'], []) := by
      obtain ⟨b1, sp1, hu⟩ := upd_cons o2 e []
      refine ⟨_, (by exact he : ({ e with bol := b1, sp := sp1 } : PTok).isEof = true), heo, fun n => ?_⟩
      rw [hu, Pp.pp]
      have : ({ e with bol := b1, sp := sp1 } : PTok).isEof = true := he
      rw [this]; rfl
    obtain ⟨e', he', heo', hend⟩ := hend
    refine ⟨out1 ++ q :: out2, e', pre1, max N N2 + 1 + k2 + k, fun n hn => ?_, he', a1.append c1, fun b sp => ?_⟩
    · obtain ⟨m, rfl⟩ : ∃ m, n = m + 1 + k2 + k := ⟨n - 1 - k2 - k, by omega⟩
      rw [a2 (m + 1 + k2) (by omega), c2 (m + 1) (by omega), hend m]
      simp only [Except.map, addTo, i1, Bool.false_eq_true, if_false, List.append_nil, List.any_cons, c3, Bool.true_or, if_true, List.append_assoc]
    · obtain ⟨b', sp', hr⟩ := residue_eq (b := b) (sp := sp) (pre := pre1) (c := out2 ++ [e']) (q := q) i1 c3
      rw [List.append_assoc, List.cons_append, hr]
      have hdead : ∀ u ∈ u2, Stop (defsOf st) H u := fun u hu => hst u (List.mem_append_right _ hu)
      have htl : TailSem env st (defsOf st) H u2 u2 := by
        cases u2 with
        | nil => cases c1
        | cons u us =>
          obtain ⟨z', hz⟩ := dead_sem (env := env) (st := st) (us := us) fun v hv => hdead v (List.mem_cons_of_mem _ hv)
          exact TailSem.cons (.inl (hdead u List.mem_cons_self)) hz
      refine ⟨hst, t1 ++ u2, pre1 ++ ({ q with bol := b', sp := sp' } :: out2).map Pp.tailTok, Pp.tailTok e', by simp, he', rfl, ⟨t1, u2, u1, u2, z, rfl, rfl, hs1, .inr htl⟩, i2.append ?_, ?_⟩
      · have : Each (OutT H) u2 ({ q with bol := b', sp := sp' } :: out2) := by
          cases c1 with
          | cons h h' => exact .cons h h'
        exact this.map fun t p ht h => ⟨h.1, h.2, .inl (hdead t ht)⟩
      · intro p hp
        rcases List.mem_append.mp hp with h | h
        · exact i3 p h
        · obtain ⟨r, -, rfl⟩ := List.mem_map.mp h
          rfl

/-! ### subst -/

/-- The arguments have what belongs to the parameters. -/
def Given (env : Pp.Env) (st : Pp.St) (H : List String) (σ : List (String × List Tok)) (args : List Pp.Arg) : Prop :=
  (∀ a ∈ args, ∃ s, Word s ∧ a.name = asc s) ∧
  ∀ s, Word s → (σ.lookup s = none → args.find? (fun a => a.name == asc s) = none) ∧
    ∀ x, σ.lookup s = some x → ∃ a, args.find? (fun a => a.name == asc s) = some a ∧ ArgOk env st H x a.toks

theorem given_read {D : Defs} {ps : List String} {as : List (List Tok)} {args : List Pp.Arg} (h : Read (HidT D H) ps as args) :
    ∀ {xs : List (List Tok)}, xs.length = ps.length → (∀ p ∈ ps, Word p) → (∀ q ∈ as.zip xs, ∀ tl e, Each (HidT D H) q.1 tl → e.isEof = true → e.own = true → ArgOk env st H q.2 (tl.map Pp.ownTok ++ [e])) →
    Given env st H (ps.zip xs) args := by
  induction h with
  | nil =>
    intro xs hl _ _
    refine ⟨(fun a ha => by cases ha), fun s _ => ⟨fun _ => rfl, fun x hx => ?_⟩⟩
    rw [List.zip_nil_left] at hx
    cases hx
  | @cons p ps a as tl e args v h1 h2 h3 _ ih =>
    intro xs hl hw hx
    cases xs with
    | nil => cases hl
    | cons x xs =>
      obtain ⟨i1, i2⟩ := ih (xs := xs) (by simpa using hl) (fun q hq => hw q (List.mem_cons_of_mem _ hq)) (fun q hq => hx q (by rw [List.zip_cons_cons]; exact List.mem_cons_of_mem _ hq))
      have hwp := hw p List.mem_cons_self
      refine ⟨?_, fun s hs => ?_⟩
      · intro b hb
        rcases List.mem_cons.mp hb with rfl | hb
        · exact ⟨p, hwp, rfl⟩
        · exact i1 b hb
      · rw [List.zip_cons_cons, List.lookup_cons, List.find?_cons]
        by_cases hsp : s = p
        · subst hsp
          simp only [BEq.rfl]
          refine ⟨(fun h => by cases h), fun y hy => ?_⟩
          cases hy
          exact ⟨_, rfl, hx (a, x) (by rw [List.zip_cons_cons]; exact List.mem_cons_self) tl e h1 h2 h3⟩
        · have e1 : (s == p) = false := by simpa using hsp
          have e2 : (asc p == asc s) = false := by
            cases hc : asc p == asc s with
            | false => rfl
            | true => exact absurd (asc_inj (word_ascii hwp) (word_ascii hs) (by simpa using hc)).symm hsp
          simp only [e1, e2]
          exact i2 s hs

theorem find_setArg (args : List Pp.Arg) (nme : Bytes) (l : List PTok) (k : Bytes) :
    (Pp.setArg args nme l).find? (fun a => a.name == k) = (args.find? (fun a => a.name == k)).map fun a => if a.name == nme then { a with toks := l } else a := by
  induction args with
  | nil => rfl
  | cons a args ih =>
    unfold Pp.setArg at ih ⊢
    rw [List.map_cons, List.find?_cons, List.find?_cons]
    have : (if a.name == nme then { a with toks := l } else a).name = a.name := by split <;> rfl
    rw [this]
    cases a.name == k with
    | true => rfl
    | false => exact ih

theorem given_set {σ : List (String × List Tok)} {args : List Pp.Arg} (h : Given env st H σ args) {s : String} (hw : Word s) {x : List Tok} (hx : σ.lookup s = some x) {l : List PTok}
    (hl : ArgOk env st H x l) : Given env st H σ (Pp.setArg args (asc s) l) := by
  obtain ⟨h1, h2⟩ := h
  refine ⟨?_, fun r hr => ⟨fun hn => ?_, fun y hy => ?_⟩⟩
  · intro a ha
    obtain ⟨b, hb, rfl⟩ := List.mem_map.mp ha
    obtain ⟨r, hr, e⟩ := h1 b hb
    refine ⟨r, hr, ?_⟩
    rw [← e]; split <;> rfl
  · rw [find_setArg, (h2 r hr).1 hn]; rfl
  · obtain ⟨a, ha, hk⟩ := (h2 r hr).2 y hy
    rw [find_setArg, ha]
    refine ⟨_, rfl, ?_⟩
    have hname : a.name = asc r := by simpa using List.find?_some ha
    dsimp only
    rw [hname]
    by_cases hsr : r = s
    · subst hsr
      rw [hy] at hx
      cases hx
      rw [if_pos (by simp)]
      exact hl
    · rw [if_neg]
      · exact hk
      · intro hc
        exact hsr (asc_inj (word_ascii hr) (word_ascii hw) (by simpa using hc))

/-- A token of the replacement list with arguments in the place of parameters. -/
def SubT (st : Pp.St) (H : List String) (t : Tok) (p : PTok) : Prop :=
  Is t p ∧ (p.hs = [] ∨ HasHid H p ∧ Stop (defsOf st) H t)

theorem name_word {t : Tok} {p : PTok} {s : String} (h : Is t p) (ht : nameOf t = some s) : Word s ∧ p.text = asc s := by
  have : t = .ident s ∨ t = .kw s := by cases t <;> simp_all [nameOf]
  refine ⟨?_, (is_name h this).2.1⟩
  obtain ⟨hs, -⟩ := h
  generalize p.text = w at hs
  generalize p.kind = k at hs
  rcases this with rfl | rfl
  · cases hs with
    | name h => exact h
  · cases hs with
    | kw h => exact keyword_isWord _ ((isKeyword_spec _).mp h)

theorem find_none {t : Tok} {p : PTok} {args : List Pp.Arg} (hi : Is t p) (ht : nameOf t = none) (ha : ∀ a ∈ args, ∃ s, Word s ∧ a.name = asc s) : Pp.findArg args p = none := by
  unfold Pp.findArg
  rw [List.find?_eq_none]
  intro a hm hc
  obtain ⟨s, hw, e⟩ := ha a hm
  have := word_is hi hw (by rw [← e]; exact (by simpa using hc : a.name = p.text).symm)
  rw [this] at ht
  unfold nm at ht
  split at ht <;> cases ht

theorem body_each {R : Tok → PTok → Prop} (hR : ∀ t p, R t p → Is t p) {ts : List Tok} {ps : List PTok} (h : Each R ts ps) {e : PTok} (he : e.isEof = true) (r : List PTok) : Pp.body (ps ++ e :: r) = ps := by
  induction h with
  | nil => simp [Pp.body, he]
  | cons h _ ih =>
    unfold Pp.body at ih ⊢
    rw [List.cons_append, List.takeWhile_cons, (is_hash (hR _ _ h)).1]
    simp only [Bool.not_false, if_true, ih]

theorem subst_run (hstrict : env.strict = false) {σ : List (String × List Tok)} {e : PTok} (he : e.isEof = true) (het : e.text = []) :
    ∀ {b : List Tok} {bs : List PTok} {args : List Pp.Arg}, Each Is b bs → (∀ p ∈ bs, p.hs = []) → .ident "__VA_OPT__" ∉ b → Given env st H σ args →
    ∃ out N, Each (SubT st H) (substT σ b) out ∧ ∀ n, N ≤ n → ∀ acc, Pp.subst env (Pp.pp env n false) { st := st, args := args, acc := acc, rest := bs ++ [e] } = .ok (st, acc.reverse ++ (out ++ [e])) := by
  intro b bs args ha
  induction ha generalizing args with
  | nil =>
    intro _ _ _
    refine ⟨[], 0, .nil, fun n _ acc => ?_⟩
    rw [List.nil_append, Pp.subst]
    dsimp only
    rw [he]; rfl
  | @cons t p b bs hi ha ih =>
    intro hhs hva hg
    obtain ⟨n1, n2⟩ := no_hash_is hi
    have hnext : Pp.nextIs (bs ++ [e]) "##" = false := by
      unfold Pp.nextIs
      cases ha with
      | nil => show e.is "##" = false; unfold Pp.PTok.is; rw [het]; decide +kernel
      | cons h _ => exact (no_hash_is h).2
    have hvo : p.is "__VA_OPT__" = false := by
      cases hc : p.is "__VA_OPT__" with
      | false => rfl
      | true =>
        have hx : p.text = asc "__VA_OPT__" := by simpa [Pp.PTok.is] using hc
        have hw : Word "__VA_OPT__" := ⟨'_', "_VA_OPT__".toList, by decide, .inr (.inr rfl), by unfold Letter; decide⟩
        have := word_is hi hw hx
        rw [show nm "__VA_OPT__" = .ident "__VA_OPT__" by decide +kernel] at this
        exact absurd (this ▸ List.mem_cons_self) hva
    have hhs' : ∀ q ∈ bs, q.hs = [] := fun q hq => hhs q (List.mem_cons_of_mem _ hq)
    have hva' : Tok.ident "__VA_OPT__" ∉ b := fun h => hva (List.mem_cons_of_mem _ h)
    have hne : p.isEof = false := (is_hash hi).1
    -- a token that is no parameter
    have plain : Pp.findArg args p = none → (∀ n acc, Pp.substStep env (Pp.pp env n false) { st := st, args := args, acc := acc, rest := p :: (bs ++ [e]) } p (bs ++ [e]) =
        .ok { st := st, args := args, acc := Pp.copyTok p :: acc, rest := bs ++ [e] }) := by
      intro hf n acc
      unfold Pp.substStep
      simp only [n1, n2, hnext, hvo, hf, Bool.and_false, Bool.false_and, Bool.false_eq_true, if_false]
    have step : ∀ {n acc s'}, Pp.substStep env (Pp.pp env n false) { st := st, args := args, acc := acc, rest := p :: (bs ++ [e]) } p (bs ++ [e]) = .ok s' →
        Pp.subst env (Pp.pp env n false) { st := st, args := args, acc := acc, rest := p :: (bs ++ [e]) } = Pp.subst env (Pp.pp env n false) s' := by
      intro n acc s' h
      conv => lhs; rw [Pp.subst]
      dsimp only
      rw [hne]
      simp only [Bool.false_eq_true, if_false]
      split
      · next e' h' => rw [h] at h'; cases h'
      · next s2 h' => rw [h] at h'; cases h'; rfl
    have keep : Pp.findArg args p = none → substT σ (t :: b) = t :: substT σ b → ∃ out N, Each (SubT st H) (substT σ (t :: b)) out ∧
        ∀ n, N ≤ n → ∀ acc, Pp.subst env (Pp.pp env n false) { st := st, args := args, acc := acc, rest := p :: bs ++ [e] } = .ok (st, acc.reverse ++ (out ++ [e])) := by
      intro hf hs
      obtain ⟨out, N, h1, h2⟩ := ih hhs' hva' hg
      refine ⟨Pp.copyTok p :: out, N, ?_, fun n hn acc => ?_⟩
      · rw [hs]
        exact .cons ⟨hi, .inl (hhs p List.mem_cons_self)⟩ h1
      · rw [List.cons_append, step (plain hf n acc), h2 n hn]
        simp
    cases hnm : nameOf t with
    | none => exact keep (find_none hi hnm hg.1) (by rw [substT, hnm]; rfl)
    | some s =>
      obtain ⟨hw, htx⟩ := name_word hi hnm
      cases hl : σ.lookup s with
      | none =>
        refine keep ?_ (by rw [substT, hnm]; dsimp only; rw [hl]; rfl)
        have := (hg.2 s hw).1 hl
        unfold Pp.findArg
        rw [htx]; exact this
      | some x =>
        obtain ⟨a, hf, hk⟩ := (hg.2 s hw).2 x hl
        have hname : a.name = asc s := by simpa using List.find?_some hf
        obtain ⟨out1, e1, pre, N1, r1, r2, r3, r4⟩ := arg_run hk
        obtain ⟨out, N, h1, h2⟩ := ih (args := Pp.setArg args (asc s) (Pp.residue pre (Pp.setFlags p.bol p.sp (out1 ++ [e1])))) hhs' hva' (given_set hg hw hl (r4 p.bol p.sp))
        have hfl : ∃ o2 e2, Pp.setFlags p.bol p.sp (out1 ++ [e1]) = o2 ++ [e2] ∧ e2.isEof = true ∧ Each (OutT H) x o2 := by
          cases r3 with
          | nil => exact ⟨[], _, rfl, r2, .nil⟩
          | cons h h' => exact ⟨_ :: _, e1, rfl, r2, .cons h h'⟩
        obtain ⟨o2, e2, f1, f2, f3⟩ := hfl
        have hstep : ∀ n, N1 ≤ n → ∀ acc, Pp.substStep env (Pp.pp env n false) { st := st, args := args, acc := acc, rest := p :: (bs ++ [e]) } p (bs ++ [e]) =
            .ok { st := st, args := Pp.setArg args (asc s) (Pp.residue pre (Pp.setFlags p.bol p.sp (out1 ++ [e1]))), acc := (o2.map Pp.copyTok).reverse ++ acc, rest := bs ++ [e] } := by
          intro n hn acc
          have hf' : Pp.findArg args p = some a := by unfold Pp.findArg; rw [htx]; exact hf
          unfold Pp.substStep
          simp only [n1, n2, hnext, hvo, hf', Bool.and_false, Bool.false_and, Bool.false_eq_true, if_false]
          unfold Pp.substArg
          dsimp only
          rw [r1 n hn]
          have hne1 : ∃ y ys, out1 ++ [e1] = y :: ys := by cases out1 <;> exact ⟨_, _, rfl⟩
          obtain ⟨y, ys, hy⟩ := hne1
          dsimp only
          rw [hy]
          dsimp only
          rw [← hy, hstrict, hname, f1, body_each (fun _ _ h => h.1) f3 f2 []]
          simp only [Bool.false_and, Bool.false_eq_true, if_false]
        refine ⟨o2.map Pp.copyTok ++ out, max N N1, ?_, fun n hn acc => ?_⟩
        · rw [substT, hnm]
          dsimp only
          rw [hl]
          refine Each.append (f3.map fun u q hu h => ?_) h1
          exact ⟨h.1, .inr ⟨h.2, hk.1 u hu⟩⟩
        · rw [List.cons_append, step (hstep n (by omega) acc), h2 n (by omega)]
          simp

/-! ### Macros -/

theorem not_stop {H : List String} {t : Tok} {s : String} {b : List Tok} {m : Pp.Macro} (ht : t = .ident s ∨ t = .kw s) (hn : s ∉ H) (hm : IsMacro st s b m) : ¬ Stop (defsOf st) H t := by
  intro h
  rcases h s ht with h | h
  · have : Pp.lookup st (asc s) = none := h
    rw [hm.found] at this; cases this
  · exact hn h

theorem exact_hs {H : List String} {t : Tok} {p : PTok} {s : String} {b : List Tok} {m : Pp.Macro} (h : HidT (defsOf st) H t p) (ht : t = .ident s ∨ t = .kw s) (hn : s ∉ H) (hm : IsMacro st s b m) :
    (∀ r, ascii r → asc r ∈ p.hs → r ∈ H) ∧ Pp.hsContains p.hs p.text = false := by
  have h1 : ∀ r, ascii r → asc r ∈ p.hs → r ∈ H := by
    rcases h.2.2 with h' | h'
    · exact absurd h' (not_stop ht hn hm)
    · exact h'
  refine ⟨h1, ?_⟩
  obtain ⟨-, htx, has⟩ := is_name h.1 ht
  cases hc : Pp.hsContains p.hs p.text with
  | false => rfl
  | true =>
    rw [Pp.hsContains_iff, htx] at hc
    exact absurd (h1 s has hc) hn

theorem place_each {D : Defs} {H : List String} {s : String} (has : ascii s) {b : List Tok} {bs : List PTok} {e q : PTok} {hs : List Bytes} (he : e.isEof = true) (h : Each (SubT st H) b bs)
    (h1 : ∀ r ∈ H, asc r ∈ hs) (h2 : ∀ r, ascii r → asc r ∈ hs → r ∈ H) (hD : D = defsOf st) :
    ∃ qs, Each (HidT D (s :: H)) b qs ∧ (∀ p ∈ qs, p.own = false) ∧ ∀ rest, rest ≠ [] → ∀ bo sp,
      Pp.place { q with bol := bo, sp := sp } (Pp.hsUnion hs [asc s]) (bs ++ [e]) rest = .ok (Pp.setFlags bo sp (qs ++ rest)) := by
  subst hD
  refine ⟨(Pp.addHideset bs (Pp.hsUnion hs [asc s])).map fun u => { u with origin := some (Pp.root q) }, ?_, ?_, fun rest hr bo sp => ?_⟩
  · unfold Pp.addHideset
    rw [List.map_map]
    refine h.map fun t p _ hp => ⟨hp.1, ?_, ?_⟩
    · intro r hr
      show asc r ∈ Pp.hsUnion p.hs (Pp.hsUnion hs [asc s])
      unfold Pp.hsUnion
      rcases List.mem_cons.mp hr with rfl | hr
      · simp
      · exact List.mem_append_right _ (List.mem_append_left _ (h1 r hr))
    · rcases hp.2 with h0 | ⟨-, hstop⟩
      · refine .inr fun r har hr => ?_
        replace hr : asc r ∈ Pp.hsUnion p.hs (Pp.hsUnion hs [asc s]) := hr
        unfold Pp.hsUnion at hr
        rw [h0, List.nil_append] at hr
        rcases List.mem_append.mp hr with hr | hr
        · exact List.mem_cons_of_mem _ (h2 r har hr)
        · rw [asc_inj har has (by simpa using hr)]; exact List.mem_cons_self
      · refine .inl fun r hr => ?_
        rcases hstop r hr with h | h
        · exact .inl h
        · exact .inr (List.mem_cons_of_mem _ h)
  · intro p hp
    unfold Pp.addHideset at hp
    rw [List.map_map] at hp
    obtain ⟨u, -, rfl⟩ := List.mem_map.mp hp
    rfl
  · unfold Pp.place
    have hb : Pp.body (Pp.addHideset (bs ++ [e]) (Pp.hsUnion hs [asc s])) = Pp.addHideset bs (Pp.hsUnion hs [asc s]) := by
      unfold Pp.addHideset
      rw [List.map_append]
      have : Each Is b (bs.map fun t : PTok => { t with hs := Pp.hsUnion t.hs (Pp.hsUnion hs [asc s]), own := false }) := h.map fun t p _ hp => hp.1
      exact body_each (R := Is) (fun _ _ h => h) this (by exact he) []
    rw [hb]
    show (match List.map (fun u : PTok => { u with origin := some (Pp.root q) }) _ ++ rest with | [] => _ | l => _) = _
    generalize List.map (fun u : PTok => { u with origin := some (Pp.root q) }) (Pp.addHideset bs (Pp.hsUnion hs [asc s])) = l
    cases l with
    | nil =>
      cases rest with
      | nil => exact absurd rfl hr
      | cons _ _ => rfl
    | cons _ _ => rfl

theorem each_hs {b : List Tok} {bs : List PTok} (ha : All b bs) (hh : ∀ p ∈ bs, p.hs = []) : Each (SubT st H) b bs := by
  induction ha with
  | nil => exact .nil
  | cons h _ ih => exact .cons ⟨h, .inl (hh _ List.mem_cons_self)⟩ (ih fun q hq => hh q (List.mem_cons_of_mem _ hq))

theorem inter_mem {a b : List Bytes} {x : Bytes} : x ∈ Pp.hsInter a b ↔ x ∈ a ∧ x ∈ b := by
  rw [← Pp.hsContains_iff, Pp.hsInter_mem, Pp.hsContains_iff, Pp.hsContains_iff]

theorem sem_replace {b' : Option Bool} {full : Bool} {H : List String} {t : Tok} {s : String} {b us : List Tok} {z : Bool} (ht : t = .ident s ∨ t = .kw s) (hn : s ∉ H) (hD : (defsOf st).obj s b)
    (h : Sem env st (defsOf st) (some false) true (s :: H) b us z) : Sem env st (defsOf st) b' full H [t] us z := by
  obtain ⟨m, hm, ho⟩ := hD
  refine Sem.chunk (s := s) (body := b) (fun ps rest ha hr => ?_) h
  cases ha with
  | @cons _ p _ _ hp ha =>
    cases ha
    obtain ⟨bs, e, hb, he, ha, hh⟩ := hm.body
    obtain ⟨x1, x2⟩ := exact_hs hp ht hn hm
    have has := (is_name hp.1 ht).2.2
    have hsub : Each (SubT st H) b bs := by
      exact each_hs ha hh
    obtain ⟨qs, h1, h2, h3⟩ := place_each (D := defsOf st) (q := p) (hs := p.hs) has he hsub hp.2.1 x1 rfl
    refine ⟨p, [], qs, 0, rfl, (is_hash hp.1).1, h1, h2, fun bo sp n _ => ?_⟩
    unfold Pp.expandMacro
    have hc : Pp.hsContains ({ p with bol := bo, sp := sp } : PTok).hs ({ p with bol := bo, sp := sp } : PTok).text = false := x2
    rw [hc]
    simp only [Bool.false_eq_true, if_false]
    rw [findMacro_name (is_flags hp.1 bo sp) ht, hm.found]
    dsimp only
    rw [hm.handler]
    dsimp only
    rw [ho, hm.name, hb, List.nil_append, h3 rest hr bo sp]
    rfl

/-- A call for which the arguments are read. -/
theorem sem_call_of (hstrict : env.strict = false) {b' : Option Bool} {full : Bool} {H : List String} {t : Tok} {s : String} {ps : List String} {va : Option String} {b us tx : List Tok} {z : Bool}
    {args xs : List (List Tok)} (ht : t = .ident s ∨ t = .kw s) (hn : s ∉ H) (hD : (defsOf st).fn s ps va b) (hl2 : xs.length = (ps ++ va.toList).length)
    (hread : ∀ {tl : List PTok}, Each (HidT (defsOf st) H) tx tl → ∀ {c : PTok} (q : List PTok), HidT (defsOf st) H (.p .rpar) c →
      ∃ as, Pp.readArgs (ps.map asc) (va.map asc) (tl ++ c :: q) = .ok (as, c, q) ∧ Read (HidT (defsOf st) H) (ps ++ va.toList) args as)
    (hsp : ∀ q ∈ args.zip xs, Splits env st H q.1 q.2) (hst : ∀ x ∈ xs, ∀ u ∈ x, Stop (defsOf st) H u) (hva : .ident "__VA_OPT__" ∉ b)
    (h : Sem env st (defsOf st) (some false) true (s :: H) (substT ((ps ++ va.toList).zip xs) b) us z) : Sem env st (defsOf st) b' full H (t :: .p .lpar :: (tx ++ [.p .rpar])) us z := by
  obtain ⟨m, hm, ho, hps, hnv, hw, het⟩ := hD
  refine Sem.chunk (s := s) (body := substT ((ps ++ va.toList).zip xs) b) (fun tl rest ha hr => ?_) h
  cases ha with
  | @cons _ p _ _ hp ha =>
    cases ha with
    | @cons _ lp _ tl hlp ha =>
      obtain ⟨t1, t2, rfl, ha1, ha2⟩ := ha.split
      cases ha2 with
      | @cons _ rp _ _ hrp ha2 =>
        cases ha2
        obtain ⟨bs, e, hb, he, ha, hh⟩ := hm.body
        obtain ⟨x1, x2⟩ := exact_hs hp ht hn hm
        have has := (is_name hp.1 ht).2.2
        obtain ⟨as, r1, r2⟩ := hread ha1 rest hrp
        have hgiven : Given env st H ((ps ++ va.toList).zip xs) as := by
          refine given_read r2 hl2 hw ?_
          intro q hq tl e h1 h2 h3
          refine ⟨hst q.2 (List.of_mem_zip hq).2, q.1, tl.map Pp.ownTok, e, rfl, h2, h3, hsp q hq, h1.map fun t p _ h => h, ?_⟩
          intro p hp
          obtain ⟨r, -, rfl⟩ := List.mem_map.mp hp
          rfl
        obtain ⟨out, N, s1, s2⟩ := subst_run hstrict he (het e (by rw [hb]; simp) he) (each_all ha) hh hva hgiven
        obtain ⟨qs, h1, h2, h3⟩ := place_each (D := defsOf st) (q := p) (hs := Pp.hsInter p.hs rp.hs) has he s1
          (fun r hr => inter_mem.mpr ⟨hp.2.1 r hr, hrp.2.1 r hr⟩) (fun r har hr => x1 r har (inter_mem.mp hr).1) rfl
        refine ⟨p, lp :: (t1 ++ [rp]), qs, N, rfl, (is_hash hp.1).1, h1, h2, fun bo sp n hN => ?_⟩
        unfold Pp.expandMacro
        have hc : Pp.hsContains ({ p with bol := bo, sp := sp } : PTok).hs ({ p with bol := bo, sp := sp } : PTok).text = false := x2
        have hlpar : lp.is "(" = true := by rw [is_lpar hlp.1]; exact decide_eq_true rfl
        rw [hc]
        simp only [Bool.false_eq_true, if_false]
        rw [findMacro_name (is_flags hp.1 bo sp) ht, hm.found]
        dsimp only
        rw [hm.handler]
        dsimp only
        rw [ho, List.cons_append, hps, hnv]
        simp only [Bool.false_eq_true, if_false, hlpar, Bool.not_true]
        rw [List.append_assoc, List.singleton_append, r1]
        dsimp only
        rw [hstrict]
        simp only [Bool.false_and, Bool.false_eq_true, if_false]
        rw [hb, s2 n hN]
        dsimp only
        rw [hm.name]
        have h4 := h3 rest hr bo sp
        rw [List.reverse_nil, List.nil_append, h4]

theorem sem_call (hstrict : env.strict = false) {b' : Option Bool} {full : Bool} {H : List String} {t : Tok} {s : String} {ps : List String} {b us : List Tok} {z : Bool} {args xs : List (List Tok)}
    (ht : t = .ident s ∨ t = .kw s) (hn : s ∉ H) (hD : (defsOf st).fn s ps none b) (hl : args.length = ps.length) (hl2 : xs.length = ps.length) (hat : ∀ a ∈ args, ArgText false a)
    (hsp : ∀ q ∈ args.zip xs, Splits env st H q.1 q.2) (hst : ∀ x ∈ xs, ∀ u ∈ x, Stop (defsOf st) H u) (hva : .ident "__VA_OPT__" ∉ b)
    (h : Sem env st (defsOf st) (some false) true (s :: H) (substT (ps.zip xs) b) us z) : Sem env st (defsOf st) b' full H (t :: .p .lpar :: (sepBy args ++ [.p .rpar])) us z := by
  refine sem_call_of hstrict (args := args) (xs := xs) ht hn hD (by simpa using hl2) (fun ha c q hc => ?_) hsp hst hva (by simpa using h)
  rw [show ps ++ (none : Option String).toList = ps from List.append_nil ps]
  exact readParams_all (fun _ _ h => h.1) hl hat ha q hc

theorem zip_snoc {α β : Type} {a : List α} {b : List β} (h : a.length = b.length) (x : α) (y : β) : (a ++ [x]).zip (b ++ [y]) = a.zip b ++ [(x, y)] := by
  rw [List.zip_append h]; rfl

theorem sem_callV (hstrict : env.strict = false) {b' : Option Bool} {full : Bool} {H : List String} {t : Tok} {s : String} {ps : List String} {va : String} {b us w y tx : List Tok} {z : Bool}
    {args xs : List (List Tok)} (ht : t = .ident s ∨ t = .kw s) (hn : s ∉ H) (hD : (defsOf st).fn s ps (some va) b) (hl : args.length = ps.length) (hl2 : xs.length = ps.length)
    (hat : ∀ a ∈ args, ArgText false a) (hw : ArgText true w) (hv : VarText args w tx) (hsp : ∀ q ∈ args.zip xs, Splits env st H q.1 q.2) (hspw : Splits env st H w y)
    (hst : ∀ x ∈ xs, ∀ u ∈ x, Stop (defsOf st) H u) (hsty : ∀ u ∈ y, Stop (defsOf st) H u) (hva : .ident "__VA_OPT__" ∉ b)
    (h : Sem env st (defsOf st) (some false) true (s :: H) (substT ((ps ++ [va]).zip (xs ++ [y])) b) us z) : Sem env st (defsOf st) b' full H (t :: .p .lpar :: (tx ++ [.p .rpar])) us z := by
  refine sem_call_of hstrict (args := args ++ [w]) (xs := xs ++ [y]) ht hn hD (by simp [hl2]) (fun ha c q hc => ?_) ?_ ?_ hva h
  · exact readVar_all (fun _ _ h => h.1) hl hat hw hv ha va q hc
  · rw [zip_snoc (by omega)]
    intro q hq
    rcases List.mem_append.mp hq with hq | hq
    · exact hsp q hq
    · rw [List.mem_singleton.mp hq]; exact hspw
  · intro x hx
    rcases List.mem_append.mp hx with hx | hx
    · exact hst x hx
    · rw [List.mem_singleton.mp hx]; exact hsty

/-- What preprocess2 does with a list, as the body of a macro and as (part of) an argument. -/
theorem expand_sem (hstrict : env.strict = false) {H : List String} {ts us : List Tok} {z : Bool} (h : Expand (defsOf st) H ts us z) :
    Sem env st (defsOf st) (some false) true H ts us z ∧ Sem env st (defsOf st) none false H ts us z ∧ Splits env st H ts us := by
  induction h with
  | nil => exact ⟨Sem.nil, Sem.nil, [], [], [], [], false, rfl, rfl, Sem.nil, .inl ⟨rfl, rfl⟩⟩
  | @keep H t ts us z hs _ ih =>
    have hp : Passes (defsOf st) H t ts := .inl hs
    exact ⟨Sem.cons (fun _ => rfl) hp ih.1, Sem.cons (fun h => by cases h) hp ih.2.1, [], _, [], _, false, rfl, rfl, Sem.nil, .inr (TailSem.cons hp ih.2.1)⟩
  | @bare H t s ps va b u ts us z ht hn hf hu _ ih =>
    have hp : Passes (defsOf st) H t (u :: ts) := .inr ⟨s, ps, va, b, u, ts, ht, hn, hf, rfl, hu⟩
    exact ⟨Sem.cons (fun _ => rfl) hp ih.1, Sem.cons (fun h => by cases h) hp ih.2.1, [], _, [], _, false, rfl, rfl, Sem.nil, .inr (TailSem.cons hp ih.2.1)⟩
  | @replace H t s b ts us vs z1 z2 ht hn hD _ _ ih1 ih2 =>
    obtain ⟨t1, t2, u1, u2, z', rfl, rfl, hs, htl⟩ := ih2.2.2
    refine ⟨Sem.append (sem_replace ht hn hD ih1.1) ih2.1, Sem.append (sem_replace ht hn hD ih1.1) ih2.2.1, ?_⟩
    exact ⟨[t] ++ t1, t2, us ++ u1, u2, _, rfl, (List.append_assoc ..).symm, Sem.append (sem_replace ht hn hD ih1.1) hs, htl⟩
  | @call H t s ps b ts us vs z1 z2 args xs zs ht hn hD hl hl2 hat _ hst hva _ _ iha ih1 ih2 =>
    obtain ⟨t1, t2, u1, u2, z', rfl, rfl, hs, htl⟩ := ih2.2.2
    have e : t :: Tok.p .lpar :: (sepBy args ++ Tok.p .rpar :: (t1 ++ t2)) = (t :: .p .lpar :: (sepBy args ++ [.p .rpar])) ++ (t1 ++ t2) := by simp
    have hc : ∀ b' full, Sem env st (defsOf st) b' full H (t :: .p .lpar :: (sepBy args ++ [.p .rpar])) us z1 := fun b' full =>
      sem_call hstrict ht hn hD hl hl2 hat (fun q hq => (iha q hq).2.2) hst hva ih1.1
    rw [e]
    refine ⟨Sem.append (hc _ _) ih2.1, Sem.append (hc _ _) ih2.2.1, ?_⟩
    exact ⟨_ ++ t1, t2, us ++ u1, u2, _, (List.append_assoc ..).symm, (List.append_assoc ..).symm, Sem.append (hc _ _) hs, htl⟩
  | @callV H t s ps va b ts us vs z1 z2 w y zw tx args xs zs ht hn hD hl hl2 hat hw hv _ _ hst hsty hva _ _ iha ihw ih1 ih2 =>
    obtain ⟨t1, t2, u1, u2, z', rfl, rfl, hs, htl⟩ := ih2.2.2
    have e : t :: Tok.p .lpar :: (tx ++ Tok.p .rpar :: (t1 ++ t2)) = (t :: .p .lpar :: (tx ++ [.p .rpar])) ++ (t1 ++ t2) := by simp
    have hc : ∀ b' full, Sem env st (defsOf st) b' full H (t :: .p .lpar :: (tx ++ [.p .rpar])) us z1 := fun b' full =>
      sem_callV hstrict ht hn hD hl hl2 hat hw hv (fun q hq => (iha q hq).2.2) ihw.2.2 hst hsty hva ih1.1
    rw [e]
    refine ⟨Sem.append (hc _ _) ih2.1, Sem.append (hc _ _) ih2.2.1, ?_⟩
    exact ⟨_ ++ t1, t2, us ++ u1, u2, _, (List.append_assoc ..).symm, (List.append_assoc ..).symm, Sem.append (hc _ _) hs, htl⟩

end

end Toycc.Src
