import Verif.Src.IfProof
import Verif.Src.MacLine
import Verif.Parse.Props
import Verif.Pp.CondProps
/-! C76: the tokens of a controlling expression on their way through read_const_expr, preprocess2 and eval_const_expr. -/
namespace Toycc.Src
open Toycc.Lex (asc Kind IntConst)
open Toycc.Pp (PTok Bytes)
open Toycc.Parse (Tok P Tree)

/-! new_num_token -/

theorem newNum_is (env : Pp.Env) (b : Bool) (t : PTok) : ∃ x, Pp.newNum env (truth b) t = .ok x ∧ Is (.num (truth b)) x ∧ x.hs = [] := by
  have key : ∀ h : Lex.Host, Lex.tokenize h (Pp.decimal (truth b)) = .ok [{ kind := .ppNum, loc := 0, len := 1, atBol := true, hasSpace := false, payload := .none, line := 1 },
      { kind := .eof, loc := 1, len := 0, atBol := false, hasSpace := false, payload := .none, line := 1 }] := by
    cases b <;> intro h <;> cases h <;> decide +kernel
  have hn : Pp.newNum env (truth b) t = .ok (Pp.ofLex ⟨none, t.file.name⟩ (Pp.decimal (truth b)) { kind := .ppNum, loc := 0, len := 1, atBol := true, hasSpace := false, payload := .none, line := 1 }) := by
    unfold Pp.newNum Pp.firstTok Pp.tokens
    rw [key]
    rfl
  refine ⟨_, hn, ⟨?_, (by decide : Kind.ppNum ≠ .eof), (by decide : Kind.ppNum ≠ .str), fun h => by cases h⟩, rfl⟩
  have ht : (Pp.ofLex ⟨none, t.file.name⟩ (Pp.decimal (truth b)) { kind := .ppNum, loc := 0, len := 1, atBol := true, hasSpace := false, payload := .none, line := 1 }).text = asc (if b then "1" else "0") := by
    show ((Pp.decimal (truth b)).drop 0).take 1 = _
    cases b <;> decide +kernel
  rw [ht]
  cases b
  · exact .int ⟨.octal, [], asc "0", [], false, false, by decide, by decide, ⟨by decide, by decide +kernel, by decide, by decide⟩, by decide, by decide +kernel, by decide +kernel⟩
  · exact .int ⟨.decimal, [], asc "1", [], false, false, by decide, by decide, ⟨by decide, by decide +kernel, by decide, by decide⟩, by decide, by decide +kernel, by decide +kernel⟩

/-! read_const_expr -/

theorem defined_word : Word "defined" ∧ ¬ IsKeyword "defined" := by
  constructor
  · refine ⟨'d', "efined".toList, by decide, by unfold Letter; decide, by unfold Letter; decide⟩
  · rw [isKeyword_spec]; decide +kernel

theorem is_defined {t : Tok} {p : PTok} (h : Is t p) : p.is "defined" = true ↔ t = .ident "defined" := by
  constructor
  · intro hd
    have hd : p.text = asc "defined" := by simpa [Pp.PTok.is] using hd
    obtain ⟨hs, -⟩ := h
    rw [hd] at hs
    have ha := word_ascii defined_word.1
    have hdig : ∀ {v t}, IntConst (asc "defined") v t → False := by
      intro v t hc
      obtain ⟨a, r, e, h1, -⟩ := const_bytes hc
      rw [show asc "defined" = 0x64 :: asc "efined" from by decide] at e
      injection e with e1
      subst e1
      revert h1; decide
    generalize hw : asc "defined" = w at hs
    generalize p.kind = k at hs
    cases hs with
    | sign q => revert hw; cases q <;> decide
    | kw hk => exact absurd (asc_inj ha (kw_ascii hk) hw ▸ hk) defined_word.2
    | name hk => rw [asc_inj ha (word_ascii hk) hw]
    | int hc | uint hc | long hc | ulong hc => exact (hdig (hw ▸ hc)).elim
    | chr => rw [show asc "defined" = 0x64 :: asc "efined" from by decide] at hw; injection hw with e; exact absurd e (by decide)
  · rintro rfl
    obtain ⟨-, h2, -⟩ := is_name h (.inl rfl)
    simp [Pp.PTok.is, h2]

theorem name_lpar {t : Tok} {p : PTok} {x : String} (h : Is t p) (ht : t = .ident x ∨ t = .kw x) : p.is "(" = false := by
  obtain ⟨-, h2, -⟩ := is_name h ht
  have hx : Word x := by
    obtain ⟨hs, -⟩ := h
    generalize p.text = w at hs
    generalize p.kind = k at hs
    rcases ht with rfl | rfl
    · cases hs; assumption
    · cases hs with
      | kw hk => exact keyword_isWord _ ((isKeyword_spec _).mp hk)
  obtain ⟨b, r, e, hl, -⟩ := word_bytes hx
  have : p.text ≠ asc "(" := by
    rw [h2, e]
    intro hh
    rw [show asc "(" = [0x28] from by decide] at hh
    injection hh with e1
    subst e1
    revert hl; decide
  simpa [Pp.PTok.is] using this

theorem is_sign {q : P} {p : PTok} (h : Is (.p q) p) : p.text = asc (sign q) := by
  obtain ⟨hs, -⟩ := h
  generalize p.text = w at hs ⊢
  generalize p.kind = k at hs
  cases hs
  rfl

theorem read_all (env : Pp.Env) (st : Pp.St) {ts us : List Tok} (h : Reads (fun x => (Pp.lookup st (asc x)).isSome) ts us) :
    ∀ {ps : List PTok} {e : PTok}, All ts ps → (∀ p ∈ ps, p.hs = []) → e.isEof = true →
      ∃ qs, Pp.readConstExpr env st (ps ++ [e]) = .ok (qs ++ [e]) ∧ All us qs ∧ ∀ p ∈ qs, p.hs = [] := by
  have hnum : ∀ {t : Tok} {p : PTok} {x : String} (u : PTok), Is t p → (t = .ident x ∨ t = .kw x) → ∃ y, Pp.newNum env (if (Pp.findMacro st p).isSome then 1 else 0) u = .ok y ∧
      Is (.num (truth (Pp.lookup st (asc x)).isSome)) y ∧ y.hs = [] := by
    intro t p x u hp ht
    obtain ⟨hk, htx, -⟩ := is_name hp ht
    have hf : Pp.findMacro st p = Pp.lookup st (asc x) := by
      unfold Pp.findMacro
      rw [hk, htx, if_pos (by decide)]
    rw [hf]
    exact newNum_is env _ u
  induction h with
  | nil =>
    intro ps e ha _ he
    cases ha
    refine ⟨[], ?_, .nil, fun p hp => by cases hp⟩
    rw [List.nil_append, Pp.readConstExpr.eq_def]
    simp [he]
  | @keep t ts us hne _ ih =>
    intro ps e ha hh he
    cases ha with
    | @cons _ p _ ps hp ha =>
      obtain ⟨qs, h1, h2, h3⟩ := ih ha (fun q hq => hh q (List.mem_cons_of_mem _ hq)) he
      refine ⟨p :: qs, ?_, .cons hp h2, ?_⟩
      · have hd : p.is "defined" = false := by
          cases hc : p.is "defined" with
          | false => rfl
          | true => exact absurd ((is_defined hp).mp hc) hne
        rw [List.cons_append, Pp.readConstExpr.eq_def]
        simp only [(is_hash hp).1, hd, h1, Bool.false_eq_true, if_false]
        rfl
      · intro q hq
        rcases List.mem_cons.mp hq with rfl | hq
        · exact hh _ List.mem_cons_self
        · exact h3 q hq
  | @defd t x ts us ht _ ih =>
    intro ps e ha hh he
    cases ha with
    | @cons _ p _ ps hp ha =>
      cases ha with
      | @cons _ u _ ps hu ha =>
        obtain ⟨qs, h1, h2, h3⟩ := ih ha (fun q hq => hh q (List.mem_cons_of_mem _ (List.mem_cons_of_mem _ hq))) he
        obtain ⟨y, hy, hy2, hy3⟩ := hnum p hu ht
        refine ⟨y :: qs, ?_, .cons hy2 h2, ?_⟩
        · have hd : p.is "defined" = true := (is_defined hp).mpr rfl
          have hk : (u.kind != .ident) = false := by rw [(is_name hu ht).1]; decide
          rw [List.cons_append, List.cons_append, Pp.readConstExpr.eq_def]
          simp only [(is_hash hp).1, hd, name_lpar hu ht, hk, hy, h1, Bool.false_eq_true, if_false, if_true]
          rfl
        · intro q hq
          rcases List.mem_cons.mp hq with rfl | hq
          · exact hy3
          · exact h3 q hq
  | @defp t x ts us ht _ ih =>
    intro ps e ha hh he
    cases ha with
    | @cons _ p _ ps hp ha =>
    cases ha with
    | @cons _ a _ ps hl ha =>
    cases ha with
    | @cons _ u _ ps hu ha =>
    cases ha with
    | @cons _ b _ ps hr ha =>
      obtain ⟨qs, h1, h2, h3⟩ := ih ha (fun q hq => hh q (by simp [hq])) he
      obtain ⟨y, hy, hy2, hy3⟩ := hnum p hu ht
      refine ⟨y :: qs, ?_, .cons hy2 h2, ?_⟩
      · have hd : p.is "defined" = true := (is_defined hp).mpr rfl
        have hk : (u.kind != .ident) = false := by rw [(is_name hu ht).1]; decide
        have hl' : a.is "(" = true := by unfold Pp.PTok.is; rw [is_sign hl]; decide
        have hr' : (!b.is ")") = false := by unfold Pp.PTok.is; rw [is_sign hr]; decide
        rw [List.cons_append, List.cons_append, List.cons_append, List.cons_append, Pp.readConstExpr.eq_def]
        simp only [(is_hash hp).1, hd, hl', hr', hk, hy, h1, Bool.false_eq_true, if_false, if_true]
        rfl
      · intro q hq
        rcases List.mem_cons.mp hq with rfl | hq
        · exact hy3
        · exact h3 q hq

/-! The identifiers that are left -/

theorem zero_all (env : Pp.Env) {ws : List Tok} {ps : List PTok} {e : PTok} (ha : All ws ps) (he : e.isEof = true) :
    ∃ qs, Pp.zeroIdents env (ps ++ [e]) = .ok (qs ++ [e]) ∧ All (zeroed ws) qs := by
  induction ha with
  | nil => exact ⟨[], by rw [List.nil_append, Pp.zeroIdents, if_pos he], .nil⟩
  | @cons t p ts ps hp _ ih =>
    obtain ⟨qs, h1, h2⟩ := ih
    have he1 := (is_hash hp).1
    by_cases hn : ∃ s, t = .ident s ∨ t = .kw s
    · obtain ⟨s, hs⟩ := hn
      obtain ⟨y, hy, hy2, -⟩ := newNum_is env false p
      have hy' : Pp.newNum env 0 p = .ok y := hy
      refine ⟨y :: qs, ?_, ?_⟩
      · rw [List.cons_append, Pp.zeroIdents, if_neg (by simp [he1]), (is_name hp hs).1, if_pos (by decide), hy', h1]
        rfl
      · rcases hs with rfl | rfl
        · exact .cons hy2 h2
        · exact .cons hy2 h2
    · have hk := is_other hp fun s hs => hn ⟨s, hs⟩
      refine ⟨p :: qs, ?_, ?_⟩
      · rw [List.cons_append, Pp.zeroIdents, if_neg (by simp [he1]), if_neg (by simpa using hk), h1]
        rfl
      · have : zeroed (t :: ts) = t :: zeroed ts := by
          cases t <;> first | rfl | exact absurd ⟨_, .inl rfl⟩ hn | exact absurd ⟨_, .inr rfl⟩ hn
        rw [this]
        exact .cons hp h2

theorem All.length {ts : List Tok} {ps : List PTok} (h : All ts ps) : ps.length = ts.length := by
  induction h with
  | nil => rfl
  | cons _ _ ih => simp [ih]

theorem ifO_good : ifO.Good (fun t : Empty => nomatch t) where
  read := fun t => nomatch t
  starts := fun t => nomatch t
  word := fun _ h => by cases h

theorem const_all {e : Tree Empty} {s : List Tok} {v : Int} (hd : IfText e s) (hs : Signed e) (hf : Fits e) (hv : ifVal e = some v) :
    ∃ K, ∀ k, K ≤ k → ∀ ps x, All s ps → x.isEof = true → constExpr k (ps ++ [x]) = some (v, [x]) := by
  obtain ⟨K, hK⟩ := (Parse.C43_assign_grammar ifO _ ifO_good (t := e) (s := s) [] (fun _ _ h => by cases h)).2 hd
  refine ⟨K, fun k hk ps x ha hx => ?_⟩
  have h1 := hK k hk
  rw [List.append_nil] at h1
  unfold constExpr
  rw [convert_all ha hx]
  simp only [Option.bind_eq_bind, Option.bind_some, h1, Except.toOption, ifEval_val hs hf hv, List.length_nil, Nat.sub_zero]
  rw [← ha.length, List.drop_left]

theorem val_all {env : Pp.Env} (hstrict : env.strict = false) {st : Pp.St} {line : List PTok} {ts us ws : List Tok} {v : Int}
    (hk : ∀ ps x, All (zeroed ws) ps → x.isEof = true → env.constExpr (ps ++ [x]) = some (v, [x]))
    (hne : ws ≠ []) (ha : All ts line) (hl : ∀ p ∈ line, p.bol = false ∧ p.hs = []) (hr : Reads (fun x => (Pp.lookup st (asc x)).isSome) ts us) (hx : Expands (defsOf st) us ws) :
    Pp.Val env st line v st := by
  intro cs rest hrest
  obtain ⟨t, r, rfl, hb⟩ := hrest
  have hcl := Pp.copyLine_line line t r (fun u hu => (hl u hu).1) hb
  have hne2 : Pp.ownTok (Pp.newEof t) = Pp.lineEnd := by
    unfold Pp.newEof Pp.ownTok Pp.lineEnd; rw [hb]
  rw [hne2] at hcl
  obtain ⟨qs, h1, h2, h3⟩ := read_all env (Pp.withConds st cs) hr (e := Pp.lineEnd) (ha.map (g := Pp.ownTok) fun p => ⟨rfl, rfl, rfl⟩)
    (by intro p hp; obtain ⟨u, hu, rfl⟩ := List.mem_map.mp hp; exact (hl u hu).2) rfl
  obtain ⟨z, hx⟩ := hx
  obtain ⟨out, e, pre, N, hN, g2, g3⟩ := expand_pp hstrict (st := Pp.withConds st cs) (hx.mono (defsOf_le (st := st) (st' := Pp.withConds st cs) fun _ => rfl)) (ps := qs.map Pp.ownTok) (e := Pp.lineEnd) (h2.map fun p => ⟨rfl, rfl, rfl⟩)
    (by
      intro p hp
      obtain ⟨u, hu, rfl⟩ := List.mem_map.mp hp
      exact h3 u hu) rfl
  refine ⟨N, fun n hn => ?_⟩
  have g1 := hN n hn
  obtain ⟨zs, z1, z2⟩ := zero_all env g2 g3
  unfold Pp.evalConst
  rw [hcl]
  dsimp only
  rw [h1]
  dsimp only
  rw [List.map_append, show [Pp.lineEnd].map Pp.ownTok = [Pp.lineEnd] from rfl, g1]
  dsimp only
  rw [z1]
  dsimp only
  rw [hk _ _ z2 g3]
  cases g2 with
  | nil => exact absurd rfl hne
  | cons hp _ =>
    simp [(is_hash hp).1, g3]

end Toycc.Src
