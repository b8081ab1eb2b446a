import Verif.Src.CharsScan
import Verif.Pp.CondProps
import Verif.Pp.Mono
import Verif.Source.Props
/-! From files to the tokens of the parser. -/
namespace Toycc.Src
open Toycc.Lex hiding Tok
open Toycc.Pp (Bytes PTok)
open Toycc.Parse (Tok P)

/-! ### Conversion -/

theorem signs_all (p : P) : signs.find? (fun q => asc (sign q) == asc (sign p)) = some p := by
  cases p <;> decide +kernel

theorem keywords_letter {w : Bytes} (h : isKeyword w = true) : ∃ b r, w = b :: r ∧ letterB b = true := by
  obtain ⟨s, hs, rfl⟩ := (isKeyword_iff w).mp h
  obtain ⟨b, r, e, h1, _⟩ := word_bytes (keyword_isWord s hs)
  exact ⟨b, r, e, h1⟩

theorem convert_is {t : Tok} {p : PTok} (h : Is t p) : convertTok p = some t := by
  obtain ⟨hs, _, _, hn⟩ := h
  have nokw : ∀ b r, p.text = b :: r → letterB b = false → isKeyword p.text = false := by
    intro b r e hb
    cases hk : isKeyword p.text with
    | false => rfl
    | true =>
      obtain ⟨b', r', e', hb'⟩ := keywords_letter hk
      rw [e] at e'
      injection e' with e1 _
      rw [← e1, hb] at hb'
      cases hb'
  unfold convertTok
  generalize hk : p.kind = k at hs
  generalize ht : p.text = w at hs nokw
  cases hs with
  | sign q =>
    rw [if_neg (by
      rw [Bool.not_eq_true]
      have : ∀ q : P, ∃ b r, asc (sign q) = b :: r ∧ letterB b = false := by
        intro q
        have key : (asc (sign q)).head?.any (fun b => !letterB b) = true := by cases q <;> decide +kernel
        cases e : asc (sign q) with
        | nil => rw [e] at key; cases key
        | cons b r => rw [e] at key; exact ⟨b, r, rfl, by simpa using key⟩
      obtain ⟨b, r, e, hb⟩ := this q
      exact nokw b r e hb)]
    dsimp only
    rw [signs_all]; rfl
  | kw h =>
    have h1 := (isKeyword_spec _).mp h
    rw [if_pos ((keyword_word (keywords_ascii _ h1)).mpr h), str_asc (keywords_ascii _ h1)]
  | name hw h =>
    rename_i s
    have ha := word_ascii hw
    rw [if_neg (fun hc => h ((keyword_word ha).mp hc))]
    dsimp only
    rw [if_pos, str_asc ha]
    rw [List.all_eq_true]
    intro b hb
    obtain ⟨c, hc, rfl⟩ := List.mem_map.mp hb
    have hc := ha c hc
    have key : ∀ n : Fin 128, decide (UInt8.ofNat n.val < 128) = true := by decide
    exact key ⟨c.toNat, hc⟩
  | int hc =>
    obtain ⟨a, r, e, h1, _⟩ := const_bytes hc
    have key : ∀ b : UInt8, isDig b = true → letterB b = false := by decide +kernel
    rw [if_neg (by rw [Bool.not_eq_true]; exact nokw a r e (key a h1))]
    dsimp only
    have := C17_value_and_type w [] _ _ hc (by intro b r e; cases e)
    rw [List.append_nil] at this
    rw [this]
  | uint hc | long hc | ulong hc =>
    obtain ⟨a, r, e, h1, _⟩ := const_bytes hc
    have key : ∀ b : UInt8, isDig b = true → letterB b = false := by decide +kernel
    rw [if_neg (by rw [Bool.not_eq_true]; exact nokw a r e (key a h1))]
    dsimp only
    have := C17_value_and_type w [] _ _ hc (by intro b r e; cases e)
    rw [List.append_nil] at this
    rw [this]
  | chr =>
    rw [if_neg (by rw [Bool.not_eq_true]; exact nokw 0x27 _ rfl (by decide))]
    dsimp only
    rw [hn hk _ rfl]

theorem convert_all {ts : List Tok} {ps : List PTok} (h : All ts ps) {e : PTok} (he : e.isEof = true) : convertToks (ps ++ [e]) = some ts := by
  induction h with
  | nil => rw [List.nil_append, convertToks, if_pos he]
  | cons h1 _ ih =>
    rw [List.cons_append, convertToks, if_neg (by simp [Pp.PTok.isEof, h1.2.1]), convert_is h1, ih]
    rfl

theorem All.map {ts : List Tok} {ps : List PTok} (h : All ts ps) {g : PTok → PTok} (hg : ∀ p, (g p).text = p.text ∧ (g p).kind = p.kind ∧ (g p).payload = p.payload) : All ts (ps.map g) := by
  induction h with
  | nil => exact .nil
  | @cons t p ts ps h1 _ ih =>
    obtain ⟨e1, e2, e3⟩ := hg p
    refine .cons ?_ ih
    unfold Is at h1 ⊢
    rw [e1, e2, e3]
    exact h1

theorem All.append {t1 t2 : List Tok} {p1 p2 : List PTok} (h1 : All t1 p1) (h2 : All t2 p2) : All (t1 ++ t2) (p1 ++ p2) := by
  induction h1 with
  | nil => exact h2
  | cons h _ ih => exact .cons h ih

theorem All.noEof {ts : List Tok} {ps : List PTok} (h : All ts ps) : ∀ p ∈ ps, p.isEof = false := by
  induction h with
  | nil => intro p hp; cases hp
  | cons h1 _ ih =>
    intro q hq
    rcases List.mem_cons.mp hq with rfl | hq
    · simp [Pp.PTok.isEof, h1.2.1]
    · exact ih q hq

theorem body_all {ts : List Tok} {ps : List PTok} (h : All ts ps) {e : PTok} (he : e.isEof = true) : Pp.body (ps ++ [e]) = ps := by
  unfold Pp.body
  rw [List.takeWhile_append_of_pos (by intro p hp; simp [h.noEof p hp])]
  simp [he]

/-! ### String literals -/

theorem pass1_none (h : Host) : ∀ l : List PTok, (∀ p ∈ l, p.kind ≠ .str) → Pp.pass1 h l = .ok l := by
  intro l
  induction l with
  | nil => intro _; rw [Pp.pass1]
  | cons p l ih =>
    intro hl
    rw [Pp.pass1, if_pos (Or.inl (by simpa [Pp.isStr] using hl p List.mem_cons_self)), ih fun q hq => hl q (List.mem_cons_of_mem _ hq)]

theorem pass2_none : ∀ l : List PTok, (∀ p ∈ l, p.kind ≠ .str) → Pp.pass2 l = .ok l := by
  intro l
  induction l with
  | nil => intro _; rw [Pp.pass2]
  | cons p l ih =>
    intro hl
    rw [Pp.pass2, if_pos (Or.inl (by simpa [Pp.isStr] using hl p List.mem_cons_self)), ih fun q hq => hl q (List.mem_cons_of_mem _ hq)]

theorem All.noStr {ts : List Tok} {ps : List PTok} (h : All ts ps) {e : PTok} (he : e.isEof = true) : ∀ p ∈ ps ++ [e], p.kind ≠ .str := by
  induction h with
  | nil =>
    intro p hp
    rw [List.mem_singleton.mp hp]
    intro hk
    rw [Pp.PTok.isEof, hk] at he
    cases he
  | cons h1 _ ih =>
    intro q hq
    rcases List.mem_cons.mp hq with rfl | hq
    · exact h1.2.2.1
    · exact ih q hq

theorem join_all (h : Host) {ts : List Tok} {ps : List PTok} (ha : All ts ps) {e : PTok} (he : e.isEof = true) : Pp.joinStrings h (ps ++ [e]) = .ok (ps ++ [e]) := by
  unfold Pp.joinStrings
  rw [pass1_none h _ (ha.noStr he)]
  exact pass2_none _ (ha.noStr he)

/-! ### The preprocessor -/

theorem is_inert {st : Pp.St} {t : Tok} {p : PTok} (h : Is t p) (hm : ∀ s, (t = .ident s ∨ t = .kw s) → Pp.lookup st (asc s) = none) :
    p.isEof = false ∧ Pp.isHash p = false ∧ Pp.findMacro st p = none := by
  obtain ⟨hs, h1, _, _⟩ := h
  refine ⟨by simp [Pp.PTok.isEof, h1], ?_, ?_⟩
  · have hw : p.text ≠ asc "#" := by
      have ha : asc "#" = [0x23] := by decide
      rw [ha]
      generalize p.text = w at hs
      generalize p.kind = k at hs
      cases hs with
      | sign q => cases q <;> decide +kernel
      | kw h =>
        obtain ⟨b, r, e, hb, _⟩ := word_bytes (keyword_isWord _ ((isKeyword_spec _).mp h))
        rw [e]; intro e'; injection e' with e' _; subst e'; revert hb; decide
      | name h =>
        obtain ⟨b, r, e, hb, _⟩ := word_bytes h
        rw [e]; intro e'; injection e' with e' _; subst e'; revert hb; decide
      | int h =>
        obtain ⟨b, r, e, hb, _⟩ := const_bytes h
        rw [e]; intro e'; injection e' with e' _; subst e'; revert hb; decide
      | uint h | long h | ulong h =>
        obtain ⟨b, r, e, hb, _⟩ := const_bytes h
        rw [e]; intro e'; injection e' with e' _; subst e'; revert hb; decide
      | chr => intro e'; injection e' with e' _; revert e'; decide
    unfold Pp.isHash Pp.PTok.is
    rw [show (p.text == asc "#") = false from by simpa using hw, Bool.and_false]
  · unfold Pp.findMacro
    split
    · rename_i hk
      have hk : p.kind = .ident := by simpa using hk
      rw [hk] at hs
      generalize p.text = w at hs
      cases hs with
      | kw _ => exact hm _ (Or.inr rfl)
      | name _ => exact hm _ (Or.inl rfl)
    · rfl

theorem mem_words {t : Tok} {ts : List Tok} (h : t ∈ ts) {s : String} (ht : t = .ident s ∨ t = .kw s) : s ∈ words' ts := by
  induction ts with
  | nil => cases h
  | cons x r ih =>
    rcases List.mem_cons.mp h with rfl | h
    · rcases ht with rfl | rfl <;> simp [words']
    · have := ih h
      cases x <;> simp [words', this]

theorem all_inert {st : Pp.St} {ts : List Tok} {ps : List PTok} (h : All ts ps) (hm : ∀ s ∈ words' ts, Pp.lookup st (asc s) = none) :
    ∀ p ∈ ps, p.isEof = false ∧ Pp.isHash p = false ∧ Pp.findMacro st p = none := by
  have key : ∀ {ts' : List Tok} {ps : List PTok}, All ts' ps → (∀ t ∈ ts', t ∈ ts) → ∀ p ∈ ps, p.isEof = false ∧ Pp.isHash p = false ∧ Pp.findMacro st p = none := by
    intro ts' ps h
    induction h with
    | nil => intro _ p hp; cases hp
    | cons h1 _ ih =>
      intro hsub q hq
      rcases List.mem_cons.mp hq with rfl | hq
      · exact is_inert h1 fun s hs => hm s (mem_words (hsub _ List.mem_cons_self) hs)
      · exact ih (fun t ht => hsub t (List.mem_cons_of_mem _ ht)) q hq
  exact key h fun t ht => ht

/-- Text without directives and macros comes out of the preprocessor as it is. -/
theorem preprocess_all (env : Pp.Env) {st : Pp.St} (hc : st.conds = []) {ts : List Tok} {ps : List PTok} (h : All ts ps) {e : PTok} (he : e.isEof = true)
    (hm : ∀ s ∈ words' ts, Pp.lookup st (asc s) = none) :
    ∃ M, ∀ n, M ≤ n → ∃ out e', Pp.preprocess env n st (ps ++ [e]) = .ok (st, out ++ [e']) ∧ All ts out ∧ e'.isEof = true := by
  have h1 : All ts (ps.map Pp.ownTok) := h.map fun p => ⟨rfl, rfl, rfl⟩
  obtain ⟨k, N, hst⟩ := Pp.Steps.inert (env := env) (st := st) [Pp.ownTok e] (all_inert h1 hm)
  refine ⟨N + k + 1, fun n hn => ?_⟩
  have hs := hst (n - k) (by omega)
  rw [show n - k + k = n from by omega] at hs
  have hend : Pp.ppO env (n - k) st [Pp.ownTok e] = .ok (st, [Pp.ownTok e]) := by
    unfold Pp.ppO
    obtain ⟨m, hm'⟩ : ∃ m, n - k = m + 1 := ⟨n - k - 1, by omega⟩
    rw [hm', Pp.pp, if_pos (show (Pp.ownTok e).isEof = true from he)]; rfl
  rw [hend] at hs
  refine ⟨(ps.map Pp.ownTok).map (Pp.mark st), Pp.ownTok e, ?_, h1.map fun p => ⟨rfl, rfl, rfl⟩, he⟩
  unfold Pp.preprocess
  rw [List.map_append]
  have hs : Pp.ppO env n st (List.map Pp.ownTok ps ++ List.map Pp.ownTok [e]) = .ok (st, (ps.map Pp.ownTok).map (Pp.mark st) ++ [Pp.ownTok e]) := hs
  unfold Pp.ppO at hs
  cases hp : Pp.pp env n true st (List.map Pp.ownTok ps ++ List.map Pp.ownTok [e]) with
  | error x => rw [hp] at hs; cases hs
  | ok r =>
    rw [hp] at hs
    obtain ⟨a, b, c⟩ := r
    simp only [Except.map, Except.ok.injEq, Prod.mk.injEq] at hs
    obtain ⟨rfl, rfl⟩ := hs
    dsimp only
    rw [hc]; rfl

/-! ### Files -/

theorem file_laid {env : Pp.Env} {path : Bytes} {ts : List Tok} (h : Contains env path ts) (st : Pp.St) :
    ∃ ps e, Pp.tokenizeFile env st path = .ok (some ({ st with nfiles := st.nfiles + 1 }, ps ++ [e])) ∧ e.isEof = true ∧ All ts ps := by
  obtain ⟨⟨c, h1, h2, h3, h4⟩⟩ := h
  obtain ⟨j, h5⟩ := Source.C11_pipeline c h2 h3
  have h6 := Source.C11_cstr c h2 h3 _ h5
  have h7 : Source.Spec.ucn (Source.Spec.splice 0 (Source.Spec.newlines (Source.fileText c))) = logical c := rfl
  obtain ⟨ps, e, g1, g2, _, g4⟩ := tokens_laid env ⟨some st.nfiles, path⟩ h4
  refine ⟨ps, e, ?_, g2, g4⟩
  unfold Pp.tokenizeFile
  rw [h1]
  dsimp only
  rw [h5]
  dsimp only
  rw [h6, h7, g1]

/-- The tokens of several files. -/
def flat : List (Bytes × List Tok) → List Tok
  | [] => []
  | f :: fs => f.2 ++ flat fs

theorem include_laid {env : Pp.Env} : ∀ (fs : List (Bytes × List Tok)), (∀ f ∈ fs, env.fileExists f.1 = true ∧ Contains env f.1 f.2) →
    ∀ (st : Pp.St) (l : List PTok) (ts0 : List Tok) (ps0 : List PTok), ((l = [] ∧ ps0 = []) ∨ ∃ e, l = ps0 ++ [e] ∧ e.isEof = true) → All ts0 ps0 →
    ∃ l' ps, includeTokens env st (fs.map (·.1)) l = some ({ st with nfiles := st.nfiles + fs.length }, l') ∧
      ((l' = [] ∧ ps = []) ∨ ∃ e, l' = ps ++ [e] ∧ e.isEof = true) ∧ All (ts0 ++ flat fs) ps := by
  intro fs
  induction fs with
  | nil =>
    intro _ st l ts0 ps0 hl ha
    exact ⟨l, ps0, rfl, hl, by rw [flat, List.append_nil]; exact ha⟩
  | cons f fs ih =>
    intro hf st l ts0 ps0 hl ha
    obtain ⟨h1, h2⟩ := hf f List.mem_cons_self
    obtain ⟨ps1, e1, h3, h4, h5⟩ := file_laid h2 st
    have hb : Pp.body l = ps0 := by
      rcases hl with ⟨rfl, rfl⟩ | ⟨e, rfl, he⟩
      · rfl
      · exact body_all ha he
    obtain ⟨l', ps, g1, g2, g3⟩ := ih (fun g hg => hf g (List.mem_cons_of_mem _ hg)) { st with nfiles := st.nfiles + 1 } (appendTokens l (ps1 ++ [e1])) (ts0 ++ f.2) (ps0 ++ ps1)
      (Or.inr ⟨e1, by rw [appendTokens, hb, List.append_assoc], h4⟩) (ha.append h5)
    refine ⟨l', ps, ?_, g2, by rw [flat, ← List.append_assoc]; exact g3⟩
    rw [List.map_cons, includeTokens]
    simp only [h1, if_true, Option.bind_eq_bind, Option.bind_some, h3, Except.toOption, Option.join, id]
    rw [g1]
    rw [show st.nfiles + 1 + fs.length = st.nfiles + (f :: fs).length from by rw [List.length_cons]; omega]

/-- The tokens that cc1 gives to the parser. -/
theorem cc1_laid {env : Pp.Env} {st : Pp.St} (hc : st.conds = []) (fs : List (Bytes × List Tok)) (hf : ∀ f ∈ fs, env.fileExists f.1 = true ∧ Contains env f.1 f.2)
    {base : Bytes} {ts : List Tok} (hb : Contains env base ts) (hm : ∀ s ∈ words' (flat fs ++ ts), Pp.lookup st (asc s) = none) :
    ∃ M, ∀ n, M ≤ n → cc1Tokens env n st (fs.map (·.1)) base = some (flat fs ++ ts) := by
  obtain ⟨l, ps, h1, h2, h3⟩ := include_laid fs hf st [] [] [] (Or.inl ⟨rfl, rfl⟩) .nil
  rw [List.nil_append] at h3
  obtain ⟨ps1, e1, h4, h5, h6⟩ := file_laid hb { st with nfiles := st.nfiles + fs.length }
  have hbody : Pp.body l = ps := by
    rcases h2 with ⟨rfl, rfl⟩ | ⟨e, rfl, he⟩
    · rfl
    · exact body_all h3 he
  obtain ⟨M, hM⟩ := preprocess_all env (st := { st with nfiles := st.nfiles + fs.length + 1 }) hc (h3.append h6) h5 hm
  refine ⟨M, fun n hn => ?_⟩
  obtain ⟨out, e', g1, g2, g3⟩ := hM n hn
  unfold cc1Tokens
  rw [h1]
  simp only [Option.bind_eq_bind, Option.bind_some, h4, Except.toOption, Option.join, id, appendTokens, hbody]
  rw [← List.append_assoc, g1]
  simp only [Option.bind_some]
  rw [join_all env.host g2 g3]
  exact convert_all g2 g3

end Toycc.Src
