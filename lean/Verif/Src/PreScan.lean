import Verif.Src.PreSpec
import Verif.Src.CharsProof
/-! The preprocessing tokens of a file written as PreSpec says. -/
namespace Toycc.Src
open Toycc.Lex hiding Tok
open Toycc.Pp (Bytes PTok)
open Toycc.Parse (Tok P)

theorem hasNl_cons (i : GapItem) (g : List GapItem) : hasNl (i :: g) = ((match i with | .nl => true | _ => false) || hasNl g) := by
  cases i <;> simp [hasNl]

/-- The flags after a gap. -/
theorem scan_gap_flags (h : Host) (rest : List UInt8) : ∀ (g : List GapItem), ValidGap g → ∀ (pos : Nat) (bol sp : Bool),
    ∃ sp', scan h pos (gapBytes g ++ rest) bol sp = scan h (pos + (gapBytes g).length) rest (bol || hasNl g) sp' ∧ (hasNl g = false → sp' = (sp || !g.isEmpty)) := by
  intro g
  induction g with
  | nil => intro _ pos bol sp; exact ⟨sp, by simp [gapBytes, hasNl], fun _ => by simp⟩
  | cons i g ih =>
    intro hv pos bol sp
    have step : ∀ (bol1 sp1 : Bool), scan h pos (gapBytes (i :: g) ++ rest) bol sp = scan h (pos + i.bytes.length) (gapBytes g ++ rest) bol1 sp1 → (bol1 || hasNl g) = (bol || hasNl (i :: g)) →
        (hasNl (i :: g) = false → sp1 = true) →
        ∃ sp', scan h pos (gapBytes (i :: g) ++ rest) bol sp = scan h (pos + (gapBytes (i :: g)).length) rest (bol || hasNl (i :: g)) sp' ∧
          (hasNl (i :: g) = false → sp' = (sp || !(i :: g).isEmpty)) := by
      intro bol1 sp1 e hb hs
      obtain ⟨s, h1, h2⟩ := ih (ValidGap.tail hv) (pos + i.bytes.length) bol1 sp1
      refine ⟨s, ?_, fun hn => ?_⟩
      · rw [e, h1, hb]
        congr 1
        simp [gapBytes]; omega
      · rw [h2 (by rw [hasNl_cons] at hn; exact (Bool.or_eq_false_iff.mp hn).2), hs hn]
        simp
    have hi := hv.1 i List.mem_cons_self
    cases i with
    | nl => exact step true false (scan_newline h pos (gapBytes g ++ rest) bol sp) (by simp [hasNl]) (by simp [hasNl])
    | ws b => exact step bol true (scan_ws h b hi pos (gapBytes g ++ rest) bol sp) (by simp [hasNl]) (fun _ => rfl)
    | line body =>
      have hn := hv.2 [] body g rfl
      cases g with
      | nil => cases hn
      | cons j g =>
        cases hn
        refine step bol true ?_ (by simp [hasNl]) (fun _ => rfl)
        have e : gapBytes (GapItem.line body :: GapItem.nl :: g) ++ rest = 0x2F :: 0x2F :: (body ++ 10 :: (gapBytes g ++ rest)) := by simp [gapBytes, GapItem.bytes]
        rw [e, scan_line h body _ hi]
        congr 1
        simp [GapItem.bytes]; omega
    | block body =>
      refine step bol true ?_ (by simp [hasNl]) (fun _ => rfl)
      have e : gapBytes (GapItem.block body :: g) ++ rest = 0x2F :: 0x2A :: (body ++ 0x2A :: 0x2F :: (gapBytes g ++ rest)) := by simp [gapBytes, GapItem.bytes]
      rw [e, scan_block h body _ hi]
      congr 1
      simp [GapItem.bytes]; omega

/-! ### Tokens -/

/-- A preprocessing token that spells `t`. -/
inductive IsPT : PT → PTok → Prop where
  | hash {p} : p.text = asc "#" → p.kind = .punct → IsPT .hash p
  | tok {t p} : Is t p → IsPT (.tok t) p
  | str {name p} : p.text = 0x22 :: (name ++ [0x22]) → p.kind = .str → IsPT (.str name) p

/-- Of the file `cur`, and with the flags that are asked for. -/
structure IsItem (cur : Bytes) (i : Item) (p : PTok) : Prop where
  pt : IsPT i.tok p
  bol : p.bol = i.bol
  white : i.sep = .white → i.bol = false → p.sp = true
  tight : i.sep = .tight → i.bol = false → p.sp = false
  hs : p.hs = []
  file : p.file.name = cur

inductive Items (cur : Bytes) : List Item → List PTok → Prop where
  | nil : Items cur [] []
  | cons {i p is ps} : IsItem cur i p → Items cur is ps → Items cur (i :: is) (p :: ps)

theorem narrow_plain (h : Host) (r : List UInt8) : ∀ body : List UInt8, (∀ b ∈ body, b ≠ 0x22 ∧ b ≠ 0x5C ∧ b ≠ 10) →
    narrowLoop h body.length (body ++ r) = .ok (body.map (·.toNat)) := by
  intro body
  induction body with
  | nil => intro _; rw [narrowLoop.eq_def]; rfl
  | cons c body ih =>
    intro hb
    rw [narrowLoop.eq_def, if_neg (by simp)]
    simp only [List.cons_append, List.length_cons, Nat.add_sub_cancel]
    rw [if_neg (hb c List.mem_cons_self).2.1, ih fun b h => hb b (List.mem_cons_of_mem _ h)]
    rfl

theorem str_plain : ∀ body : List UInt8, (∀ b ∈ body, b ≠ 0x22 ∧ b ≠ 0x5C ∧ b ≠ 10) → Body body := by
  intro body
  induction body with
  | nil => intro _; exact .nil
  | cons c body ih =>
    intro hb
    obtain ⟨h1, h2, h3⟩ := hb c List.mem_cons_self
    exact .plain _ _ h1 h3 h2 (ih fun b h => hb b (List.mem_cons_of_mem _ h))

theorem spellP_token (h : Host) {t : PT} {w : Bytes} {k : Kind} (hs : SpellP t w k) : ∃ pl, IsToken h k w pl ∧ ∀ p : PTok, p.text = w → p.kind = k → p.payload = pl → IsPT t p := by
  cases hs with
  | hash =>
    refine ⟨.none, ⟨[10], ?_⟩, fun p h1 h2 _ => .hash h1 h2⟩
    cases h <;> decide +kernel
  | tok hs =>
    obtain ⟨pl, h1, h2, h3, h4, h5⟩ := spelling_token h hs
    exact ⟨pl, h1, fun p e1 e2 e3 => .tok ⟨by rw [e1, e2]; exact hs, by rw [e2]; exact h2, by rw [e2]; exact h3, by rw [e2, e3]; exact h5⟩⟩
  | @str name hn =>
    refine ⟨.str .char (name.map (·.toNat) ++ [0]), ⟨[10], ?_⟩, fun p h1 h2 _ => .str h1 h2⟩
    have e : 0x22 :: (name ++ [0x22]) ++ [10] = 0x22 :: (name ++ 0x22 :: [10]) := by simp
    rw [e]
    show lexCons h 0x22 (name ++ 0x22 :: [10]) = _
    unfold lexCons
    rw [if_neg (starts_head (by intro x hx; rw [show (asc "//").head? = some 0x2F from by decide] at hx; cases hx; decide) (by decide)),
      if_neg (starts_head (by intro x hx; rw [show (asc "/*").head? = some 0x2F from by decide] at hx; cases hx; decide) (by decide)), if_neg (by decide), if_neg (by decide), if_neg (by
        have h1 : isDig 0x22 = false := by decide
        have h2 : ((0x22 : UInt8) == 0x2E) = false := by decide
        rw [h1, h2]; simp), if_pos rfl]
    unfold readString
    rw [(C19_string_end _ name.length).mpr ⟨name, [10], rfl, rfl, str_plain _ hn⟩]
    dsimp only
    rw [narrow_plain h _ name hn]
    dsimp only
    congr 2
    simp; omega

theorem scan_written (h : Host) (f : Pp.FileRef) {start : Bool} {text : Bytes} {is : List Item} (hl : WrittenP start text is) : ∀ (pre : Bytes),
    ∃ us e, scan h pre.length text start false = .ok (us ++ [e]) ∧ e.kind = .eof ∧ e.len = 0 ∧ e.atBol = true ∧
      ∀ ln : Lex.Tok → Nat, Items f.name is (us.map fun u => Pp.ofLex f (pre ++ text) { u with line := ln u }) := by
  induction hl with
  | @nil start g hv hnl =>
    intro pre
    obtain ⟨s, e, _⟩ := scan_gap_flags h [] g hv pre.length start false
    rw [List.append_nil] at e
    refine ⟨[], { kind := .eof, loc := pre.length + (gapBytes g).length, len := 0, atBol := start || hasNl g, hasSpace := s, payload := .none }, ?_, rfl, rfl, hnl, fun _ => .nil⟩
    rw [e, scan, if_pos rfl]; rfl
  | @cons start g i w k rest is hv hb hsep hs hg hne _ ih =>
    intro pre
    obtain ⟨s, e, hsp⟩ := scan_gap_flags h (w ++ rest) g hv pre.length start false
    obtain ⟨pl, ⟨r, h1⟩, h2⟩ := spellP_token h hs
    have hlx := lex_local h k w r rest pl h1 hg hne
    obtain ⟨us, x, h6, h7, h8, h8', h9⟩ := ih (pre ++ (gapBytes g ++ w))
    have hsc := scan_tok h (pre.length + (gapBytes g).length) (w ++ rest) (start || hasNl g) s k w.length pl hlx (us ++ [x]) (by
      rw [List.drop_left, ← h6]
      congr 1
      simp; omega)
    refine ⟨{ kind := k, loc := pre.length + (gapBytes g).length, len := w.length, atBol := start || hasNl g, hasSpace := s, payload := pl } :: us, x, by rw [e, hsc]; rfl, h7, h8, h8', fun ln => ?_⟩
    rw [List.map_cons]
    have hnonl : i.bol = false → hasNl g = false := fun hf => by
      rw [hb] at hf
      exact (Bool.or_eq_false_iff.mp hf).2
    refine .cons ⟨h2 _ ?_ rfl rfl, hb.symm, fun h1 h2 => ?_, fun h1 h2 => ?_, rfl, rfl⟩ ?_
    · have e1 : pre ++ (gapBytes g ++ (w ++ rest)) = (pre ++ gapBytes g) ++ (w ++ rest) := by simp
      have e2 : pre.length + (gapBytes g).length = (pre ++ gapBytes g).length := by simp
      show (List.drop (pre.length + (gapBytes g).length) (pre ++ (gapBytes g ++ (w ++ rest)))).take w.length = w
      rw [e1, e2, List.drop_left, List.take_left]
    · show s = true
      rw [hsp (hnonl h2)]
      rw [h1] at hsep
      cases g with
      | nil => exact absurd rfl hsep
      | cons _ _ => rfl
    · show s = false
      rw [hsp (hnonl h2)]
      rw [h1] at hsep
      rw [show g = [] from hsep]; rfl
    · have e1 : pre ++ (gapBytes g ++ (w ++ rest)) = (pre ++ (gapBytes g ++ w)) ++ rest := by simp
      rw [e1]
      exact h9 ln

theorem tokens_written (env : Pp.Env) (f : Pp.FileRef) {text : Bytes} {is : List Item} (hl : WrittenP true text is) :
    ∃ ps e, Pp.tokens env f text = .ok (ps ++ [e]) ∧ e.isEof = true ∧ e.text = [] ∧ e.bol = true ∧ Items f.name is ps := by
  obtain ⟨us, e, h1, h2, h3, h3', h4⟩ := scan_written env.host f hl []
  refine ⟨us.map fun u => Pp.ofLex f text (setLine text u), Pp.ofLex f text (setLine text e), ?_, ?_, ?_, h3', h4 fun u => 1 + (text.take u.loc).count 10⟩
  · unfold Pp.tokens
    rw [tokenize_eq]
    have h1 : scan env.host 0 text true false = .ok (us ++ [e]) := h1
    rw [h1]
    simp [Except.map, List.map_map, Function.comp_def]
  · simp [Pp.PTok.isEof, Pp.ofLex, setLine, h2]
  · simp [Pp.ofLex, setLine, h3]

theorem file_written {env : Pp.Env} {path : Bytes} {G : Grp} (h : IsGrp env path G) (st : Pp.St) :
    ∃ ps e, Pp.tokenizeFile env st path = .ok (some ({ st with nfiles := st.nfiles + 1 }, ps ++ [e])) ∧ e.isEof = true ∧ e.text = [] ∧ e.bol = true ∧ Items path G.items ps := by
  obtain ⟨⟨c, h1, h2, h3, h4⟩, _⟩ := h
  obtain ⟨j, h5⟩ := Source.C11_pipeline c h2 h3
  have h6 := Source.C11_cstr c h2 h3 _ h5
  have h7 : Source.Spec.ucn (Source.Spec.splice 0 (Source.Spec.newlines (Source.fileText c))) = logical c := rfl
  obtain ⟨ps, e, g1, g2, g3, g4, g5⟩ := tokens_written env ⟨some st.nfiles, path⟩ h4
  refine ⟨ps, e, ?_, g2, g3, g4, g5⟩
  unfold Pp.tokenizeFile
  rw [h1]
  dsimp only
  rw [h5]
  dsimp only
  rw [h6, h7, g1]

end Toycc.Src
