import Verif.Src.CharsLex
/-! The tokens of a text that is laid out as CharsSpec says. -/
namespace Toycc.Src
open Toycc.Lex hiding Tok
open Toycc.Pp (Bytes PTok)
open Toycc.Parse (Tok P)

/-! ### Gaps -/

theorem starts_head {b : UInt8} {r q : List UInt8} (hb : ∀ x ∈ q.head?, b ≠ x) (hq : q ≠ []) : ¬ startsWith (b :: r) q = true := by
  intro hs
  cases q with
  | nil => exact hq rfl
  | cons x q =>
    obtain ⟨t, ht⟩ := List.isPrefixOf_iff_prefix.mp hs
    injection ht with e _
    exact hb x rfl e.symm

theorem starts_two (a b : UInt8) (r q : List UInt8) (hq : q = [a, b]) : startsWith (a :: b :: r) q = true := by
  subst hq
  exact List.isPrefixOf_iff_prefix.mpr ⟨r, rfl⟩

theorem scan_ws (h : Host) (b : UInt8) (hb : b = 32 ∨ b = 9 ∨ b = 11 ∨ b = 12 ∨ b = 13) (pos : Nat) (r : List UInt8) (bol sp : Bool) :
    scan h pos (b :: r) bol sp = scan h (pos + 1) r bol true := by
  have hl : lexOne h (b :: r) = .ok .space := by
    have k : b ≠ 0x2F ∧ b ≠ 10 ∧ isSpace b = true := by rcases hb with rfl | rfl | rfl | rfl | rfl <;> decide
    show lexCons h b r = _
    unfold lexCons
    rw [if_neg (starts_head (by intro x hx; rw [show (asc "//").head? = some 0x2F from by decide] at hx; cases hx; exact k.1) (by decide)),
      if_neg (starts_head (by intro x hx; rw [show (asc "/*").head? = some 0x2F from by decide] at hx; cases hx; exact k.1) (by decide)), if_neg k.2.1, if_pos k.2.2]
  rw [scan, if_neg (by simp)]
  split <;> rename_i hp <;> rw [hl] at hp <;> cases hp
  rfl

theorem scan_line (h : Host) (body r : List UInt8) (hb : 10 ∉ body) (pos : Nat) (bol sp : Bool) :
    scan h pos (0x2F :: 0x2F :: (body ++ 10 :: r)) bol sp = scan h (pos + (2 + body.length)) (10 :: r) bol true := by
  have hl : lexOne h (0x2F :: 0x2F :: (body ++ 10 :: r)) = .ok (.line (2 + body.length)) := by
    show lexCons h 0x2F (0x2F :: (body ++ 10 :: r)) = _
    unfold lexCons
    rw [if_pos (starts_two _ _ _ _ (by decide))]
    have hf : (List.drop 2 (0x2F :: 0x2F :: (body ++ 10 :: r))).findIdx? (· = 10) = some body.length := by
      show (body ++ 10 :: r).findIdx? (· = 10) = _
      rw [List.findIdx?_append, List.findIdx?_eq_none_iff.mpr (by
        intro x hx
        simp only [decide_eq_false_iff_not]
        rintro rfl
        exact hb hx)]
      simp [List.findIdx?_cons]
    rw [hf]
  rw [scan, if_neg (by simp)]
  split <;> rename_i hp <;> rw [hl] at hp <;> cases hp
  congr 1
  rw [Nat.add_comm, ← List.drop_drop]
  show List.drop 2 (List.drop body.length (0x2F :: 0x2F :: (body ++ 10 :: r))) = _
  rw [List.drop_drop, Nat.add_comm, ← List.drop_drop]
  show List.drop body.length (body ++ 10 :: r) = _
  exact List.drop_left

theorem findClose_first (r : List UInt8) : ∀ body : List UInt8, (∀ i, i < body.length → (body ++ [0x2A, 0x2F])[i]? = some 0x2A → (body ++ [0x2A, 0x2F])[i + 1]? ≠ some 0x2F) →
    findClose (body ++ 0x2A :: 0x2F :: r) = some body.length := by
  intro body
  induction body with
  | nil => intro _; rw [List.nil_append, findClose, if_pos ⟨rfl, rfl⟩]; rfl
  | cons a body ih =>
    intro h
    have ih := ih fun i hi h1 => by
      have := h (i + 1) (by simp; omega) (by simpa using h1)
      simpa using this
    cases body with
    | nil =>
      rw [List.cons_append, List.nil_append, findClose, if_neg (by rintro ⟨_, e⟩; exact absurd e (by decide))]
      have : findClose (0x2A :: 0x2F :: r) = some 0 := ih
      rw [this]; rfl
    | cons b body =>
      rw [List.cons_append, List.cons_append, findClose, if_neg (by
        rintro ⟨rfl, rfl⟩
        exact h 0 (by simp) rfl rfl)]
      have : findClose (b :: (body ++ 0x2A :: 0x2F :: r)) = some (b :: body).length := ih
      rw [this]; rfl

theorem scan_block (h : Host) (body r : List UInt8) (hb : (GapItem.block body).Ok) (pos : Nat) (bol sp : Bool) :
    scan h pos (0x2F :: 0x2A :: (body ++ 0x2A :: 0x2F :: r)) bol sp = scan h (pos + (2 + body.length + 2)) r bol true := by
  have hl : lexOne h (0x2F :: 0x2A :: (body ++ 0x2A :: 0x2F :: r)) = .ok (.block (2 + body.length + 2)) := by
    show lexCons h 0x2F (0x2A :: (body ++ 0x2A :: 0x2F :: r)) = _
    unfold lexCons
    rw [if_neg (by
      intro hs
      obtain ⟨t, ht⟩ := List.isPrefixOf_iff_prefix.mp hs
      rw [show asc "//" = [0x2F, 0x2F] from by decide] at ht
      injection ht with _ ht
      injection ht with e _
      exact absurd e (by decide)),
      if_pos (starts_two _ _ _ _ (by decide))]
    have hf : findClose (List.drop 2 (0x2F :: 0x2A :: (body ++ 0x2A :: 0x2F :: r))) = some body.length := findClose_first r body hb
    rw [hf]
  rw [scan, if_neg (by simp)]
  split <;> rename_i hp <;> rw [hl] at hp <;> cases hp
  congr 1
  have e : 0x2F :: 0x2A :: (body ++ 0x2A :: 0x2F :: r) = (0x2F :: 0x2A :: (body ++ [0x2A, 0x2F])) ++ r := by simp
  rw [e]
  exact List.drop_left' (by simp; omega)

theorem ValidGap.tail {i : GapItem} {g : List GapItem} (h : ValidGap (i :: g)) : ValidGap g :=
  ⟨fun j hj => h.1 j (List.mem_cons_of_mem _ hj), fun a body b e => h.2 (i :: a) body b (by rw [e]; rfl)⟩

/-- A gap is skipped. -/
theorem scan_gap (h : Host) (rest : List UInt8) : ∀ (g : List GapItem), ValidGap g → ∀ (pos : Nat) (bol sp : Bool),
    ∃ bol' sp', scan h pos (gapBytes g ++ rest) bol sp = scan h (pos + (gapBytes g).length) rest bol' sp' := by
  intro g
  induction g with
  | nil => intro _ pos bol sp; exact ⟨bol, sp, rfl⟩
  | cons i g ih =>
    intro hv pos bol sp
    have step : ∀ (bol1 sp1 : Bool), scan h pos (gapBytes (i :: g) ++ rest) bol sp = scan h (pos + i.bytes.length) (gapBytes g ++ rest) bol1 sp1 →
        ∃ bol' sp', scan h pos (gapBytes (i :: g) ++ rest) bol sp = scan h (pos + (gapBytes (i :: g)).length) rest bol' sp' := by
      intro bol1 sp1 e
      obtain ⟨b, s, h1⟩ := ih (ValidGap.tail hv) (pos + i.bytes.length) bol1 sp1
      refine ⟨b, s, ?_⟩
      rw [e, h1]
      congr 1
      simp [gapBytes]; omega
    have hi := hv.1 i List.mem_cons_self
    cases i with
    | nl => exact step true false (scan_newline h pos (gapBytes g ++ rest) bol sp)
    | ws b => exact step bol true (scan_ws h b hi pos (gapBytes g ++ rest) bol sp)
    | line body =>
      have hn := hv.2 [] body g rfl
      cases g with
      | nil => cases hn
      | cons j g =>
        cases hn
        refine step bol true ?_
        have e : gapBytes (GapItem.line body :: GapItem.nl :: g) ++ rest = 0x2F :: 0x2F :: (body ++ 10 :: (gapBytes g ++ rest)) := by simp [gapBytes, GapItem.bytes]
        rw [e, scan_line h body _ hi]
        congr 1
        simp [GapItem.bytes]; omega
    | block body =>
      refine step bol true ?_
      have e : gapBytes (GapItem.block body :: g) ++ rest = 0x2F :: 0x2A :: (body ++ 0x2A :: 0x2F :: (gapBytes g ++ rest)) := by simp [gapBytes, GapItem.bytes]
      rw [e, scan_block h body _ hi]
      congr 1
      simp [GapItem.bytes]; omega

/-! ### Texts -/

/-- A preprocessing token that spells `t`. -/
def Is (t : Tok) (p : PTok) : Prop :=
  Spelling t p.text p.kind ∧ p.kind ≠ .eof ∧ p.kind ≠ .str ∧ (p.kind = .num → ∀ v, t = .num v → p.payload = .chr v .int)

/-- Lists of them. -/
inductive All : List Tok → List PTok → Prop where
  | nil : All [] []
  | cons {t p ts ps} : Is t p → All ts ps → All (t :: ts) (p :: ps)

theorem scan_laid (h : Host) (f : Pp.FileRef) {text : Bytes} {ts : List Tok} (hl : Laid text ts) : ∀ (pre : Bytes) (bol sp : Bool),
    ∃ us e, scan h pre.length text bol sp = .ok (us ++ [e]) ∧ e.kind = .eof ∧ e.len = 0 ∧
      ∀ ln : Lex.Tok → Nat, All ts (us.map fun u => Pp.ofLex f (pre ++ text) { u with line := ln u }) := by
  induction hl with
  | @nil g hv =>
    intro pre bol sp
    obtain ⟨b, s, e⟩ := scan_gap h [] g hv pre.length bol sp
    rw [List.append_nil] at e
    refine ⟨[], { kind := .eof, loc := pre.length + (gapBytes g).length, len := 0, atBol := b, hasSpace := s, payload := .none }, ?_, rfl, rfl, fun _ => .nil⟩
    rw [e, scan, if_pos rfl]; rfl
  | @cons g t w k rest ts hv hs hg hne _ ih =>
    intro pre bol sp
    obtain ⟨b, s, e⟩ := scan_gap h (w ++ rest) g hv pre.length bol sp
    obtain ⟨pl, ⟨r, h1⟩, h2, h3, h4, h5⟩ := spelling_token h hs
    have hlx := lex_local h k w r rest pl h1 hg hne
    obtain ⟨us, x, h6, h7, h8, h9⟩ := ih (pre ++ (gapBytes g ++ w)) false false
    have hsc := scan_tok h (pre.length + (gapBytes g).length) (w ++ rest) b s k w.length pl hlx (us ++ [x]) (by
      rw [List.drop_left, ← h6]
      congr 1
      simp; omega)
    refine ⟨{ kind := k, loc := pre.length + (gapBytes g).length, len := w.length, atBol := b, hasSpace := s, payload := pl } :: us, x, by rw [e, hsc]; rfl, h7, h8, fun ln => ?_⟩
    rw [List.map_cons]
    refine .cons ⟨?_, h2, h3, h5⟩ ?_
    · have e1 : pre ++ (gapBytes g ++ (w ++ rest)) = (pre ++ gapBytes g) ++ (w ++ rest) := by simp
      have e2 : pre.length + (gapBytes g).length = (pre ++ gapBytes g).length := by simp
      show Spelling t ((List.drop (pre.length + (gapBytes g).length) (pre ++ (gapBytes g ++ (w ++ rest)))).take w.length) k
      rw [e1, e2, List.drop_left, List.take_left]
      exact hs
    · have e1 : pre ++ (gapBytes g ++ (w ++ rest)) = (pre ++ (gapBytes g ++ w)) ++ rest := by simp
      rw [e1]
      exact h9 ln

/-- tokenize on a laid out text. -/
theorem tokens_laid (env : Pp.Env) (f : Pp.FileRef) {text : Bytes} {ts : List Tok} (hl : Laid text ts) :
    ∃ ps e, Pp.tokens env f text = .ok (ps ++ [e]) ∧ e.isEof = true ∧ e.text = [] ∧ All ts ps := by
  obtain ⟨us, e, h1, h2, h3, h4⟩ := scan_laid env.host f hl [] true false
  refine ⟨us.map fun u => Pp.ofLex f text (setLine text u), Pp.ofLex f text (setLine text e), ?_, ?_, ?_, h4 fun u => 1 + (text.take u.loc).count 10⟩
  · unfold Pp.tokens
    rw [tokenize_eq]
    have h1 : scan env.host 0 text true false = .ok (us ++ [e]) := h1
    rw [h1]
    simp [Except.map, List.map_map, Function.comp_def]
  · simp [Pp.PTok.isEof, Pp.ofLex, setLine, h2]
  · simp [Pp.ofLex, setLine, h3]

end Toycc.Src
