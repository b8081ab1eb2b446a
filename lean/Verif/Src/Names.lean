import Verif.Src.CharsProof
import Verif.Src.MacSpec
/-! Spellings and tokens. -/
namespace Toycc.Src
open Toycc.Lex (asc Kind IntConst)
open Toycc.Pp (PTok Bytes)
open Toycc.Parse (Tok P Tree)

theorem asc_inj {s t : String} (hs : ascii s) (ht : ascii t) (h : asc s = asc t) : s = t := by
  rw [← str_asc hs, ← str_asc ht, h]

theorem kw_ascii {s : String} (h : IsKeyword s) : ascii s := keywords_ascii _ ((isKeyword_spec _).mp h)

theorem is_name {t : Tok} {p : PTok} {s : String} (h : Is t p) (ht : t = .ident s ∨ t = .kw s) : p.kind = .ident ∧ p.text = asc s ∧ ascii s := by
  obtain ⟨hs, _⟩ := h
  generalize p.text = w at hs ⊢
  generalize p.kind = k at hs ⊢
  rcases ht with rfl | rfl
  · cases hs with
    | name h => exact ⟨rfl, rfl, word_ascii h⟩
  · cases hs with
    | kw h => exact ⟨rfl, rfl, kw_ascii h⟩

theorem is_other {t : Tok} {p : PTok} (h : Is t p) (ht : ∀ s, ¬ (t = .ident s ∨ t = .kw s)) : p.kind ≠ .ident := by
  obtain ⟨hs, _⟩ := h
  intro hk
  rw [hk] at hs
  generalize p.text = w at hs
  cases hs with
  | kw _ => exact ht _ (.inr rfl)
  | name _ => exact ht _ (.inl rfl)

theorem is_hash {t : Tok} {p : PTok} (h : Is t p) : p.isEof = false ∧ Pp.isHash p = false := by
  obtain ⟨h1, h2, _⟩ := is_inert (st := {}) h (fun _ _ => rfl)
  exact ⟨h1, h2⟩

/-! ### Spellings determine tokens -/

theorem word_is {t : Tok} {p : PTok} {s : String} (h : Is t p) (hw : Word s) (hp : p.text = asc s) : t = nm s := by
  obtain ⟨hs, -⟩ := h
  rw [hp] at hs
  obtain ⟨b, r, e, hb, -⟩ := word_bytes hw
  have ha := word_ascii hw
  have hdig : ∀ {v t}, IntConst (asc s) v t → False := by
    intro v t hc
    obtain ⟨a, r', e', h1, -⟩ := const_bytes hc
    rw [e] at e'
    injection e' with e1
    subst e1
    have : ∀ b : UInt8, letterB b = true → Lex.isDig b = true → False := by decide +kernel
    exact this _ hb h1
  generalize hx : asc s = w at hs
  generalize p.kind = k at hs
  cases hs with
  | sign q =>
    have : ∀ q : P, ∀ b ∈ (asc (sign q)).head?, letterB b = false := by intro q; cases q <;> decide +kernel
    have h2 := this q b (by rw [← hx, e]; rfl)
    rw [hb] at h2; cases h2
  | kw hk =>
    have := asc_inj ha (kw_ascii hk) hx
    subst this
    unfold nm
    rw [if_pos hk]
  | name h1 h2 =>
    have := asc_inj ha (word_ascii h1) hx
    subst this
    unfold nm
    rw [if_neg h2]
  | int h => subst hx; exact absurd h hdig
  | uint h => subst hx; exact absurd h hdig
  | long h => subst hx; exact absurd h hdig
  | ulong h => subst hx; exact absurd h hdig
  | chr _ _ _ _ =>
    rw [e] at hx
    injection hx with e1
    subst e1
    exact absurd hb (by decide)

theorem sign_is {t : Tok} {p : PTok} {q : P} (h : Is t p) (hp : p.text = asc (sign q)) : t = .p q := by
  obtain ⟨hs, -⟩ := h
  rw [hp] at hs
  have hlet : ∀ q : P, ∀ b ∈ (asc (sign q)).head?, letterB b = false ∧ Lex.isDig b = false ∧ b ≠ 0x27 := by intro q; cases q <;> decide +kernel
  have hdig : ∀ {v t}, IntConst (asc (sign q)) v t → False := by
    intro v t hc
    obtain ⟨a, r', e', h1, -⟩ := const_bytes hc
    have := (hlet q a (by rw [e']; rfl)).2.1
    rw [h1] at this; cases this
  have hword : ∀ {s}, Word s → asc (sign q) = asc s → False := by
    intro s hw e
    obtain ⟨b, r, e', hb, -⟩ := word_bytes hw
    have := (hlet q b (by rw [e, e']; rfl)).1
    rw [hb] at this; cases this
  generalize hx : asc (sign q) = w at hs
  generalize p.kind = k at hs
  cases hs with
  | sign q' =>
    have h1 := signs_all q
    rw [hx] at h1
    rw [signs_all q'] at h1
    cases h1; rfl
  | kw hk => exact absurd hx (hword (keyword_isWord _ ((isKeyword_spec _).mp hk)))
  | name h1 h2 => exact absurd hx (hword h1)
  | int h => subst hx; exact absurd h hdig
  | uint h => subst hx; exact absurd h hdig
  | long h => subst hx; exact absurd h hdig
  | ulong h => subst hx; exact absurd h hdig
  | chr _ _ _ _ => exact absurd rfl (hlet q 0x27 (by rw [hx]; rfl)).2.2
end Toycc.Src
