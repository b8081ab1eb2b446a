import Verif.Src.PreGrp
/-! The macros of a state of the preprocessor and those of the specification. -/
namespace Toycc.Src
open Toycc.Lex (asc IntConst)
open Toycc.Pp (Bytes PTok Steps)
open Toycc.Parse (Tok P)

/-- The macros of a state are those of the specification. -/
structure Models (M : Macros) (st : Pp.St) : Prop where
  le : M.defs.Le (defsOf st)
  other : ∀ s, M (asc s) = some .other → (Pp.lookup st (asc s)).isSome = true

theorem Models.none {M : Macros} {st : Pp.St} (h : Models M st) (s : String) (hs : M (asc s) = none) : Pp.lookup st (asc s) = none := h.le.free s hs

theorem Models.congr {M : Macros} {st st' : Pp.St} (h : Models M st) (e : st'.macros = st.macros) : Models M st' := by
  have hl : ∀ x, Pp.lookup st' x = Pp.lookup st x := by intro x; unfold Pp.lookup; rw [e]
  have hle := defsOf_le hl
  exact ⟨⟨fun s b hs => hle.obj s b (h.le.obj s b hs), fun s ps va b hs => hle.fn s ps va b (h.le.fn s ps va b hs), fun s hs => hle.free s (h.le.free s hs)⟩, fun s hs => by rw [hl]; exact h.other s hs⟩

theorem Models.isSome {M : Macros} {st : Pp.St} (h : Models M st) (s : String) : (Pp.lookup st (asc s)).isSome = (M (asc s)).isSome := by
  cases hm : M (asc s) with
  | none => rw [h.none s hm]; rfl
  | some m =>
    cases m with
    | obj b =>
      obtain ⟨m, e, _⟩ := h.le.obj s b hm
      rw [e.found]; rfl
    | fn ps va b =>
      obtain ⟨m, e, _⟩ := h.le.fn s ps va b hm
      rw [e.found]; rfl
    | other => exact h.other s hm

end Toycc.Src
