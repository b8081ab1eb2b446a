/-! Small facts used everywhere (no model content). -/
namespace Toycc

deriving instance DecidableEq for Except

/-- Turn a computed check on a successful result into an existential (used for concrete witnesses). -/
theorem exists_ok {ε α : Type} {x : Except ε α} {P : α → Prop} [DecidablePred P]
    (h : (match x with | .ok m => decide (P m) | .error _ => false) = true) : ∃ m, x = .ok m ∧ P m := by
  cases x with
  | error e => simp at h
  | ok m => exact ⟨m, rfl, by simpa using h⟩

/-- A statement about all bytes is decidable: there are 256 of them. -/
instance decForallByte (p : UInt8 → Prop) [DecidablePred p] : Decidable (∀ b, p b) :=
  decidable_of_iff (∀ n : Fin 256, p (UInt8.ofFin n))
    ⟨fun h b => by have := h b.toFin; simpa using this, fun h n => h _⟩

end Toycc
