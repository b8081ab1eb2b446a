import Verif.Fn.ImmSpec
import Verif.Cg.StrictLemmas
/-! Lemmas for C63: the immediates of the code of expressions and statements. -/
namespace Toycc.Fn
open Toycc.Rv Toycc.Cg Toycc.Stm

def Enc (c : List Instr) : Prop := ∀ i ∈ c, Encodable i

theorem enc_nil : Enc [] ↔ True := by simp [Enc]
theorem enc_cons {i c} : Enc (i :: c) ↔ Encodable i ∧ Enc c := by simp [Enc]
theorem enc_append {a b} : Enc (a ++ b) ↔ Enc a ∧ Enc b := by
  simp only [Enc, List.mem_append]
  exact ⟨fun h => ⟨fun i hi => h i (.inl hi), fun i hi => h i (.inr hi)⟩, fun h i hi => hi.elim (h.1 i) (h.2 i)⟩
theorem enc_flatMap {α : Type} {l : List α} {f : α → List Instr} : Enc (l.flatMap f) ↔ ∀ x ∈ l, Enc (f x) := by
  simp only [Enc, List.mem_flatMap]
  exact ⟨fun h x hx i hi => h i ⟨x, hx, hi⟩, fun h i ⟨x, hx, hi⟩ => h x hx i hi⟩

theorem beyond_iff {v : Int} : Util.beyondInstructionOffset v = false ↔ Imm12 v := by
  simp only [Util.beyondInstructionOffset, Imm12, decide_eq_false_iff_not]; omega

theorem enc_push (r : Reg) : Enc (pushI r) := by
  simp [pushI, enc_cons, enc_nil, Encodable, Imm12]
theorem enc_pop (r : Reg) : Enc (popI r) := by
  simp [popI, enc_cons, enc_nil, Encodable, Imm12]
theorem enc_load (t : Ty) : Enc (genLoad t) := by
  cases t <;> simp [genLoad, enc_cons, enc_nil, Encodable, Imm12]
theorem enc_copyByte (i : Nat) : Enc (copyByte i) := by
  unfold copyByte
  cases h : Util.beyondInstructionOffset i with
  | true => simp [enc_cons, enc_nil, Encodable, Imm12]
  | false =>
    have := beyond_iff.mp h
    simp [enc_cons, enc_nil, Encodable, this]
theorem enc_store (t : Ty) : Enc (genStore t) := by
  cases t <;> simp only [genStore, enc_append, enc_pop, true_and, enc_flatMap] <;>
    first
    | (intro x _; exact enc_copyByte x)
    | simp [enc_cons, enc_nil, Encodable, Imm12]
theorem enc_addOffset (b : Reg) (off : Int) : Enc (addOffset b off) := by
  unfold addOffset
  cases h : Util.beyondInstructionOffset off with
  | true => simp [enc_cons, enc_nil, Encodable]
  | false =>
    have := beyond_iff.mp h
    simp [enc_cons, enc_nil, Encodable, this]
theorem enc_zeroByte (off : Int) : Enc (zeroByte off) := by
  unfold zeroByte
  cases h : Util.beyondInstructionOffset off with
  | true => simp [enc_cons, enc_nil, Encodable, Imm12]
  | false =>
    have := beyond_iff.mp h
    simp [enc_cons, enc_nil, Encodable, this]
theorem enc_varAddr (v : Cg.Var) (s : GS) : Enc (varAddr v s).1 := by
  cases v <;> simp only [varAddr]
  · exact enc_addOffset _ _
  · simp [enc_cons, enc_nil, Encodable, Imm12]
  · simp [enc_cons, enc_nil, Encodable]
theorem enc_shiftExt (u : Bool) {n : Nat} (h : n < 64) : Enc (shiftExt u n) := by
  cases u <;> simp [shiftExt, enc_cons, enc_nil, Encodable, h]
theorem enc_castMatrix (a b : TypeId) : Enc ((castMatrix a b).getD []) := by
  cases a <;> cases b <;> simp [castMatrix, enc_nil, enc_shiftExt]
theorem enc_cast (a b : Ty) : Enc (genCast a b) := by
  unfold genCast
  split
  · simp [enc_nil]
  · simp [enc_cons, enc_nil, Encodable]
  · exact enc_castMatrix _ _
theorem enc_bin (op : BinOp) (l t : Ty) : Enc (binInstrs op l t) := by
  have h1 : ∀ (a b : List Instr) (c : Bool), Enc a → Enc b → Enc (if c = true then a else b) := by
    intro a b c ha hb; cases c <;> simpa
  cases op <;> simp only [binInstrs] <;> (repeat' first | apply h1 | (rw [enc_append]; constructor)) <;> simp [enc_cons, enc_nil, Encodable]
theorem enc_storeBits (t ty : Ty) {o w : Nat} (h : 0 < w ∧ o + w ≤ 64) : Enc (storeBits t ty o w) := by
  have : o < 64 := by omega
  simp [storeBits, enc_append, enc_cons, enc_nil, enc_load, enc_store, Encodable, Imm12, this]
theorem enc_extract (t : Ty) {o w : Nat} (h : 0 < w ∧ o + w ≤ 64) : Enc (extractBits t o w) := by
  have h1 : 64 - w - o < 64 := by omega
  have h2 : 64 - w < 64 := by omega
  unfold extractBits
  split <;> simp [enc_cons, enc_nil, Encodable, h1, h2]
theorem enc_trunc (t : Ty) : Enc (truncResult t) := by
  cases t <;> simp [truncResult, enc_nil, enc_shiftExt]
theorem enc_cmpZero : Enc cmpZero := by simp [cmpZero, enc_cons, enc_nil, Encodable]

/-- A bit-field lies within its unit of at most 64 bits (C33, C34). -/
def bitsOk : Option (Nat × Nat) → Bool
  | some (o, w) => decide (0 < w ∧ o + w ≤ 64)
  | none => true

mutual
/-- Every bit-field accessed lies within its unit, and every call has at most 262 arguments. -/
def immOk : Expr → Bool
  | .null | .num _ _ | .var _ _ | .memzero _ _ | .vlaPtr _ => true
  | .neg _ e | .deref _ e | .addr e | .cast _ e | .not e | .bitnot e => immOk e
  | .member f e => bitsOk f.bits && immOk e
  | .assign _ l r | .comma l r | .logand l r | .logor l r | .bin _ _ l r => immOk l && immOk r
  | .cond _ c t e => immOk c && immOk t && immOk e
  | .call _ f args => decide (args.length ≤ 262) && immOk f && immOks args
def immOks : Exprs → Bool
  | .nil => true
  | .cons e r => immOk e && immOks r
end

theorem bitfield_ok {l : Expr} {f : Field} {o w : Nat} (h : l.bitfield = some (f, o, w)) (hl : immOk l = true) : 0 < w ∧ o + w ≤ 64 := by
  cases l with
  | member g e =>
    simp only [Expr.bitfield] at h
    simp only [immOk, Bool.and_eq_true] at hl
    cases hb : g.bits with
    | none => rw [hb] at h; simp at h
    | some p =>
      obtain ⟨o', w'⟩ := p
      rw [hb] at h hl
      simp only [Option.some.injEq, Prod.mk.injEq] at h
      obtain ⟨-, rfl, rfl⟩ := h
      simpa [bitsOk] using hl.1
  | _ => simp [Expr.bitfield] at h

mutual
theorem gen_enc : ∀ (e : Expr) (ad : Bool) (gs : GS) (c : List Instr) (gs' : GS), gen ad e gs = some (c, gs') → immOk e = true → Enc c
  | .null, ad, gs, c, gs', h, _ => by
    simp only [gen] at h
    split at h
    · simp at h
    · simp only [Option.some.injEq, Prod.mk.injEq] at h; rw [← h.1]; simp [enc_nil]
  | .num _ _, ad, gs, c, gs', h, _ => by
    simp only [gen] at h
    split at h
    · simp at h
    · simp only [Option.some.injEq, Prod.mk.injEq] at h; rw [← h.1]; simp [enc_cons, enc_nil, Encodable]
  | .neg ty e, ad, gs, c, gs', h, hk => by
    simp only [gen] at h
    split at h
    · simp at h
    · simp only [bindSome, Option.some.injEq, Prod.mk.injEq] at h
      obtain ⟨⟨c1, s1⟩, h1, h2, -⟩ := h
      have := gen_enc e _ _ _ _ h1 (by simpa [immOk] using hk)
      rw [← h2, enc_append]
      refine ⟨this, ?_⟩
      split <;> simp [enc_cons, enc_nil, Encodable]
  | .var ty x, ad, gs, c, gs', h, _ => by
    simp only [gen, Option.some.injEq, Prod.mk.injEq] at h
    rw [← h.1]
    split
    · exact enc_varAddr _ _
    · rw [enc_append]; exact ⟨enc_varAddr _ _, enc_load _⟩
  | .member f e, ad, gs, c, gs', h, hk => by
    simp only [gen, bindSome] at h
    simp only [immOk, Bool.and_eq_true] at hk
    obtain ⟨⟨c1, s1⟩, h1, h2⟩ := h
    have := gen_enc e _ _ _ _ h1 hk.2
    split at h2
    · simp only [Option.some.injEq, Prod.mk.injEq] at h2
      rw [← h2.1, enc_append]; exact ⟨this, enc_addOffset _ _⟩
    · split at h2
      · simp only [Option.some.injEq, Prod.mk.injEq] at h2
        rw [← h2.1, enc_append, enc_append]; exact ⟨⟨this, enc_addOffset _ _⟩, enc_load _⟩
      · rename_i o w hb
        simp only [Option.some.injEq, Prod.mk.injEq] at h2
        rw [← h2.1, enc_append, enc_append, enc_append]
        refine ⟨⟨⟨this, enc_addOffset _ _⟩, enc_load _⟩, enc_extract _ ?_⟩
        have := hk.1
        rw [hb] at this
        simpa [bitsOk] using this
  | .deref ty e, ad, gs, c, gs', h, hk => by
    simp only [gen, bindSome, Option.some.injEq, Prod.mk.injEq] at h
    obtain ⟨⟨c1, s1⟩, h1, h2, -⟩ := h
    have := gen_enc e _ _ _ _ h1 (by simpa [immOk] using hk)
    rw [← h2]
    split
    · exact this
    · rw [enc_append]; exact ⟨this, enc_load _⟩
  | .addr e, ad, gs, c, gs', h, hk => by
    simp only [gen] at h
    split at h
    · simp at h
    · exact gen_enc e _ _ _ _ h (by simpa [immOk] using hk)
  | .assign ty l r, ad, gs, c, gs', h, hk => by
    simp only [gen] at h
    simp only [immOk, Bool.and_eq_true] at hk
    split at h
    · simp only [Option.some.injEq, Prod.mk.injEq] at h; rw [← h.1]; simp [enc_nil]
    · simp only [bindSome] at h
      obtain ⟨⟨c1, s1⟩, h1, ⟨c2, s2⟩, h2, h3⟩ := h
      have e1 := gen_enc l _ _ _ _ h1 hk.1
      have e2 := gen_enc r _ _ _ _ h2 hk.2
      split at h3
      · rename_i f o w hb
        simp only [Option.some.injEq, Prod.mk.injEq] at h3
        rw [← h3.1]
        simp only [enc_append]
        exact ⟨⟨⟨e1, enc_push _⟩, e2⟩, enc_storeBits _ _ (bitfield_ok hb hk.1)⟩
      · simp only [Option.some.injEq, Prod.mk.injEq] at h3
        rw [← h3.1]
        simp only [enc_append]
        exact ⟨⟨⟨e1, enc_push _⟩, e2⟩, enc_store _⟩
  | .comma l r, ad, gs, c, gs', h, hk => by
    simp only [gen, bindSome, Option.some.injEq, Prod.mk.injEq] at h
    simp only [immOk, Bool.and_eq_true] at hk
    obtain ⟨⟨c1, s1⟩, h1, ⟨c2, s2⟩, h2, h3, -⟩ := h
    rw [← h3, enc_append]
    exact ⟨gen_enc l _ _ _ _ h1 hk.1, gen_enc r _ _ _ _ h2 hk.2⟩
  | .cast ty e, ad, gs, c, gs', h, hk => by
    simp only [gen] at h
    split at h
    · simp at h
    · simp only [bindSome, Option.some.injEq, Prod.mk.injEq] at h
      obtain ⟨⟨c1, s1⟩, h1, h2, -⟩ := h
      rw [← h2, enc_append]
      exact ⟨gen_enc e _ _ _ _ h1 (by simpa [immOk] using hk), enc_cast _ _⟩
  | .memzero _ _, ad, gs, c, gs', h, _ => by
    simp only [gen] at h
    split at h
    · simp at h
    · simp only [Option.some.injEq, Prod.mk.injEq] at h
      rw [← h.1, enc_flatMap]
      intro x _
      exact enc_zeroByte _
  | .cond ty a b e, ad, gs, c, gs', h, hk => by
    simp only [gen] at h
    simp only [immOk, Bool.and_eq_true] at hk
    split at h
    · simp only [Option.some.injEq, Prod.mk.injEq] at h; rw [← h.1]; simp [enc_nil]
    · simp only [bindSome, Option.some.injEq, Prod.mk.injEq] at h
      obtain ⟨⟨c1, s1⟩, h1, ⟨c2, s2⟩, h2, ⟨c3, s3⟩, h3, h4, -⟩ := h
      have e1 := gen_enc a _ _ _ _ h1 hk.1.1
      have e2 := gen_enc b _ _ _ _ h2 hk.1.2
      have e3 := gen_enc e _ _ _ _ h3 hk.2
      rw [← h4]
      simp [enc_append, enc_cons, enc_nil, Encodable, e1, e2, e3, enc_cmpZero]
  | .not e, ad, gs, c, gs', h, hk => by
    simp only [gen] at h
    split at h
    · simp at h
    · simp only [bindSome, Option.some.injEq, Prod.mk.injEq] at h
      obtain ⟨⟨c1, s1⟩, h1, h2, -⟩ := h
      rw [← h2, enc_append]
      exact ⟨gen_enc e _ _ _ _ h1 (by simpa [immOk] using hk), enc_cmpZero⟩
  | .bitnot e, ad, gs, c, gs', h, hk => by
    simp only [gen] at h
    split at h
    · simp at h
    · simp only [bindSome, Option.some.injEq, Prod.mk.injEq] at h
      obtain ⟨⟨c1, s1⟩, h1, h2, -⟩ := h
      rw [← h2, enc_append]
      exact ⟨gen_enc e _ _ _ _ h1 (by simpa [immOk] using hk), by simp [enc_cons, enc_nil, Encodable]⟩
  | .logand l r, ad, gs, c, gs', h, hk => by
    simp only [gen] at h
    simp only [immOk, Bool.and_eq_true] at hk
    split at h
    · simp at h
    · simp only [bindSome, Option.some.injEq, Prod.mk.injEq] at h
      obtain ⟨⟨c1, s1⟩, h1, ⟨c2, s2⟩, h2, h3, -⟩ := h
      have e1 := gen_enc l _ _ _ _ h1 hk.1
      have e2 := gen_enc r _ _ _ _ h2 hk.2
      rw [← h3]
      simp [enc_append, enc_cons, enc_nil, Encodable, e1, e2, enc_cmpZero]
  | .logor l r, ad, gs, c, gs', h, hk => by
    simp only [gen] at h
    simp only [immOk, Bool.and_eq_true] at hk
    split at h
    · simp at h
    · simp only [bindSome, Option.some.injEq, Prod.mk.injEq] at h
      obtain ⟨⟨c1, s1⟩, h1, ⟨c2, s2⟩, h2, h3, -⟩ := h
      have e1 := gen_enc l _ _ _ _ h1 hk.1
      have e2 := gen_enc r _ _ _ _ h2 hk.2
      rw [← h3]
      simp [enc_append, enc_cons, enc_nil, Encodable, e1, e2, enc_cmpZero]
  | .bin op ty l r, ad, gs, c, gs', h, hk => by
    simp only [gen] at h
    simp only [immOk, Bool.and_eq_true] at hk
    split at h
    · simp at h
    · simp only [bindSome, Option.some.injEq, Prod.mk.injEq] at h
      obtain ⟨⟨c1, s1⟩, h1, ⟨c2, s2⟩, h2, h3, -⟩ := h
      have e1 := gen_enc r _ _ _ _ h1 hk.2
      have e2 := gen_enc l _ _ _ _ h2 hk.1
      rw [← h3]
      simp only [enc_append]
      exact ⟨⟨⟨⟨e1, enc_push _⟩, e2⟩, enc_pop _⟩, enc_bin _ _ _⟩
  | .vlaPtr off, ad, gs, c, gs', h, _ => by
    simp only [gen] at h
    split at h
    · simp only [Option.some.injEq, Prod.mk.injEq] at h; rw [← h.1]; simp [enc_cons, enc_nil, Encodable]
    · simp at h
  | .call ty f args, ad, gs, c, gs', h, hk => by
    simp only [immOk, Bool.and_eq_true, decide_eq_true_eq] at hk
    rw [gen] at h
    split at h
    · simp only [Option.some.injEq, Prod.mk.injEq] at h; rw [← h.1]; simp [enc_nil]
    split at h
    · simp at h
    · simp only [bindSome] at h
      obtain ⟨⟨c1, s1⟩, h1, ⟨c2, s2⟩, h2, ⟨c3, s3⟩, h3, h4⟩ := h
      simp only [Option.some.injEq, Prod.mk.injEq] at h4
      have e1 := genArgs_enc args _ _ _ _ _ h1 hk.2
      have e2 := genArgs_enc args _ _ _ _ _ h2 hk.2
      have e3 := gen_enc f _ _ _ _ h3 hk.1.2
      rw [← h4.1]
      simp only [enc_append]
      refine ⟨⟨⟨⟨⟨⟨⟨⟨⟨?_, ?_⟩, e1⟩, e2⟩, e3⟩, ?_⟩, ?_⟩, ?_⟩, ?_⟩, enc_trunc _⟩
      · split <;> simp [enc_cons, enc_nil, Encodable, Imm12]
      · simp [enc_cons, enc_nil, Encodable, Imm12]
      · simp [enc_cons, enc_nil, Encodable]
      · rw [enc_flatMap]; intro x _; exact enc_pop x
      · simp [enc_cons, enc_nil, Encodable]
      · split
        · simp [enc_nil]
        · simp only [enc_cons, enc_nil, Encodable, Imm12, and_true]
          have := hk.1.1
          omega
theorem genArgs_enc : ∀ (a : Exprs) (first : Bool) (i : Nat) (gs : GS) (c : List Instr) (gs' : GS), genArgs first i a gs = some (c, gs') →
    immOks a = true → Enc c
  | .nil, first, i, gs, c, gs', h, _ => by
    simp only [genArgs, Option.some.injEq, Prod.mk.injEq] at h; rw [← h.1]; simp [enc_nil]
  | .cons e r, first, i, gs, c, gs', h, hk => by
    simp only [immOks, Bool.and_eq_true] at hk
    simp only [genArgs, bindSome] at h
    obtain ⟨⟨c1, s1⟩, h1, h2⟩ := h
    have e1 := genArgs_enc r _ _ _ _ _ h1 hk.2
    split at h2
    · simp only [Option.some.injEq, Prod.mk.injEq] at h2; rw [← h2.1]; exact e1
    · simp only [bindSome, Option.some.injEq, Prod.mk.injEq] at h2
      obtain ⟨⟨c2, s2⟩, h2, h3, -⟩ := h2
      have e2 := gen_enc e _ _ _ _ h2 hk.1
      rw [← h3]
      simp only [enc_append]
      exact ⟨⟨e1, e2⟩, enc_push _⟩
end

end Toycc.Fn
