import Verif.Cg.ExprProof
/-!
Labels defined by the code of expressions: every one is made from the counter `count()` and is new.
-/
namespace Toycc.Cg
open Toycc.Rv

/-- The labels defined in a piece of code, in order. -/
def labels (c : List Instr) : List Label := c.filterMap fun | .label l => some l | _ => none

theorem labels_append (a b : List Instr) : labels (a ++ b) = labels a ++ labels b := List.filterMap_append

theorem mem_labels {c : List Instr} {l : Label} : l ∈ labels c ↔ Instr.label l ∈ c := by
  unfold labels
  rw [List.mem_filterMap]
  constructor
  · rintro ⟨i, hi, h⟩
    cases i <;> simp_all
  · intro h
    exact ⟨_, h, rfl⟩

/-- No label is defined twice. -/
theorem unique_of_nodup {P : Prog} (h : (labels P).Nodup) : UniqueLabels P := by
  induction P with
  | nil => intro i j l h1; simp at h1
  | cons a r ih =>
    intro i j l h1 h2
    have hr : (labels r).Nodup := by
      cases a <;> first | exact h | exact (List.nodup_cons.mp h).2
    cases i with
    | zero =>
      cases j with
      | zero => rfl
      | succ j =>
        simp only [List.getElem?_cons_zero, Option.some.injEq, List.getElem?_cons_succ] at h1 h2
        subst h1
        have := (List.nodup_cons.mp h).1
        exact absurd (mem_labels.mpr (List.mem_of_getElem? h2)) this
    | succ i =>
      cases j with
      | zero =>
        simp only [List.getElem?_cons_zero, Option.some.injEq, List.getElem?_cons_succ] at h1 h2
        subst h2
        have := (List.nodup_cons.mp h).1
        exact absurd (mem_labels.mpr (List.mem_of_getElem? h1)) this
      | succ j =>
        simp only [List.getElem?_cons_succ] at h1 h2
        rw [ih hr i j l h1 h2]

/-- The labels of `c` are new ones numbered from `a` up to `b`, each defined once. -/
structure Fresh (a b : Nat) (c : List Instr) : Prop where
  nodup : (labels c).Nodup
  range : ∀ l ∈ labels c, ∃ p n, l = .gen p n ∧ a ≤ n ∧ n < b

theorem Fresh.none {a b c} (h : labels c = []) : Fresh a b c := ⟨by simp [h], by simp [h]⟩

theorem Fresh.mono {a a' b b' c} (h : Fresh a b c) (h1 : a' ≤ a) (h2 : b ≤ b') : Fresh a' b' c :=
  ⟨h.1, fun l hl => by
    obtain ⟨p, n, e, h3, h4⟩ := h.2 l hl
    exact ⟨p, n, e, by omega, by omega⟩⟩

theorem Fresh.append {a b d c1 c2} (h1 : Fresh a b c1) (h2 : Fresh b d c2) (hab : a ≤ b) (hbd : b ≤ d) : Fresh a d (c1 ++ c2) := by
  refine ⟨?_, ?_⟩
  · rw [labels_append, List.nodup_append]
    refine ⟨h1.1, h2.1, ?_⟩
    intro x hx y hy e
    subst e
    obtain ⟨p, n, rfl, h3, h4⟩ := h1.2 x hx
    obtain ⟨q, k, e, h5, h6⟩ := h2.2 _ hy
    cases e
    omega
  · intro l hl
    rw [labels_append, List.mem_append] at hl
    rcases hl with hl | hl
    · exact (h1.mono (Nat.le_refl _) hbd).2 l hl
    · exact (h2.mono hab (Nat.le_refl _)).2 l hl

/-- Adding instructions that define no label. -/
theorem Fresh.congr {a b c c'} (h : Fresh a b c) (e : labels c' = labels c) : Fresh a b c' := ⟨e ▸ h.1, e ▸ h.2⟩

theorem labels_nil_of {c : List Instr} (h : ∀ i ∈ c, ∀ l, i ≠ .label l) : labels c = [] := by
  rw [List.eq_nil_iff_forall_not_mem]
  intro l hl
  exact h _ (mem_labels.mp hl) l rfl

theorem labels_flatMap_nil {α} (f : α → List Instr) (l : List α) (h : ∀ a, labels (f a) = []) : labels (l.flatMap f) = [] := by
  induction l with
  | nil => rfl
  | cons a r ih => rw [List.flatMap_cons, labels_append, h, ih]; rfl

theorem labels_cons (i : Instr) (c : List Instr) : labels (i :: c) = labels [i] ++ labels c := labels_append [i] c

theorem labels_push (r) : labels (pushI r) = [] := rfl
theorem labels_pop (r) : labels (popI r) = [] := rfl
theorem labels_load (t : Ty) : labels (genLoad t) = [] := by cases t <;> rfl
theorem labels_copyByte (i) : labels (copyByte i) = [] := by unfold copyByte; split <;> rfl
theorem labels_store (t : Ty) : labels (genStore t) = [] := by
  cases t <;> first | rfl | skip
  simp only [genStore, labels_append, labels_pop, labels_flatMap_nil _ _ labels_copyByte, List.nil_append]
theorem labels_addOffset (r o) : labels (addOffset r o) = [] := by unfold addOffset; split <;> rfl
theorem labels_shiftExt (u n) : labels (shiftExt u n) = [] := by cases u <;> rfl
theorem labels_cast (a t : Ty) : labels (genCast a t) = [] := by
  unfold genCast
  split <;> first | rfl | skip
  cases typeId a <;> cases typeId _ <;> rfl
theorem labels_bin (op) (a t : Ty) : labels (binInstrs op a t) = [] := by
  unfold binInstrs
  cases op <;> simp only <;> first | rfl | (split <;> rfl)
theorem labels_extract (t : Ty) (o w) : labels (extractBits t o w) = [] := by
  unfold extractBits; cases t.unsigned <;> rfl
theorem labels_storeBits (t ty : Ty) (o w) : labels (storeBits t ty o w) = [] := by
  simp only [storeBits, labels_append, labels_load, labels_store, List.append_nil]
  rfl
theorem labels_zeroByte (o) : labels (zeroByte o) = [] := by unfold zeroByte; split <;> rfl
theorem labels_trunc (t : Ty) : labels (truncResult t) = [] := by
  unfold truncResult; split <;> first | rfl | exact labels_shiftExt _ _
theorem labels_popAll (rs : List Reg) : labels (rs.flatMap popI) = [] := labels_flatMap_nil _ _ labels_pop

theorem two_fresh {p q : String} {k b : Nat} (hpq : p ≠ q) (hb : k < b) {c1 c2 : List Instr} {l : List Label}
    (h1 : Fresh (k + 1) b c1) (h2 : Fresh (k + 1) b c2) (hd : ∀ x ∈ labels c1, x ∉ labels c2)
    (hl : l.Perm (labels c1 ++ labels c2 ++ [lbl p k, lbl q k])) {c : List Instr} (hc : labels c = l) : Fresh k b c := by
  have key : (labels c1 ++ labels c2 ++ [lbl p k, lbl q k]).Nodup ∧
      ∀ x ∈ labels c1 ++ labels c2 ++ [lbl p k, lbl q k], ∃ p n, x = .gen p n ∧ k ≤ n ∧ n < b := by
    constructor
    · rw [List.nodup_append, List.nodup_append]
      refine ⟨⟨h1.1, h2.1, ?_⟩, ?_, ?_⟩
      · intro x hx y hy e; subst e; exact hd x hx hy
      · simp [lbl, hpq]
      · intro x hx y hy e
        subst e
        have : ∃ p n, x = .gen p n ∧ k + 1 ≤ n ∧ n < b := by
          rcases List.mem_append.mp hx with hx | hx
          · exact h1.2 x hx
          · exact h2.2 x hx
        obtain ⟨_, n, rfl, hn, _⟩ := this
        simp only [lbl, List.mem_cons, Label.gen.injEq, List.not_mem_nil, or_false] at hy
        omega
    · intro x hx
      simp only [List.mem_append, List.mem_cons, List.not_mem_nil, or_false] at hx
      rcases hx with (hx | hx) | hx | hx
      · exact (h1.mono (by omega) (Nat.le_refl _)).2 x hx
      · exact (h2.mono (by omega) (Nat.le_refl _)).2 x hx
      · exact ⟨_, _, hx, Nat.le_refl _, hb⟩
      · exact ⟨_, _, hx, Nat.le_refl _, hb⟩
  exact ⟨by rw [hc]; exact hl.nodup_iff.mpr key.1, fun x hx => key.2 x (hl.mem_iff.mp (hc ▸ hx))⟩

theorem fresh_disjoint {a b d c1 c2} (h1 : Fresh a b c1) (h2 : Fresh b d c2) : ∀ x ∈ labels c1, x ∉ labels c2 := by
  intro x hx hy
  obtain ⟨p, n, rfl, h3, h4⟩ := h1.2 x hx
  obtain ⟨q, k, e, h5, h6⟩ := h2.2 _ hy
  cases e
  omega

mutual
/-- The labels of an expression's code are new, and each is defined once. -/
theorem gen_fresh : ∀ (e : Expr) (ad : Bool) (gs : GS) (c : List Instr) (gs' : GS), gen ad e gs = some (c, gs') →
    Fresh gs.cnt gs'.cnt c
  | .null, ad, gs, c, gs', h => by
    simp only [gen] at h
    split at h
    · simp at h
    · simp only [Option.some.injEq, Prod.mk.injEq] at h; obtain ⟨rfl, rfl⟩ := h; exact .none rfl
  | .num _ _, ad, gs, c, gs', h => by
    simp only [gen] at h
    split at h
    · simp at h
    · simp only [Option.some.injEq, Prod.mk.injEq] at h; obtain ⟨rfl, rfl⟩ := h; exact .none rfl
  | .neg ty e, ad, gs, c, gs', h => by
    simp only [gen] at h
    split at h
    · simp at h
    · simp only [bindSome, Option.some.injEq, Prod.mk.injEq] at h
      obtain ⟨⟨c1, s1⟩, h1, rfl, rfl⟩ := h
      refine (gen_fresh e _ _ _ _ h1).congr ?_
      rw [labels_append]; split <;> exact List.append_nil _
  | .var ty x, ad, gs, c, gs', h => by
    simp only [gen, Option.some.injEq, Prod.mk.injEq] at h
    obtain ⟨h1, rfl⟩ := h
    have hl : labels c = labels (varAddr x gs).1 := by
      subst h1; split
      · rfl
      · rw [labels_append, labels_load, List.append_nil]
    cases x with
    | loc off => exact .none (hl.trans (labels_addOffset _ _))
    | vla off => exact .none hl
    | glob n =>
      refine ⟨by rw [hl]; simp [varAddr, labels], ?_⟩
      rw [hl]
      intro l hl
      simp only [varAddr, labels, List.filterMap_cons, List.filterMap_nil, List.mem_cons, List.not_mem_nil, or_false] at hl
      exact ⟨_, _, hl, Nat.le_refl _, Nat.lt_succ_self _⟩
  | .member f e, ad, gs, c, gs', h => by
    simp only [gen, bindSome] at h
    obtain ⟨⟨c1, s1⟩, h1, h2⟩ := h
    have hf := gen_fresh e _ _ _ _ h1
    split at h2
    · simp only [Option.some.injEq, Prod.mk.injEq] at h2
      obtain ⟨rfl, rfl⟩ := h2
      exact hf.congr (by rw [labels_append, labels_addOffset, List.append_nil])
    · split at h2 <;> simp only [Option.some.injEq, Prod.mk.injEq] at h2 <;> obtain ⟨rfl, rfl⟩ := h2
      · exact hf.congr (by simp only [labels_append, labels_addOffset, labels_load, List.append_nil])
      · exact hf.congr (by simp only [labels_append, labels_addOffset, labels_load, labels_extract, List.append_nil])
  | .deref ty e, ad, gs, c, gs', h => by
    simp only [gen, bindSome, Option.some.injEq, Prod.mk.injEq] at h
    obtain ⟨⟨c1, s1⟩, h1, rfl, rfl⟩ := h
    refine (gen_fresh e _ _ _ _ h1).congr ?_
    split
    · rfl
    · rw [labels_append, labels_load, List.append_nil]
  | .addr e, ad, gs, c, gs', h => by
    simp only [gen] at h
    split at h
    · simp at h
    · exact gen_fresh e _ _ _ _ h
  | .assign ty l r, ad, gs, c, gs', h => by
    simp only [gen] at h
    split at h
    · simp only [Option.some.injEq, Prod.mk.injEq] at h; obtain ⟨rfl, rfl⟩ := h; exact .none rfl
    · simp only [bindSome] at h
      obtain ⟨⟨c1, s1⟩, h1, ⟨c2, s2⟩, h2, h3⟩ := h
      have f2 : Fresh s1.cnt s2.cnt c2 := gen_fresh r _ s1.push _ _ h2
      have d2 : s1.cnt ≤ s2.cnt := (gen_depth r _ s1.push _ _ h2).2
      have hf := (gen_fresh l _ _ _ _ h1).append f2 (gen_depth _ _ _ _ _ h1).2 d2
      split at h3 <;> simp only [Option.some.injEq, Prod.mk.injEq] at h3 <;> obtain ⟨rfl, rfl⟩ := h3
      · exact hf.congr (by simp only [labels_append, labels_push, labels_storeBits, List.append_nil])
      · exact hf.congr (by simp only [labels_append, labels_push, labels_store, List.append_nil])
  | .comma l r, ad, gs, c, gs', h => by
    simp only [gen, bindSome, Option.some.injEq, Prod.mk.injEq] at h
    obtain ⟨⟨c1, s1⟩, h1, ⟨c2, s2⟩, h2, rfl, rfl⟩ := h
    exact (gen_fresh l _ _ _ _ h1).append (gen_fresh r _ _ _ _ h2) (gen_depth _ _ _ _ _ h1).2 (gen_depth _ _ _ _ _ h2).2
  | .cast ty e, ad, gs, c, gs', h => by
    simp only [gen] at h
    split at h
    · simp at h
    · simp only [bindSome, Option.some.injEq, Prod.mk.injEq] at h
      obtain ⟨⟨c1, s1⟩, h1, rfl, rfl⟩ := h
      exact (gen_fresh e _ _ _ _ h1).congr (by rw [labels_append, labels_cast, List.append_nil])
  | .memzero _ _, ad, gs, c, gs', h => by
    simp only [gen] at h
    split at h
    · simp at h
    · simp only [Option.some.injEq, Prod.mk.injEq] at h; obtain ⟨rfl, rfl⟩ := h
      exact .none (labels_flatMap_nil _ _ fun _ => labels_zeroByte _)
  | .cond ty a b e, ad, gs, c, gs', h => by
    simp only [gen] at h
    split at h
    · simp only [Option.some.injEq, Prod.mk.injEq] at h; obtain ⟨rfl, rfl⟩ := h; exact .none rfl
    · simp only [bindSome, Option.some.injEq, Prod.mk.injEq] at h
      obtain ⟨⟨c1, s1⟩, h1, ⟨c2, s2⟩, h2, ⟨c3, s3⟩, h3, rfl, rfl⟩ := h
      have d1 := (gen_depth _ _ _ _ _ h1).2
      have d2 := (gen_depth _ _ _ _ _ h2).2
      have d3 := (gen_depth _ _ _ _ _ h3).2
      have d1' : gs.cnt + 1 ≤ s1.cnt := d1
      have f1 : Fresh (gs.cnt + 1) s1.cnt c1 := gen_fresh a _ _ _ _ h1
      have f2 := gen_fresh b _ _ _ _ h2
      have f3 := gen_fresh e _ _ _ _ h3
      have f12 := f1.append f2 d1' d2
      refine two_fresh (p := ".L.else") (q := ".L.end") (by decide) (by simp only at *; omega) (f12.mono (Nat.le_refl _) d3)
        (f3.mono (by simp only at *; omega) (Nat.le_refl _)) (fresh_disjoint f12 f3) ?_ rfl
      rw [List.perm_iff_count]
      intro x
      simp only [labels_append, List.count_append]
      simp only [labels, cmpZero, List.filterMap_cons, List.filterMap_nil, List.count_cons, List.count_nil]
      omega
  | .not e, ad, gs, c, gs', h => by
    simp only [gen] at h
    split at h
    · simp at h
    · simp only [bindSome, Option.some.injEq, Prod.mk.injEq] at h
      obtain ⟨⟨c1, s1⟩, h1, rfl, rfl⟩ := h
      exact (gen_fresh e _ _ _ _ h1).congr (by rw [labels_append]; exact List.append_nil _)
  | .bitnot e, ad, gs, c, gs', h => by
    simp only [gen] at h
    split at h
    · simp at h
    · simp only [bindSome, Option.some.injEq, Prod.mk.injEq] at h
      obtain ⟨⟨c1, s1⟩, h1, rfl, rfl⟩ := h
      exact (gen_fresh e _ _ _ _ h1).congr (by rw [labels_append]; exact List.append_nil _)
  | .logand l r, ad, gs, c, gs', h => by
    simp only [gen] at h
    split at h
    · simp at h
    · simp only [bindSome, Option.some.injEq, Prod.mk.injEq] at h
      obtain ⟨⟨c1, s1⟩, h1, ⟨c2, s2⟩, h2, rfl, rfl⟩ := h
      have d1 := (gen_depth _ _ _ _ _ h1).2
      have d2 := (gen_depth _ _ _ _ _ h2).2
      have d1' : gs.cnt + 1 ≤ s1.cnt := d1
      have f1 : Fresh (gs.cnt + 1) s1.cnt c1 := gen_fresh l _ _ _ _ h1
      have f2 := gen_fresh r _ _ _ _ h2
      refine two_fresh (p := ".L.false") (q := ".L.end") (by decide) (by simp only at *; omega) (f1.mono (Nat.le_refl _) d2)
        (f2.mono (by simp only at *; omega) (Nat.le_refl _)) (fresh_disjoint f1 f2) ?_ rfl
      rw [List.perm_iff_count]
      intro x
      simp only [labels_append, List.count_append]
      simp only [labels, cmpZero, List.filterMap_cons, List.filterMap_nil, List.count_cons, List.count_nil]
      omega
  | .logor l r, ad, gs, c, gs', h => by
    simp only [gen] at h
    split at h
    · simp at h
    · simp only [bindSome, Option.some.injEq, Prod.mk.injEq] at h
      obtain ⟨⟨c1, s1⟩, h1, ⟨c2, s2⟩, h2, rfl, rfl⟩ := h
      have d1 := (gen_depth _ _ _ _ _ h1).2
      have d2 := (gen_depth _ _ _ _ _ h2).2
      have d1' : gs.cnt + 1 ≤ s1.cnt := d1
      have f1 : Fresh (gs.cnt + 1) s1.cnt c1 := gen_fresh l _ _ _ _ h1
      have f2 := gen_fresh r _ _ _ _ h2
      refine two_fresh (p := ".L.true") (q := ".L.end") (by decide) (by simp only at *; omega) (f1.mono (Nat.le_refl _) d2)
        (f2.mono (by simp only at *; omega) (Nat.le_refl _)) (fresh_disjoint f1 f2) ?_ rfl
      rw [List.perm_iff_count]
      intro x
      simp only [labels_append, List.count_append]
      simp only [labels, cmpZero, List.filterMap_cons, List.filterMap_nil, List.count_cons, List.count_nil]
      omega
  | .bin op t l r, ad, gs, c, gs', h => by
    simp only [gen] at h
    split at h
    · simp at h
    · simp only [bindSome, Option.some.injEq, Prod.mk.injEq] at h
      obtain ⟨⟨c1, s1⟩, h1, ⟨c2, s2⟩, h2, rfl, rfl⟩ := h
      have f2 : Fresh s1.cnt s2.cnt c2 := gen_fresh l _ s1.push _ _ h2
      have d2 : s1.cnt ≤ s2.cnt := (gen_depth l _ s1.push _ _ h2).2
      have hf := (gen_fresh r _ _ _ _ h1).append f2 (gen_depth _ _ _ _ _ h1).2 d2
      exact hf.congr (by simp only [labels_append, labels_push, labels_pop, labels_bin, List.append_nil])
  | .vlaPtr _, ad, gs, c, gs', h => by
    simp only [gen] at h
    split at h
    · simp only [Option.some.injEq, Prod.mk.injEq] at h; obtain ⟨rfl, rfl⟩ := h; exact .none rfl
    · simp at h
  | .call t f args, ad, gs, c, gs', h => by
    simp only [gen] at h
    split at h
    · simp only [Option.some.injEq, Prod.mk.injEq] at h; obtain ⟨rfl, rfl⟩ := h; exact .none rfl
    · split at h
      · simp at h
      · simp only [bindSome, Option.some.injEq, Prod.mk.injEq] at h
        obtain ⟨⟨c1, s1⟩, h1, ⟨c2, s2⟩, h2, ⟨c3, s3⟩, h3, rfl, rfl⟩ := h
        have d1 := (genArgs_cnt args _ _ _ _ _ h1)
        have d2 := (genArgs_cnt args _ _ _ _ _ h2)
        have d3 := (gen_depth f _ _ _ _ h3).2
        have f1 := genArgs_fresh args _ _ _ _ _ h1
        have f2 := genArgs_fresh args _ _ _ _ _ h2
        have f3 := gen_fresh f _ _ _ _ h3
        have hf := (f1.append f2 d1 d2).append f3 (Nat.le_trans d1 d2) d3
        refine hf.congr ?_
        simp only [labels_append, labels_popAll, labels_trunc, List.append_nil]
        have e1 : ∀ b : Bool, labels (if b = true then [Instr.addi .sp .sp (-8)] else []) = [] := by intro b; cases b <;> rfl
        have e2 : ∀ (p : Prop) [Decidable p] (a : Instr), (∀ l, a ≠ .label l) → labels (if p then [a] else []) = [] := by
          intro p _ a ha; split
          · exact labels_nil_of (by simpa using ha)
          · rfl
        have e3 : ∀ (p : Prop) [Decidable p] (a : Instr), (∀ l, a ≠ .label l) → labels (if p then [] else [a]) = [] := by
          intro p _ a ha; split
          · rfl
          · exact labels_nil_of (by simpa using ha)
        rw [e2 _ _ (by simp), e3 _ _ (by simp)]
        simp [labels]
theorem genArgs_cnt : ∀ (a : Exprs) (first : Bool) (i : Nat) (gs : GS) (c : List Instr) (gs' : GS),
    genArgs first i a gs = some (c, gs') → gs.cnt ≤ gs'.cnt
  | .nil, first, i, gs, c, gs', h => by
    simp only [genArgs, Option.some.injEq, Prod.mk.injEq] at h; obtain ⟨rfl, rfl⟩ := h; exact Nat.le_refl _
  | .cons e r, first, i, gs, c, gs', h => by
    simp only [genArgs, bindSome] at h
    obtain ⟨⟨c1, s1⟩, h1, h2⟩ := h
    have d1 := genArgs_cnt r _ _ _ _ _ h1
    split at h2
    · simp only [Option.some.injEq, Prod.mk.injEq] at h2; obtain ⟨rfl, rfl⟩ := h2; exact d1
    · simp only [bindSome, Option.some.injEq, Prod.mk.injEq] at h2
      obtain ⟨⟨c2, s2⟩, h2, rfl, rfl⟩ := h2
      exact Nat.le_trans d1 (gen_depth e _ _ _ _ h2).2
theorem genArgs_fresh : ∀ (a : Exprs) (first : Bool) (i : Nat) (gs : GS) (c : List Instr) (gs' : GS),
    genArgs first i a gs = some (c, gs') → Fresh gs.cnt gs'.cnt c
  | .nil, first, i, gs, c, gs', h => by
    simp only [genArgs, Option.some.injEq, Prod.mk.injEq] at h; obtain ⟨rfl, rfl⟩ := h; exact .none rfl
  | .cons e r, first, i, gs, c, gs', h => by
    simp only [genArgs, bindSome] at h
    obtain ⟨⟨c1, s1⟩, h1, h2⟩ := h
    have f1 := genArgs_fresh r _ _ _ _ _ h1
    split at h2
    · simp only [Option.some.injEq, Prod.mk.injEq] at h2; obtain ⟨rfl, rfl⟩ := h2; exact f1
    · simp only [bindSome, Option.some.injEq, Prod.mk.injEq] at h2
      obtain ⟨⟨c2, s2⟩, h2, rfl, rfl⟩ := h2
      refine (f1.append (gen_fresh e _ _ _ _ h2) (genArgs_cnt r _ _ _ _ _ h1) (gen_depth _ _ _ _ _ h2).2).congr ?_
      simp only [labels_append, labels_push, List.append_nil]
end

end Toycc.Cg
