import Verif.Stm.StackPtr
import Verif.Unicode.Model
/-!
Spelling of labels in the assembly text, and the labels of a whole file: codegen.c prints `%s.%d` with count(), new_unique_name
prints `.L..%d`, emit_text prints `return.%s` and the function names.
-/
namespace Toycc.Stm
open Toycc.Rv Toycc.Cg

/-- The formats with count() in gen_expr and gen_addr (codegen.c:300-316, 1156-1211) and gen_stmt (1651-1700), up to the number. -/
def formats : List String := [".L.else", ".L.end", ".L.false", ".L.true", ".L.pcrel", "else", "end", "begin"]

/-- Text of a label. Only the `.L.pcrel` labels have no dot before the number (codegen.c:303, 313). `%d` of a count beyond INT_MAX is
not modelled. -/
def spell : Label → List Char
  | .gen p n => p.toList ++ (if p = ".L.pcrel" then [] else ['.']) ++ Nat.toDigits 10 n
  | .uniq n => ".L..".toList ++ Nat.toDigits 10 n
  | .ret fn => "return.".toList ++ fn.toList
  | .sym name => name.toList

/-- Labels numbered by `count()` have one of the formats. -/
def Pfx (c : List Instr) : Prop := ∀ p n, Instr.label (.gen p n) ∈ c → p ∈ formats

theorem Pfx.append {a b} (h1 : Pfx a) (h2 : Pfx b) : Pfx (a ++ b) := by
  intro p n h
  rcases List.mem_append.mp h with h | h
  · exact h1 p n h
  · exact h2 p n h

theorem Pfx.of_labels {c : List Instr} (h : labels c = []) : Pfx c := by
  intro p n hm
  have := mem_labels.mpr hm
  rw [h] at this
  simp at this

theorem Pfx.unnum {i : Instr} (h : ∀ p n, i ≠ .label (.gen p n)) : Pfx [i] := by
  intro p n hm
  simp only [List.mem_cons, List.not_mem_nil, or_false] at hm
  exact absurd hm.symm (h p n)

theorem Pfx.lit {c : List Instr} (h : ∀ i ∈ c, ∀ p n, i = .label (.gen p n) → p ∈ formats) : Pfx c := fun p n hm => h _ hm p n rfl

mutual
theorem gen_pfx : ∀ (e : Expr) (ad : Bool) (gs : GS) (c : List Instr) (gs' : GS), gen ad e gs = some (c, gs') → Pfx c
  | .null, ad, gs, c, gs', h => by
    simp only [gen] at h
    split at h
    · simp at h
    · simp only [Option.some.injEq, Prod.mk.injEq] at h; obtain ⟨rfl, rfl⟩ := h; exact .of_labels rfl
  | .num _ _, ad, gs, c, gs', h => by
    simp only [gen] at h
    split at h
    · simp at h
    · simp only [Option.some.injEq, Prod.mk.injEq] at h; obtain ⟨rfl, rfl⟩ := h; exact .of_labels rfl
  | .neg ty e, ad, gs, c, gs', h => by
    simp only [gen] at h
    split at h
    · simp at h
    · simp only [bindSome, Option.some.injEq, Prod.mk.injEq] at h
      obtain ⟨⟨c1, s1⟩, h1, rfl, rfl⟩ := h
      exact (gen_pfx e _ _ _ _ h1).append (.of_labels (by split <;> rfl))
  | .var ty x, ad, gs, c, gs', h => by
    simp only [gen, Option.some.injEq, Prod.mk.injEq] at h
    obtain ⟨rfl, rfl⟩ := h
    have hv : Pfx (varAddr x gs).1 := by
      cases x with
      | loc off => exact .of_labels (labels_addOffset _ _)
      | vla off => exact .of_labels rfl
      | glob n =>
        refine .lit fun i hi p m e => ?_
        subst e
        simp only [varAddr, List.mem_cons, List.not_mem_nil, or_false, Instr.label.injEq, Label.gen.injEq, reduceCtorEq] at hi
        rw [hi.1]; decide
    split
    · exact hv
    · exact hv.append (.of_labels (labels_load _))
  | .member f e, ad, gs, c, gs', h => by
    simp only [gen, bindSome] at h
    obtain ⟨⟨c1, s1⟩, h1, h2⟩ := h
    have hf := (gen_pfx e _ _ _ _ h1).append (.of_labels (labels_addOffset .a0 f.offset))
    split at h2
    · simp only [Option.some.injEq, Prod.mk.injEq] at h2
      obtain ⟨rfl, rfl⟩ := h2
      exact hf
    · split at h2 <;> simp only [Option.some.injEq, Prod.mk.injEq] at h2 <;> obtain ⟨rfl, rfl⟩ := h2
      · exact hf.append (.of_labels (labels_load _))
      · exact (hf.append (.of_labels (labels_load _))).append (.of_labels (labels_extract _ _ _))
  | .deref ty e, ad, gs, c, gs', h => by
    simp only [gen, bindSome, Option.some.injEq, Prod.mk.injEq] at h
    obtain ⟨⟨c1, s1⟩, h1, rfl, rfl⟩ := h
    split
    · exact gen_pfx e _ _ _ _ h1
    · exact (gen_pfx e _ _ _ _ h1).append (.of_labels (labels_load _))
  | .addr e, ad, gs, c, gs', h => by
    simp only [gen] at h
    split at h
    · simp at h
    · exact gen_pfx e _ _ _ _ h
  | .assign ty l r, ad, gs, c, gs', h => by
    simp only [gen] at h
    split at h
    · simp only [Option.some.injEq, Prod.mk.injEq] at h; obtain ⟨rfl, rfl⟩ := h; exact .of_labels rfl
    · simp only [bindSome] at h
      obtain ⟨⟨c1, s1⟩, h1, ⟨c2, s2⟩, h2, h3⟩ := h
      have hf := ((gen_pfx l _ _ _ _ h1).append (.of_labels (labels_push .a0))).append (gen_pfx r _ _ _ _ h2)
      split at h3 <;> simp only [Option.some.injEq, Prod.mk.injEq] at h3 <;> obtain ⟨rfl, rfl⟩ := h3
      · exact hf.append (.of_labels (labels_storeBits _ _ _ _))
      · exact hf.append (.of_labels (labels_store _))
  | .comma l r, ad, gs, c, gs', h => by
    simp only [gen, bindSome, Option.some.injEq, Prod.mk.injEq] at h
    obtain ⟨⟨c1, s1⟩, h1, ⟨c2, s2⟩, h2, rfl, rfl⟩ := h
    exact (gen_pfx l _ _ _ _ h1).append (gen_pfx r _ _ _ _ h2)
  | .cast ty e, ad, gs, c, gs', h => by
    simp only [gen] at h
    split at h
    · simp at h
    · simp only [bindSome, Option.some.injEq, Prod.mk.injEq] at h
      obtain ⟨⟨c1, s1⟩, h1, rfl, rfl⟩ := h
      exact (gen_pfx e _ _ _ _ h1).append (.of_labels (labels_cast _ _))
  | .memzero _ _, ad, gs, c, gs', h => by
    simp only [gen] at h
    split at h
    · simp at h
    · simp only [Option.some.injEq, Prod.mk.injEq] at h; obtain ⟨rfl, rfl⟩ := h
      exact .of_labels (labels_flatMap_nil _ _ fun _ => labels_zeroByte _)
  | .cond ty a b e, ad, gs, c, gs', h => by
    simp only [gen] at h
    split at h
    · simp only [Option.some.injEq, Prod.mk.injEq] at h; obtain ⟨rfl, rfl⟩ := h; exact .of_labels rfl
    · simp only [bindSome, Option.some.injEq, Prod.mk.injEq] at h
      obtain ⟨⟨c1, s1⟩, h1, ⟨c2, s2⟩, h2, ⟨c3, s3⟩, h3, rfl, rfl⟩ := h
      refine ((((((gen_pfx a _ _ _ _ h1).append (.of_labels rfl)).append (.of_labels rfl)).append (gen_pfx b _ _ _ _ h2)).append (.lit ?_)).append
        (gen_pfx e _ _ _ _ h3)).append (.lit ?_) <;> simp [lbl, formats]
  | .not e, ad, gs, c, gs', h => by
    simp only [gen] at h
    split at h
    · simp at h
    · simp only [bindSome, Option.some.injEq, Prod.mk.injEq] at h
      obtain ⟨⟨c1, s1⟩, h1, rfl, rfl⟩ := h
      exact (gen_pfx e _ _ _ _ h1).append (.of_labels rfl)
  | .bitnot e, ad, gs, c, gs', h => by
    simp only [gen] at h
    split at h
    · simp at h
    · simp only [bindSome, Option.some.injEq, Prod.mk.injEq] at h
      obtain ⟨⟨c1, s1⟩, h1, rfl, rfl⟩ := h
      exact (gen_pfx e _ _ _ _ h1).append (.of_labels rfl)
  | .logand l r, ad, gs, c, gs', h => by
    simp only [gen] at h
    split at h
    · simp at h
    · simp only [bindSome, Option.some.injEq, Prod.mk.injEq] at h
      obtain ⟨⟨c1, s1⟩, h1, ⟨c2, s2⟩, h2, rfl, rfl⟩ := h
      refine (((((gen_pfx l _ _ _ _ h1).append (.of_labels rfl)).append (.of_labels rfl)).append (gen_pfx r _ _ _ _ h2)).append (.of_labels rfl)).append
        (.lit ?_)
      simp [lbl, formats]
  | .logor l r, ad, gs, c, gs', h => by
    simp only [gen] at h
    split at h
    · simp at h
    · simp only [bindSome, Option.some.injEq, Prod.mk.injEq] at h
      obtain ⟨⟨c1, s1⟩, h1, ⟨c2, s2⟩, h2, rfl, rfl⟩ := h
      refine (((((gen_pfx l _ _ _ _ h1).append (.of_labels rfl)).append (.of_labels rfl)).append (gen_pfx r _ _ _ _ h2)).append (.of_labels rfl)).append
        (.lit ?_)
      simp [lbl, formats]
  | .bin op t l r, ad, gs, c, gs', h => by
    simp only [gen] at h
    split at h
    · simp at h
    · simp only [bindSome, Option.some.injEq, Prod.mk.injEq] at h
      obtain ⟨⟨c1, s1⟩, h1, ⟨c2, s2⟩, h2, rfl, rfl⟩ := h
      exact ((((gen_pfx r _ _ _ _ h1).append (.of_labels (labels_push .a0))).append (gen_pfx l _ _ _ _ h2)).append
        (.of_labels (labels_pop .a1))).append (.of_labels (labels_bin _ _ _))
  | .vlaPtr _, ad, gs, c, gs', h => by
    simp only [gen] at h
    split at h
    · simp only [Option.some.injEq, Prod.mk.injEq] at h; obtain ⟨rfl, rfl⟩ := h; exact .of_labels rfl
    · simp at h
  | .call t f args, ad, gs, c, gs', h => by
    simp only [gen] at h
    split at h
    · simp only [Option.some.injEq, Prod.mk.injEq] at h; obtain ⟨rfl, rfl⟩ := h; exact .of_labels rfl
    · split at h
      · simp at h
      · simp only [bindSome, Option.some.injEq, Prod.mk.injEq] at h
        obtain ⟨⟨c1, s1⟩, h1, ⟨c2, s2⟩, h2, ⟨c3, s3⟩, h3, rfl, rfl⟩ := h
        refine (((((((((Pfx.append ?_ (.of_labels rfl)).append (genArgs_pfx args _ _ _ _ _ h1)).append (genArgs_pfx args _ _ _ _ _ h2)).append
          (gen_pfx f _ _ _ _ h3)).append (.of_labels rfl)).append (.of_labels (labels_popAll _))).append (.of_labels rfl)).append ?_).append
          (.of_labels (labels_trunc _)))
        · split <;> exact .of_labels rfl
        · split <;> exact .of_labels rfl
theorem genArgs_pfx : ∀ (a : Exprs) (first : Bool) (i : Nat) (gs : GS) (c : List Instr) (gs' : GS),
    genArgs first i a gs = some (c, gs') → Pfx c
  | .nil, first, i, gs, c, gs', h => by
    simp only [genArgs, Option.some.injEq, Prod.mk.injEq] at h; obtain ⟨rfl, rfl⟩ := h; exact .of_labels rfl
  | .cons e r, first, i, gs, c, gs', h => by
    simp only [genArgs, bindSome] at h
    obtain ⟨⟨c1, s1⟩, h1, h2⟩ := h
    have f1 := genArgs_pfx r _ _ _ _ _ h1
    split at h2
    · simp only [Option.some.injEq, Prod.mk.injEq] at h2; obtain ⟨rfl, rfl⟩ := h2; exact f1
    · simp only [bindSome, Option.some.injEq, Prod.mk.injEq] at h2
      obtain ⟨⟨c2, s2⟩, h2, rfl, rfl⟩ := h2
      exact (f1.append (gen_pfx e _ _ _ _ h2)).append (.of_labels (labels_push .a0))
end

theorem genList_pfx : ∀ (es : List Expr) (gs : GS) (c : List Instr) (gs' : GS), genList es gs = some (c, gs') → Pfx c
  | [], gs, c, gs', h => by
    simp only [genList, Option.some.injEq, Prod.mk.injEq] at h; obtain ⟨rfl, rfl⟩ := h; exact .of_labels rfl
  | e :: r, gs, c, gs', h => by
    simp only [genList, bindSome, Option.some.injEq, Prod.mk.injEq] at h
    obtain ⟨⟨c1, s1⟩, h1, ⟨c2, s2⟩, h2, rfl, rfl⟩ := h
    exact (gen_pfx e _ _ _ _ h1).append (genList_pfx r _ _ _ h2)

theorem genStmt_pfx (fn : String) : ∀ (st : Stmt) (gs : GS) (c : List Instr) (gs' : GS), genStmt fn st gs = some (c, gs') → st.unnum = true → Pfx c := by
  have ul : ∀ {l : Label}, unnum l = true → Pfx [Instr.label l] := by
    intro l hl
    refine .unnum fun p n e => ?_
    simp only [Instr.label.injEq] at e
    subst e
    cases hl
  intro st
  induction st with
  | skip => intro gs c gs' h _; simp only [genStmt, Option.some.injEq, Prod.mk.injEq] at h; obtain ⟨rfl, rfl⟩ := h; exact .of_labels rfl
  | expr e => intro gs c gs' h _; simp only [genStmt] at h; exact gen_pfx e _ _ _ _ h
  | seq x y ix iy =>
    intro gs c gs' h hu
    simp only [genStmt, bindSome, Option.some.injEq, Prod.mk.injEq] at h
    obtain ⟨⟨c1, s1⟩, h1, ⟨c2, s2⟩, h2, rfl, rfl⟩ := h
    simp only [Stmt.unnum, Bool.and_eq_true] at hu
    exact (ix _ _ _ h1 hu.1).append (iy _ _ _ h2 hu.2)
  | ifs e x y ix iy =>
    intro gs c gs' h hu
    simp only [genStmt, bindSome, Option.some.injEq, Prod.mk.injEq] at h
    obtain ⟨⟨c1, s1⟩, h1, ⟨c2, s2⟩, h2, ⟨c3, s3⟩, h3, rfl, rfl⟩ := h
    simp only [Stmt.unnum, Bool.and_eq_true] at hu
    refine ((((((gen_pfx e _ _ _ _ h1).append (.of_labels rfl)).append (.of_labels rfl)).append (ix _ _ _ h2 hu.1)).append (.lit ?_)).append
      (iy _ _ _ h3 hu.2)).append (.lit ?_) <;> simp [lbl, formats]
  | loop init e inc x b k ix =>
    intro gs c gs' h hu
    simp only [genStmt, bindSome, Option.some.injEq, Prod.mk.injEq] at h
    obtain ⟨⟨c0, s0⟩, h0, ⟨c1, s1⟩, h1, ⟨c2, s2⟩, h2, ⟨c3, s3⟩, h3, rfl, rfl⟩ := h
    simp only [Stmt.unnum, Bool.and_eq_true] at hu
    have f1 : Pfx c1 := by
      cases e with
      | none => simp only [genCond, Option.some.injEq, Prod.mk.injEq] at h1; obtain ⟨rfl, rfl⟩ := h1; exact .of_labels rfl
      | some e =>
        simp only [genCond, bindSome, Option.some.injEq, Prod.mk.injEq] at h1
        obtain ⟨⟨c1, s1⟩, h1, rfl, rfl⟩ := h1
        exact ((gen_pfx e _ _ _ _ h1).append (.of_labels rfl)).append (.of_labels rfl)
    refine ((((((genList_pfx _ _ _ _ h0).append (.lit ?_)).append f1).append (ix _ _ _ h2 hu.1.1)).append (ul hu.2)).append
      (genList_pfx _ _ _ _ h3)).append ((Pfx.of_labels (c := [Instr.j (lbl "begin" gs.cnt)]) rfl).append (ul hu.1.2))
    simp [lbl, formats]
  | doW x e b k ix =>
    intro gs c gs' h hu
    simp only [genStmt, bindSome, Option.some.injEq, Prod.mk.injEq] at h
    obtain ⟨⟨c1, s1⟩, h1, ⟨c2, s2⟩, h2, rfl, rfl⟩ := h
    simp only [Stmt.unnum, Bool.and_eq_true] at hu
    refine (((((Pfx.lit ?_).append (ix _ _ _ h1 hu.1.1)).append (ul hu.2)).append (gen_pfx e _ _ _ _ h2)).append (.of_labels rfl)).append
      ((Pfx.of_labels (c := [Instr.beqz .a0 (lbl "begin" gs.cnt)]) rfl).append (ul hu.1.2))
    simp [lbl, formats]
  | switch e cs d x b ix =>
    intro gs c gs' h hu
    simp only [genStmt, bindSome, Option.some.injEq, Prod.mk.injEq] at h
    obtain ⟨⟨c1, s1⟩, h1, ⟨c2, s2⟩, h2, rfl, rfl⟩ := h
    simp only [Stmt.unnum, Bool.and_eq_true] at hu
    exact (((((gen_pfx e _ _ _ _ h1).append (.of_labels (labels_caseTests cs))).append (.of_labels (labels_dfltJump d))).append (.of_labels rfl)).append
      (ix _ _ _ h2 hu.1.1.1)).append (ul hu.2)
  | label l x ix =>
    intro gs c gs' h hu
    simp only [genStmt, bindSome, Option.some.injEq, Prod.mk.injEq] at h
    obtain ⟨⟨c1, s1⟩, h1, rfl, rfl⟩ := h
    simp only [Stmt.unnum, Bool.and_eq_true] at hu
    exact (ul hu.1).append (ix _ _ _ h1 hu.2)
  | goto t =>
    intro gs c gs' h hu
    cases t with
    | name n => simp [genStmt] at h
    | lab l =>
      simp only [genStmt, Option.some.injEq, Prod.mk.injEq] at h
      obtain ⟨rfl, rfl⟩ := h
      exact .of_labels rfl
  | ret e =>
    intro gs c gs' h hu
    cases e with
    | none =>
      simp only [genStmt, Option.some.injEq, Prod.mk.injEq] at h
      obtain ⟨rfl, rfl⟩ := h
      exact .of_labels rfl
    | some e =>
      simp only [genStmt, bindSome, Option.some.injEq, Prod.mk.injEq] at h
      obtain ⟨⟨c1, s1⟩, h1, rfl, rfl⟩ := h
      exact (gen_pfx e _ _ _ _ h1).append (.of_labels rfl)

/-! ### Spelling -/

/-- What the parser accepts as the name of a function: an identifier; those contain no dot and do not begin with a digit. -/
def okName (s : String) : Prop := ('.' ∉ s.toList) ∧ s.toList ≠ [] ∧ ∀ c ∈ s.toList.head?, c.isDigit = false

/-- Labels as they occur. -/
def okLabel : Label → Prop
  | .gen p _ => p ∈ formats
  | .uniq _ => True
  | .ret fn => okName fn
  | .sym name => okName name

theorem digits_inj {a b : Nat} (h : Nat.toDigits 10 a = Nat.toDigits 10 b) : a = b := by
  have := congrArg (fun l => Nat.ofDigitChars 10 l 0) h
  simpa [Nat.ofDigitChars_ten_toDigits] using this

/-- A text that ends in a number determines the number and the text before it, if that does not end in a digit. -/
theorem split_digits {p q x y : List Char} (hx : ∀ c ∈ x, c.isDigit = true) (hy : ∀ c ∈ y, c.isDigit = true)
    (hp : ∀ c ∈ p.getLast?, c.isDigit = false) (hq : ∀ c ∈ q.getLast?, c.isDigit = false) (h : p ++ x = q ++ y) : p = q ∧ x = y := by
  have key : ∀ (p x : List Char), (∀ c ∈ x, c.isDigit = true) → (∀ c ∈ p.getLast?, c.isDigit = false) →
      ((p ++ x).reverse.takeWhile Char.isDigit).reverse = x := by
    intro p x hx hp
    rw [List.reverse_append]
    rw [List.takeWhile_append_of_pos (by simpa using hx)]
    have : p.reverse.takeWhile Char.isDigit = [] := by
      cases hr : p.reverse with
      | nil => rfl
      | cons c r =>
        have : p.getLast? = some c := by rw [← List.head?_reverse, hr]; rfl
        rw [List.takeWhile_cons, hp c (by simp [this])]
        rfl
    rw [this, List.append_nil, List.reverse_reverse]
  have e : x = y := by rw [← key p x hx hp, ← key q y hy hq, h]
  subst e
  exact ⟨List.append_cancel_right h, rfl⟩

theorem digits_isDigit (n : Nat) : ∀ c ∈ Nat.toDigits 10 n, c.isDigit = true := fun _ hc => Nat.isDigit_of_mem_toDigits (by decide) (by decide) hc

/-- The text before the number. -/
def stem : Label → List Char
  | .gen p _ => p.toList ++ (if p = ".L.pcrel" then [] else ['.'])
  | .uniq _ => ".L..".toList
  | _ => []

theorem head_append {c : Char} {a b : List Char} (h : a.head? = some c) : (a ++ b).head? = some c := by
  rw [List.head?_append, h, Option.some_or]

theorem spell_gen_head {p : String} {n : Nat} {c : Char} {r : List Char} (h : p.toList = c :: r) : (spell (.gen p n)).head? = some c :=
  head_append (a := p.toList ++ (if p = ".L.pcrel" then [] else ['.'])) (head_append (by rw [h, List.head?_cons]))

theorem spell_ret_head {fn : String} : (spell (.ret fn)).head? = some 'r' := head_append (a := "return.".toList) (by decide +kernel)
theorem spell_uniq_head {n : Nat} : (spell (.uniq n)).head? = some '.' := head_append (a := ".L..".toList) (by decide +kernel)
theorem spell_ret_dot {fn : String} : '.' ∈ spell (.ret fn) := List.mem_append_left _ (by decide +kernel)
theorem spell_uniq_dot {n : Nat} : '.' ∈ spell (.uniq n) := List.mem_append_left _ (by decide +kernel)

/-- Different labels have different texts. -/
theorem spell_inj {a b : Label} (ha : okLabel a) (hb : okLabel b) (h : spell a = spell b) : a = b := by
  have hstem : ∀ p ∈ formats, ∀ q ∈ formats, (p.toList ++ (if p = ".L.pcrel" then [] else ['.'])) = (q.toList ++ (if q = ".L.pcrel" then [] else ['.'])) → p = q := by
    decide +kernel
  have hnod : ∀ p ∈ formats, ∀ c ∈ (p.toList ++ (if p = ".L.pcrel" then [] else ['.'])).getLast?, c.isDigit = false := by decide +kernel
  have hu : ∀ p ∈ formats, (p.toList ++ (if p = ".L.pcrel" then [] else ['.'])) ≠ ".L..".toList := by decide +kernel
  have hulast : ∀ c ∈ (".L..".toList).getLast?, c.isDigit = false := by decide +kernel
  have hr : ∀ p ∈ formats, ∃ c r, p.toList = c :: r ∧ c ≠ 'r' := by
    intro p hp
    simp only [formats, List.mem_cons, List.not_mem_nil, or_false] at hp
    rcases hp with rfl | rfl | rfl | rfl | rfl | rfl | rfl | rfl <;> exact ⟨_, _, rfl, by decide⟩
  have hdot : ∀ p ∈ formats, '.' ∈ (p.toList ++ (if p = ".L.pcrel" then [] else ['.'])) := by decide +kernel
  cases a with
  | gen p n =>
    cases b with
    | gen q m =>
      obtain ⟨e1, e2⟩ := split_digits (digits_isDigit n) (digits_isDigit m) (hnod p ha) (hnod q hb) h
      rw [hstem p ha q hb e1, digits_inj e2]
    | uniq m =>
      obtain ⟨e1, _⟩ := split_digits (digits_isDigit n) (digits_isDigit m) (hnod p ha) hulast h
      exact absurd e1 (hu p ha)
    | ret fn =>
      obtain ⟨c, r, e, hc⟩ := hr p ha
      have := congrArg List.head? h
      rw [spell_gen_head e, spell_ret_head, Option.some.injEq] at this
      exact absurd this hc
    | sym s =>
      refine absurd ?_ hb.1
      show '.' ∈ spell (.sym s)
      rw [← h]
      exact List.mem_append_left _ (hdot p ha)
  | uniq n =>
    cases b with
    | gen q m =>
      obtain ⟨e1, _⟩ := split_digits (digits_isDigit n) (digits_isDigit m) hulast (hnod q hb) h
      exact absurd e1.symm (hu q hb)
    | uniq m =>
      obtain ⟨_, e2⟩ := split_digits (digits_isDigit n) (digits_isDigit m) hulast hulast h
      rw [digits_inj e2]
    | ret fn =>
      have := congrArg List.head? h
      rw [spell_uniq_head, spell_ret_head, Option.some.injEq] at this
      exact absurd this (by decide)
    | sym s =>
      refine absurd ?_ hb.1
      show '.' ∈ spell (.sym s)
      rw [← h]
      exact spell_uniq_dot
  | ret fn =>
    cases b with
    | gen q m =>
      obtain ⟨c, r, e, hc⟩ := hr q hb
      have := congrArg List.head? h
      rw [spell_gen_head e, spell_ret_head, Option.some.injEq] at this
      exact absurd this.symm hc
    | uniq m =>
      have := congrArg List.head? h
      rw [spell_uniq_head, spell_ret_head, Option.some.injEq] at this
      exact absurd this (by decide)
    | ret gn =>
      have := List.append_cancel_left h
      rw [String.toList_inj.mp this]
    | sym s =>
      refine absurd ?_ hb.1
      show '.' ∈ spell (.sym s)
      rw [← h]
      exact spell_ret_dot
  | sym s =>
    cases b with
    | gen q m =>
      refine absurd ?_ ha.1
      show '.' ∈ spell (.sym s)
      rw [h]
      exact List.mem_append_left _ (hdot q hb)
    | uniq m =>
      refine absurd ?_ ha.1
      show '.' ∈ spell (.sym s)
      rw [h]
      exact spell_uniq_dot
    | ret gn =>
      refine absurd ?_ ha.1
      show '.' ∈ spell (.sym s)
      rw [h]
      exact spell_ret_dot
    | sym t =>
      rw [String.toList_inj.mp h]

/-! ### A whole file -/

/-- Parsing the functions of a file in order (parser, parser/parser.c:1592-1625), with one counter of unique names. The literals for `__func__` and
`__FUNCTION__` take two names before the body (function, parser/parser.c:1498-1507); other string literals are left out. -/
def parseFile (uid : Nat) : List (String × SStmt) → Option (List (String × Stmt) × Nat)
  | [] => some ([], uid)
  | (fn, body) :: r => do
    let (st, uid) ← elabBody (uid + 2) body
    let (sts, uid) ← parseFile uid r
    some ((fn, st) :: sts, uid)

/-- emit_text, codegen.c:2010-2193, as far as labels are concerned: the name of each function and its body; the prologue and the
epilogue define no other label. -/
def emitFile : List (String × Stmt) → GS → Option (List Instr × GS)
  | [], gs => some ([], gs)
  | (fn, st) :: r, gs => do
    let (c, gs) ← genBody fn st gs
    let (cs, gs) ← emitFile r gs
    some (.label (.sym fn) :: c ++ cs, gs)

/-- `es` are some of `ps`, in any order. -/
def PartOf {α : Type} (es ps : List α) : Prop := ∃ l, l.Perm ps ∧ es.Sublist l

theorem PartOf.rev {α : Type} {es ps : List α} (h : es.Sublist ps.reverse) : PartOf es ps := ⟨_, List.reverse_perm _, h⟩

theorem PartOf.subset {α : Type} {es ps : List α} : PartOf es ps → ∀ x ∈ es, x ∈ ps
  | ⟨_, p, s⟩, _, h => p.mem_iff.mp (s.subset h)

theorem PartOf.map {α β : Type} (f : α → β) {es ps : List α} : PartOf es ps → PartOf (es.map f) (ps.map f)
  | ⟨_, p, s⟩ => ⟨_, p.map f, s.map f⟩

theorem PartOf.nodup {α : Type} {es ps : List α} (hn : ps.Nodup) : PartOf es ps → es.Nodup
  | ⟨_, p, s⟩ => (p.nodup_iff.mpr hn).sublist s

theorem sublist_flatMap {α β} (f : α → List β) {l r : List α} (h : l.Sublist r) : (l.flatMap f).Sublist (r.flatMap f) := by
  induction h with
  | slnil => exact .slnil
  | @cons l r a _ ih => rw [List.flatMap_cons]; exact ih.trans (List.sublist_append_right _ _)
  | @cons_cons l r a _ ih => rw [List.flatMap_cons, List.flatMap_cons]; exact (List.Sublist.refl _).append ih

theorem PartOf.flatMap {α β : Type} (f : α → List β) {es ps : List α} : PartOf es ps → PartOf (es.flatMap f) (ps.flatMap f)
  | ⟨_, p, s⟩ => ⟨_, p.flatMap_right f, sublist_flatMap f s⟩

/-- The labels of all parsed functions. -/
theorem parse_labs : ∀ (fs : List (String × SStmt)) (uid : Nat) (ps : List (String × Stmt)) (uid' : Nat), parseFile uid fs = some (ps, uid') →
    uid ≤ uid' ∧ NewU uid uid' (ps.flatMap fun p => p.2.labs) ∧ ps.map (·.1) = fs.map (·.1) ∧ ∀ p ∈ ps, p.2.unnum = true
  | [], uid, ps, uid', h => by
    simp only [parseFile, Option.some.injEq, Prod.mk.injEq] at h
    obtain ⟨rfl, rfl⟩ := h
    exact ⟨Nat.le_refl _, .nil, rfl, by simp⟩
  | (fn, body) :: r, uid, ps, uid', h => by
    simp only [parseFile, bindSome, Option.some.injEq, Prod.mk.injEq] at h
    obtain ⟨⟨st, u1⟩, h1, ⟨sts, u2⟩, h2, rfl, rfl⟩ := h
    obtain ⟨q1, q2, q3, q4⟩ := parse_labs r _ _ _ h2
    simp only [elabBody, bindSome] at h1
    obtain ⟨⟨st0, b⟩, e1, st', e2, e3⟩ := h1
    simp only [Option.some.injEq, Prod.mk.injEq] at e3
    obtain ⟨rfl, rfl⟩ := e3
    have hu := elab_labs _ _ _ _ _ _ e1
    rw [← resolve_labs _ _ e2] at hu
    have hle : uid + 2 ≤ _ := (elab_grow _ _ _ _ _ _ e1).uid
    obtain ⟨u1, v1⟩ := elab_unnum _ _ _ _ _ _ e1 rfl rfl ⟨by rintro _ _ ⟨⟩, by simp⟩
    have u2 := resolve_unnum v1.labels _ _ e2 u1
    refine ⟨by omega, ?_, by simp [q3], ?_⟩
    · rw [List.flatMap_cons]
      exact (hu.append q2 hle q1).mono (Nat.le_add_right uid 2) (Nat.le_refl _)
    · intro p hp
      rcases List.mem_cons.mp hp with rfl | hp
      · exact u2
      · exact q4 p hp

theorem emit_labels : ∀ (es : List (String × Stmt)) (gs : GS) (code : List Instr) (gs' : GS), emitFile es gs = some (code, gs') →
    (∀ p ∈ es, p.2.unnum = true) → gs.cnt ≤ gs'.cnt ∧ Pfx code ∧ ∃ G, (labels code).Perm (G ++ es.flatMap (fun p => p.2.labs) ++ es.map (fun p => .ret p.1) ++ es.map (fun p => .sym p.1)) ∧
      NewG gs.cnt gs'.cnt G
  | [], gs, code, gs', h, _ => by
    simp only [emitFile, Option.some.injEq, Prod.mk.injEq] at h
    obtain ⟨rfl, rfl⟩ := h
    exact ⟨Nat.le_refl _, .of_labels rfl, [], .refl _, .nil⟩
  | (fn, st) :: r, gs, code, gs', h, hu => by
    simp only [emitFile, genBody, bindSome, Option.some.injEq, Prod.mk.injEq] at h
    obtain ⟨_, ⟨⟨c0, g0⟩, h1, rfl⟩, ⟨cs, g1⟩, h2, rfl, rfl⟩ := h
    dsimp only at h2 h1 ⊢
    have hst := hu (fn, st) (List.mem_cons_self ..)
    have hr : ∀ p ∈ r, p.2.unnum = true := fun p hp => hu p (List.mem_cons_of_mem _ hp)
    obtain ⟨l1, p1, G1, g1, n1⟩ := emit_labels r _ _ _ h2 hr
    obtain ⟨G0, q0, n0⟩ := genStmt_new _ _ _ _ h1
    have l0 := (genStmt_depth _ _ _ _ h1).2
    refine ⟨Nat.le_trans l0 l1, ?_, G0 ++ G1, ?_, n0.append n1 l0 l1⟩
    · have a1 : Pfx [Instr.label (.sym fn)] := .unnum (by simp)
      refine (a1.append ((((genStmt_pfx fn _ _ _ _ h1 hst).append ?_)).append (.unnum (by simp)))).append p1
      split <;> exact .of_labels rfl
    · have e : labels (Instr.label (.sym fn) :: (c0 ++ (if fn = "main" then [Instr.li .a0 0] else []) ++ [Instr.label (.ret fn)]) ++ cs) =
          .sym fn :: (labels c0 ++ [.ret fn] ++ labels cs) := by
        rw [List.cons_append, labels_cons, labels_append, labels_append, labels_append]
        split <;> simp [labels]
      rw [e]
      rw [List.perm_iff_count] at q0 g1 ⊢
      intro x
      have := q0 x
      have := g1 x
      simp only [List.count_append, List.count_cons, List.count_nil, List.flatMap_cons, List.map_cons] at *
      omega

end Toycc.Stm
