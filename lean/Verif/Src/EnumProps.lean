import Verif.Src.UnitRead
/-! C78: enumerations. -/
namespace Toycc.Src.Enum
open Toycc.Cg Toycc.Low
open Toycc.Parse (Tok P Tree Derives)
open Toycc.Stx (SErr)

section
variable (val : Sc → Tree TN → Option Int)

/-- **C78**. The definition of an enumeration is read to its end, as what is written: its enumerators become constants (`Enumerators`), and its tag is known from then on.
Missing: an enumerator with the value INT_MAX (`C78_max_wrong`); values that are not those of an int are not reported (`C78_range_wrong`). -/
theorem C78_read_partial {a : Sc} {ts : List Tok} {t : CTy} {xs : List String} {b : Sc} (h : Specs val a ts t xs b) {r : List Tok}
    (hr : ∀ s r', r ≠ .kw s :: r') (hb : ∀ r', r ≠ .p .lbrace :: r') : specT val a (ts ++ r) = .ok (t, b, r) :=
  specs_read val h hr hb

theorem enumerators_outer {a : Sc} {n : Int} {ds : List Er} {b : Sc} (h : Enumerators val a n ds b) {x : String} (hx : x ∉ ds.map (·.name)) : b.find x = a.find x :=
  (enumerators_find h).2 x fun d hd e => hx (e ▸ List.mem_map_of_mem hd)

/-- **C78**. The values (C11 6.7.2.2p3): after the list every enumerator is the constant `vs i`, which is that of its expression, evaluated where the enumerators before it are constants
already, or one more than the value before it, or `n` (that is 0) for the first. -/
theorem C78_values {a : Sc} {n : Int} {ds : List Er} {b : Sc} (h : Enumerators val a n ds b) (hd : (ds.map (·.name)).Nodup) :
    ∃ vs : List Int, vs.length = ds.length ∧ ∀ (i : Nat) (d : Er) (v : Int), ds[i]? = some d → vs[i]? = some v →
      b.find d.name = some (.val v) ∧
      (d.value = none → (i = 0 → v = n) ∧ ∀ j w, i = j + 1 → vs[j]? = some w → v = w + 1) ∧
      (∀ s, d.value = some s → ∃ e c, Derives (PO c) TN.text false 2 e s ∧ val c e = some v ∧
        (∀ j d' v', j < i → ds[j]? = some d' → vs[j]? = some v' → c.find d'.name = some (.val v')) ∧
        ∀ x, x ∉ ds.map (·.name) → c.find x = a.find x) := by
  induction h with
  | nil a n => exact ⟨[], rfl, fun i d v e => by simp at e⟩
  | @cons a n d v ds b hv h1 h2 ht ih =>
    rw [List.map_cons, List.nodup_cons] at hd
    obtain ⟨vs, hl, hvs⟩ := ih hd.2
    refine ⟨v :: vs, by simp [hl], fun i => ?_⟩
    cases i with
    | zero =>
      intro d' v' e1 e2
      rw [List.getElem?_cons_zero] at e1 e2
      cases e1; cases e2
      refine ⟨?_, ?_, ?_⟩
      · rw [enumerators_outer val ht hd.1, find_push]
      · intro e
        rw [e] at hv
        cases hv
        exact ⟨fun _ => rfl, fun j w e => by omega⟩
      · intro s e
        rw [e] at hv
        cases hv with
        | @const e s v ok hc => exact ⟨e, a, ok, hc, fun j _ _ hj => by omega, fun x _ => rfl⟩
    | succ i =>
      intro d' v' e1 e2
      rw [List.getElem?_cons_succ] at e1 e2
      obtain ⟨k1, k2, k3⟩ := hvs i d' v' e1 e2
      refine ⟨k1, ?_, ?_⟩
      · intro e
        refine ⟨fun e => by omega, fun j w ej ew => ?_⟩
        obtain rfl : i = j := by omega
        cases i with
        | zero =>
          rw [List.getElem?_cons_zero] at ew
          cases ew
          exact (k2 e).1 rfl
        | succ i =>
          rw [List.getElem?_cons_succ] at ew
          exact (k2 e).2 i w rfl ew
      · intro s e
        obtain ⟨e', c, ok, hc, hj, ho⟩ := k3 s e
        refine ⟨e', c, ok, hc, ?_, ?_⟩
        · intro j d2 v2 hlt e3 e4
          cases j with
          | zero =>
            rw [List.getElem?_cons_zero] at e3 e4
            cases e3; cases e4
            rw [ho _ hd.1, find_push]
          | succ j =>
            rw [List.getElem?_cons_succ] at e3 e4
            exact hj j d2 v2 (by omega) e3 e4
        · intro x hx
          rw [List.map_cons, List.mem_cons, not_or] at hx
          rw [ho x hx.2, find_push_ne _ _ hx.1]

/-- **C78**. A tag that has not been defined is reported. -/
theorem C78_unknown_tag {a : Sc} {x : String} (h : a.isTag x = false) {r : List Tok} (hb : ∀ r', r ≠ .p .lbrace :: r') :
    specT val a (.kw "enum" :: .ident x :: r) = .error .other := by
  have hd : enumDef (.kw "enum" :: .ident x :: r) = none := by
    unfold enumDef
    split
    · rename_i e; cases e
    · rename_i e; cases e; exact absurd rfl (hb _)
    · rfl
  have hr : enumRef a (.ident x :: r) = .error .other := by
    rw [enumRef.eq_def]
    split
    · rfl
    · rename_i e; cases e; rw [if_neg (by rw [h]; decide)]
    · rfl
  have hk : kws (.kw "enum" :: .ident x :: r) = ["enum"] := rfl
  unfold specT
  rw [hd]
  simp only [bind, Except.bind, declspec, hk, if_true, List.tail_cons, hr]

/-- **C78**. After its definition the tag is known, also in blocks inside, until the end of its block. -/
theorem C78_tag (a : Sc) (x : String) : (a.tag (some x)).isTag x = true ∧ (a.enter.tag (some x)).leave.isTag x = a.isTag x ∧
    ∀ b : Sc, b.isTag x = true → b.enter.isTag x = true := by
  refine ⟨?_, ?_, ?_⟩
  · unfold Sc.tag Sc.isTag
    cases a.tags <;> simp
  · unfold Sc.isTag; rfl
  · intro b h
    unfold Sc.isTag at h ⊢
    unfold Sc.enter
    rw [List.any_cons, h, Bool.or_true]

end

/-! ### Example and violations -/

/-- Constants, enumerators and sums. -/
def exVal (a : Sc) : Tree TN → Option Int
  | .num v => some v
  | .tnum _ v => some v
  | .ident x => match a.find x with
    | some (.val v) => some v
    | _ => none
  | .bin .add l r => do
    let l ← exVal a l
    let r ← exVal a r
    some (l + r)
  | _ => none

def exEmpty : Sc := ⟨[[]], 0, [[]]⟩
def exA : Sc := exEmpty.push "A" (.val 0)
def exB : Sc := exA.push "B" (.val 5)
def exC : Sc := exB.push "C" (.val 6)
def exD : Sc := exC.push "D" (.val 7)

/-- `A, B = 5, C, D = B + 2` -/
def exErs : List Er := [⟨"A", none⟩, ⟨"B", some [.num 5]⟩, ⟨"C", none⟩, ⟨"D", some [.ident "B", .p .plus, .num 2]⟩]

theorem exErs_are : Enumerators exVal exEmpty 0 exErs exD :=
  .cons (v := 0) .next (by decide) (by decide) (.cons (v := 5) (.const (e := .num 5) (Parse.derives_of_print _ (t := .num 5) trivial rfl (by decide)) rfl) (by decide) (by decide)
    (.cons (v := 6) .next (by decide) (by decide) (.cons (v := 7) (.const (e := .bin .add (.ident "B") (.num 2))
      (Parse.derives_of_print _ (t := .bin .add (.ident "B") (.num 2)) ⟨rfl, trivial⟩ rfl (by decide)) rfl) (by decide) (by decide) (.nil _ _))))

/-- `enum E { A, B = 5, C, D = B + 2, } x;` -/
example : specT exVal exEmpty [.kw "enum", .ident "E", .p .lbrace, .ident "A", .p .comma, .ident "B", .p .eq, .num 5, .p .comma, .ident "C", .p .comma, .ident "D", .p .eq, .ident "B", .p .plus,
    .num 2, .p .comma, .p .rbrace, .ident "x", .p .semi] = .ok (.enum, exD.tag (some "E"), [.ident "x", .p .semi]) :=
  C78_read_partial exVal (ts := [.kw "enum", .ident "E", .p .lbrace, .ident "A", .p .comma, .ident "B", .p .eq, .num 5, .p .comma, .ident "C", .p .comma, .ident "D", .p .eq, .ident "B",
    .p .plus, .num 2, .p .comma, .p .rbrace]) (.enum (x := some "E") true exErs_are) (by intro s r e; cases e) (by intro r e; cases e)

example : (exErs.map (·.name)).Nodup := by decide
example : (exD.find "A", exD.find "B", exD.find "C", exD.find "D") = (some (.val 0), some (.val 5), some (.val 6), some (.val 7)) := by decide

theorem enum_one {e : Tree TN} {s : List Tok} (ok : Derives (PO exEmpty) TN.text false 2 e s) (v : Int) (hv : exVal exEmpty e = some v) (r : List Tok) :
    specT exVal exEmpty (.kw "enum" :: .p .lbrace :: .ident "A" :: .p .eq :: (s ++ .p .rbrace :: r)) =
      if Int.bmod v (2 ^ 32) = 2 ^ 31 - 1 then .error .undefined
      else match r with
        | .kw _ :: _ => .error .other
        | r => .ok (.enum, exEmpty.push "A" (.val (Int.bmod v (2 ^ 32))), r) := by
  have h1 := conditional_read ok (r := .p .rbrace :: r) ⟨_, .inr rfl⟩
  unfold specT
  have hd : enumDef (.kw "enum" :: .p .lbrace :: .ident "A" :: .p .eq :: (s ++ .p .rbrace :: r)) = some (none, .ident "A" :: .p .eq :: (s ++ .p .rbrace :: r)) := rfl
  rw [hd]
  simp only [List.length_cons]
  rw [enumLoop.eq_def]
  simp only [if_true, bind, Except.bind, enumVal, h1, hv]
  by_cases hm : Int.bmod v (2 ^ 32) = 2 ^ 31 - 1
  · rw [if_pos hm, if_pos hm]
  · rw [if_neg hm, if_neg hm]
    rfl

/-- `enum { A = 2147483647 }` is valid, but reading it the compiler increments an int that is INT_MAX. -/
theorem C78_max_wrong : specT exVal exEmpty [.kw "enum", .p .lbrace, .ident "A", .p .eq, .num 2147483647, .p .rbrace, .p .semi] = .error .undefined :=
  (enum_one (Parse.derives_of_print _ (t := .num 2147483647) trivial rfl (by decide)) 2147483647 rfl [.p .semi]).trans (if_pos (by decide))

/-- `enum { A = 4294967296 }` is to be reported (6.7.2.2p2), but A becomes 0. -/
theorem C78_range_wrong : specT exVal exEmpty [.kw "enum", .p .lbrace, .ident "A", .p .eq, .tnum .long 4294967296, .p .rbrace, .p .semi] =
    .ok (.enum, exEmpty.push "A" (.val 0), [.p .semi]) := by
  refine (enum_one (Parse.derives_of_print _ (t := .tnum .long 4294967296) trivial rfl (by decide)) 4294967296 rfl [.p .semi]).trans ?_
  rw [if_neg (by decide)]
  have : Int.bmod 4294967296 (2 ^ 32) = 0 := by decide
  rw [this]

/-- As a file: `enum E { A, B = 5, C, D = B + 2 } x; enum E *p;` -/
example : IsFile exVal ([.kw "enum", .ident "E", .p .lbrace, .ident "A", .p .comma, .ident "B", .p .eq, .num 5, .p .comma, .ident "C", .p .comma, .ident "D", .p .eq, .ident "B", .p .plus, .num 2,
    .p .rbrace, .ident "x", .p .semi, .kw "enum", .ident "E", .p .star, .ident "p", .p .semi]) [] := by
  refine File.vars (val := exVal) (ts := [.kw "enum", .ident "E", .p .lbrace, .ident "A", .p .comma, .ident "B", .p .eq, .num 5, .p .comma, .ident "C", .p .comma, .ident "D", .p .eq,
    .ident "B", .p .plus, .num 2, .p .rbrace]) (ds := [⟨0, "x", [], none⟩]) (.enum (x := some "E") false exErs_are) ?_ (.cons rfl (by decide) (by simp) (.nil _)) ?_
  · intro x _ r ps e; cases e
  refine File.vars (ts := [.kw "enum", .ident "E"]) (ds := [⟨1, "p", [], none⟩]) (.spec (.tag (by decide))) ?_ (.cons rfl (by decide) (by simp) (.nil _)) (.nil _ _)
  intro x hx r ps e
  simp only [List.nil_append, List.map_cons, List.map_nil, List.mem_singleton] at hx
  subst hx
  revert e
  have : Sc.find ((exD.tag (some "E")).push "x" (.var .enum (.glob "x"))) "p" = none := by decide
  intro e
  exact absurd (this.symm.trans e) (by intro h; cases h)

end Toycc.Src.Enum
