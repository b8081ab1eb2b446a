import Verif.Ip.Lemmas
/-! Texts, designators and the claims of the induction (for C68). -/
namespace Toycc.Ip
open Toycc.Parse (Tok P)
open Toycc.Init (Ini Inis)
variable {α : Type}

mutual
def Src.size : Src α → Nat
  | .expr _ _ _ _ => 1
  | .list its _ => 1 + its.size
def Items.size : Items α → Nat
  | .nil => 0
  | .cons _ s r => 1 + s.size + r.size
end

theorem Src.size_pos (s : Src α) : 0 < s.size := by cases s <;> simp only [Src.size] <;> omega

theorem Items.isNil_of_size {its : Items α} (h : its.size = 0) : its = .nil := by
  cases its with
  | nil => rfl
  | cons ds s r => simp only [Items.size] at h; omega

/-! ### Texts -/

/-- Not the end of a list and not a designator. -/
def Start (t : Tok) : Prop := t ≠ .p .rbrace ∧ t ≠ .p .lbrk ∧ t ≠ .p .dot ∧ t ≠ .p .comma ∧ t ≠ .p .eq

theorem Src.start {O : Oracle α} {s : Src α} (h : s.Reads O) : ∃ t r, s.text = t :: r ∧ Start t := by
  cases s with
  | expr ts e st w =>
    rw [Src.Reads] at h
    obtain ⟨_, t, r, rfl, h1, _⟩ := h
    exact ⟨t, r, by rw [Src.text], h1.2.1, h1.2.2.1, h1.2.2.2.1, h1.2.2.2.2.1, h1.2.2.2.2.2⟩
  | list its c => exact ⟨_, _, by rw [Src.text], by simp [Start]⟩

theorem consumeEnd_closing (c : Bool) (r : List Tok) : consumeEnd (closing c ++ r) = some r := by
  cases c <;> rfl

theorem isEnd_closing (c : Bool) (r : List Tok) : isEnd (closing c ++ r) = true := by
  rw [isEnd, consumeEnd_closing]; rfl

theorem consumeEnd_start {t : Tok} {r : List Tok} (h1 : t ≠ .p .rbrace) (h2 : t ≠ .p .comma) : consumeEnd (t :: r) = none := by
  unfold consumeEnd
  split
  · rename_i heq; cases heq; exact absurd rfl h1
  · rename_i heq; cases heq; exact absurd rfl h2
  · rfl

theorem consumeEnd_comma {t : Tok} {r : List Tok} (h1 : t ≠ .p .rbrace) : consumeEnd (.p .comma :: t :: r) = none := by
  unfold consumeEnd
  split
  · rename_i heq; cases heq
  · rename_i heq; cases heq; exact absurd rfl h1
  · rfl

theorem desText_start : ∀ (ds : List Des), ds.isEmpty = false → ∃ t r, desText ds = t :: r ∧ (t = .p .lbrk ∨ t = .p .dot)
  | .idx ts i :: ds, _ => ⟨_, _, by simp only [desText, Des.text, List.cons_append]; rfl, .inl rfl⟩
  | .field x :: ds, _ => ⟨_, _, by simp only [desText, Des.text, List.cons_append]; rfl, .inr rfl⟩

/-- The text of an item. -/
def itemText (ds : List Des) (s : Src α) (rest : List Tok) : List Tok := desText ds ++ ((if ds.isEmpty then [] else [.p .eq]) ++ (s.text ++ rest))

theorem itemText_start {O : Oracle α} {s : Src α} (h : s.Reads O) (ds : List Des) (rest : List Tok) :
    ∃ t r, itemText ds s rest = t :: r ∧ t ≠ .p .rbrace ∧ t ≠ .p .comma := by
  cases ds with
  | nil =>
    obtain ⟨t, r, h1, h2⟩ := Src.start h
    exact ⟨t, r ++ rest, by simp [itemText, desText, h1], h2.1, h2.2.2.2.1⟩
  | cons d ds =>
    obtain ⟨t, r, h1, h2⟩ := desText_start (d :: ds) rfl
    refine ⟨t, _, by rw [itemText, h1]; rfl, ?_, ?_⟩ <;> rcases h2 with rfl | rfl <;> simp

theorem text_true (ds : List Des) (s : Src α) (r : Items α) (cl : List Tok) : (Items.cons ds s r).text true ++ cl = itemText ds s (r.text false ++ cl) := by
  rw [Items.text]; simp [itemText]

theorem text_false (ds : List Des) (s : Src α) (r : Items α) (cl : List Tok) : (Items.cons ds s r).text false ++ cl = .p .comma :: itemText ds s (r.text false ++ cl) := by
  rw [Items.text]; simp [itemText]

/-- The end of a list. -/
def EndCl (cl : List Tok) : Prop := ∃ c r, cl = closing c ++ r

theorem stopE_text (its : Items α) {cl : List Tok} (h : EndCl cl) : StopE (its.text false ++ cl) := by
  cases its with
  | nil =>
    obtain ⟨c, r, rfl⟩ := h
    rw [Items.text]; cases c <;> simp [closing, StopE]
  | cons ds s r => rw [text_false]; simp [StopE]

theorem isEnd_nil {cl : List Tok} (h : EndCl cl) : isEnd ((Items.nil : Items α).text false ++ cl) = true := by
  obtain ⟨c, r, rfl⟩ := h
  rw [Items.text]; exact isEnd_closing c r

theorem isEnd_cons {O : Oracle α} {s : Src α} (h : s.Reads O) (ds : List Des) (r : Items α) (cl : List Tok) :
    isEnd ((Items.cons ds s r).text false ++ cl) = false := by
  obtain ⟨t, r', h1, h2, h3⟩ := itemText_start h ds (r.text false ++ cl)
  rw [text_false, h1, isEnd, consumeEnd_comma h2]; rfl

theorem isDesg_item {O : Oracle α} {s : Src α} (h : s.Reads O) (ds : List Des) (rest : List Tok) : isDesg (itemText ds s rest) = !ds.isEmpty := by
  cases ds with
  | nil =>
    obtain ⟨t, r, h1, h2⟩ := Src.start h
    simp only [itemText, desText, h1, List.isEmpty_nil, if_true, List.nil_append, List.cons_append]
    unfold isDesg
    split
    · rename_i heq; cases heq; exact absurd rfl h2.2.1
    · rename_i heq; cases heq; exact absurd rfl h2.2.2.1
    · rfl
  | cons d ds =>
    obtain ⟨t, r, h1, h2⟩ := desText_start (d :: ds) rfl
    rw [itemText, h1]
    rcases h2 with rfl | rfl <;> rfl

/-! ### Designators -/

theorem memberPath_shift (x : String) : ∀ (ms : IMems) (k : Nat), memberPath x ms k = (memberPath x ms 0).map fun y => match y.1 with
    | [] => y
    | i :: p => ((i + k) :: p, y.2)
  | .nil, k => rfl
  | .cons (some y) _ _ t r, k => by
    simp only [memberPath]
    by_cases h : y = x
    · simp only [if_pos h, Option.map_some, Nat.zero_add]
    · simp only [if_neg h]
      rw [memberPath_shift x r (k + 1), memberPath_shift x r (0 + 1)]
      cases memberPath x r 0 with
      | none => rfl
      | some z =>
        obtain ⟨p, t⟩ := z
        cases p with
        | nil => rfl
        | cons i p => simp only [Option.map_some, Option.some.injEq, Prod.mk.injEq, List.cons.injEq, and_true]; omega
  | .cons none _ _ (.struc _ ms) r, k => by
    simp only [memberPath]
    cases memberPath x ms 0 with
    | some z => obtain ⟨p, t⟩ := z; simp
    | none =>
      dsimp only
      rw [memberPath_shift x r (k + 1), memberPath_shift x r (0 + 1)]
      cases memberPath x r 0 with
      | none => rfl
      | some z =>
        obtain ⟨p, t⟩ := z
        cases p with
        | nil => rfl
        | cons i p => simp only [Option.map_some, Option.some.injEq, Prod.mk.injEq, List.cons.injEq, and_true]; omega
  | .cons none _ _ (.union _ ms) r, k => by
    simp only [memberPath]
    cases memberPath x ms 0 with
    | some z => obtain ⟨p, t⟩ := z; simp
    | none =>
      dsimp only
      rw [memberPath_shift x r (k + 1), memberPath_shift x r (0 + 1)]
      cases memberPath x r 0 with
      | none => rfl
      | some z =>
        obtain ⟨p, t⟩ := z
        cases p with
        | nil => rfl
        | cons i p => simp only [Option.map_some, Option.some.injEq, Prod.mk.injEq, List.cons.injEq, and_true]; omega
  | .cons none _ _ (.sc _) r, k => by
    simp only [memberPath]
    rw [memberPath_shift x r (k + 1), memberPath_shift x r (0 + 1)]
    cases memberPath x r 0 with
    | none => rfl
    | some z =>
      obtain ⟨p, t⟩ := z
      cases p with
      | nil => rfl
      | cons i p => simp only [Option.map_some, Option.some.injEq, Prod.mk.injEq, List.cons.injEq, and_true]; omega
  | .cons none _ _ (.arr _ _) r, k => by
    simp only [memberPath]
    rw [memberPath_shift x r (k + 1), memberPath_shift x r (0 + 1)]
    cases memberPath x r 0 with
    | none => rfl
    | some z =>
      obtain ⟨p, t⟩ := z
      cases p with
      | nil => rfl
      | cons i p => simp only [Option.map_some, Option.some.injEq, Prod.mk.injEq, List.cons.injEq, and_true]; omega

theorem memberPath_isSome (x : String) (ms : IMems) (k : Nat) : (memberPath x ms k).isSome = (memberPath x ms 0).isSome := by
  rw [memberPath_shift]; simp

theorem hasMember_eq (x : String) : ∀ (ms : IMems), ms.Ok → hasMember x ms = .ok (memberPath x ms 0).isSome
  | .nil, _ => rfl
  | .cons (some y) _ _ t r, h => by
    rw [IMems.Ok] at h
    simp only [hasMember, memberPath]
    by_cases hy : y = x
    · simp [if_pos hy]
    · simp only [if_neg hy]; rw [hasMember_eq x r h.2.2, memberPath_isSome x r (0 + 1)]
  | .cons none _ _ (.struc _ ms) r, h => by
    rw [IMems.Ok, ITy.Ok] at h
    simp only [hasMember, memberPath, hasMember_eq x ms h.1.2, bind, Except.bind]
    cases memberPath x ms 0 with
    | some z => rfl
    | none => dsimp only [Option.isSome]; simp only [Bool.false_eq_true, if_false]; rw [hasMember_eq x r h.2.2]; rw [← memberPath_isSome x r (0 + 1)]; rfl
  | .cons none _ _ (.union _ ms) r, h => by
    rw [IMems.Ok] at h
    obtain ⟨n, ms', h⟩ := h.2.1 rfl; cases h
  | .cons none _ _ (.sc _) r, h => by
    rw [IMems.Ok] at h
    obtain ⟨n, ms', h⟩ := h.2.1 rfl; cases h
  | .cons none _ _ (.arr _ _) r, h => by
    rw [IMems.Ok] at h
    obtain ⟨n, ms', h⟩ := h.2.1 rfl; cases h

/-- struct_designator finds the first step of the path. -/
theorem findMember_eq (x : String) : ∀ (ms : IMems) (k : Nat) (p : Path) (t : ITy), ms.Ok → memberPath x ms k = some (p, t) →
    ∃ i V anon, findMember x ms k = .ok (k + i, V, anon) ∧ ms.get? i = some V ∧
      ((anon = false ∧ p = [k + i] ∧ t = V) ∨ (anon = true ∧ ∃ n ms' p', V = .struc n ms' ∧ p = (k + i) :: p' ∧ memberPath x ms' 0 = some (p', t)))
  | .nil, k, p, t, _, h => by cases h
  | .cons (some y) _ _ T r, k, p, t, ho, h => by
    rw [IMems.Ok] at ho
    simp only [memberPath] at h
    simp only [findMember]
    by_cases hy : y = x
    · rw [if_pos hy] at h; cases h
      rw [if_pos hy]
      exact ⟨0, T, false, rfl, rfl, .inl ⟨rfl, rfl, rfl⟩⟩
    · rw [if_neg hy] at h
      rw [if_neg hy]
      obtain ⟨i, V, an, h1, h2, h3⟩ := findMember_eq x r (k + 1) p t ho.2.2 h
      refine ⟨i + 1, V, an, by rw [h1, show k + 1 + i = k + (i + 1) by omega], h2, ?_⟩
      rw [show k + (i + 1) = k + 1 + i by omega]; exact h3
  | .cons none _ _ (.struc n ms) r, k, p, t, ho, h => by
    rw [IMems.Ok, ITy.Ok] at ho
    simp only [memberPath] at h
    simp only [findMember, hasMember_eq x ms ho.1.2, bind, Except.bind]
    cases hm : memberPath x ms 0 with
    | some z =>
      obtain ⟨q, u⟩ := z
      rw [hm] at h; cases h
      exact ⟨0, _, true, rfl, rfl, .inr ⟨rfl, n, ms, q, rfl, rfl, hm⟩⟩
    | none =>
      rw [hm] at h
      simp only [Option.isSome, Bool.false_eq_true, if_false]
      obtain ⟨i, V, an, h1, h2, h3⟩ := findMember_eq x r (k + 1) p t ho.2.2 h
      refine ⟨i + 1, V, an, by rw [h1, show k + 1 + i = k + (i + 1) by omega], h2, ?_⟩
      rw [show k + (i + 1) = k + 1 + i by omega]; exact h3
  | .cons none _ _ (.union _ ms) r, k, p, t, h, _ => by
    rw [IMems.Ok] at h
    obtain ⟨n, ms', h⟩ := h.2.1 rfl; cases h
  | .cons none _ _ (.sc _) r, k, p, t, h, _ => by
    rw [IMems.Ok] at h
    obtain ⟨n, ms', h⟩ := h.2.1 rfl; cases h
  | .cons none _ _ (.arr _ _) r, k, p, t, h, _ => by
    rw [IMems.Ok] at h
    obtain ⟨n, ms', h⟩ := h.2.1 rfl; cases h

theorem IMems.Ok.get {ms : IMems} (h : ms.Ok) : ∀ {k : Nat} {t : ITy}, ms.get? k = some t → t.Ok := by
  induction ms using IMems.rec (motive_1 := fun _ => True) with
  | nil => intro k t hk; cases hk
  | cons nm off b t r _ ih =>
    rw [IMems.Ok] at h
    intro k u hk
    cases k with
    | zero => cases hk; exact h.1
    | succ k => exact ih h.2.2 hk
  | _ => trivial

/-- The members of a structure or union. -/
def ITy.mems : ITy → Option IMems
  | .struc _ ms => some ms
  | .union _ ms => some ms
  | _ => none

/-- One step of a member designator: what is left is again a designation, of the member. -/
theorem field_step {U : ITy} {ms : IMems} (hU : U.mems = some ms) (ho : ms.Ok) {x : String} {ds : List Des} {pd : Path}
    (h : resolve U (.field x :: ds) = some pd) (tail : List Tok) :
    ∃ k V ds' pd', structDesignator ms (.ident x :: (desText ds ++ tail)) = .ok (k, V, desText ds' ++ tail) ∧ ms.get? k = some V ∧ U.child? k = some V ∧
      pd = k :: pd' ∧ resolve V ds' = some pd' ∧ (∀ ts i, Des.idx ts i ∈ ds' → Des.idx ts i ∈ ds) := by
  have key : ∃ p t pd', memberPath x ms 0 = some (p, t) ∧ resolve t ds = some pd' ∧ pd = p ++ pd' := by
    cases U with
    | sc t => cases hU
    | arr b n => cases hU
    | struc n ms' =>
      cases hU
      simp only [resolve] at h
      cases hm : memberPath x ms 0 with
      | none => rw [hm] at h; cases h
      | some z =>
        obtain ⟨p, t⟩ := z
        rw [hm] at h
        simp only [Option.map_eq_some_iff] at h
        obtain ⟨a, h1, h2⟩ := h
        exact ⟨p, t, a, rfl, h1, h2.symm⟩
    | union n ms' =>
      cases hU
      simp only [resolve] at h
      cases hm : memberPath x ms 0 with
      | none => rw [hm] at h; cases h
      | some z =>
        obtain ⟨p, t⟩ := z
        rw [hm] at h
        simp only [Option.map_eq_some_iff] at h
        obtain ⟨a, h1, h2⟩ := h
        exact ⟨p, t, a, rfl, h1, h2.symm⟩
  obtain ⟨p, t, pd', h1, h2, rfl⟩ := key
  obtain ⟨i, V, an, h3, h4, h5⟩ := findMember_eq x ms 0 p t ho h1
  rw [Nat.zero_add] at h3 h5
  have hc : U.child? i = some V := by
    cases U <;> cases hU <;> exact h4
  rcases h5 with ⟨rfl, rfl, rfl⟩ | ⟨rfl, n, ms', p', rfl, rfl, h6⟩
  · refine ⟨i, t, ds, pd', ?_, h4, hc, rfl, h2, fun _ _ h => h⟩
    simp only [structDesignator, h3, bind, Except.bind]
    rfl
  · refine ⟨i, _, .field x :: ds, p' ++ pd', ?_, h4, hc, rfl, ?_, fun ts i h => ?_⟩
    · simp only [structDesignator, h3, bind, Except.bind, if_true, desText, Des.text, List.cons_append, List.nil_append]
    · simp only [resolve, h6, h2, Option.map_some]
    · simpa using h

/-- The array designator. -/
theorem idx_step {O : Oracle α} {n i : Nat} {ts : List Tok} (hi : i < n) (hr : ∀ r, O.const (ts ++ .p .rbrk :: r) = .ok ((i : Int), .p .rbrk :: r)) (rest : List Tok) :
    arrayDesignator O n (ts ++ .p .rbrk :: rest) = .ok (i, i, rest) := by
  have h1 : ¬ ((i : Int) ≥ (n : Int)) := by omega
  have h2 : ¬ ((i : Int) < 0) := by omega
  simp only [arrayDesignator, hr, bind, Except.bind, if_neg h1, if_neg h2, skip, if_true, Int.toNat_natCast]

/-! ### Claims -/

/-- The items are rightly initialised from `c` on, with the result `fin`. -/
structure Good (O : Oracle α) (w : String → Nat) (T : ITy) (its : Items α) (c : Option Path) (t fin : Ini α) : Prop where
  run : run O w T its c t = some fin
  tame : Tame w T its c
  reads : its.Reads O

theorem Good.nil {O : Oracle α} {w : String → Nat} {T : ITy} {c c' : Option Path} {t fin : Ini α} (h : Good O w T .nil c t fin) : Good O w T .nil c' t fin :=
  ⟨by rw [Ip.run]; have := h.run; rw [Ip.run] at this; exact this, by rw [Tame]; trivial, h.reads⟩

theorem Good.desg {O : Oracle α} {w : String → Nat} {T : ITy} {ds : List Des} {s : Src α} {r : Items α} {c c' : Option Path} {t fin : Ini α}
    (h : Good O w T (.cons ds s r) c t fin) (hd : ds.isEmpty = false) : Good O w T (.cons ds s r) c' t fin := by
  refine ⟨?_, ?_, h.reads⟩
  · have := h.run
    rw [Ip.run] at this ⊢
    simp only [hd] at this ⊢
    exact this
  · have := h.tame
    rw [Tame] at this ⊢
    simp only [hd] at this ⊢
    exact this

/-- The first item. -/
theorem Good.cons {O : Oracle α} {w : String → Nat} {T : ITy} {ds : List Des} {s : Src α} {r : Items α} {c : Option Path} {t fin : Ini α}
    (h : Good O w T (.cons ds s r) c t fin) : ∃ p U t1, (if ds.isEmpty then c else resolve T ds) = some p ∧ T.sub p = some U ∧ place O w T p U s t = some t1 ∧
      Good O w T r (next T (p ++ s.land w U)) t1 fin ∧ TameSrc w U s ∧ (ds ≠ [] → r.isNil = false → ∀ i q V, p = i :: q → T.child? i = some V → lastIn V q) ∧ s.Reads O ∧
      (∀ ts i, Des.idx ts i ∈ ds → ∀ r, O.const (ts ++ .p .rbrk :: r) = .ok ((i : Int), .p .rbrk :: r)) := by
  have h1 := h.run
  have h2 := h.tame
  have h3 := h.reads
  rw [Ip.run] at h1
  rw [Tame] at h2
  rw [Items.Reads] at h3
  have h1 : ((if ds.isEmpty then c else resolve T ds).bind fun p => (T.sub p).bind fun U => (place O w T p U s t).bind fun t => Ip.run O w T r (next T (p ++ s.land w U)) t) = some fin := by
    rw [← h1]
    by_cases hd : ds.isEmpty = true
    · simp only [if_pos hd]; rfl
    · simp only [if_neg hd]; rfl
  simp only [Option.bind_eq_some_iff] at h1
  obtain ⟨p, hp, U, hU, t1, ht, hr⟩ := h1
  obtain ⟨a, b, c⟩ := h2 p U hp hU
  exact ⟨p, U, t1, hp, hU, ht, ⟨hr, c, h3.2.2⟩, a, b, h3.2.1, h3.1⟩

/-- The items between `its` and `its'` are for the element with `p`. -/
def Ext (w : String → Nat) (T : ITy) (p : Path) (its : Items α) (c : Option Path) (its' : Items α) (c' : Option Path) : Prop :=
  ∀ i q, p = i :: q → Nat.max (i + 1) (extent w T its c) = Nat.max (i + 1) (extent w T its' c') ∧
    ∀ m Q, i ≠ m → (firstFor w T m Q its c ↔ firstFor w T m Q its' c')

theorem Ext.refl {w : String → Nat} {T : ITy} {p : Path} {its : Items α} {c : Option Path} : Ext w T p its c its c := fun _ _ _ => ⟨rfl, fun _ _ _ => Iff.rfl⟩

theorem Ext.trans {w : String → Nat} {T : ITy} {p : Path} {a b d : Items α} {c1 c2 c3 : Option Path} (h1 : Ext w T p a c1 b c2) (h2 : Ext w T p b c2 d c3) : Ext w T p a c1 d c3 :=
  fun i q h => ⟨(h1 i q h).1.trans (h2 i q h).1, fun m Q hm => ((h1 i q h).2 m Q hm).trans ((h2 i q h).2 m Q hm)⟩

theorem Ext.child {w : String → Nat} {T : ITy} {p : Path} {j : Nat} {a b : Items α} {c1 c2 : Option Path} (h : Ext w T (p ++ [j]) a c1 b c2) : Ext w T p a c1 b c2 := by
  intro i q hp
  subst hp
  exact h i _ rfl

theorem Ext.nil {w : String → Nat} {T : ITy} {p : Path} {c c' : Option Path} : Ext w T p (.nil : Items α) c .nil c' :=
  fun _ _ _ => ⟨by simp only [extent], fun _ _ _ => by simp only [firstFor]⟩

theorem Ext.desg {w : String → Nat} {T : ITy} {p : Path} {d : Des} {ds : List Des} {s : Src α} {r : Items α} {c c' : Option Path} :
    Ext w T p (.cons (d :: ds) s r) c (.cons (d :: ds) s r) c' :=
  fun _ _ _ => ⟨by simp only [extent, List.isEmpty_cons, Bool.false_eq_true, if_false], fun _ _ _ => by simp only [firstFor, List.isEmpty_cons, Bool.false_eq_true, if_false]⟩

/-- An item for a part of the element. -/
theorem Ext.item {w : String → Nat} {T U : ITy} {p : Path} {j : Nat} {s : Src α} {r : Items α} (hU : T.sub (p ++ [j]) = some U) :
    Ext w T p (.cons [] s r) (some (p ++ [j])) r (next T ((p ++ [j]) ++ s.land w U)) := by
  intro i q hp
  subst hp
  rw [List.cons_append] at hU ⊢
  refine ⟨?_, fun m Q hm => ?_⟩
  · simp only [extent, List.isEmpty_nil, if_true, hU]
    exact Nat.max_eq_right (Nat.le_max_left _ _)
  · simp only [firstFor, List.isEmpty_nil, if_true, hU, if_neg hm]

/-- What a function of the parser does with the items `its`: it initialises the subobject `p` with some of them, and the rest is read from what comes after `p`. -/
def Res (O : Oracle α) (w : String → Nat) (T : ITy) (p : Path) (t fin : Ini α) (c : Option Path) (its : Items α) (cl : List Tok) (f : Nat → Except IErr (Ini α × List Tok)) : Prop :=
  ∃ x' its' t', Ev f (x', its'.text false ++ cl) ∧ put T p (fun _ => some x') t = some t' ∧ Good O w T its' (next T p) t' fin ∧ its'.size ≤ its.size ∧
    (its.plain = true → its'.plain = true) ∧ Ext w T p its c its' (next T p)

end Toycc.Ip
