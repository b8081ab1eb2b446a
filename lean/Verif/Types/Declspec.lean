import Verif.Types.Compat
/-! Declaration specifiers: declspec, parser/declarator.c:446-663 (C32). -/
namespace Toycc.Types

/-- The type keywords of parser/declarator.c:561-583. -/
inductive Kw where
  | void | bool | char | short | int | long | float | double | signed | unsigned
  deriving DecidableEq, Repr

/-- The storage-class words of parser/declarator.c:476-491. -/
inductive Storage where
  | typedef | static | extern | inline | tls
  deriving DecidableEq, Repr

/-- One item declspec looks at. `ignored` are the words of 501-509; `alignas` is `_Alignas(...)`; `atomic` is `_Atomic`
without parentheses; `atomicOf t` is `_Atomic(T)`; `user t` is a struct, union, enum, typeof specifier or typedef name,
already resolved to the type `t`. The nested parsers called for those are not modelled here. -/
inductive Item where
  | kw (k : Kw) | storage (s : Storage) | ignored | alignas (n : Nat) | atomic | atomicOf (t : Nat) | user (t : Nat)
  deriving DecidableEq, Repr

/-- The type found: a built-in one or the user-defined type `t`. -/
inductive Found where
  | basic (b : Basic) | user (t : Nat)
  deriving DecidableEq, Repr

/-- struct VarAttr, parser/declarator.h. -/
structure Attr where
  isTypedef : Bool := false
  isStatic : Bool := false
  isExtern : Bool := false
  isInline : Bool := false
  isTls : Bool := false
  align : Nat := 0
  deriving DecidableEq, Repr

inductive DErr where
  | notAllowed | typedefMix | invalidType
  deriving DecidableEq, Repr

/-- The enum of parser/declarator.c:453-465, the amount added to (or ored into) `counter`. -/
def Kw.weight : Kw → Nat
  | .void => 2 ^ 0 | .bool => 2 ^ 2 | .char => 2 ^ 4 | .short => 2 ^ 6 | .int => 2 ^ 8 | .long => 2 ^ 10
  | .float => 2 ^ 12 | .double => 2 ^ 14 | .signed => 2 ^ 17 | .unsigned => 2 ^ 18

def OTHER : Nat := 2 ^ 16

/-- parser/declarator.c:561-583. -/
def bump (counter : Nat) : Kw → Nat
  | .signed => counter ||| Kw.weight .signed
  | .unsigned => counter ||| Kw.weight .unsigned
  | k => counter + k.weight

/-- The `case` labels of parser/declarator.c:585-648, in order; `none` is `default`. -/
def caseTable : List (Nat × Basic) :=
  let w := Kw.weight
  [ (w .void, .void), (w .bool, .bool),
    (w .char, .char false), (w .signed + w .char, .char false), (w .unsigned + w .char, .char true),
    (w .short, .short false), (w .short + w .int, .short false), (w .signed + w .short, .short false),
    (w .signed + w .short + w .int, .short false),
    (w .unsigned + w .short, .short true), (w .unsigned + w .short + w .int, .short true),
    (w .int, .int false), (w .signed, .int false), (w .signed + w .int, .int false),
    (w .unsigned, .int true), (w .unsigned + w .int, .int true),
    (w .long, .long false), (w .long + w .int, .long false), (w .long + w .long, .long false),
    (w .long + w .long + w .int, .long false), (w .signed + w .long, .long false),
    (w .signed + w .long + w .int, .long false), (w .signed + w .long + w .long, .long false),
    (w .signed + w .long + w .long + w .int, .long false),
    (w .unsigned + w .long, .long true), (w .unsigned + w .long + w .int, .long true),
    (w .unsigned + w .long + w .long, .long true), (w .unsigned + w .long + w .long + w .int, .long true),
    (w .float, .float), (w .double, .double), (w .long + w .double, .ldouble) ]

def caseOf (counter : Nat) : Option Basic := caseTable.lookup counter

/-- parser/declarator.c:480-491. -/
def Attr.set (a : Attr) : Storage → Attr
  | .typedef => { a with isTypedef := true }
  | .static => { a with isStatic := true }
  | .extern => { a with isExtern := true }
  | .inline => { a with isInline := true }
  | .tls => { a with isTls := true }

/-- parser/declarator.c:493-494. -/
def Attr.mixed (a : Attr) : Bool :=
  a.isTypedef && decide (a.isStatic.toNat + a.isExtern.toNat + a.isInline.toNat + a.isTls.toNat > 1)

/-- Result of declspec: the type, whether it is atomic, the attributes, the items not consumed. -/
structure DSpec where
  ty : Found
  atomic : Bool
  attr : Attr
  rest : List Item
  deriving DecidableEq, Repr

/-- The loop of declspec, parser/declarator.c:472-653. `allowed` is `attr != NULL`. -/
def declLoop (allowed : Bool) (ty : Found) (counter : Nat) (atomic : Bool) (attr : Attr) : List Item → Except DErr DSpec
  | [] => .ok ⟨ty, atomic, attr, []⟩
  | .storage s :: r =>
    if !allowed then .error .notAllowed
    else if (attr.set s).mixed then .error .typedefMix
    else declLoop allowed ty counter atomic (attr.set s) r
  | .ignored :: r => declLoop allowed ty counter atomic attr r
  | .atomic :: r => declLoop allowed ty counter true attr r
  | .atomicOf t :: r => declLoop allowed (.user t) counter true attr r
  | .alignas n :: r =>
    if !allowed then .error .notAllowed
    else declLoop allowed ty counter atomic { attr with align := n } r
  | .user t :: r =>
    if counter ≠ 0 then .ok ⟨ty, atomic, attr, .user t :: r⟩
    else declLoop allowed (.user t) (counter + OTHER) atomic attr r
  | .kw k :: r =>
    match caseOf (bump counter k) with
    | some b => declLoop allowed (.basic b) (bump counter k) atomic attr r
    | none => .error .invalidType

/-- declspec, parser/declarator.c:446-663. -/
def declspec (allowed : Bool) (items : List Item) : Except DErr DSpec :=
  declLoop allowed (.basic (.int false)) 0 false {} items

/-! ### Specification: the table of C11 6.7.2p2, each row a multiset of keywords. -/

def standardTable : List (List Kw × Basic) :=
  [ ([.void], .void), ([.bool], .bool),
    ([.char], .char false), ([.signed, .char], .char false), ([.unsigned, .char], .char true),
    ([.short], .short false), ([.signed, .short], .short false), ([.short, .int], .short false),
    ([.signed, .short, .int], .short false),
    ([.unsigned, .short], .short true), ([.unsigned, .short, .int], .short true),
    ([.int], .int false), ([.signed], .int false), ([.signed, .int], .int false),
    ([.unsigned], .int true), ([.unsigned, .int], .int true),
    ([.long], .long false), ([.signed, .long], .long false), ([.long, .int], .long false),
    ([.signed, .long, .int], .long false),
    ([.unsigned, .long], .long true), ([.unsigned, .long, .int], .long true),
    ([.long, .long], .long false), ([.signed, .long, .long], .long false), ([.long, .long, .int], .long false),
    ([.signed, .long, .long, .int], .long false),
    ([.unsigned, .long, .long], .long true), ([.unsigned, .long, .long, .int], .long true),
    ([.float], .float), ([.double], .double), ([.long, .double], .ldouble) ]

/-- The keywords `ks`, in any order, name the type `b`. -/
def Names (ks : List Kw) (b : Basic) : Prop := ∃ row, (row, b) ∈ standardTable ∧ ks.Perm row

/-- The type keywords among the items. -/
def keywords (items : List Item) : List Kw := items.filterMap fun | .kw k => some k | _ => none

/-- Items other than type keywords that say nothing about the type. -/
def Plain : Item → Prop
  | .kw _ => True | .storage _ => True | .ignored => True | .alignas _ => True | .atomic => True
  | .atomicOf _ => False | .user _ => False

/-- The storage-class words and `_Alignas` are acceptable to the compiler: none where they are not allowed, and not
`typedef` with two or more different others. -/
def StorageOk (allowed : Bool) (items : List Item) : Prop :=
  (allowed = true ∨ ∀ i ∈ items, (∀ s, i ≠ .storage s) ∧ ∀ n, i ≠ .alignas n) ∧
  (Item.storage .typedef ∈ items →
    ([Storage.static, .extern, .inline, .tls].filter (fun s => decide (Item.storage s ∈ items))).length ≤ 1)

/-- The attributes record exactly the storage-class words present. -/
def AttrOf (a : Attr) (items : List Item) : Prop :=
  (a.isTypedef = true ↔ Item.storage .typedef ∈ items) ∧ (a.isStatic = true ↔ Item.storage .static ∈ items) ∧
  (a.isExtern = true ↔ Item.storage .extern ∈ items) ∧ (a.isInline = true ↔ Item.storage .inline ∈ items) ∧
  (a.isTls = true ↔ Item.storage .tls ∈ items)

/-! ### Proof -/

/-- How often each keyword was seen (`signed` and `unsigned` only whether). -/
structure Cnt where
  v : Nat
  b : Nat
  c : Nat
  s : Nat
  i : Nat
  l : Nat
  f : Nat
  d : Nat
  sg : Bool
  us : Bool
  deriving DecidableEq, Repr

def zero : Cnt := ⟨0, 0, 0, 0, 0, 0, 0, 0, false, false⟩

def Cnt.add (x : Cnt) : Kw → Cnt
  | .void => { x with v := x.v + 1 } | .bool => { x with b := x.b + 1 } | .char => { x with c := x.c + 1 }
  | .short => { x with s := x.s + 1 } | .int => { x with i := x.i + 1 } | .long => { x with l := x.l + 1 }
  | .float => { x with f := x.f + 1 } | .double => { x with d := x.d + 1 }
  | .signed => { x with sg := true } | .unsigned => { x with us := true }

def Cnt.sub (x : Cnt) : Kw → Cnt
  | .void => { x with v := x.v - 1 } | .bool => { x with b := x.b - 1 } | .char => { x with c := x.c - 1 }
  | .short => { x with s := x.s - 1 } | .int => { x with i := x.i - 1 } | .long => { x with l := x.l - 1 }
  | .float => { x with f := x.f - 1 } | .double => { x with d := x.d - 1 }
  | .signed => { x with sg := false } | .unsigned => { x with us := false }

def Cnt.has (x : Cnt) : Kw → Bool
  | .void => 0 < x.v | .bool => 0 < x.b | .char => 0 < x.c | .short => 0 < x.s | .int => 0 < x.i | .long => 0 < x.l
  | .float => 0 < x.f | .double => 0 < x.d | .signed => x.sg | .unsigned => x.us

def Cnt.counter (x : Cnt) : Nat :=
  x.v + x.b * 2 ^ 2 + x.c * 2 ^ 4 + x.s * 2 ^ 6 + x.i * 2 ^ 8 + x.l * 2 ^ 10 + x.f * 2 ^ 12 + x.d * 2 ^ 14 +
    x.sg.toNat * 2 ^ 17 + x.us.toNat * 2 ^ 18

def addAll (x : Cnt) (ks : List Kw) : Cnt := ks.foldl Cnt.add x

def rows : List (Cnt × Basic) := standardTable.map fun r => (addAll zero r.1, r.2)

def rowOf (x : Cnt) : Option Basic := rows.lookup x

def states : List Cnt := zero :: rows.map (·.1)

def allKw : List Kw := [.void, .bool, .char, .short, .int, .long, .float, .double, .signed, .unsigned]

theorem mem_allKw (k : Kw) : k ∈ allKw := by cases k <;> decide

theorem step_ok : ∀ x ∈ states, ∀ k ∈ allKw, caseOf (bump x.counter k) = rowOf (x.add k) ∧
    ((rowOf (x.add k)).isSome → bump x.counter k = (x.add k).counter ∧ x.add k ∈ states) := by decide +kernel

theorem row_mem {x : Cnt} {b : Basic} (h : rowOf x = some b) : x ∈ states := by
  have : ∀ (l : List (Cnt × Basic)), l.lookup x = some b → x ∈ l.map (·.1) := by
    intro l
    induction l with
    | nil => simp
    | cons p l ih =>
      obtain ⟨a, c⟩ := p
      rw [List.lookup_cons]
      split
      · rename_i hb; intro _; simp only [beq_iff_eq] at hb; simp [hb]
      · intro h; exact List.mem_cons_of_mem _ (ih h)
  exact List.mem_cons_of_mem _ (this rows h)

theorem states_down : ∀ x ∈ states, ∀ k ∈ allKw, x.has k → x.sub k ∈ states := by decide +kernel

theorem sub_add (x : Cnt) (k : Kw) : x = (x.add k).sub k ∨ x = x.add k := by
  obtain ⟨_, _, _, _, _, _, _, _, sg, us⟩ := x
  cases k <;> simp [Cnt.add, Cnt.sub]

theorem has_add (x : Cnt) (k : Kw) : (x.add k).has k := by cases k <;> simp [Cnt.add, Cnt.has]

theorem down {x : Cnt} {k : Kw} (h : x.add k ∈ states) : x ∈ states := by
  rcases sub_add x k with e | e
  · rw [e]; exact states_down _ h k (mem_allKw k) (has_add x k)
  · rw [e]; exact h

theorem down_all {ks : List Kw} {x : Cnt} (h : addAll x ks ∈ states) : x ∈ states := by
  induction ks generalizing x with
  | nil => exact h
  | cons k ks ih => exact down (ih h)

theorem rowOf_isSome {x : Cnt} (h : x ∈ states) (hz : x ≠ zero) : (rowOf x).isSome := by
  have : ∀ x ∈ states, x ≠ zero → (rowOf x).isSome := by decide +kernel
  exact this x h hz

theorem add_ne_zero (x : Cnt) (k : Kw) : x.add k ≠ zero := by
  intro h
  have := congrArg (fun c => c.has k) h
  rw [show ((x.add k).has k) = true from has_add x k] at this
  cases k <;> simp [zero, Cnt.has] at this

/-- The type keywords alone. -/
def kwRun (ty : Found) (c : Nat) : List Kw → Option Found
  | [] => some ty
  | k :: r => match caseOf (bump c k) with
    | some b => kwRun (.basic b) (bump c k) r
    | none => none

theorem kwRun_eq (ks : List Kw) : ∀ (x : Cnt) (ty : Found), x ∈ states →
    kwRun ty x.counter ks = if ks = [] then some ty else (rowOf (addAll x ks)).map .basic := by
  induction ks with
  | nil => intro x ty _; simp [kwRun]
  | cons k ks ih =>
    intro x ty hx
    obtain ⟨h1, h2⟩ := step_ok x hx k (mem_allKw k)
    simp only [kwRun, reduceCtorEq, if_false]
    rw [h1]
    cases hr : rowOf (x.add k) with
    | none =>
      simp only
      have : rowOf (addAll x (k :: ks)) = none := by
        cases hq : rowOf (addAll x (k :: ks)) with
        | none => rfl
        | some b =>
          have h3 : x.add k ∈ states := down_all (ks := ks) (row_mem hq)
          have := rowOf_isSome h3 (add_ne_zero x k)
          rw [hr] at this; cases this
      rw [this]; rfl
    | some b =>
      simp only
      obtain ⟨h3, h4⟩ := h2 (by rw [hr]; rfl)
      rw [h3, ih _ _ h4]
      by_cases hk : ks = []
      · subst hk; simp only [if_true]; simp only [addAll, List.foldl]; rw [hr]; rfl
      · rw [if_neg hk]; rfl

/-- Everything about the loop except the type keywords: whether a storage word is refused. -/
def storageRun (allowed : Bool) (attr : Attr) : List Item → Except DErr Attr
  | [] => .ok attr
  | .storage s :: r =>
    if !allowed then .error .notAllowed else if (attr.set s).mixed then .error .typedefMix else storageRun allowed (attr.set s) r
  | .alignas n :: r => if !allowed then .error .notAllowed else storageRun allowed { attr with align := n } r
  | _ :: r => storageRun allowed attr r

theorem loop_plain (allowed : Bool) (items : List Item) (hp : ∀ i ∈ items, Plain i) :
    ∀ ty c at' attr d, declLoop allowed ty c at' attr items = .ok d ↔
      kwRun ty c (keywords items) = some d.ty ∧ storageRun allowed attr items = .ok d.attr ∧ d.rest = [] ∧
        d.atomic = (at' || decide (Item.atomic ∈ items)) := by
  induction items with
  | nil =>
    intro ty c at' attr d
    obtain ⟨dt, da, dat, dr⟩ := d
    simp only [declLoop, keywords, List.filterMap_nil, kwRun, storageRun, List.not_mem_nil, decide_false, Bool.or_false,
      Except.ok.injEq, DSpec.mk.injEq, Option.some.injEq]
    constructor
    · rintro ⟨rfl, rfl, rfl, rfl⟩; exact ⟨rfl, rfl, rfl, rfl⟩
    · rintro ⟨rfl, rfl, rfl, rfl⟩; exact ⟨rfl, rfl, rfl, rfl⟩
  | cons it r ih =>
    intro ty c at' attr d
    have ihr := ih (fun i hi => hp i (List.mem_cons_of_mem _ hi))
    have hpi := hp it (List.mem_cons_self ..)
    cases it with
    | atomicOf t => exact absurd hpi (by simp [Plain])
    | user t => exact absurd hpi (by simp [Plain])
    | ignored => simp only [declLoop, keywords, List.filterMap_cons, storageRun]; rw [ihr]; simp [keywords]
    | atomic => simp only [declLoop, keywords, List.filterMap_cons, storageRun]; rw [ihr]; simp [keywords]
    | storage s =>
      simp only [declLoop, storageRun]
      cases allowed with
      | false => simp
      | true =>
        simp only [Bool.not_true, Bool.false_eq_true, if_false]
        cases hm : (attr.set s).mixed with
        | true => simp
        | false => simp only [Bool.false_eq_true, if_false]; rw [ihr]; simp [keywords]
    | alignas n =>
      simp only [declLoop, storageRun]
      cases allowed with
      | false => simp
      | true => simp only [Bool.not_true, Bool.false_eq_true, if_false]; rw [ihr]; simp [keywords]
    | kw k =>
      simp only [declLoop, storageRun]
      have hk : keywords (.kw k :: r) = k :: keywords r := rfl
      rw [hk]
      simp only [kwRun]
      cases caseOf (bump c k) with
      | none => simp
      | some b => simp only; rw [ihr]; simp

/-- Attributes after the items. -/
def attrAfter (a : Attr) (items : List Item) : Attr :=
  items.foldl (fun a i => match i with | .storage s => a.set s | .alignas n => { a with align := n } | _ => a) a

theorem attrAfter_cons (a : Attr) (i : Item) (r : List Item) : attrAfter a (i :: r) =
    attrAfter (match i with | .storage s => a.set s | .alignas n => { a with align := n } | _ => a) r := rfl

theorem mixed_mono_set (a : Attr) (s : Storage) (h : (a.set s).mixed = false) : a.mixed = false := by
  obtain ⟨x1, x2, x3, x4, x5, n⟩ := a
  cases s <;> cases x1 <;> cases x2 <;> cases x3 <;> cases x4 <;> cases x5 <;> simp_all [Attr.set, Attr.mixed]

theorem mixed_mono (items : List Item) : ∀ a, (attrAfter a items).mixed = false → a.mixed = false := by
  induction items with
  | nil => intro a h; exact h
  | cons i r ih =>
    intro a h
    rw [attrAfter_cons] at h
    have := ih _ h
    cases i <;> first | exact this | exact mixed_mono_set _ _ this

theorem storageRun_eq (allowed : Bool) (items : List Item) : ∀ a a', a.mixed = false →
    (storageRun allowed a items = .ok a' ↔ a' = attrAfter a items ∧ (attrAfter a items).mixed = false ∧
      (allowed = true ∨ ∀ i ∈ items, (∀ s, i ≠ .storage s) ∧ ∀ n, i ≠ .alignas n)) := by
  induction items with
  | nil => intro a a' h; simp [storageRun, attrAfter, h, eq_comm]
  | cons i r ih =>
    intro a a' h
    rw [attrAfter_cons]
    cases i with
    | storage s =>
      simp only [storageRun]
      cases allowed with
      | false => simp
      | true =>
        simp only [Bool.not_true, Bool.false_eq_true, if_false]
        cases hm : (a.set s).mixed with
        | true =>
          simp only [if_true]
          constructor
          · intro h; cases h
          · rintro ⟨_, h2, _⟩; rw [mixed_mono _ _ h2] at hm; cases hm
        | false => simp only [Bool.false_eq_true, if_false]; rw [ih _ _ hm]; simp
    | alignas n =>
      simp only [storageRun]
      cases allowed with
      | false => simp
      | true =>
        simp only [Bool.not_true, Bool.false_eq_true, if_false]
        have hm : ({ a with align := n } : Attr).mixed = false := h
        rw [ih _ _ hm]; simp
    | kw k => simp only [storageRun]; rw [ih _ _ h]; simp
    | ignored => simp only [storageRun]; rw [ih _ _ h]; simp
    | atomic => simp only [storageRun]; rw [ih _ _ h]; simp
    | atomicOf t => simp only [storageRun]; rw [ih _ _ h]; simp
    | user t => simp only [storageRun]; rw [ih _ _ h]; simp

theorem attrAfter_flags (items : List Item) : ∀ a,
    ((attrAfter a items).isTypedef = (a.isTypedef || decide (Item.storage .typedef ∈ items))) ∧
    ((attrAfter a items).isStatic = (a.isStatic || decide (Item.storage .static ∈ items))) ∧
    ((attrAfter a items).isExtern = (a.isExtern || decide (Item.storage .extern ∈ items))) ∧
    ((attrAfter a items).isInline = (a.isInline || decide (Item.storage .inline ∈ items))) ∧
    ((attrAfter a items).isTls = (a.isTls || decide (Item.storage .tls ∈ items))) := by
  induction items with
  | nil => intro a; simp [attrAfter]
  | cons i r ih =>
    intro a
    rw [attrAfter_cons]
    obtain ⟨h1, h2, h3, h4, h5⟩ := ih (match i with | .storage s => a.set s | .alignas n => { a with align := n } | _ => a)
    rw [h1, h2, h3, h4, h5]
    cases i with
    | storage s => cases s <;> simp [Attr.set]
    | _ => simp

theorem storage_ok (allowed : Bool) (items : List Item) (a : Attr) (h : storageRun allowed {} items = .ok a) :
    StorageOk allowed items ∧ AttrOf a items := by
  obtain ⟨rfl, hm, ha⟩ := (storageRun_eq allowed items {} a rfl).mp h
  obtain ⟨h1, h2, h3, h4, h5⟩ := attrAfter_flags items {}
  refine ⟨⟨ha, ?_⟩, ?_⟩
  · intro ht
    simp only [Attr.mixed, h1, h2, h3, h4, h5, Bool.false_or, ht, decide_true, Bool.true_and, decide_eq_false_iff_not] at hm
    simp only [List.filter_cons, List.filter_nil]
    revert hm
    generalize decide (Item.storage .static ∈ items) = x2
    generalize decide (Item.storage .extern ∈ items) = x3
    generalize decide (Item.storage .inline ∈ items) = x4
    generalize decide (Item.storage .tls ∈ items) = x5
    cases x2 <;> cases x3 <;> cases x4 <;> cases x5 <;> simp
  · simp [AttrOf, h1, h2, h3, h4, h5]

theorem storage_accepts (allowed : Bool) (items : List Item) (h : StorageOk allowed items) :
    ∃ a, storageRun allowed {} items = .ok a := by
  refine ⟨attrAfter {} items, (storageRun_eq allowed items {} _ rfl).mpr ⟨rfl, ?_, h.1⟩⟩
  obtain ⟨h1, h2, h3, h4, h5⟩ := attrAfter_flags items {}
  have hm := h.2
  simp only [Attr.mixed, h1, h2, h3, h4, h5, Bool.false_or]
  by_cases ht : Item.storage .typedef ∈ items
  · have := hm ht
    simp only [ht, decide_true, Bool.true_and, decide_eq_false_iff_not]
    simp only [List.filter_cons, List.filter_nil] at this
    revert this
    generalize decide (Item.storage .static ∈ items) = x2
    generalize decide (Item.storage .extern ∈ items) = x3
    generalize decide (Item.storage .inline ∈ items) = x4
    generalize decide (Item.storage .tls ∈ items) = x5
    cases x2 <;> cases x3 <;> cases x4 <;> cases x5 <;> simp
  · simp [ht]

theorem addAll_count (ks : List Kw) : ∀ x : Cnt,
    (addAll x ks).v = x.v + ks.count .void ∧ (addAll x ks).b = x.b + ks.count .bool ∧
    (addAll x ks).c = x.c + ks.count .char ∧ (addAll x ks).s = x.s + ks.count .short ∧
    (addAll x ks).i = x.i + ks.count .int ∧ (addAll x ks).l = x.l + ks.count .long ∧
    (addAll x ks).f = x.f + ks.count .float ∧ (addAll x ks).d = x.d + ks.count .double ∧
    (addAll x ks).sg = (x.sg || decide (0 < ks.count .signed)) ∧
    (addAll x ks).us = (x.us || decide (0 < ks.count .unsigned)) := by
  induction ks with
  | nil => intro x; simp [addAll]
  | cons k ks ih =>
    intro x
    have := ih (x.add k)
    rw [show addAll x (k :: ks) = addAll (x.add k) ks from rfl]
    obtain ⟨h1, h2, h3, h4, h5, h6, h7, h8, h9, h10⟩ := this
    rw [h1, h2, h3, h4, h5, h6, h7, h8, h9, h10]
    cases k <;> simp [Cnt.add] <;> omega

theorem addAll_perm {a b : List Kw} (h : a.Perm b) : addAll zero a = addAll zero b := by
  have h1 := addAll_count a zero
  have h2 := addAll_count b zero
  have e := fun k => h.count_eq k
  obtain ⟨a1, a2, a3, a4, a5, a6, a7, a8, a9, a10⟩ := h1
  obtain ⟨b1, b2, b3, b4, b5, b6, b7, b8, b9, b10⟩ := h2
  have : ∀ x y : Cnt, x.v = y.v → x.b = y.b → x.c = y.c → x.s = y.s → x.i = y.i → x.l = y.l → x.f = y.f → x.d = y.d →
    x.sg = y.sg → x.us = y.us → x = y := by
    rintro ⟨⟩ ⟨⟩; simp only [Cnt.mk.injEq]; intros; simp_all
  apply this <;> simp only [*]

theorem perm_of_addAll {a b : List Kw} (h : addAll zero a = addAll zero b) (ha : ∀ k, k = .signed ∨ k = .unsigned → a.count k ≤ 1)
    (hb : ∀ k, k = .signed ∨ k = .unsigned → b.count k ≤ 1) : a.Perm b := by
  obtain ⟨a1, a2, a3, a4, a5, a6, a7, a8, a9, a10⟩ := addAll_count a zero
  obtain ⟨b1, b2, b3, b4, b5, b6, b7, b8, b9, b10⟩ := addAll_count b zero
  rw [h] at a1 a2 a3 a4 a5 a6 a7 a8 a9 a10
  rw [List.perm_iff_count]
  intro k
  cases k
  · rw [a1] at b1; omega
  · rw [a2] at b2; omega
  · rw [a3] at b3; omega
  · rw [a4] at b4; omega
  · rw [a5] at b5; omega
  · rw [a6] at b6; omega
  · rw [a7] at b7; omega
  · rw [a8] at b8; omega
  · rw [a9] at b9
    have := ha .signed (Or.inl rfl); have := hb .signed (Or.inl rfl)
    simp only [zero, Bool.false_or, decide_eq_decide] at b9
    omega
  · rw [a10] at b10
    have := ha .unsigned (Or.inr rfl); have := hb .unsigned (Or.inr rfl)
    simp only [zero, Bool.false_or, decide_eq_decide] at b10
    omega

theorem rowOf_iff (x : Cnt) (b : Basic) : rowOf x = some b ↔ (x, b) ∈ rows := by
  constructor
  · have : ∀ (l : List (Cnt × Basic)), l.lookup x = some b → (x, b) ∈ l := by
      intro l
      induction l with
      | nil => simp
      | cons p l ih =>
        obtain ⟨a, c⟩ := p
        rw [List.lookup_cons]
        split
        · rename_i hb; intro h; simp only [beq_iff_eq] at hb; simp_all
        · intro h; exact List.mem_cons_of_mem _ (ih h)
    exact this rows
  · have : ∀ p ∈ rows, rowOf p.1 = some p.2 := by decide +kernel
    exact this (x, b)

theorem once (ks : List Kw) (hs : ks.count .signed ≤ 1) (hu : ks.count .unsigned ≤ 1) :
    ∀ k, k = .signed ∨ k = .unsigned → ks.count k ≤ 1 := by
  rintro k (rfl | rfl)
  · exact hs
  · exact hu

theorem rows_once : ∀ r ∈ standardTable, r.1.count .signed ≤ 1 ∧ r.1.count .unsigned ≤ 1 := by decide +kernel

/-- **C32** (partial: at most one `signed` and one `unsigned`) A sequence of declaration specifiers made of type
keywords, storage-class words, qualifiers, `_Alignas` and `_Atomic`, in any order and number, is accepted exactly if its type
keywords are, as a multiset, a row of the C11 table (or absent: implicit int) and the storage-class words are acceptable by
themselves; the type is the one of the table, and all specifiers are consumed. Missing: repeated `signed`/`unsigned`
(see C32_violated). -/
theorem C32_declspec_partial (allowed : Bool) (items : List Item) (hp : ∀ i ∈ items, Plain i)
    (hs : (keywords items).count .signed ≤ 1) (hu : (keywords items).count .unsigned ≤ 1) :
    (∀ d, declspec allowed items = .ok d →
      d.rest = [] ∧ d.atomic = decide (Item.atomic ∈ items) ∧ StorageOk allowed items ∧ AttrOf d.attr items ∧
      ((keywords items = [] ∧ d.ty = .basic (.int false)) ∨ ∃ b, d.ty = .basic b ∧ Names (keywords items) b)) ∧
    (∀ b, Names (keywords items) b → StorageOk allowed items →
      ∃ attr, declspec allowed items = .ok ⟨.basic b, decide (Item.atomic ∈ items), attr, []⟩) := by
  have hrun := kwRun_eq (keywords items) zero (.basic (.int false)) (by decide)
  have hz : zero.counter = 0 := rfl
  rw [hz] at hrun
  constructor
  · intro d hd
    obtain ⟨h1, h2, h3, h4⟩ := (loop_plain allowed items hp _ _ _ _ d).mp hd
    obtain ⟨hs1, hs2⟩ := storage_ok allowed items _ h2
    refine ⟨h3, by simpa using h4, hs1, hs2, ?_⟩
    rw [hrun] at h1
    by_cases hk : keywords items = []
    · rw [if_pos hk] at h1; left; exact ⟨hk, (Option.some.inj h1).symm⟩
    · rw [if_neg hk] at h1
      right
      cases hr : rowOf (addAll zero (keywords items)) with
      | none => rw [hr] at h1; cases h1
      | some b =>
        rw [hr] at h1
        refine ⟨b, (Option.some.inj h1).symm, ?_⟩
        have := (rowOf_iff _ _).mp hr
        simp only [rows, List.mem_map] at this
        obtain ⟨⟨row, b'⟩, hm, he⟩ := this
        simp only [Prod.mk.injEq] at he
        obtain ⟨he, rfl⟩ := he
        have := rows_once _ hm
        exact ⟨row, hm, perm_of_addAll he.symm (once _ hs hu) (once _ this.1 this.2)⟩
  · rintro b ⟨row, hm, hperm⟩ hst
    obtain ⟨attr, hst⟩ := storage_accepts allowed items hst
    refine ⟨attr, (loop_plain allowed items hp _ _ _ _ _).mpr ⟨?_, hst, rfl, by simp⟩⟩
    rw [hrun]
    have hne : ∀ r ∈ standardTable, r.1 ≠ [] := by decide
    have hk : keywords items ≠ [] := by
      intro h; rw [h] at hperm; exact hne _ hm (List.nil_perm.mp hperm)
    rw [if_neg hk, addAll_perm hperm]
    have : rowOf (addAll zero row) = some b := (rowOf_iff _ _).mpr (List.mem_map.mpr ⟨(row, b), hm, rfl⟩)
    rw [this]; rfl

/-- **C32** The order of the type keywords, and where the other words stand among them, never changes the type. -/
theorem C32_order (allowed : Bool) (i1 i2 : List Item) (h1 : ∀ i ∈ i1, Plain i) (h2 : ∀ i ∈ i2, Plain i)
    (hk : (keywords i1).Perm (keywords i2)) (d1 d2 : DSpec)
    (e1 : declspec allowed i1 = .ok d1) (e2 : declspec allowed i2 = .ok d2) : d1.ty = d2.ty := by
  have a1 := ((loop_plain allowed i1 h1 _ _ _ _ d1).mp e1).1
  have a2 := ((loop_plain allowed i2 h2 _ _ _ _ d2).mp e2).1
  have hrun := fun ks => kwRun_eq ks zero (.basic (.int false)) (by decide)
  have hz : zero.counter = 0 := rfl
  rw [hz] at hrun
  rw [hrun] at a1 a2
  by_cases he : keywords i1 = []
  · rw [he] at hk
    rw [if_pos he] at a1
    rw [if_pos (List.nil_perm.mp hk)] at a2
    rw [a1] at a2; exact Option.some.inj a2
  · have he2 : keywords i2 ≠ [] := by intro h; rw [h] at hk; exact he (List.perm_nil.mp hk)
    rw [if_neg he] at a1
    rw [if_neg he2, ← addAll_perm hk, a1] at a2
    exact Option.some.inj a2

/-- **C32** A user-defined type is taken when no type keyword came before; then a type keyword anywhere after it is
rejected and a second user-defined name ends the specifiers (it is the declared name). -/
theorem C32_user_type (allowed : Bool) (t : Nat) (k : Kw) (u : Nat) (pre mid post : List Item)
    (hpre : ∀ i ∈ pre, i = .ignored) (hmid : ∀ i ∈ mid, i = .ignored) :
    declspec allowed (pre ++ .user t :: mid) = .ok ⟨.user t, false, {}, []⟩ ∧
    declspec allowed (pre ++ .user t :: (mid ++ .kw k :: post)) = .error .invalidType ∧
    declspec allowed (pre ++ .user t :: (mid ++ .user u :: post)) = .ok ⟨.user t, false, {}, .user u :: post⟩ := by
  have skip : ∀ (l tail : List Item) ty c a attr, (∀ i ∈ l, i = .ignored) →
      declLoop allowed ty c a attr (l ++ tail) = declLoop allowed ty c a attr tail := by
    intro l
    induction l with
    | nil => intros; rfl
    | cons i l ih =>
      intro tail ty c a attr h
      rw [h i (List.mem_cons_self ..)]
      simp only [List.cons_append, declLoop]
      exact ih _ _ _ _ _ (fun j hj => h j (List.mem_cons_of_mem _ hj))
  simp only [declspec]
  rw [skip _ _ _ _ _ _ hpre, skip _ _ _ _ _ _ hpre, skip _ _ _ _ _ _ hpre]
  simp only [declLoop, ne_eq, not_true, if_false]
  refine ⟨?_, ?_, ?_⟩
  · have := skip mid [] (.user t) (0 + OTHER) false {} hmid
    rw [List.append_nil] at this; rw [this]; rfl
  · rw [skip _ _ _ _ _ _ hmid]
    simp only [declLoop]
    have : caseOf (bump (0 + OTHER) k) = none := by cases k <;> decide +kernel
    rw [this]
  · rw [skip _ _ _ _ _ _ hmid]
    simp [declLoop, OTHER]

example : declspec true [.kw .int, .storage .static, .kw .long, .ignored, .kw .unsigned, .kw .long] =
    .ok ⟨.basic (.long true), false, { isStatic := true }, []⟩ := by decide
example : declspec true [.kw .char, .kw .int] = .error .invalidType := by decide
example : declspec true [.kw .double, .atomic, .kw .long] = .ok ⟨.basic .ldouble, true, {}, []⟩ := by decide

/-- **C32** is violated: a repeated `unsigned` (any number of times) is accepted though no row of the table has two. -/
theorem C32_violated (n : Nat) : declspec true (List.replicate (n + 2) (.kw .unsigned)) = .ok ⟨.basic (.int true), false, {}, []⟩ ∧
    ∀ b, ¬ Names (keywords (List.replicate (n + 2) (.kw .unsigned))) b := by
  have hk : ∀ m, keywords (List.replicate m (.kw .unsigned)) = List.replicate m .unsigned := by
    intro m; simp [keywords]
  constructor
  · have hp : ∀ i ∈ List.replicate (n + 2) (Item.kw .unsigned), Plain i := by
      intro i hi; rw [(List.mem_replicate.mp hi).2]; trivial
    refine (loop_plain true _ hp _ _ _ _ _).mpr ⟨?_, ?_, rfl, ?_⟩
    · have hrun := kwRun_eq (List.replicate (n + 2) .unsigned) zero (.basic (.int false)) (by decide)
      have hz : zero.counter = 0 := rfl
      rw [hz] at hrun
      rw [hk, hrun, if_neg (by simp)]
      have : ∀ m, addAll zero (List.replicate (m + 1) .unsigned) = { zero with us := true } := by
        intro m
        induction m with
        | zero => rfl
        | succ m ih => rw [List.replicate_succ', addAll, List.foldl_append]; rw [addAll] at ih; rw [ih]; rfl
      rw [this]; decide
    · have : ∀ m attr, storageRun true attr (List.replicate m (.kw .unsigned)) = .ok attr := by
        intro m attr
        induction m with
        | zero => rfl
        | succ m ih => rw [List.replicate_succ]; simpa [storageRun] using ih
      exact this _ _
    · simp
  · rintro b ⟨row, hm, hp⟩
    have := (rows_once _ hm).2
    have h2 := hp.count_eq .unsigned
    rw [hk, List.count_replicate_self] at h2
    simp only at this; omega

/-- Finding: `typedef static int x;` passes the check of storage-class words. -/
theorem C32_typedef_static : ∃ d, declspec true [.storage .typedef, .storage .static, .kw .int] = .ok d ∧
    d.attr.isTypedef = true ∧ d.attr.isStatic = true := ⟨⟨.basic (.int false), false, { isTypedef := true, isStatic := true }, []⟩, by decide⟩

end Toycc.Types
