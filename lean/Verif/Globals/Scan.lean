import Verif.Globals.Model
/-! scan_globals: the list as it is seen by the loops. -/
namespace Toycc.Globals

/-- Following `next` from `q` on gives the list. -/
def Ch (next : Nat → Option Nat) : Option Nat → List Nat → Prop
  | q, [] => q = none
  | q, x :: r => q = some x ∧ Ch next (next x) r

/-- Is `p` another definition of the name of `i`? -/
def hit (objs : List Obj) (i : Nat) (name : String) (p : Nat) : Bool :=
  match objs[p]? with
  | some o => p != i && o.isDef && name == o.name
  | none => false

theorem other_eq {objs : List Obj} {next : Nat → Option Nat} (i : Nat) (name : String) :
    ∀ (L : List Nat) (q : Option Nat) (f : Nat), Ch next q L → (∀ p ∈ L, p < objs.length) → L.length ≤ f →
      other objs next i name f q = some (L.any (hit objs i name))
  | [], q, f, h, _, _ => by
    cases h
    cases f <;> rfl
  | x :: r, q, 0, h, _, hl => by cases hl
  | x :: r, q, f + 1, ⟨hq, h⟩, hlt, hl => by
    subst hq
    have hx := hlt x List.mem_cons_self
    obtain ⟨o, ho⟩ : ∃ o, objs[x]? = some o := ⟨_, List.getElem?_eq_getElem hx⟩
    have ih := other_eq i name r (next x) f h (fun p hp => hlt p (List.mem_cons_of_mem _ hp)) (by simpa using hl)
    simp only [other, ho, List.any_cons, hit]
    split
    · next hc => rw [hc]; rfl
    · next hc =>
      rw [ih]
      have : (x != i && o.isDef && name == o.name) = false := by simpa using hc
      rw [this]; rfl

theorem Ch.congr {next : Nat → Option Nat} {k : Nat} {v : Option Nat} : ∀ {b : List Nat} {q : Option Nat}, k ∉ b → Ch next q b →
      Ch (fun i => if i = k then v else next i) q b
  | [], _, _, h => h
  | x :: b, q, hb, h => by
    have hx : x ≠ k := fun e => hb (by rw [e]; exact List.mem_cons_self)
    refine ⟨h.1, ?_⟩
    show Ch _ (if x = k then v else next x) _
    rw [if_neg hx]
    exact Ch.congr (fun hm => hb (List.mem_cons_of_mem _ hm)) h.2

/-- The end of a chain. -/
theorem Ch.tail {next : Nat → Option Nat} : ∀ {a : List Nat} {q : Option Nat} {x : Nat} {b : List Nat}, Ch next q (a ++ x :: b) → Ch next (some x) (x :: b)
  | [], _, _, _, h => ⟨rfl, h.2⟩
  | _ :: a, _, _, _, h => Ch.tail (a := a) h.2

/-- The chain is not changed before the cell that is changed. -/
theorem Ch.set {next : Nat → Option Nat} {k : Nat} {v : Option Nat} : ∀ {a : List Nat} {q : Option Nat} {b b' : List Nat},
    Ch next q (a ++ k :: b) → k ∉ a → k ∉ b' → Ch next v b' → Ch (fun i => if i = k then v else next i) q (a ++ k :: b')
  | [], q, b, b', h, _, hb, hv => by
    refine ⟨h.1, ?_⟩
    show Ch _ (if k = k then v else next k) b'
    rw [if_pos rfl]
    exact hv.congr hb
  | x :: a, q, b, b', h, ha, hb, hv => by
    have hx : x ≠ k := fun e => ha (by rw [e]; exact List.mem_cons_self)
    refine ⟨h.1, ?_⟩
    show Ch _ (if x = k then v else next x) _
    rw [if_neg hx]
    exact Ch.set h.2 (fun hm => ha (List.mem_cons_of_mem _ hm)) hb hv

/-- The loops on lists: `seen` are the objects met up to the last one that is kept and still linked, `trail` those that have been removed since. -/
def scanF (objs : List Obj) : (seen kept trail rest : List Nat) → List Nat
  | _, kept, _, [] => kept
  | seen, kept, trail, i :: rest =>
    match objs[i]? with
    | none => kept
    | some o =>
      if o.tentative && (seen ++ trail ++ i :: rest).any (hit objs i o.name) then scanF objs seen kept (trail ++ [i]) rest
      else scanF objs (if kept.isEmpty then trail ++ [i] else seen ++ [i]) (kept ++ [i]) [] rest

/-- The cells represent the lists. -/
structure Inv (objs : List Obj) (c : Cells) (seen kept trail rest : List Nat) : Prop where
  lt : ∀ p ∈ seen ++ trail ++ rest, p < objs.length
  nd : (seen ++ trail ++ rest).Nodup
  ch : Ch c.next (if objs.isEmpty then none else some 0) (seen ++ trail ++ rest)
  sub : ∀ p ∈ kept, p ∈ seen
  knd : kept.Nodup
  keptNil : kept = [] → c.cur = none ∧ seen = []
  keptCons : ∀ k' k, kept = k' ++ [k] → c.cur = some k ∧ (∃ s', seen = s' ++ [k]) ∧ Ch c.next c.head (kept ++ trail ++ rest)

theorem nodup_mid {a b : List Nat} {k : Nat} (h : (a ++ k :: b).Nodup) : k ∉ a ∧ k ∉ b := by
  rw [List.nodup_append] at h
  obtain ⟨_, h2, h3⟩ := h
  exact ⟨fun hm => h3 k hm k List.mem_cons_self rfl, (List.nodup_cons.mp h2).1⟩

theorem length_le_of_lt : ∀ (n : Nat) (L : List Nat), L.Nodup → (∀ p ∈ L, p < n) → L.length ≤ n
  | 0, [], _, _ => Nat.le_refl _
  | 0, x :: _, _, h => absurd (h x List.mem_cons_self) (Nat.not_lt_zero _)
  | n + 1, L, hn, h => by
    have := length_le_of_lt n (L.erase n) (hn.erase n) (fun p hp => by
      have := (hn.mem_erase_iff).mp hp
      have := h p this.2
      omega)
    rw [List.length_erase] at this
    split at this <;> omega

/-- What the loop leaves behind. -/
theorem keep_inv {objs : List Obj} {c : Cells} {seen kept trail rest : List Nat} {i : Nat} (I : Inv objs c seen kept trail (i :: rest)) :
    Inv objs { c.link (some i) with cur := some i } (if kept.isEmpty then trail ++ [i] else seen ++ [i]) (kept ++ [i]) [] rest ∧
      Ch (c.link (some i)).next (some i) (i :: rest) := by
  rcases List.eq_nil_or_concat kept with hk | ⟨k', k, hk⟩
  · obtain ⟨hc, hs⟩ := I.keptNil hk
    subst hk; subst hs
    have hl : c.link (some i) = { c with head := some i } := by simp [Cells.link, hc]
    rw [hl]
    have hch := I.ch
    simp only [List.nil_append] at hch
    have ht : Ch c.next (some i) (i :: rest) := hch.tail
    refine ⟨⟨?_, ?_, ?_, ?_, ?_, ?_, ?_⟩, ht⟩
    · simpa using I.lt
    · simpa using I.nd
    · simpa using I.ch
    · simp
    · simp
    · simp
    · intro k' k e
      have : k = i := by
        have := congrArg List.getLast? e
        simpa using this.symm
      subst this
      refine ⟨rfl, ⟨trail, by simp⟩, ?_⟩
      simpa using ht
  · rw [List.concat_eq_append] at hk
    obtain ⟨hc, ⟨s', hs⟩, hh⟩ := I.keptCons k' k hk
    have hne : kept.isEmpty = false := by rw [hk]; simp
    rw [hne]
    have hl : c.link (some i) = { c with next := fun j => if j = k then some i else c.next j } := by simp [Cells.link, hc]
    rw [hl]
    have hch := I.ch
    have hnd := I.nd
    have hlt := I.lt
    rw [hs] at hch hnd hlt
    simp only [List.append_assoc, List.cons_append, List.nil_append] at hch hnd hlt
    obtain ⟨hk1, hk2⟩ := nodup_mid hnd
    have hk3 : k ∉ i :: rest := fun hm => hk2 (List.mem_append_right trail hm)
    have ht : Ch c.next (some i) (i :: rest) := by
      have : Ch c.next (if objs.isEmpty then none else some 0) ((s' ++ k :: trail) ++ i :: rest) := by simpa using hch
      exact this.tail
    have ht' : Ch (fun j => if j = k then some i else c.next j) (some i) (i :: rest) := ht.congr hk3
    refine ⟨⟨?_, ?_, ?_, ?_, ?_, ?_, ?_⟩, ht'⟩
    · intro p hp
      apply hlt
      simp [hs] at hp ⊢
      rcases hp with h | h | h | h
      · exact .inl h
      · exact .inr (.inl h)
      · exact .inr (.inr (.inr (.inl h)))
      · exact .inr (.inr (.inr (.inr h)))
    · rw [hs]
      simp only [List.append_assoc, List.singleton_append, List.append_nil, Bool.false_eq_true, if_false]
      refine List.Nodup.sublist ?_ hnd
      apply List.Sublist.append_left
      apply List.Sublist.cons_cons
      exact List.sublist_append_right _ _
    · rw [hs]
      simp only [List.append_assoc, List.singleton_append, List.append_nil, Bool.false_eq_true, if_false]
      exact hch.set hk1 hk3 ht
    · intro p hp
      simp only [Bool.false_eq_true, if_false]
      rcases List.mem_append.mp hp with h | h
      · exact List.mem_append_left _ (I.sub p h)
      · exact List.mem_append_right _ h
    · rw [List.nodup_append]
      refine ⟨I.knd, by simp, ?_⟩
      intro a ha b hb e
      simp at hb
      subst hb; subst e
      have ha := I.sub a ha
      rw [hs] at ha
      have : (s' ++ k :: trail ++ a :: rest).Nodup := by simpa using hnd
      have := (nodup_mid this).1
      apply this
      simp at ha ⊢
      rcases ha with h | h
      · exact .inl h
      · exact .inr (.inl h)
    · simp
    · intro k1 k2 e
      have : k2 = i := by
        have := congrArg List.getLast? e
        simpa using this.symm
      subst this
      refine ⟨rfl, ⟨seen, by simp⟩, ?_⟩
      have hh' : Ch c.next c.head (k' ++ k :: (trail ++ k2 :: rest)) := by rw [hk] at hh; simpa using hh
      have hkn := I.knd
      rw [hk] at hkn
      have h4 := (nodup_mid (b := []) hkn).1
      have := hh'.set h4 hk3 ht
      rw [hk]
      simpa using this

theorem drop_inv {objs : List Obj} {c : Cells} {seen kept trail rest : List Nat} {i : Nat} (I : Inv objs c seen kept trail (i :: rest)) :
    Inv objs c seen kept (trail ++ [i]) rest := by
  refine ⟨by simpa using I.lt, by simpa using I.nd, by simpa using I.ch, I.sub, I.knd, I.keptNil, ?_⟩
  intro k' k e
  obtain ⟨h1, h2, h3⟩ := I.keptCons k' k e
  exact ⟨h1, h2, by simpa using h3⟩

theorem loop_eq {objs : List Obj} : ∀ (rest : List Nat) (f : Nat) (c : Cells) (seen kept trail : List Nat) (q : Option Nat),
    Inv objs c seen kept trail rest → q = rest.head? → rest.length ≤ f →
    ∃ c' seen' trail', scanLoop objs f q c = some c' ∧ Inv objs c' seen' (scanF objs seen kept trail rest) trail' []
  | [], f, c, seen, kept, trail, q, I, hq, _ => by
    subst hq
    refine ⟨c, seen, trail, ?_, I⟩
    cases f <;> rfl
  | i :: rest, 0, c, seen, kept, trail, q, I, hq, hf => by cases hf
  | i :: rest, f + 1, c, seen, kept, trail, q, I, hq, hf => by
    subst hq
    have hi : i < objs.length := I.lt i (by simp)
    obtain ⟨o, ho⟩ : ∃ o, objs[i]? = some o := ⟨_, List.getElem?_eq_getElem hi⟩
    have hlen : (seen ++ trail ++ i :: rest).length ≤ objs.length + 1 := Nat.le_succ_of_le (length_le_of_lt _ _ I.nd I.lt)
    have next_head : ∀ {nx : Nat → Option Nat}, Ch nx (some i) (i :: rest) → nx i = rest.head? := by
      intro nx h
      have := h.2
      cases rest with
      | nil => exact this
      | cons x r => exact this.1
    have hoth := other_eq i o.name (seen ++ trail ++ i :: rest) (if objs.isEmpty then none else some 0) (objs.length + 1) I.ch I.lt hlen
    obtain ⟨I', ht'⟩ := keep_inv I
    simp only [List.head?_cons, scanLoop, ho, scanF]
    cases htt : o.tentative with
    | false =>
      simp only [Bool.not_false, if_true, Bool.false_and, Bool.false_eq_true, if_false]
      exact loop_eq rest f _ _ _ _ _ I' (next_head ht') (by simpa using hf)
    | true =>
      simp only [Bool.not_true, Bool.false_eq_true, if_false, Bool.true_and]
      rw [hoth]
      cases (seen ++ trail ++ i :: rest).any (hit objs i o.name) with
      | true =>
        simp only [if_true]
        exact loop_eq rest f _ _ _ _ _ (drop_inv I) (next_head I.ch.tail) (by simpa using hf)
      | false =>
        simp only [Bool.false_eq_true, if_false]
        exact loop_eq rest f _ _ _ _ _ I' (next_head ht') (by simpa using hf)

theorem follow_eq {next : Nat → Option Nat} : ∀ (L : List Nat) (q : Option Nat) (f : Nat), Ch next q L → L.length ≤ f → follow next f q = some L
  | [], q, f, h, _ => by cases h; cases f <;> rfl
  | x :: r, q, 0, h, hl => by cases hl
  | x :: r, q, f + 1, h, hl => by
    rw [h.1, follow, follow_eq r (next x) f h.2 (by simpa using hl)]
    rfl

theorem ch_range (objs : List Obj) : ∀ (m i : Nat), i + m = objs.length →
    Ch (fun i => if i + 1 < objs.length then some (i + 1) else none) (if i < objs.length then some i else none) (List.range' i m)
  | 0, i, h => by
    show (if i < objs.length then some i else none) = none
    rw [if_neg (by omega)]
  | m + 1, i, h => by
    rw [List.range'_succ]
    refine ⟨by rw [if_pos (by omega)], ?_⟩
    exact ch_range objs m (i + 1) (by omega)

/-- scan_globals ends, and its result is that of the loops on lists. -/
theorem scan_eq (objs : List Obj) : scanGlobals objs = some (scanF objs [] [] [] (List.range' 0 objs.length)) := by
  have h0 : (if objs.isEmpty then none else some 0) = (if 0 < objs.length then some 0 else (none : Option Nat)) := by
    cases objs <;> rfl
  have I : Inv objs ⟨fun i => if i + 1 < objs.length then some (i + 1) else none, none, none⟩ [] [] [] (List.range' 0 objs.length) := by
    refine ⟨?_, ?_, ?_, ?_, ?_, ?_, ?_⟩
    · intro p hp; simp [List.mem_range'_1] at hp; exact hp
    · simpa using List.nodup_range'
    · rw [h0]
      exact ch_range objs objs.length 0 (by omega)
    · simp
    · simp
    · intro _; exact ⟨rfl, rfl⟩
    · intro k' k e
      have := congrArg List.length e
      simp at this
  obtain ⟨c', seen', trail', e, I'⟩ := loop_eq (List.range' 0 objs.length) (objs.length + 1) _ [] [] [] (if objs.isEmpty then none else some 0) I
    (by cases objs <;> rfl) (by simp)
  simp only [scanGlobals, e]
  generalize scanF objs [] [] [] (List.range' 0 objs.length) = kept at I' ⊢
  have hlen : kept.length ≤ objs.length + 1 := Nat.le_succ_of_le (length_le_of_lt _ _ I'.knd (fun p hp => I'.lt p (by simp [I'.sub p hp])))
  apply follow_eq _ _ _ _ hlen
  rcases List.eq_nil_or_concat kept with hk | ⟨k', k, hk⟩
  · obtain ⟨hc, hs⟩ := I'.keptNil hk
    rw [hk]
    simp [Cells.link, hc, Ch]
  · rw [List.concat_eq_append] at hk
    obtain ⟨hc, -, hh⟩ := I'.keptCons k' k hk
    simp only [Cells.link, hc]
    have hkn := I'.knd
    rw [hk] at hkn
    have h4 := (nodup_mid (b := []) hkn).1
    have hh' : Ch c'.next c'.head (k' ++ k :: (trail' ++ [])) := by rw [hk] at hh; simpa using hh
    have := hh'.set (b' := []) (v := none) h4 (by simp) rfl
    rw [hk]
    exact this

end Toycc.Globals
