import Verif.Ip.Main3
/-! Arrays of unknown length: what is read does not depend on the tree (for C68). -/
namespace Toycc.Ip
open Toycc.Parse (Tok P)
open Toycc.Init (Ini Inis)
variable {α : Type} {O : Oracle α} {w : String → Nat}

mutual
/-- The tree has the children that the type asks for. -/
def Shaped : Ini α → ITy → Prop
  | .mk _ _ cs, T => match T with
    | .sc _ => True
    | .arr b k => ShapedA cs b k
    | .struc _ ms => ShapedM cs ms
    | .union _ ms => ShapedM cs ms
def ShapedA : Inis α → ITy → Nat → Prop
  | _, _, 0 => True
  | .nil, _, _ + 1 => False
  | .cons c r, b, k + 1 => Shaped c b ∧ ShapedA r b k
def ShapedM : Inis α → IMems → Prop
  | _, .nil => True
  | .nil, .cons _ _ _ _ _ => False
  | .cons c r, .cons _ _ _ t ms => Shaped c t ∧ ShapedM r ms
end

theorem ShapedA.get : ∀ {cs : Inis α} {b : ITy} {k i : Nat}, ShapedA cs b k → i < k → ∃ c, cs.get? i = some c ∧ Shaped c b
  | _, _, 0, _, _, h => absurd h (by omega)
  | .nil, _, _ + 1, _, h, _ => by rw [ShapedA] at h; exact h.elim
  | .cons c r, b, k + 1, 0, h, _ => by rw [ShapedA] at h; exact ⟨c, rfl, h.1⟩
  | .cons c r, b, k + 1, i + 1, h, hi => by rw [ShapedA] at h; exact ShapedA.get (cs := r) h.2 (by omega)

theorem ShapedA.set : ∀ {cs : Inis α} {b : ITy} {k i : Nat} {c : Ini α}, ShapedA cs b k → Shaped c b → ShapedA (setI cs i c) b k
  | _, _, 0, _, _, _, _ => by simp only [ShapedA]
  | .nil, _, _ + 1, _, _, h, _ => by rw [ShapedA] at h; exact h.elim
  | .cons _ r, b, k + 1, 0, c, h, hc => by rw [ShapedA] at h; simp only [setI, ShapedA]; exact ⟨hc, h.2⟩
  | .cons c r, b, k + 1, i + 1, _, h, hc => by rw [ShapedA] at h; simp only [setI, ShapedA]; exact ⟨h.1, ShapedA.set (cs := r) h.2 hc⟩

theorem ShapedM.get : ∀ {cs : Inis α} {ms : IMems} {i : Nat} {t : ITy}, ShapedM cs ms → ms.get? i = some t → ∃ c, cs.get? i = some c ∧ Shaped c t
  | _, .nil, _, _, _, h => by cases h
  | .nil, .cons _ _ _ _ _, _, _, h, _ => by rw [ShapedM] at h; exact h.elim
  | .cons c r, .cons _ _ _ t ms, 0, _, h, hi => by rw [ShapedM] at h; cases hi; exact ⟨c, rfl, h.1⟩
  | .cons c r, .cons _ _ _ t ms, i + 1, _, h, hi => by rw [ShapedM] at h; exact ShapedM.get (cs := r) h.2 hi

theorem ShapedM.set : ∀ {cs : Inis α} {ms : IMems} {i : Nat} {t : ITy} {c : Ini α}, ShapedM cs ms → ms.get? i = some t → Shaped c t → ShapedM (setI cs i c) ms
  | _, .nil, _, _, _, _, h, _ => by cases h
  | .nil, .cons _ _ _ _ _, _, _, _, h, _, _ => by rw [ShapedM] at h; exact h.elim
  | .cons c r, .cons _ _ _ t ms, 0, _, _, h, hi, hc => by rw [ShapedM] at h; cases hi; simp only [setI, ShapedM]; exact ⟨hc, h.2⟩
  | .cons c r, .cons _ _ _ t ms, i + 1, _, _, h, hi, hc => by rw [ShapedM] at h; simp only [setI, ShapedM]; exact ⟨h.1, ShapedM.set (cs := r) h.2 hi hc⟩

theorem Shaped.expr {x : Ini α} {T : ITy} (h : Shaped x T) (e : Option α) : Shaped (setExpr x e) T := by
  cases x; rw [setExpr, Shaped.eq_def]; rw [Shaped.eq_def] at h; exact h

theorem Shaped.mem {x : Ini α} {T : ITy} (h : Shaped x T) (k : Nat) : Shaped (setMem x k) T := by
  cases x; rw [setMem, Shaped.eq_def]; rw [Shaped.eq_def] at h; exact h

theorem Shaped.child {x : Ini α} {T V : ITy} {i : Nat} (h : Shaped x T) (hi : T.child? i = some V) : ∃ c, child x i = .ok c ∧ Shaped c V := by
  cases x with
  | mk e m cs =>
    have : ∃ c, cs.get? i = some c ∧ Shaped c V := by
      cases T with
      | sc t => cases hi
      | arr b k =>
        simp only [ITy.child?] at hi
        split at hi
        · cases hi; rename_i hk; rw [Shaped] at h; exact ShapedA.get h hk
        · cases hi
      | struc n ms => rw [Shaped] at h; exact ShapedM.get h hi
      | union n ms => rw [Shaped] at h; exact ShapedM.get h hi
    obtain ⟨c, h1, h2⟩ := this
    exact ⟨c, by rw [Ip.child, h1], h2⟩

theorem Shaped.set {x c : Ini α} {T V : ITy} {i : Nat} (h : Shaped x T) (hi : T.child? i = some V) (hc : Shaped c V) : Shaped (setChild x i c) T := by
  cases x with
  | mk e m cs =>
    rw [setChild]
    cases T with
    | sc t => cases hi
    | arr b k =>
      simp only [ITy.child?] at hi
      split at hi
      · cases hi; rw [Shaped] at h ⊢; exact ShapedA.set h hc
      · cases hi
    | struc n ms => rw [Shaped] at h ⊢; exact ShapedM.set h hi hc
    | union n ms => rw [Shaped] at h ⊢; exact ShapedM.set h hi hc

theorem ShapedA.fill : ∀ {cs : Inis α} {b : ITy} {k : Nat} (es : List α), ShapedA cs b k → ShapedA (fillStr cs es) b k
  | _, _, 0, _, _ => by simp only [ShapedA]
  | .nil, _, _ + 1, _, h => by rw [ShapedA] at h; exact h.elim
  | .cons c r, b, k + 1, [], h => by rw [fillStr]; exact h; simp
  | .cons c r, b, k + 1, e :: es, h => by rw [ShapedA] at h; rw [fillStr, ShapedA]; exact ⟨h.1.expr _, ShapedA.fill es h.2⟩

theorem Shaped.replicate {b : ITy} {c : Ini α} (h : Shaped c b) : ∀ k, ShapedA (Inis.replicate k c) b k
  | 0 => by simp only [ShapedA]
  | k + 1 => by rw [Inis.replicate, ShapedA]; exact ⟨h, Shaped.replicate h k⟩

mutual
theorem blank_shaped : ∀ (T : ITy), Shaped (blank T : Ini α) T
  | .sc _ => by rw [blank, Shaped]; trivial
  | .arr b k => by rw [blank, Shaped]; exact Shaped.replicate (blank_shaped b) k
  | .struc _ ms => by rw [blank, Shaped]; exact blanks_shaped ms
  | .union _ ms => by rw [blank, Shaped]; exact blanks_shaped ms
theorem blanks_shaped : ∀ (ms : IMems), ShapedM (blanks ms : Inis α) ms
  | .nil => by simp only [ShapedM]
  | .cons _ _ _ t r => by rw [blanks, ShapedM]; exact ⟨blank_shaped t, blanks_shaped r⟩
end

/-- The same tokens are left, and the shape is kept. -/
def Rel (T : ITy) (a b : Except IErr (Ini α × List Tok)) : Prop := ∀ x r, a = .ok (x, r) → Shaped x T ∧ ∃ y, b = .ok (y, r) ∧ Shaped y T

theorem Rel.err {T : ITy} {e : IErr} {b : Except IErr (Ini α × List Tok)} : Rel T (.error e) b := fun _ _ h => by cases h

theorem Rel.ok {T : ITy} {x y : Ini α} {r : List Tok} (hx : Shaped x T) (hy : Shaped y T) : Rel T (.ok (x, r)) (.ok (y, r)) := fun _ _ h => by
  cases h; exact ⟨hx, y, rfl, hy⟩

theorem Rel.bind {T V : ITy} {a b : Except IErr (Ini α × List Tok)} {f g : Ini α × List Tok → Except IErr (Ini α × List Tok)} (h : Rel V a b)
    (hf : ∀ c c' ts, Shaped c V → Shaped c' V → Rel T (f (c, ts)) (g (c', ts))) : Rel T (a >>= f) (b >>= g) := by
  cases a with
  | error e => exact .err
  | ok v =>
    obtain ⟨c, ts⟩ := v
    obtain ⟨h1, c', h2, h3⟩ := h c ts rfl
    subst h2
    exact hf c c' ts h1 h3

theorem Rel.same {β : Type} {T : ITy} {a : Except IErr β} {f g : β → Except IErr (Ini α × List Tok)} (hf : ∀ v, a = .ok v → Rel T (f v) (g v)) : Rel T (a >>= f) (a >>= g) := by
  cases a with
  | error e => exact .err
  | ok v => exact hf v rfl

theorem Rel.child {T T' V : ITy} {i : Nat} {x y : Ini α} {f g : Ini α → Except IErr (Ini α × List Tok)} (hi : T.child? i = some V) (hx : Shaped x T) (hy : Shaped y T)
    (hf : ∀ c c', Shaped c V → Shaped c' V → Rel T' (f c) (g c')) : Rel T' (child x i >>= f) (child y i >>= g) := by
  obtain ⟨c, h1, h2⟩ := hx.child hi
  obtain ⟨c', h3, h4⟩ := hy.child hi
  rw [h1, h3]
  exact hf c c' h2 h4

theorem findMember_get (x : String) : ∀ (ms : IMems) (k j : Nat) (t : ITy) (an : Bool), findMember x ms k = .ok (j, t, an) → ∃ i, j = k + i ∧ ms.get? i = some t
  | .nil, _, _, _, _, h => by cases h
  | .cons (some y) _ _ u r, k, j, t, an, h => by
    simp only [findMember] at h
    by_cases hy : y = x
    · rw [if_pos hy] at h; cases h; exact ⟨0, rfl, rfl⟩
    · rw [if_neg hy] at h
      obtain ⟨i, h1, h2⟩ := findMember_get x r _ _ _ _ h
      exact ⟨i + 1, by omega, h2⟩
  | .cons none _ _ (.struc n ms) r, k, j, t, an, h => by
    simp only [findMember, bind, Except.bind] at h
    cases hm : hasMember x ms with
    | error e => rw [hm] at h; cases h
    | ok b =>
      rw [hm] at h
      cases b with
      | true => cases h; exact ⟨0, rfl, rfl⟩
      | false =>
        obtain ⟨i, h1, h2⟩ := findMember_get x r _ _ _ _ h
        exact ⟨i + 1, by omega, h2⟩
  | .cons none _ _ (.union _ _) _, _, _, _, _, h => by cases h
  | .cons none _ _ (.sc _) _, _, _, _, _, h => by cases h
  | .cons none _ _ (.arr _ _) _, _, _, _, _, h => by cases h

theorem structDesignator_get {ms : IMems} {ts ts' : List Tok} {k : Nat} {t : ITy} (h : structDesignator ms ts = .ok (k, t, ts')) : ms.get? k = some t := by
  unfold structDesignator at h
  split at h
  · simp only [bind, Except.bind] at h
    split at h
    · cases h
    · rename_i v hv
      obtain ⟨j, u, an⟩ := v
      cases h
      obtain ⟨i, h1, h2⟩ := findMember_get _ _ _ _ _ _ hv
      rw [h1, Nat.zero_add]; exact h2
  · cases h

theorem arrayDesignator_lt {k lo hi : Nat} {ts ts' : List Tok} (h : arrayDesignator O k ts = .ok (lo, hi, ts')) : lo ≤ hi ∧ hi < k := by
  unfold arrayDesignator at h
  simp only [bind, Except.bind] at h
  cases hc : O.const ts with
  | error e => rw [hc] at h; cases h
  | ok v =>
    obtain ⟨a, ts1⟩ := v
    rw [hc] at h
    dsimp only at h
    split at h
    · cases h
    · rename_i ha
      split at h
      · rename_i ts2
        cases hc2 : O.const ts2 with
        | error e => rw [hc2] at h; cases h
        | ok v =>
          obtain ⟨b, ts3⟩ := v
          rw [hc2] at h
          dsimp only at h
          split at h
          · cases h
          · split at h
            · cases h
            · cases hs : skip ts3 .rbrk with
              | error e => rw [hs] at h; cases h
              | ok v =>
                rw [hs] at h
                dsimp only at h
                split at h
                · cases h
                · simp only [Except.ok.injEq, Prod.mk.injEq] at h
                  omega
      · cases hs : skip ts1 .rbrk with
        | error e => rw [hs] at h; cases h
        | ok v =>
          rw [hs] at h
          dsimp only at h
          split at h
          · cases h
          · simp only [Except.ok.injEq, Prod.mk.injEq] at h
            omega

/-- What each function leaves of the tokens does not depend on the tree. -/
theorem indep (O : Oracle α) : ∀ n,
    (∀ T ts x y, Shaped x T → Shaped y T → Rel T (init2 O n T ts x) (init2 O n T ts y)) ∧
    (∀ b k f i ts x y, Shaped x (.arr b k) → Shaped y (.arr b k) → Rel (.arr b k) (arr1 O n b k f i ts x) (arr1 O n b k f i ts y)) ∧
    (∀ b k ts i hi x y, i ≤ hi → hi < k → Shaped x (.arr b k) → Shaped y (.arr b k) → Rel (.arr b k) (range O n b ts i hi x) (range O n b ts i hi y)) ∧
    (∀ T ts x y, Shaped x T → Shaped y T → Rel T (desg O n T ts x) (desg O n T ts y)) ∧
    (∀ b k i ts x y, Shaped x (.arr b k) → Shaped y (.arr b k) → Rel (.arr b k) (arr2 O n b k i ts x) (arr2 O n b k i ts y)) ∧
    (∀ m ms f j ts x y, Shaped x (.struc m ms) → Shaped y (.struc m ms) → Rel (.struc m ms) (struct1 O n ms f j ts x) (struct1 O n ms f j ts y)) ∧
    (∀ m ms f j ts x y, Shaped x (.struc m ms) → Shaped y (.struc m ms) → Rel (.struc m ms) (struct2 O n ms f j ts x) (struct2 O n ms f j ts y)) ∧
    (∀ m ms ts x y, Shaped x (.union m ms) → Shaped y (.union m ms) → Rel (.union m ms) (unionI O n ms ts x) (unionI O n ms ts y)) := by
  intro n
  induction n with
  | zero =>
    refine ⟨?_, ?_, ?_, ?_, ?_, ?_, ?_, ?_⟩
    · intros; rw [init2]; exact .err
    · intros; rw [arr1]; exact .err
    · intros; rw [range]; exact .err
    · intros; rw [desg]; exact .err
    · intros; rw [arr2]; exact .err
    · intros; rw [struct1]; exact .err
    · intros; rw [struct2]; exact .err
    · intros; rw [unionI]; exact .err
  | succ n ih =>
    obtain ⟨iI, iA1, iR, iD, iA2, iS1, iS2, iU⟩ := ih
    refine ⟨?_, ?_, ?_, ?_, ?_, ?_, ?_, ?_⟩
    · intro T ts x y hx hy
      cases T with
      | sc t =>
        rw [init2.eq_def, init2.eq_def]
        dsimp only
        split
        · exact (iI _ _ _ _ hx hy).bind fun c c' ts h h' => Rel.same fun v _ => .ok h h'
        · exact Rel.same fun v _ => .ok (hx.expr _) (hy.expr _)
      | arr b k =>
        rw [init2.eq_def, init2.eq_def]
        dsimp only
        split
        · cases x; cases y
          rw [stringInit, stringInit]
          split
          · rw [Shaped] at hx hy
            refine Rel.ok ?_ ?_
            · rw [Shaped]; exact ShapedA.fill _ hx
            · rw [Shaped]; exact ShapedA.fill _ hy
          · exact .err
        · exact iA1 _ _ _ _ _ _ _ hx hy
        · exact iA2 _ _ _ _ _ _ hx hy
      | struc m ms =>
        rw [init2.eq_def, init2.eq_def]
        dsimp only
        split
        · exact iS1 _ _ _ _ _ _ _ hx hy
        · refine Rel.same fun v _ => ?_
          obtain ⟨e, st, r⟩ := v
          cases st
          · exact iS2 _ _ _ _ _ _ _ hx hy
          · exact .ok (hx.expr _) (hy.expr _)
      | union m ms =>
        rw [init2, init2]; exact iU _ _ _ _ _ hx hy
    · intro b k f i ts x y hx hy
      rw [arr1, arr1]
      cases consumeEnd ts with
      | some r => exact .ok hx hy
      | none =>
        refine Rel.same fun ts _ => ?_
        split
        · refine Rel.same fun v hv => ?_
          obtain ⟨lo, hi, ts⟩ := v
          obtain ⟨h1, h2⟩ := arrayDesignator_lt hv
          exact (iR _ _ _ _ _ _ _ h1 h2 hx hy).bind fun c c' ts h h' => iA1 _ _ _ _ _ _ _ h h'
        · by_cases hik : i < k
          · rw [if_pos hik, if_pos hik]
            have hch : (ITy.arr b k).child? i = some b := by simp only [ITy.child?, if_pos hik]
            exact Rel.child hch hx hy fun c c' h h' => (iI _ _ _ _ h h').bind fun c c' ts h h' => iA1 _ _ _ _ _ _ _ (hx.set hch h) (hy.set hch h')
          · rw [if_neg hik, if_neg hik]
            exact Rel.same fun v _ => iA1 _ _ _ _ _ _ _ hx hy
    · intro b k ts i hi x y h1 h2 hx hy
      rw [range, range]
      have hch : (ITy.arr b k).child? i = some b := by simp only [ITy.child?, if_pos (show i < k by omega)]
      refine Rel.child hch hx hy fun c c' h h' => (iD _ _ _ _ h h').bind fun c c' ts' h h' => ?_
      dsimp only
      by_cases hlt : i < hi
      · rw [if_pos hlt, if_pos hlt]; exact iR _ _ _ _ _ _ _ (by omega) h2 (hx.set hch h) (hy.set hch h')
      · rw [if_neg hlt, if_neg hlt]; exact .ok (hx.set hch h) (hy.set hch h')
    · intro T ts x y hx hy
      rw [desg.eq_def, desg.eq_def]
      dsimp only
      split
      · split
        · refine Rel.same fun v hv => ?_
          obtain ⟨lo, hi, ts⟩ := v
          obtain ⟨h1, h2⟩ := arrayDesignator_lt hv
          exact (iR _ _ _ _ _ _ _ h1 h2 hx hy).bind fun c c' ts h h' => iA2 _ _ _ _ _ _ h h'
        · exact .err
      · split
        · rename_i m ms
          refine Rel.same fun v hv => ?_
          obtain ⟨k, t, ts⟩ := v
          have hch : (ITy.struc m ms).child? k = some t := structDesignator_get hv
          exact Rel.child hch hx hy fun c c' h h' => (iD _ _ _ _ h h').bind fun c c' ts' h h' => iS2 _ _ _ _ _ _ _ ((hx.set hch h).expr _) ((hy.set hch h').expr _)
        · rename_i m ms
          refine Rel.same fun v hv => ?_
          obtain ⟨k, t, ts⟩ := v
          have hch : (ITy.union m ms).child? k = some t := structDesignator_get hv
          exact Rel.child hch hx hy fun c c' h h' => (iD _ _ _ _ h h').bind fun c c' ts' h h' => .ok ((hx.mem _).set hch h) ((hy.mem _).set hch h')
        · exact .err
      · exact iI _ _ _ _ hx hy
      · exact iI _ _ _ _ hx hy
    · intro b k i ts x y hx hy
      rw [arr2, arr2]
      split
      · rename_i hik
        have hch : (ITy.arr b k).child? i = some b := by simp only [ITy.child?, if_pos hik.1]
        refine Rel.same fun ts' _ => ?_
        dsimp only
        split
        · exact .ok hx hy
        · exact Rel.child hch hx hy fun c c' h h' => (iI _ _ _ _ h h').bind fun c c' ts h h' => iA2 _ _ _ _ _ _ (hx.set hch h) (hy.set hch h')
      · exact .ok hx hy
    · intro m ms f j ts x y hx hy
      rw [struct1, struct1]
      cases consumeEnd ts with
      | some r => exact .ok hx hy
      | none =>
        refine Rel.same fun ts _ => ?_
        split
        · refine Rel.same fun v hv => ?_
          obtain ⟨k, t, ts⟩ := v
          have hch : (ITy.struc m ms).child? k = some t := structDesignator_get hv
          exact Rel.child hch hx hy fun c c' h h' => (iD _ _ _ _ h h').bind fun c c' ts' h h' => iS1 _ _ _ _ _ _ _ (hx.set hch h) (hy.set hch h')
        · cases hm : ms.get? j with
          | none => exact Rel.same fun v _ => iS1 _ _ _ _ _ _ _ hx hy
          | some t =>
            have hch : (ITy.struc m ms).child? j = some t := hm
            exact Rel.child hch hx hy fun c c' h h' => (iI _ _ _ _ h h').bind fun c c' ts' h h' => iS1 _ _ _ _ _ _ _ (hx.set hch h) (hy.set hch h')
    · intro m ms f j ts x y hx hy
      rw [struct2, struct2]
      cases hm : ms.get? j with
      | none => exact .ok hx hy
      | some t =>
        have hch : (ITy.struc m ms).child? j = some t := hm
        cases isEnd ts with
        | true => exact .ok hx hy
        | false =>
          refine Rel.same fun ts' _ => ?_
          dsimp only
          split
          · exact .ok hx hy
          · exact Rel.child hch hx hy fun c c' h h' => (iI _ _ _ _ h h').bind fun c c' ts' h h' => iS2 _ _ _ _ _ _ _ (hx.set hch h) (hy.set hch h')
    · intro m ms ts x y hx hy
      rw [unionI.eq_def, unionI.eq_def]
      dsimp only
      split
      · refine Rel.same fun v hv => ?_
        obtain ⟨k, t, ts⟩ := v
        have hch : (ITy.union m ms).child? k = some t := structDesignator_get hv
        exact Rel.child hch hx hy fun c c' h h' => (iD _ _ _ _ h h').bind fun c c' ts' h h' => Rel.same fun v _ => .ok ((hx.mem _).set hch h) ((hy.mem _).set hch h')
      · cases hm : ms.get? 0 with
        | none => exact .err
        | some t =>
          have hch : (ITy.union m ms).child? 0 = some t := hm
          exact Rel.child hch hx hy fun c c' h h' => (iI _ _ _ _ h h').bind fun c c' ts' h h' => Rel.same fun v _ => .ok ((hx.mem _).set hch h) ((hy.mem _).set hch h')
      · cases hm : ms.get? 0 with
        | none => exact .err
        | some t =>
          have hch : (ITy.union m ms).child? 0 = some t := hm
          exact Rel.child hch hx hy fun c c' h h' => (iI _ _ _ _ h h').bind fun c c' ts' h h' => .ok ((hx.mem _).set hch h) ((hy.mem _).set hch h')

/-- Counting the elements of the list. -/
theorem count_correct (hw : ∀ s, w s = 1 ∨ w s = 2 ∨ w s = 4) (b : ITy) (k : Nat) (hb : b.Ok) (c : Bool) (r : List Tok) : ∀ (N : Nat) (its : Items α) (i mx : Nat) (first : Bool) (t fin : Ini α), its.size ≤ N →
    Shaped t (.arr b k) → Good O w (.arr b k) its (if ((ITy.arr b k).child? i).isSome then some [i] else none) t fin →
    ∃ n0, ∀ n, n0 ≤ n → ∀ dummy, Shaped dummy b → count O n b first i mx dummy (its.text first ++ (closing c ++ r)) =
      .ok ((Nat.max mx (extent w (.arr b k) its (if ((ITy.arr b k).child? i).isSome then some [i] else none)) : Nat) : Int) := by
  intro N
  induction N with
  | zero =>
    intro its i mx first t fin hN ht hg
    have := Items.isNil_of_size (its := its) (by omega); subst this
    refine ⟨1, fun n hn dummy _ => ?_⟩
    obtain ⟨n, rfl⟩ : ∃ m, n = m + 1 := ⟨n - 1, by omega⟩
    simp [Items.text, count, consumeEnd_closing, extent]
  | succ N ih =>
    intro its i mx first t fin hN ht hg
    cases its with
    | nil =>
      refine ⟨1, fun n hn dummy _ => ?_⟩
      obtain ⟨n, rfl⟩ : ∃ m, n = m + 1 := ⟨n - 1, by omega⟩
      simp [Items.text, count, consumeEnd_closing, extent]
    | cons ds s its =>
      have hr := hg.reads
      rw [Items.Reads] at hr
      simp only [Items.size] at hN
      have hcl : EndCl (closing c ++ r) := ⟨c, r, rfl⟩
      have hmx : ∀ (m j : Nat), (if (m : Int) < (j : Int) + 1 then (j : Int) + 1 else (m : Int)) = ((Nat.max m (j + 1) : Nat) : Int) := by
        intro m j
        have hm : Nat.max m (j + 1) = if m ≤ j + 1 then j + 1 else m := Nat.max_def ..
        rw [hm]
        split <;> split <;> omega
      obtain ⟨p, U, t1, h1, h2, h3, h4, h5, h6, h7, h8⟩ := hg.cons
      cases ds with
      | nil =>
        have hik : i < k := by
          rcases Nat.lt_or_ge i k with h | h
          · exact h
          · rw [child_arr, decide_eq_false (by omega)] at hg
            exact (hg.stop rfl).elim
        have hch : (ITy.arr b k).child? i = some b := by simp only [ITy.child?, if_pos hik]
        simp only [List.isEmpty_nil, if_true, hch, Option.isSome_some, Option.some.injEq] at h1
        subst h1
        have hsub : (ITy.arr b k).sub [i] = some b := by simp only [ITy.sub, hch]
        have hUb := Option.some.inj (hsub.symm.trans h2); subst hUb
        obtain ⟨x, hx⟩ := place_get hsub h3
        obtain ⟨c', its1, t2, ⟨n1, a1⟩, a2, a3, a4, _, a6⟩ := (all hw (s.size + its.size)).1 s its _ b [i] t x t1 fin _ (Nat.le_refl _) hcl hsub hb hx h3 h4 h5 h7
        obtain ⟨rfl, _⟩ := put_upd a2
        rw [next_one hch (fun _ _ h => by cases h)] at a3 a6
        have hxs : Shaped x b := by
          obtain ⟨x', e1, e2⟩ := ht.child hch
          rw [child_get hx] at e1; cases e1; exact e2
        have hc's : Shaped c' b := ((indep O n1).1 b _ x x hxs hxs c' _ (a1 n1 (Nat.le_refl _))).1
        obtain ⟨n2, a7⟩ := ih its1 (i + 1) (Nat.max mx (i + 1)) false _ fin (by omega) (ht.set hch hc's) a3
        refine ⟨n1 + n2 + 1, fun n hn dummy hd => ?_⟩
        obtain ⟨n, rfl⟩ : ∃ m, n = m + 1 := ⟨n - 1, by omega⟩
        obtain ⟨_, y, e1, e2⟩ := (indep O n).1 b _ x dummy hxs hd c' _ (a1 n (by omega))
        have a7 := a7 n (by omega) y e2
        rw [count, consumeEnd_text hr.2.1]
        simp only [sep_text, bind, Except.bind, itemText_nil]
        obtain ⟨t0, r0, e0, st0⟩ := Src.start hr.2.1
        rw [e0, List.cons_append] at e1 ⊢
        split
        · rename_i heq; cases heq; exact absurd rfl st0.2.1
        · rw [e1]
          dsimp only
          rw [hmx mx i]
          refine Eq.trans a7 ?_
          have ha6 := (a6 i [] rfl).1
          have hext : extent w (.arr b k) (.cons [] s its) (some [i]) = Nat.max (i + 1) (extent w (.arr b k) its (next (.arr b k) ([i] ++ s.land w b))) := by
            simp only [extent, List.isEmpty_nil, if_true, hsub]
          rw [show (if ((ITy.arr b k).child? i).isSome then some [i] else none) = some [i] by rw [hch]; rfl, hext, ha6]
          exact congrArg (fun z : Nat => Except.ok (z : Int)) (Nat.max_assoc _ _ _)
      | cons d ds =>
        simp only [List.isEmpty_cons, Bool.false_eq_true, if_false] at h1
        cases d with
        | field y => cases h1
        | idx ts i' =>
          simp only [resolve] at h1
          by_cases hi : i' < k
          · rw [if_pos hi] at h1
            cases hres : resolve b ds with
            | none => rw [hres] at h1; cases h1
            | some q =>
              rw [hres] at h1
              simp only [Option.map_some, Option.some.injEq] at h1
              subst h1
              have hch : (ITy.arr b k).child? i' = some b := by simp only [ITy.child?, if_pos hi]
              have hsub : (ITy.arr b k).sub [i'] = some b := by simp only [ITy.sub, hch]
              have hx : ∃ x, get t [i'] = some x := by
                obtain ⟨y, hy⟩ := place_get h2 h3
                rw [show i' :: q = [i'] ++ q from rfl, get_append] at hy
                cases hg' : get t [i'] with
                | none => rw [hg'] at hy; cases hy
                | some c => exact ⟨c, rfl⟩
              obtain ⟨x, hx⟩ := hx
              obtain ⟨c', its1, t2, ⟨n1, a1⟩, a2, a3, a4, _, a6⟩ := (all hw (s.size + its.size)).2.1 q ds s its _ b U [i'] t x t1 fin (closing c ++ r) (Nat.le_refl _) hcl hsub hb hx hres
                h2 h3 h4 h5 h7 (fun ts i h => h8 ts i (List.mem_cons_of_mem _ h)) (fun h => h6 (by simp) h i' q b rfl hch)
              obtain ⟨rfl, _⟩ := put_upd a2
              rw [next_one hch (fun _ _ h => by cases h)] at a3 a6
              have hxs : Shaped x b := by
                obtain ⟨x', e1, e2⟩ := ht.child hch
                rw [child_get hx] at e1; cases e1; exact e2
              have hc's : Shaped c' b := ((indep O n1).2.2.2.1 b _ x x hxs hxs c' _ (a1 n1 (Nat.le_refl _))).1
              obtain ⟨n2, a7⟩ := ih its1 (i' + 1) (Nat.max mx (i' + 1)) false _ fin (by omega) (ht.set hch hc's) a3
              refine ⟨n1 + n2 + 1, fun n hn dummy hd => ?_⟩
              obtain ⟨n, rfl⟩ : ∃ m, n = m + 1 := ⟨n - 1, by omega⟩
              obtain ⟨_, y, e1, e2⟩ := (indep O n).2.2.2.1 b _ x dummy hxs hd c' _ (a1 n (by omega))
              have a7 := a7 n (by omega) y e2
              rw [count, consumeEnd_text hr.2.1]
              simp only [sep_text, bind, Except.bind, itemText_cons, desText, Des.text, List.cons_append, List.append_assoc, List.nil_append]
              rw [h8 ts i' (List.mem_cons_self ..)]
              simp only [skip, if_true, e1]
              rw [hmx mx i']
              refine Eq.trans a7 ?_
              have ha6 := (a6 i' [] rfl).1
              have hext : ∀ c, extent w (.arr b k) (.cons (.idx ts i' :: ds) s its) c = Nat.max (i' + 1) (extent w (.arr b k) its (next (.arr b k) ([i'] ++ q ++ s.land w U))) := by
                intro c
                simp only [extent, List.isEmpty_cons, Bool.false_eq_true, if_false, resolve, if_pos hi, hres, Option.map_some, h2, List.cons_append, List.nil_append]
              rw [hext, ha6]
              exact congrArg (fun z : Nat => Except.ok (z : Int)) (Nat.max_assoc _ _ _)
          · rw [if_neg hi] at h1; cases h1

/-- An array of unknown length. -/
theorem flex_correct (hw : ∀ s, w s = 1 ∨ w s = 2 ∨ w s = 4) (b : ITy) (k : Nat) (s : Src α) (r : List Tok) (fin : Ini α) (ho : (ITy.arr b k).Ok) (ht : TameSrc w (.arr b k) s) (hrd : s.Reads O)
    (hr : StopE r) (hk : lengthIs O w b k s) (h : value O w (.arr b k) s = some fin) : Ev (fun n => initFlex O n b (s.text ++ r)) (k, fin, r) := by
  have hv := value_correct hw (.arr b k) s r fin ho ht hrd hr h
  cases s with
  | expr ts e st wh =>
    rw [lengthIs] at hk
    obtain ⟨s, h1, h2, rfl⟩ := hk
    have hts : ts = [.str s] := by
      unfold litOf at h1
      split at h1
      · cases h1; rfl
      · cases h1
    subst hts
    have hsz : b.size = w s := by
      unfold isChars at h2
      split at h2
      · simp only [Bool.and_eq_true, beq_iff_eq] at h2
        exact h2.2
      · cases h2
    refine (hv.bind (g := fun _ y => .ok ((O.str s (w s)).length, y.1, y.2)) (Ev.pure _)).congr fun n => ?_
    simp only [initFlex, initializer, Src.text, List.cons_append, List.nil_append, hsz]
  | list its c =>
    rw [lengthIs] at hk
    rw [ITy.Ok] at ho
    rw [TameSrc] at ht
    rw [Src.Reads] at hrd
    have hg : Good O w (.arr b k) its (if ((ITy.arr b k).child? 0).isSome then some [0] else none) (blank (.arr b k)) fin := by
      rw [show ((ITy.arr b k).child? 0).isSome = true by rw [child_arr, decide_eq_true ho.1], if_pos rfl]
      refine ⟨?_, ht.2, hrd⟩
      rw [value, place, put_nil] at h
      split at h
      · rw [bracesFor.eq_def] at h
        dsimp only at h
        split at h
        · rename_i ts e st wh
          cases hl : litOf ts with
          | none => rw [hl] at h; exact h
          | some s =>
            rw [hl] at h
            dsimp only at h
            rw [ht.1 ts e st wh s rfl hl] at h
            exact h
        · exact h
      · cases h
    obtain ⟨n0, hc⟩ := count_correct hw b k ho.2 c r its.size its 0 0 true _ fin (Nat.le_refl _) (blank_shaped _) hg
    obtain ⟨n1, hv⟩ := hv
    refine ⟨n0 + n1, fun n hn => ?_⟩
    have hc := hc n (by omega) (blank b) (blank_shaped b)
    rw [show ((ITy.arr b k).child? 0).isSome = true by rw [child_arr, decide_eq_true ho.1], if_pos rfl] at hc
    have hk' : Nat.max 0 (extent w (.arr b k) its (some [0])) = k := by rw [← hk]; exact Nat.zero_max k
    rw [hk'] at hc
    have hv := hv n (by omega)
    simp only [initializer, Src.text, List.cons_append, List.append_assoc] at hv
    simp only [initFlex, Src.text, List.cons_append, List.append_assoc, bind, Except.bind]
    rw [show count O n b true 0 0 (blank b) (its.text true ++ (closing c ++ r)) = _ from hc]
    simp only [Int.toNat_natCast, hv]

end Toycc.Ip
