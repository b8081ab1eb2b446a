import Verif.Ip.Step
/-! The functions of initializer.c against the standard's cursor (for C68). -/
namespace Toycc.Ip
open Toycc.Parse (Tok P)
open Toycc.Init (Ini Inis)
variable {α : Type}

/-- The tree with another child; a union gets the member. -/
def upd (U : ITy) (x : Ini α) (i : Nat) (c : Ini α) : Ini α :=
  match U with
  | .union _ _ => setChild (setMem x i) i c
  | _ => setChild x i c

theorem put_upd {U : ITy} {i : Nat} {c x y : Ini α} (h : put U [i] (fun _ => some c) x = some y) :
    y = upd U x i c ∧ ∀ n ms, U = .struc n ms → setExpr y none = y := by
  cases x with
  | mk e m cs =>
    cases U with
    | sc t => cases h
    | arr b n =>
      simp only [put, Option.bind_eq_bind] at h
      by_cases hi : i < n
      · rw [if_pos hi] at h
        cases hg : cs.get? i with
        | none => rw [hg] at h; cases h
        | some a => rw [hg] at h; cases h; exact ⟨rfl, fun _ _ h => by cases h⟩
      · rw [if_neg hi] at h; cases h
    | struc n ms =>
      simp only [put, Option.bind_eq_bind] at h
      cases e with
      | some e => cases h
      | none =>
        simp only [Option.isNone, if_true] at h
        cases hm : ms.get? i with
        | none => rw [hm] at h; cases h
        | some t =>
          cases hg : cs.get? i with
          | none => rw [hm, hg] at h; cases h
          | some a => rw [hm, hg] at h; cases h; exact ⟨rfl, fun _ _ _ => rfl⟩
    | union n ms =>
      simp only [put, Option.bind_eq_bind] at h
      by_cases hi : m = none ∨ m = some i
      · rw [if_pos hi] at h
        cases hm : ms.get? i with
        | none => rw [hm] at h; cases h
        | some t =>
          cases hg : cs.get? i with
          | none => rw [hm, hg] at h; cases h
          | some a => rw [hm, hg] at h; cases h; exact ⟨rfl, fun _ _ h => by cases h⟩
      · rw [if_neg hi] at h; cases h

theorem child_get {x c : Ini α} {i : Nat} (h : get x [i] = some c) : child x i = .ok c := by
  cases x with
  | mk e m cs =>
    simp only [get] at h
    simp only [child]
    cases hg : cs.get? i with
    | none => rw [hg] at h; cases h
    | some a => rw [hg] at h; cases a; cases h; rfl

/-- A change in a child is one in its parent. -/
theorem down {T U V : ITy} {p : Path} {i : Nat} {t t' x c : Ini α} (hU : T.sub p = some U) (hx : get t p = some x)
    (h : put T (p ++ [i]) (fun _ => some c) t = some t') :
    put T p (fun _ => some (upd U x i c)) t = some t' ∧ ∀ n ms, U = .struc n ms → setExpr (upd U x i c) none = upd U x i c := by
  rw [put_append p [i] T U _ t hU] at h
  obtain ⟨x0, x1, h1, h2, h3⟩ := put_some p T _ t t' h
  rw [hx] at h1; cases h1
  obtain ⟨rfl, h4⟩ := put_upd h2
  exact ⟨h3, h4⟩

theorem sub_child {T U V : ITy} {p : Path} {i : Nat} (hU : T.sub p = some U) (hV : U.child? i = some V) : T.sub (p ++ [i]) = some V := by
  rw [sub_append, hU]; simp only [Option.bind_some, ITy.sub, hV]

/-- What comes after an element of an array or a member of a structure. -/
theorem next_child {T U V : ITy} {p : Path} {i : Nat} (hU : T.sub p = some U) (hV : U.child? i = some V) (hu : ∀ n ms, U ≠ .union n ms) :
    next T (p ++ [i]) = if (U.child? (i + 1)).isSome then some (p ++ [i + 1]) else next T p := by
  rw [next_append p [i] T U hU]
  simp only [next, hV]
  cases U with
  | union n ms => exact absurd rfl (hu n ms)
  | sc t => cases hV
  | arr b n => by_cases h : ((ITy.arr b n).child? (i + 1)).isSome <;> simp [h]
  | struc n ms => by_cases h : ((ITy.struc n ms).child? (i + 1)).isSome <;> simp [h]

theorem next_union {T V : ITy} {p : Path} {i n : Nat} {ms : IMems} (hU : T.sub p = some (.union n ms)) (hV : (ITy.union n ms).child? i = some V) :
    next T (p ++ [i]) = next T p := by
  rw [next_append p [i] T _ hU]
  simp only [next, hV]

/-- The tree holds `x` at `p`. -/
def At (T : ITy) (p : Path) (t x : Ini α) : Prop := put T p (fun _ => some x) t = some t

theorem At.get {T : ITy} {p : Path} {t x : Ini α} (h : At T p t x) : Ip.get t p = some x := (put_put p T x t t h).1

theorem at_of_put {T : ITy} {p : Path} {t t' x : Ini α} (h : put T p (fun _ => some x) t = some t') : At T p t' x := by
  rw [At, (put_put p T x t t' h).2]; exact h

/-- An initialised subobject is there. -/
theorem place_get {O : Oracle α} {w : String → Nat} {T U : ITy} {p : Path} {s : Src α} {t t1 : Ini α} (hU : T.sub p = some U) (h : place O w T p U s t = some t1) :
    ∃ x, get t p = some x := by
  cases s with
  | expr ts e st wh =>
    simp only [place, Option.bind_eq_bind, Option.bind_eq_some_iff] at h
    obtain ⟨V, h1, h2⟩ := h
    obtain ⟨x, x1, h3, _⟩ := put_some _ _ _ _ _ h2
    rw [get_append] at h3
    cases hg : get t p with
    | none => rw [hg] at h3; cases h3
    | some y => exact ⟨y, rfl⟩
  | list its c =>
    rw [place] at h
    obtain ⟨x, x1, h3, _⟩ := put_some _ _ _ _ _ h
    exact ⟨x, h3⟩

section
variable (O : Oracle α) (w : String → Nat)

def PA (N : Nat) : Prop := ∀ (s : Src α) (its : Items α) (T U : ITy) (p : Path) (t x t1 fin : Ini α) (cl : List Tok), s.size + its.size ≤ N → EndCl cl →
  T.sub p = some U → U.Ok → get t p = some x → place O w T p U s t = some t1 → Good O w T its (next T (p ++ s.land w U)) t1 fin → TameSrc w U s → s.Reads O →
  Res O w T p t fin (next T (p ++ s.land w U)) its cl (fun n => init2 O n U (s.text ++ (its.text false ++ cl)) x)

def PD (N : Nat) : Prop := ∀ (pd : Path) (ds : List Des) (s : Src α) (its : Items α) (T V U : ITy) (p : Path) (t x t1 fin : Ini α) (cl : List Tok), s.size + its.size ≤ N → EndCl cl →
  T.sub p = some V → V.Ok → get t p = some x → resolve V ds = some pd → T.sub (p ++ pd) = some U → place O w T (p ++ pd) U s t = some t1 →
  Good O w T its (next T ((p ++ pd) ++ s.land w U)) t1 fin → TameSrc w U s → s.Reads O →
  (∀ ts i, Des.idx ts i ∈ ds → ∀ r, O.const (ts ++ .p .rbrk :: r) = .ok ((i : Int), .p .rbrk :: r)) → (its.isNil = false → lastIn V pd) →
  Res O w T p t fin (next T ((p ++ pd) ++ s.land w U)) its cl (fun n => desg O n V (desText ds ++ (.p .eq :: (s.text ++ (its.text false ++ cl)))) x)

def PL (N : Nat) : Prop := ∀ (its : Items α) (T b : ITy) (k i : Nat) (p : Path) (t x fin : Ini α) (cl : List Tok), its.size ≤ N → EndCl cl →
  T.sub p = some (.arr b k) → b.Ok → At T p t x → 0 < i → Good O w T its (if ((ITy.arr b k).child? i).isSome then some (p ++ [i]) else next T p) t fin →
  Res O w T p t fin (if ((ITy.arr b k).child? i).isSome then some (p ++ [i]) else next T p) its cl (fun n => arr2 O n b k i (its.text false ++ cl) x)

def PS (N : Nat) : Prop := ∀ (its : Items α) (T : ITy) (m : Nat) (ms : IMems) (j : Nat) (p : Path) (t x fin : Ini α) (cl : List Tok), its.size ≤ N → EndCl cl →
  T.sub p = some (.struc m ms) → ms.Ok → At T p t x → Good O w T its (if ((ITy.struc m ms).child? j).isSome then some (p ++ [j]) else next T p) t fin →
  Res O w T p t fin (if ((ITy.struc m ms).child? j).isSome then some (p ++ [j]) else next T p) its cl (fun n => struct2 O n ms false j (its.text false ++ cl) x)

def PB1 (N : Nat) : Prop := ∀ (its : Items α) (b : ITy) (k i : Nat) (first c : Bool) (t fin : Ini α) (r : List Tok), its.size ≤ N →
  b.Ok → Good O w (.arr b k) its (if ((ITy.arr b k).child? i).isSome then some [i] else none) t fin →
  Ev (fun n => arr1 O n b k first i (its.text first ++ (closing c ++ r)) t) (fin, r)

def PB2 (N : Nat) : Prop := ∀ (its : Items α) (m : Nat) (ms : IMems) (j : Nat) (first c : Bool) (t fin : Ini α) (r : List Tok), its.size ≤ N →
  ms.Ok → Good O w (.struc m ms) its (if ((ITy.struc m ms).child? j).isSome then some [j] else none) t fin →
  Ev (fun n => struct1 O n ms first j (its.text first ++ (closing c ++ r)) t) (fin, r)
end

variable {O : Oracle α} {w : String → Nat}

/-- Composition: first a child, then the rest of the aggregate. -/
theorem Res.comp {T : ITy} {p : Path} {t t1 fin x1 : Ini α} {its its1 : Items α} {c c1 : Option Path} {cl : List Tok} {f g : Nat → Except IErr (Ini α × List Tok)}
    (h1 : put T p (fun _ => some x1) t = some t1) (hs : its1.size ≤ its.size) (hp : its.plain = true → its1.plain = true)
    (he : Ext w T p its c its1 c1) (h : Res O w T p t1 fin c1 its1 cl g) (hfg : ∀ v, Ev g v → Ev f v) : Res O w T p t fin c its cl f := by
  obtain ⟨x', its', t', a, b, c, d, e, f⟩ := h
  refine ⟨x', its', t', hfg _ a, ?_, c, by omega, fun h => e (hp h), he.trans f⟩
  rw [← b, (put_put p T x1 t t1 h1).2]

theorem child_arr {b : ITy} {k i : Nat} : ((ITy.arr b k).child? i).isSome = decide (i < k) := by
  simp only [ITy.child?]; by_cases h : i < k <;> simp [h]

theorem itemText_nil (s : Src α) (rest : List Tok) : itemText [] s rest = s.text ++ rest := by simp [itemText, desText]

theorem itemText_cons (d : Des) (ds : List Des) (s : Src α) (rest : List Tok) : itemText (d :: ds) s rest = desText (d :: ds) ++ (.p .eq :: (s.text ++ rest)) := by simp [itemText]

theorem isDesg_src {s : Src α} (h : s.Reads O) (rest : List Tok) : isDesg (s.text ++ rest) = false := by
  have := isDesg_item h [] rest
  rwa [itemText_nil] at this

/-- The rest of an array without braces. -/
theorem pl_step {N : Nat} (hA : ∀ M < N, PA O w M) (hL : ∀ M < N, PL O w M) : PL O w N := by
  intro its T b k i p t x fin cl hN hcl hT hb hat hi hg
  have stop : (Ev (fun n => arr2 O n b k i (its.text false ++ cl) x) (x, its.text false ++ cl)) → Good O w T its (next T p) t fin → Ext w T p its (if ((ITy.arr b k).child? i).isSome then some (p ++ [i]) else next T p) its (next T p) →
      Res O w T p t fin (if ((ITy.arr b k).child? i).isSome then some (p ++ [i]) else next T p) its cl (fun n => arr2 O n b k i (its.text false ++ cl) x) :=
    fun h1 h2 h3 => ⟨x, its, t, h1, hat, h2, Nat.le_refl _, fun h => h, h3⟩
  by_cases hik : i < k
  · rw [child_arr, decide_eq_true hik, if_pos rfl] at hg
    have hch : (ITy.arr b k).child? i = some b := by simp only [ITy.child?, if_pos hik]
    cases its with
    | nil =>
      refine stop (Ev.of_succ ?_) hg.nil .nil
      refine (Ev.pure _).congr fun n => ?_
      rw [arr2, if_neg (by rw [isEnd_nil hcl]; simp)]
    | cons ds s r =>
      have hr := hg.reads
      rw [Items.Reads] at hr
      have hI := isEnd_cons hr.2.1 ds r cl
      cases ds with
      | cons d ds =>
        refine stop (Ev.of_succ ?_) (hg.desg rfl) .desg
        refine (Ev.pure _).congr fun n => ?_
        have i0 : (i == 0) = false := by simp; omega
        rw [arr2, if_pos ⟨hik, hI⟩, i0, text_false]
        simp only [sep, Bool.false_eq_true, if_false, skip, if_true, bind, Except.bind, isDesg_item hr.2.1, List.isEmpty_cons, Bool.not_false]
      | nil =>
        obtain ⟨p0, U, t1, h1, h2, h3, h4, h5, _, h7, _⟩ := hg.cons
        simp only [List.isEmpty_nil, if_true, Option.some.injEq] at h1
        subst h1
        rw [sub_child hT hch] at h2; cases h2
        simp only [Items.size] at hN
        have hsp := Src.size_pos s
        obtain ⟨c, hc⟩ := place_get (sub_child hT hch) h3
        obtain ⟨c', its1, t2, a1, a2, a3, a4, a5, a6⟩ := hA (s.size + r.size) (by omega) s r T b (p ++ [i]) t c t1 fin cl (Nat.le_refl _) hcl (sub_child hT hch) hb hc h3 h4 h5 h7
        obtain ⟨d1, _⟩ := down (V := b) hT hat.get a2
        rw [next_child hT hch (fun _ _ h => by cases h)] at a3 a6
        have := hL r.size (by omega) its1 T b k (i + 1) p t2 (upd (.arr b k) x i c') fin cl a4 hcl hT hb (at_of_put d1) (by omega) a3
        refine Res.comp d1 (by simp only [Items.size]; omega) (by simp only [Items.plain, List.isEmpty_nil, Bool.true_and]; exact a5)
          (by rw [hch]; exact (Ext.item (sub_child hT hch)).trans a6.child) this fun v hv => Ev.of_succ ?_
        have hch' : child x i = .ok c := by
          apply child_get
          rw [get_append, hat.get] at hc
          exact hc
        refine (a1.bind (g := fun n y => arr2 O n b k (i + 1) y.2 (setChild x i y.1)) hv).congr fun n => ?_
        have i0 : (i == 0) = false := by simp; omega
        rw [arr2, if_pos ⟨hik, hI⟩, i0, text_false]
        simp only [sep, Bool.false_eq_true, if_false, skip, if_true, bind, Except.bind, isDesg_src hr.2.1, hch', itemText_nil]
  · rw [child_arr, decide_eq_false hik] at hg
    refine stop (Ev.of_succ ?_) hg (by rw [child_arr, decide_eq_false hik]; exact .refl)
    refine (Ev.pure _).congr fun n => ?_
    rw [arr2, if_neg (fun h => hik h.1)]

/-- The rest of a structure without braces. -/
theorem ps_step {N : Nat} (hA : ∀ M < N, PA O w M) (hL : ∀ M < N, PS O w M) : PS O w N := by
  intro its T m ms j p t x fin cl hN hcl hT ho hat hg
  have stop : (Ev (fun n => struct2 O n ms false j (its.text false ++ cl) x) (x, its.text false ++ cl)) → Good O w T its (next T p) t fin → Ext w T p its (if ((ITy.struc m ms).child? j).isSome then some (p ++ [j]) else next T p) its (next T p) →
      Res O w T p t fin (if ((ITy.struc m ms).child? j).isSome then some (p ++ [j]) else next T p) its cl (fun n => struct2 O n ms false j (its.text false ++ cl) x) :=
    fun h1 h2 h3 => ⟨x, its, t, h1, hat, h2, Nat.le_refl _, fun h => h, h3⟩
  cases hch : ms.get? j with
  | some b =>
    have hch1 : (ITy.struc m ms).child? j = some b := hch
    rw [hch1] at hg
    simp only [Option.isSome_some, if_true] at hg
    cases its with
    | nil =>
      refine stop (Ev.of_succ ?_) hg.nil .nil
      refine (Ev.pure _).congr fun n => ?_
      rw [struct2, isEnd_nil hcl, hch]
    | cons ds s r =>
      have hr := hg.reads
      rw [Items.Reads] at hr
      have hI := isEnd_cons hr.2.1 ds r cl
      cases ds with
      | cons d ds =>
        refine stop (Ev.of_succ ?_) (hg.desg rfl) .desg
        refine (Ev.pure _).congr fun n => ?_
        rw [struct2, hI, hch, text_false]
        simp only [sep, Bool.false_eq_true, if_false, skip, if_true, bind, Except.bind, isDesg_item hr.2.1, List.isEmpty_cons, Bool.not_false]
      | nil =>
        obtain ⟨p0, U, t1, h1, h2, h3, h4, h5, _, h7, _⟩ := hg.cons
        simp only [List.isEmpty_nil, if_true, Option.some.injEq] at h1
        subst h1
        rw [sub_child hT hch1] at h2; cases h2
        simp only [Items.size] at hN
        have hsp := Src.size_pos s
        obtain ⟨c, hc⟩ := place_get (sub_child hT hch1) h3
        obtain ⟨c', its1, t2, a1, a2, a3, a4, a5, a6⟩ := hA (s.size + r.size) (by omega) s r T b (p ++ [j]) t c t1 fin cl (Nat.le_refl _) hcl (sub_child hT hch1) (ho.get hch) hc h3 h4 h5 h7
        obtain ⟨d1, _⟩ := down (V := b) hT hat.get a2
        rw [next_child hT hch1 (fun _ _ h => by cases h)] at a3 a6
        have := hL r.size (by omega) its1 T m ms (j + 1) p t2 (upd (.struc m ms) x j c') fin cl a4 hcl hT ho (at_of_put d1) a3
        refine Res.comp d1 (by simp only [Items.size]; omega) (by simp only [Items.plain, List.isEmpty_nil, Bool.true_and]; exact a5)
          (by rw [hch1]; exact (Ext.item (sub_child hT hch1)).trans a6.child) this fun v hv => Ev.of_succ ?_
        have hch' : child x j = .ok c := by
          apply child_get
          rw [get_append, hat.get] at hc
          exact hc
        refine (a1.bind (g := fun n y => struct2 O n ms false (j + 1) y.2 (setChild x j y.1)) hv).congr fun n => ?_
        rw [struct2, hI, hch, text_false]
        simp only [sep, Bool.false_eq_true, if_false, skip, if_true, bind, Except.bind, isDesg_src hr.2.1, hch', itemText_nil]
  | none =>
    have hch1 : (ITy.struc m ms).child? j = none := hch
    rw [hch1] at hg
    refine stop (Ev.of_succ ?_) hg (by rw [hch1]; exact .refl)
    refine (Ev.pure _).congr fun n => ?_
    rw [struct2, hch]

end Toycc.Ip
