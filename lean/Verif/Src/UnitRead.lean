import Verif.Src.UnitProof
import Verif.Src.ProgProps
/-! Lemmas for C74: the loop over the declarations of a file, and the functions that are emitted. -/
namespace Toycc.Src
open Toycc.Cg Toycc.Low Toycc.Rv
open Toycc.Parse (Tok P Tree)
open Toycc.Stx (SErr)
open Toycc.Whole (Func)

theorem find_push (a : Sc) (x : String) (b : Bind) : (a.push x b).find x = some b := by
  unfold Sc.push Sc.find
  cases a.scopes <;> simp

theorem find_push_ne (a : Sc) {x y : String} (b : Bind) (h : y ≠ x) : (a.push x b).find y = a.find y := by
  unfold Sc.push Sc.find
  have : (y == x) = false := by simpa using h
  cases a.scopes with
  | nil => simp [List.lookup, this]
  | cons s r => simp [List.findSome?_cons, List.lookup_cons, this]

theorem push_next (a : Sc) (x : String) (b : Bind) : (a.push x b).next = a.next := rfl

/-- Functions known stay known. -/
theorem typedefs_find {t : CTy} {a : Sc} {ds : List Dr} {b : Sc} (h : Typedefs t a ds b) : b.next = a.next ∧ ∀ x, (∀ d ∈ ds, d.name ≠ x) → b.find x = a.find x := by
  induction h with
  | nil a => exact ⟨rfl, fun _ _ => rfl⟩
  | cons _ _ _ ih =>
    refine ⟨ih.1, fun x hx => ?_⟩
    rw [ih.2 x (fun d hd => hx d (List.mem_cons_of_mem _ hd)), find_push_ne _ _ (Ne.symm (hx _ List.mem_cons_self))]

theorem globals_find {t : CTy} {a : Sc} {ds : List Dr} {b : Sc} (h : Globals t a ds b) : b.next = a.next ∧ ∀ x, (∀ d ∈ ds, d.name ≠ x) → b.find x = a.find x := by
  induction h with
  | nil a => exact ⟨rfl, fun _ _ => rfl⟩
  | cons _ _ _ _ ih =>
    refine ⟨ih.1, fun x hx => ?_⟩
    rw [ih.2 x (fun d hd => hx d (List.mem_cons_of_mem _ hd)), find_push_ne _ _ (Ne.symm (hx _ List.mem_cons_self))]

/-- What holds between declarations. -/
structure UOk (st : USt) : Prop where
  zero : st.sc.next = 0
  order : st.order.Nodup
  known : ∀ x ∈ st.order, ∃ t ps, st.sc.find x = some (.func t ps)
  funcs : ∀ x t ps, st.sc.find x = some (.func t ps) → x ∈ st.order
  defs : (st.defs.map (·.name)).Nodup
  listed : ∀ d ∈ st.defs, d.name ∈ st.order

theorem enumerators_find {val : Sc → Tree TN → Option Int} {a : Sc} {n : Int} {ds : List Er} {b : Sc} (h : Enumerators val a n ds b) :
    b.next = a.next ∧ ∀ x, (∀ d ∈ ds, d.name ≠ x) → b.find x = a.find x := by
  induction h with
  | nil a => exact ⟨rfl, fun _ _ => rfl⟩
  | cons _ _ _ _ ih =>
    refine ⟨ih.1, fun x hx => ?_⟩
    rw [ih.2 x (fun d hd => hx d (List.mem_cons_of_mem _ hd)), find_push_ne _ _ (Ne.symm (hx _ List.mem_cons_self))]

theorem tag_find (a : Sc) (x : Option String) (y : String) : (a.tag x).find y = a.find y := by cases x <;> rfl
theorem tag_next (a : Sc) (x : Option String) : (a.tag x).next = a.next := by cases x <;> rfl

theorem specs_find {val : Sc → Tree TN → Option Int} {a : Sc} {ts : List Tok} {t : CTy} {xs : List String} {b : Sc} (h : Specs val a ts t xs b) :
    b.next = a.next ∧ ∀ x, x ∉ xs → b.find x = a.find x := by
  cases h with
  | spec _ => exact ⟨rfl, fun _ _ => rfl⟩
  | enum _ h =>
    have := enumerators_find h
    refine ⟨by rw [tag_next, this.1], fun x hx => ?_⟩
    rw [tag_find]
    exact this.2 x fun d hd e => hx (e ▸ List.mem_map_of_mem hd)

theorem UOk.scope {st : USt} (h : UOk st) {xs : List String} {b : Sc} (hn : NoFunc st.sc xs) (h1 : b.next = st.sc.next)
    (h2 : ∀ x, x ∉ xs → b.find x = st.sc.find x) (h3 : ∀ x ∈ xs, ∀ t ps, b.find x ≠ some (.func t ps)) : UOk { st with sc := b } := by
  refine ⟨h1.trans h.zero, h.order, ?_, ?_, h.defs, h.listed⟩
  · intro x hx
    obtain ⟨t, ps, e⟩ := h.known x hx
    refine ⟨t, ps, ?_⟩
    show b.find x = _
    rw [h2 x (fun hx => hn x hx t ps e), e]
  · intro x t ps e
    refine h.funcs x t ps ?_
    by_cases hx : x ∈ xs
    · exact absurd e (h3 x hx t ps)
    · rw [← h2 x hx]; exact e

theorem enumerators_noFunc {val : Sc → Tree TN → Option Int} {a : Sc} {n : Int} {ds : List Er} {b : Sc} (h : Enumerators val a n ds b) :
    ∀ x, (∀ r ps, a.find x ≠ some (.func r ps)) → ∀ r ps, b.find x ≠ some (.func r ps) := by
  induction h with
  | nil a => exact fun _ h => h
  | @cons a n d v ds b _ _ _ _ ih =>
    intro x hx
    refine ih x ?_
    by_cases e : x = d.name
    · subst e; intro r ps; rw [find_push]; intro e; cases e
    · intro r ps; rw [find_push_ne _ _ e]; exact hx r ps

theorem specs_noFunc {val : Sc → Tree TN → Option Int} {a : Sc} {ts : List Tok} {t : CTy} {xs : List String} {b : Sc} (h : Specs val a ts t xs b) :
    ∀ x, (∀ r ps, a.find x ≠ some (.func r ps)) → ∀ r ps, b.find x ≠ some (.func r ps) := by
  cases h with
  | spec _ => exact fun _ h => h
  | enum _ h => intro x hx r ps; rw [tag_find]; exact enumerators_noFunc h x hx r ps

theorem typedefs_noFunc {t : CTy} {a : Sc} {ds : List Dr} {b : Sc} (h : Typedefs t a ds b) : ∀ x, (∀ r ps, a.find x ≠ some (.func r ps)) → ∀ r ps, b.find x ≠ some (.func r ps) := by
  induction h with
  | nil a => exact fun _ h => h
  | @cons a d ds b _ _ _ ih =>
    intro x hx
    refine ih x ?_
    by_cases e : x = d.name
    · subst e; intro r ps; rw [find_push]; intro e; cases e
    · intro r ps; rw [find_push_ne _ _ e]; exact hx r ps

theorem globals_noFunc {t : CTy} {a : Sc} {ds : List Dr} {b : Sc} (h : Globals t a ds b) : ∀ x, (∀ r ps, a.find x ≠ some (.func r ps)) → ∀ r ps, b.find x ≠ some (.func r ps) := by
  induction h with
  | nil a => exact fun _ h => h
  | @cons a d ds b _ _ _ _ ih =>
    intro x hx
    refine ih x ?_
    by_cases e : x = d.name
    · subst e; intro r ps; rw [find_push]; intro e; cases e
    · intro r ps; rw [find_push_ne _ _ e]; exact hx r ps

theorem UOk.declare {st : USt} (h : UOk st) {f : String} {t : CTy} {ps : List CTy} {b : Sc} (hd : Declares st.sc f t ps b) :
    ∃ o, declareT st f t ps = (t, ⟨b, st.defs, o⟩) ∧ UOk ⟨b, st.defs, o⟩ ∧ f ∈ o := by
  obtain ⟨o, e, h2⟩ := declares hd
  refine ⟨o, e, ?_⟩
  rcases h2 with ⟨rfl, rfl, hf⟩ | ⟨rfl, hf, rfl⟩
  · exact ⟨h, h.funcs _ _ _ hf⟩
  · have hnot : f ∉ st.order := by
      intro hx
      obtain ⟨_, _, e2⟩ := h.known f hx
      rw [hf] at e2; cases e2
    refine ⟨⟨h.zero, List.nodup_cons.mpr ⟨hnot, h.order⟩, ?_, ?_, h.defs, fun d hd => List.mem_cons_of_mem _ (h.listed d hd)⟩, List.mem_cons_self⟩
    · intro x hx
      by_cases e2 : x = f
      · subst e2; exact ⟨_, _, find_push _ _ _⟩
      · rcases List.mem_cons.mp hx with e3 | hx
        · exact absurd e3 e2
        · obtain ⟨t', ps', e3⟩ := h.known x hx
          exact ⟨t', ps', (find_push_ne _ _ e2).trans e3⟩
    · intro x t' ps' e3
      by_cases e2 : x = f
      · exact e2 ▸ List.mem_cons_self
      · exact List.mem_cons_of_mem _ (h.funcs x t' ps' ((find_push_ne _ _ e2).symm.trans e3))

variable (val : Sc → Tree TN → Option Int)

theorem unit_step {m n : Nat} {st st' : USt} {ts r : List Tok} (hne : ts ≠ []) (h : itemT val m st ts = .ok (st', r)) : unitT val m (n + 1) st ts = unitT val m n st' r := by
  rw [unitT.eq_def]
  cases ts with
  | nil => exact absurd rfl hne
  | cons x y => simp only [h, bind, Except.bind]

theorem specs_ne {a : Sc} {ts : List Tok} {t : CTy} {xs : List String} {b : Sc} (h : Specs val a ts t xs b) (r : List Tok) : ts ++ r ≠ [] := by
  obtain ⟨x, y, rfl, _⟩ := specs_start val h
  simp

/-- A declaration that adds names that are not those of functions. -/
theorem UOk.declared {st : USt} (h : UOk st) {ts : List Tok} {t : CTy} {xs : List String} {a' : Sc} (hs : Specs val st.sc ts t xs a') {ds : List Dr} {b : Sc}
    (hn : NoFunc st.sc (xs ++ ds.map (·.name))) (h1 : b.next = a'.next) (h2 : ∀ x, (∀ d ∈ ds, d.name ≠ x) → b.find x = a'.find x)
    (h3 : ∀ x, (∀ r ps, a'.find x ≠ some (.func r ps)) → ∀ r ps, b.find x ≠ some (.func r ps)) : UOk { st with sc := b } := by
  have hf := specs_find hs
  refine h.scope hn (h1.trans hf.1) (fun x hx => ?_) (fun x hx => h3 x (specs_noFunc hs x (hn x hx)))
  rw [List.mem_append, not_or] at hx
  rw [h2 x (fun d hd e => hx.2 (e ▸ List.mem_map_of_mem hd)), hf.2 x hx.1]

theorem spec_ne {a : Sc} {ts : List Tok} {t : CTy} (h : Spec a ts t) (r : List Tok) : ts ++ r ≠ [] := by
  obtain ⟨x, y, rfl, _⟩ := spec_start h
  simp

/-- **Reading a file.** -/
theorem unit_read : ∀ {a : Sc} {dn : List String} {ts : List Tok} {U : List Def}, File val a dn ts U → ∀ st : USt, st.sc = a → dn = st.defs.map (·.name) → UOk st →
    ∃ M b o, UOk ⟨b, U.reverse ++ st.defs, o⟩ ∧ ∀ m n, M ≤ m → M ≤ n → unitT val m n st ts = .ok ⟨b, U.reverse ++ st.defs, o⟩ := by
  intro a dn ts U h
  induction h with
  | nil a dn =>
    intro st _ _ hok
    refine ⟨1, st.sc, st.order, hok, fun m n _ hn => ?_⟩
    cases n with
    | zero => omega
    | succ n => rfl
  | @typedef a dn ts t xs a' ds b r U hs hn ht _ ih =>
    intro st e1 e2 hok
    subst e1
    have hf := typedefs_find ht
    obtain ⟨M, b', o, k1, k2⟩ := ih { st with sc := b } rfl e2 (hok.declared val hs hn hf.1 hf.2 (typedefs_noFunc ht))
    refine ⟨M + 1, b', o, k1, fun m n hm hn => ?_⟩
    cases n with
    | zero => omega
    | succ n => rw [unit_step val (by simp) (typedef_item val hs m ht)]; exact k2 m n (by omega) (by omega)
  | @vars a dn ts t xs a' ds b r U hs hn ht _ ih =>
    intro st e1 e2 hok
    subst e1
    have hf := globals_find ht
    obtain ⟨M, b', o, k1, k2⟩ := ih { st with sc := b } rfl e2 (hok.declared val hs hn hf.1 hf.2 (globals_noFunc ht))
    refine ⟨M + 1, b', o, k1, fun m n hm hn => ?_⟩
    cases n with
    | zero => omega
    | succ n => rw [unit_step val (specs_ne val hs _) (vars_ext val hs m ht)]; exact k2 m n (by omega) (by omega)
  | @proto a dn ts t f pts ps b r U k hs hp hd _ ih =>
    intro st e1 e2 hok
    subst e1
    obtain ⟨o1, d1, d2, _⟩ := hok.declare hd
    obtain ⟨M, b', o, k1, k2⟩ := ih ⟨b, st.defs, o1⟩ rfl e2 d2
    refine ⟨M + 1, b', o, k1, fun m n hm hn => ?_⟩
    cases n with
    | zero => omega
    | succ n =>
      rw [unit_step val (spec_ne hs _) ((func_ext val hs m k f).trans (proto_read val m hp d1 r))]
      exact k2 m n (by omega) (by omega)
  | @func a dn ts t f pts ps b c bts x d r U k hs hp hd hnd hc hb _ ih =>
    intro st e1 e2 hok
    subst e1
    obtain ⟨o1, d1, d2, d3⟩ := hok.declare hd
    have hnew : ∀ g ∈ st.defs, g.name ≠ f := by
      intro g hg e
      apply hnd
      rw [e2, ← e]
      exact List.mem_map_of_mem hg
    obtain ⟨M1, h1⟩ := func_read val hp d1 hnew hc hb d2.zero r
    obtain ⟨M2, b', o, k1, k2⟩ := ih ⟨b, ⟨f, ptrs k t, tys ps, x⟩ :: st.defs, o1⟩ rfl (by rw [e2]; rfl) (by
      refine ⟨d2.zero, d2.order, d2.known, d2.funcs, ?_, ?_⟩
      · rw [List.map_cons, List.nodup_cons]
        exact ⟨by rw [← e2]; exact hnd, hok.defs⟩
      · intro g hg
        rcases List.mem_cons.mp hg with rfl | hg
        · exact d3
        · exact d2.listed g hg)
    have e3 : ∀ q : List Def, (⟨f, ptrs k t, tys ps, x⟩ :: U).reverse ++ q = U.reverse ++ (⟨f, ptrs k t, tys ps, x⟩ :: q) := by
      intro q; simp
    refine ⟨M1 + M2 + 1, b', o, ?_, fun m n hm hn => ?_⟩
    · show UOk ⟨b', (⟨f, ptrs k t, tys ps, x⟩ :: U).reverse ++ st.defs, o⟩
      rw [e3]; exact k1
    cases n with
    | zero => omega
    | succ n =>
      rw [unit_step val (spec_ne hs _) ((func_ext val hs m k f).trans (h1 m (by omega)))]
      show _ = Except.ok (⟨b', (⟨f, ptrs k t, tys ps, x⟩ :: U).reverse ++ st.defs, o⟩ : USt)
      rw [e3]
      exact k2 m n (by omega) (by omega)

theorem start_ok : UOk start := by
  refine ⟨rfl, List.nodup_nil, fun x hx => absurd hx List.not_mem_nil, ?_, List.nodup_nil, fun x hx => absurd hx List.not_mem_nil⟩
  intro x t ps e
  cases e

/-! ### Emission -/

theorem partOf_of {α : Type} : ∀ (es ps : List α), es.Nodup → (∀ x ∈ es, x ∈ ps) → Stm.PartOf es ps
  | [], ps, _, _ => ⟨ps, .refl _, List.nil_sublist _⟩
  | x :: es, ps, hn, h => by
    obtain ⟨s, t, rfl⟩ := List.append_of_mem (h x List.mem_cons_self)
    obtain ⟨hx, hn⟩ := List.nodup_cons.mp hn
    obtain ⟨l, p, q⟩ := partOf_of es (s ++ t) hn (by
      intro y hy
      have := h y (List.mem_cons_of_mem _ hy)
      simp only [List.mem_append, List.mem_cons] at this ⊢
      rcases this with h | rfl | h
      · exact .inl h
      · exact absurd hy hx
      · exact .inr h)
    exact ⟨x :: l, (List.Perm.cons x p).trans List.perm_middle.symm, q.cons_cons x⟩

theorem mem_emitted {order : List String} {ps : List (Func × Stm.Stmt)} {p : Func × Stm.Stmt} (h : p ∈ emitted order ps) : p ∈ ps ∧ p.1.name ∈ order := by
  unfold emitted at h
  obtain ⟨f, hf, e⟩ := List.mem_filterMap.mp h
  have h1 := List.find?_some e
  have h2 := List.mem_of_find?_eq_some e
  simp only [beq_iff_eq] at h1
  exact ⟨h2, h1 ▸ hf⟩

theorem emitted_mem {order : List String} {ps : List (Func × Stm.Stmt)} (hn : (ps.map (·.1.name)).Nodup) {p : Func × Stm.Stmt} (hp : p ∈ ps) (ho : p.1.name ∈ order) : p ∈ emitted order ps := by
  unfold emitted
  refine List.mem_filterMap.mpr ⟨p.1.name, ho, ?_⟩
  cases e : ps.find? (fun q => q.1.name == p.1.name) with
  | none =>
    have := List.find?_eq_none.mp e p hp
    simp at this
  | some q =>
    have h1 := List.find?_some e
    have h2 := List.mem_of_find?_eq_some e
    simp only [beq_iff_eq] at h1
    congr 1
    have hp2 : List.Pairwise (fun a b => a.1.name ≠ b.1.name) ps := List.pairwise_map.mp hn
    obtain ⟨i, hi, ei⟩ := List.mem_iff_getElem.mp h2
    obtain ⟨j, hj, ej⟩ := List.mem_iff_getElem.mp hp
    rw [List.pairwise_iff_getElem] at hp2
    rcases Nat.lt_trichotomy i j with hlt | rfl | hlt
    · exact absurd (by rw [ei, ej, h1]) (hp2 i j hi hj hlt)
    · rw [← ei, ← ej]
    · exact absurd (by rw [ei, ej, h1]) (hp2 j i hj hi hlt)

theorem emitted_nodup {order : List String} {ps : List (Func × Stm.Stmt)} (ho : order.Nodup) : (emitted order ps).Nodup := by
  unfold emitted
  refine List.Pairwise.filterMap _ ?_ ho
  intro a b hab x hx y hy e
  subst e
  have h1 := List.find?_some hx
  have h2 := List.find?_some hy
  simp only [beq_iff_eq] at h1 h2
  exact hab (h1.symm.trans h2)

/-! ### The order of functions does not matter -/

theorem find?_same {α : Type} {l l' : List α} {p : α → Bool} (h : ∀ x, x ∈ l ↔ x ∈ l') (u : ∀ x ∈ l, ∀ y ∈ l, p x = true → p y = true → x = y) : l.find? p = l'.find? p := by
  cases e : l.find? p with
  | none =>
    have h1 := List.find?_eq_none.mp e
    exact (List.find?_eq_none.mpr fun x hx => h1 x ((h x).mpr hx)).symm
  | some a =>
    have a1 := List.find?_some e
    have a2 := List.mem_of_find?_eq_some e
    cases e' : l'.find? p with
    | none => exact absurd a1 (by simpa using List.find?_eq_none.mp e' a ((h a).mp a2))
    | some b => rw [u a a2 b ((h b).mpr (List.mem_of_find?_eq_some e')) a1 (List.find?_some e')]

theorem callsX_same {F F' : List XFunc} {Y : ExtX} {sym : Label → W} {lo hi it : Nat} (h : ∀ x, x ∈ F ↔ x ∈ F')
    (u : ∀ x ∈ F, ∀ y ∈ F, sym (.sym x.name) = sym (.sym y.name) → x = y) : ∀ D, callsX F Y sym lo hi it D = callsX F' Y sym lo hi it D := by
  have hf : ∀ fa : W, F.find? (fun f => decide (sym (.sym f.name) = fa)) = F'.find? (fun f => decide (sym (.sym f.name) = fa)) := by
    intro fa
    refine find?_same h fun x hx y hy e1 e2 => u x hx y hy ?_
    rw [of_decide_eq_true e1, of_decide_eq_true e2]
  intro D
  induction D with
  | zero => funext valid fa ty vs m; rw [callsX, callsX]; dsimp only; rw [hf]
  | succ D ih => funext valid fa ty vs m; rw [callsX, callsX]; dsimp only; rw [hf, ih]

theorem find_label {P : Prog} {l : Label} {i : Nat} (h : find P l = some i) : P[i]? = some (.label l) := by
  unfold find at h
  obtain ⟨hi, h1, _⟩ := List.findIdx?_eq_some_iff_getElem.mp h
  rw [List.getElem?_eq_getElem hi]
  congr 1
  simpa using h1

end Toycc.Src
