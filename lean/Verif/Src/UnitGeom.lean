import Verif.Src.UnitVars
/-! Lemmas for C74: where the variables of a function are, and how many hidden ones there are. -/
namespace Toycc.Src
open Toycc.Cg Toycc.Low Toycc.Rv
open Toycc.Frame hiding St
open Toycc.Whole (Func intVar inObjs)

/-! ### Counting hidden variables -/

mutual
theorem tr_count (tmp : Nat → Int) : ∀ (e : SExpr) {k k' : Nat} {n : Node}, tr tmp e k = some (n, k') → k' = k + (hidX e).length
  | .num _ _, k, k', n, h => by simp only [tr, Option.some.injEq, Prod.mk.injEq] at h; rw [hidX]; exact h.2.symm
  | .var _ _, k, k', n, h => by simp only [tr, Option.some.injEq, Prod.mk.injEq] at h; rw [hidX]; exact h.2.symm
  | .member e _ _ _, k, k', n, h => by
    simp only [tr, Option.bind_eq_bind, Option.bind_eq_some_iff] at h
    obtain ⟨⟨a, k1⟩, h1, h2⟩ := h
    dsimp only at h2
    split at h2
    · cases h2; rw [hidX]; exact tr_count tmp e h1
    · cases h2
  | .deref e, k, k', n, h => by
    simp only [tr, Option.bind_eq_bind, Option.bind_eq_some_iff] at h
    obtain ⟨⟨a, k1⟩, h1, h2⟩ := h
    dsimp only at h2
    rw [hidX]
    split at h2
    · cases h2; exact tr_count tmp e h1
    · simp only [Option.bind_eq_some_iff] at h2
      obtain ⟨b, _, h2⟩ := h2
      split at h2
      · cases h2
      · cases h2; exact tr_count tmp e h1
  | .addr e, k, k', n, h => by
    simp only [tr, Option.bind_eq_bind, Option.bind_eq_some_iff] at h
    obtain ⟨⟨a, k1⟩, h1, h2⟩ := h
    dsimp only at h2
    rw [hidX]
    split at h2
    · cases h2
    · split at h2 <;> (cases h2; exact tr_count tmp e h1)
  | .bin op l r, k, k', n, h => by
    simp only [tr, Option.bind_eq_bind, Option.bind_eq_some_iff] at h
    obtain ⟨⟨a, k1⟩, h1, ⟨b, k2⟩, h2, c, _, h3⟩ := h
    cases h3
    have e1 := tr_count tmp l h1
    have e2 := tr_count tmp r h2
    rw [hidX, List.length_append]; omega
  | .neg e, k, k', n, h => by
    simp only [tr, Option.bind_eq_bind, Option.bind_eq_some_iff] at h
    obtain ⟨⟨a, k1⟩, h1, h2⟩ := h
    cases h2; rw [hidX]; exact tr_count tmp e h1
  | .not e, k, k', n, h => by
    simp only [tr, Option.bind_eq_bind, Option.bind_eq_some_iff] at h
    obtain ⟨⟨a, k1⟩, h1, h2⟩ := h
    cases h2; rw [hidX]; exact tr_count tmp e h1
  | .bitnot e, k, k', n, h => by
    simp only [tr, Option.bind_eq_bind, Option.bind_eq_some_iff] at h
    obtain ⟨⟨a, k1⟩, h1, h2⟩ := h
    cases h2; rw [hidX]; exact tr_count tmp e h1
  | .assign l r, k, k', n, h => by
    simp only [tr, Option.bind_eq_bind, Option.bind_eq_some_iff] at h
    obtain ⟨⟨a, k1⟩, h1, ⟨b, k2⟩, h2, c, _, h3⟩ := h
    cases h3
    have e1 := tr_count tmp l h1
    have e2 := tr_count tmp r h2
    rw [hidX, List.length_append]; omega
  | .opAssign op l r, k, k', n, h => by
    simp only [tr, Option.bind_eq_bind, Option.bind_eq_some_iff] at h
    obtain ⟨⟨a, k1⟩, h1, ⟨b, k2⟩, h2, c, _, d, _, h3⟩ := h
    cases h3
    have e1 := tr_count tmp l h1
    have e2 := tr_count tmp r h2
    rw [hidX, List.length_append, List.length_append, List.length_singleton]; omega
  | .pre up l, k, k', n, h => by
    simp only [tr, Option.bind_eq_bind, Option.bind_eq_some_iff] at h
    obtain ⟨⟨a, k1⟩, h1, h2⟩ := h
    have e1 := tr_count tmp l h1
    rw [hidX, List.length_append, List.length_singleton]
    split at h2 <;>
      (simp only [Option.bind_eq_some_iff] at h2
       obtain ⟨c, _, d, _, h3⟩ := h2
       cases h3
       omega)
  | .post up l, k, k', n, h => by
    simp only [tr, Option.bind_eq_bind, Option.bind_eq_some_iff] at h
    obtain ⟨⟨a, k1⟩, h1, c, _, h3⟩ := h
    cases h3
    have e1 := tr_count tmp l h1
    rw [hidX, List.length_append, List.length_singleton]; omega
  | .comma l r, k, k', n, h => by
    simp only [tr, Option.bind_eq_bind, Option.bind_eq_some_iff] at h
    obtain ⟨⟨a, k1⟩, h1, ⟨b, k2⟩, h2, h3⟩ := h
    cases h3
    have e1 := tr_count tmp l h1
    have e2 := tr_count tmp r h2
    rw [hidX, List.length_append]; omega
  | .cast _ e, k, k', n, h => by
    simp only [tr, Option.bind_eq_bind, Option.bind_eq_some_iff] at h
    obtain ⟨⟨a, k1⟩, h1, h2⟩ := h
    cases h2; rw [hidX]; exact tr_count tmp e h1
  | .cond c t e, k, k', n, h => by
    simp only [tr, Option.bind_eq_bind, Option.bind_eq_some_iff] at h
    obtain ⟨⟨a, k1⟩, h1, ⟨b, k2⟩, h2, ⟨d, k3⟩, h3, h4⟩ := h
    cases h4
    have e1 := tr_count tmp c h1
    have e2 := tr_count tmp t h2
    have e3 := tr_count tmp e h3
    rw [hidX, List.length_append, List.length_append]; omega
  | .elvis a b, k, k', n, h => by
    simp only [tr, Option.bind_eq_bind, Option.bind_eq_some_iff] at h
    obtain ⟨⟨x, k1⟩, h1, c, _, ⟨y, k2⟩, h2, h3⟩ := h
    cases h3
    have e1 := tr_count tmp a h1
    have e2 := tr_count tmp b h2
    rw [hidX, List.length_append, List.length_cons]; omega
  | .logand l r, k, k', n, h => by
    simp only [tr, Option.bind_eq_bind, Option.bind_eq_some_iff] at h
    obtain ⟨⟨a, k1⟩, h1, ⟨b, k2⟩, h2, h3⟩ := h
    cases h3
    have e1 := tr_count tmp l h1
    have e2 := tr_count tmp r h2
    rw [hidX, List.length_append]; omega
  | .logor l r, k, k', n, h => by
    simp only [tr, Option.bind_eq_bind, Option.bind_eq_some_iff] at h
    obtain ⟨⟨a, k1⟩, h1, ⟨b, k2⟩, h2, h3⟩ := h
    cases h3
    have e1 := tr_count tmp l h1
    have e2 := tr_count tmp r h2
    rw [hidX, List.length_append]; omega
  | .call f as, k, k', n, h => by
    simp only [tr, Option.bind_eq_bind, Option.bind_eq_some_iff] at h
    obtain ⟨⟨a, k1⟩, h1, h2⟩ := h
    have e1 := tr_count tmp f h1
    rw [hidX, List.length_append]
    split at h2
    · simp only [Option.bind_some, Option.bind_eq_some_iff] at h2
      obtain ⟨⟨b, k2⟩, h2, h3⟩ := h2
      cases h3
      have e2 := trArgs_count tmp as h2
      omega
    · simp only [Option.bind_some, Option.bind_eq_some_iff] at h2
      obtain ⟨⟨b, k2⟩, h2, h3⟩ := h2
      cases h3
      have e2 := trArgs_count tmp as h2
      omega
    · cases h2
theorem trArgs_count (tmp : Nat → Int) : ∀ (e : SArgs) {k k' : Nat} {n : Exprs}, trArgs tmp e k = some (n, k') → k' = k + (hidAs e).length
  | .nil, k, k', n, h => by simp only [trArgs, Option.some.injEq, Prod.mk.injEq] at h; rw [hidAs]; exact h.2.symm
  | .cons t e r, k, k', n, h => by
    simp only [trArgs, Option.bind_eq_bind, Option.bind_eq_some_iff] at h
    obtain ⟨⟨a, k1⟩, h1, ⟨b, k2⟩, h2, h3⟩ := h
    cases h3
    have e1 := tr_count tmp e h1
    have e2 := trArgs_count tmp r h2
    rw [hidAs, List.length_append]; omega
end

/-- The hidden ones among variables. -/
def hidden (l : List (Frame.Var × Bool)) : Nat := (l.filter (·.2)).length

theorem hidden_app (l r : List (Frame.Var × Bool)) : hidden (l ++ r) = hidden l + hidden r := by
  unfold hidden; rw [List.filter_append, List.length_append]

theorem hidden_hids (e : SExpr) : hidden (hids e) = (hidX e).length := by
  unfold hidden hids
  rw [List.filter_eq_self.mpr (by intro p hp; obtain ⟨_, _, rfl⟩ := List.mem_map.mp hp; rfl), List.length_map]

theorem hidden_cons (v : Frame.Var) (l : List (Frame.Var × Bool)) : hidden ((v, false) :: l) = hidden l := by
  unfold hidden; rw [List.filter_cons_of_neg (by simp)]

theorem trI_count (tmp : Nat → Int) (i : XI) {k k' : Nat} {n : List Expr} (h : trI tmp i k = some (n, k')) : k' = k + hidden (madeI i) := by
  cases i with
  | expr e =>
    simp only [trI, Option.bind_eq_bind, Option.bind_eq_some_iff] at h
    obtain ⟨⟨a, k1⟩, h1, h2⟩ := h
    cases h2
    rw [madeI, hidden_hids]; exact tr_count tmp e h1
  | var t => cases h; rfl
  | ini t o e =>
    simp only [trI, Option.bind_eq_bind, Option.bind_eq_some_iff] at h
    obtain ⟨⟨a, k1⟩, h1, h2⟩ := h
    cases h2
    have := tr_count tmp _ h1
    rw [hidX, hidX, List.nil_append] at this
    rw [madeI, hidden_cons, hidden_hids]; exact this

theorem trIs_count (tmp : Nat → Int) : ∀ (is : List XI) {k k' : Nat} {n : List Expr}, trIs tmp is k = some (n, k') → k' = k + hidden (is.flatMap madeI)
  | [], k, k', n, h => by cases h; rfl
  | i :: r, k, k', n, h => by
    simp only [trIs, Option.bind_eq_bind, Option.bind_eq_some_iff] at h
    obtain ⟨⟨a, k1⟩, h1, ⟨b, k2⟩, h2, h3⟩ := h
    cases h3
    have e1 := trI_count tmp i h1
    have e2 := trIs_count tmp r h2
    rw [List.flatMap_cons, hidden_app]; omega

theorem trO_count (tmp : Nat → Int) (o : Option SExpr) {k k' : Nat} {n : Option Expr} (h : trO tmp o k = some (n, k')) : k' = k + hidden (hidO o) := by
  cases o with
  | none => cases h; rfl
  | some e =>
    simp only [trO, Option.bind_eq_bind, Option.bind_eq_some_iff] at h
    obtain ⟨⟨a, k1⟩, h1, h2⟩ := h
    cases h2
    rw [hidO, hidden_hids]; exact tr_count tmp e h1

/-- The parser takes as many hidden variables as have been made. -/
theorem trS_count (tmp : Nat → Int) (rt : CTy) : ∀ (x : XStmt) {k k' : Nat} {s : Stm.SStmt}, trS tmp rt x k = some (s, k') → k' = k + hidden (made x) := by
  intro x
  induction x with
  | skip => intro k k' s h; cases h; rfl
  | goto _ => intro k k' s h; cases h; rfl
  | brk => intro k k' s h; cases h; rfl
  | cont => intro k k' s h; cases h; rfl
  | seq a b iha ihb =>
    intro k k' s h
    simp only [trS, Option.bind_eq_bind, Option.bind_eq_some_iff] at h
    obtain ⟨⟨a', k1⟩, h1, ⟨b', k2⟩, h2, h3⟩ := h
    cases h3
    have e1 := iha h1
    have e2 := ihb h2
    rw [made, hidden_app]; omega
  | items is =>
    intro k k' s h
    simp only [trS, Option.bind_eq_bind, Option.bind_eq_some_iff] at h
    obtain ⟨⟨a', k1⟩, h1, h3⟩ := h
    cases h3
    exact trIs_count tmp is h1
  | ifs c a b iha ihb =>
    intro k k' s h
    simp only [trS, Option.bind_eq_bind, Option.bind_eq_some_iff] at h
    obtain ⟨⟨c', k0⟩, h0, ⟨a', k1⟩, h1, ⟨b', k2⟩, h2, h3⟩ := h
    cases h3
    have e0 := tr_count tmp c h0
    have e1 := iha h1
    have e2 := ihb h2
    rw [made, hidden_app, hidden_app, hidden_hids]; omega
  | loop init c inc b ih =>
    intro k k' s h
    simp only [trS, Option.bind_eq_bind, Option.bind_eq_some_iff] at h
    obtain ⟨⟨i', k0⟩, h0, ⟨c', k1⟩, h1, ⟨n', k2⟩, h2, ⟨b', k3⟩, h3, h4⟩ := h
    cases h4
    have e0 := trIs_count tmp init h0
    have e1 := trO_count tmp c h1
    have e2 := trO_count tmp inc h2
    have e3 := ih h3
    rw [made, hidden_app, hidden_app, hidden_app]; omega
  | doW b c ih =>
    intro k k' s h
    simp only [trS, Option.bind_eq_bind, Option.bind_eq_some_iff] at h
    obtain ⟨⟨b', k0⟩, h0, ⟨c', k1⟩, h1, h3⟩ := h
    cases h3
    have e0 := ih h0
    have e1 := tr_count tmp c h1
    rw [made, hidden_app, hidden_hids]; omega
  | switch c b ih =>
    intro k k' s h
    simp only [trS, Option.bind_eq_bind, Option.bind_eq_some_iff] at h
    obtain ⟨⟨c', k0⟩, h0, ⟨b', k1⟩, h1, h3⟩ := h
    cases h3
    have e0 := tr_count tmp c h0
    have e1 := ih h1
    rw [made, hidden_app, hidden_hids]; omega
  | case lo hi b ih =>
    intro k k' s h
    simp only [trS, Option.bind_eq_bind, Option.bind_eq_some_iff] at h
    obtain ⟨⟨b', k0⟩, h0, h3⟩ := h
    cases h3
    exact ih h0
  | dflt b ih =>
    intro k k' s h
    simp only [trS, Option.bind_eq_bind, Option.bind_eq_some_iff] at h
    obtain ⟨⟨b', k0⟩, h0, h3⟩ := h
    cases h3
    exact ih h0
  | label l b ih =>
    intro k k' s h
    simp only [trS, Option.bind_eq_bind, Option.bind_eq_some_iff] at h
    obtain ⟨⟨b', k0⟩, h0, h3⟩ := h
    cases h3
    exact ih h0
  | ret e =>
    intro k k' s h
    cases e with
    | none => cases h; rfl
    | some e =>
      simp only [trS, Option.bind_eq_bind, Option.bind_eq_some_iff] at h
      obtain ⟨⟨b', k0⟩, h0, h3⟩ := h
      cases h3
      rw [made, hidO, hidden_hids]; exact tr_count tmp e h0

/-! ### Renaming -/

mutual
theorem rel_hidX (g : Int → Int) : ∀ e : SExpr, (hidX (relE g e)).length = (hidX e).length
  | .num _ _ => rfl
  | .var _ (.loc _) => rfl
  | .var _ (.vla _) => rfl
  | .var _ (.glob _) => rfl
  | .member e _ _ _ => by simp only [relE, hidX]; exact rel_hidX g e
  | .deref e => by simp only [relE, hidX]; exact rel_hidX g e
  | .addr e => by simp only [relE, hidX]; exact rel_hidX g e
  | .neg e => by simp only [relE, hidX]; exact rel_hidX g e
  | .not e => by simp only [relE, hidX]; exact rel_hidX g e
  | .bitnot e => by simp only [relE, hidX]; exact rel_hidX g e
  | .cast _ e => by simp only [relE, hidX]; exact rel_hidX g e
  | .bin _ l r => by simp only [relE, hidX, List.length_append, rel_hidX g l, rel_hidX g r]
  | .assign l r => by simp only [relE, hidX, List.length_append, rel_hidX g l, rel_hidX g r]
  | .comma l r => by simp only [relE, hidX, List.length_append, rel_hidX g l, rel_hidX g r]
  | .logand l r => by simp only [relE, hidX, List.length_append, rel_hidX g l, rel_hidX g r]
  | .logor l r => by simp only [relE, hidX, List.length_append, rel_hidX g l, rel_hidX g r]
  | .opAssign _ l r => by simp only [relE, hidX, List.length_append, rel_hidX g l, rel_hidX g r, List.length_cons, List.length_nil]
  | .pre _ l => by simp only [relE, hidX, List.length_append, rel_hidX g l, List.length_cons, List.length_nil]
  | .post _ l => by simp only [relE, hidX, List.length_append, rel_hidX g l, List.length_cons, List.length_nil]
  | .cond c t e => by simp only [relE, hidX, List.length_append, rel_hidX g c, rel_hidX g t, rel_hidX g e]
  | .elvis a b => by simp only [relE, hidX, List.length_append, List.length_cons, rel_hidX g a, rel_hidX g b]
  | .call f as => by simp only [relE, hidX, List.length_append, rel_hidX g f, rel_hidAs g as]
theorem rel_hidAs (g : Int → Int) : ∀ e : SArgs, (hidAs (relAs g e)).length = (hidAs e).length
  | .nil => rfl
  | .cons _ e r => by simp only [relAs, hidAs, List.length_append, rel_hidX g e, rel_hidAs g r]
end

theorem rel_hids (g : Int → Int) (e : SExpr) : hidden (hids (relE g e)) = hidden (hids e) := by rw [hidden_hids, hidden_hids, rel_hidX]

theorem rel_hidO (g : Int → Int) (o : Option SExpr) : hidden (hidO (o.map (relE g))) = hidden (hidO o) := by
  cases o with
  | none => rfl
  | some e => exact rel_hids g e

theorem rel_madeI (g : Int → Int) : ∀ (is : List XI), hidden ((is.map (relI g)).flatMap madeI) = hidden (is.flatMap madeI)
  | [] => rfl
  | i :: r => by
    rw [List.map_cons, List.flatMap_cons, List.flatMap_cons, hidden_app, hidden_app, rel_madeI g r]
    congr 1
    cases i with
    | expr e => exact rel_hids g e
    | var t => rfl
    | ini t o e => simp only [relI, madeI, hidden_cons]; exact rel_hids g e

theorem rel_made (g : Int → Int) : ∀ x : XStmt, hidden (made (relS g x)) = hidden (made x) := by
  intro x
  induction x with
  | skip | goto _ | brk | cont => rfl
  | seq a b iha ihb => simp only [relS, made, hidden_app, iha, ihb]
  | items is => exact rel_madeI g is
  | ifs c a b iha ihb => simp only [relS, made, hidden_app, iha, ihb, rel_hids]
  | loop init c inc b ih => simp only [relS, made, hidden_app, ih, rel_hidO, rel_madeI]
  | doW b c ih => simp only [relS, made, hidden_app, ih, rel_hids]
  | switch c b ih => simp only [relS, made, hidden_app, ih, rel_hids]
  | case lo hi b ih => exact ih
  | dflt b ih => exact ih
  | label l b ih => exact ih
  | ret e => exact rel_hidO g e

/-! ### Positions -/

/-- Positions of the elements with mark `q`. -/
def spots {α : Type} (q : Bool) (l : List (α × Bool)) : List Nat := (List.range l.length).filter fun i => (l[i]?.map (·.2)) == some q

theorem spots_cons {α : Type} (q : Bool) (p : α × Bool) (l : List (α × Bool)) : spots q (p :: l) = (if p.2 = q then [0] else []) ++ (spots q l).map (· + 1) := by
  unfold spots
  rw [List.length_cons, List.range_succ_eq_map, List.filter_cons, List.filter_map]
  have : ((fun i => ((p :: l)[i]?.map (·.2)) == some q) ∘ Nat.succ) = fun i => (l[i]?.map (·.2)) == some q := by funext i; simp
  rw [this]
  by_cases h : p.2 = q
  · simp [h]
  · simp [h]

theorem spots_get {α : Type} (q : Bool) : ∀ l : List (α × Bool), (spots q l).map (l[·]?) = (l.filter (·.2 == q)).map some
  | [] => rfl
  | p :: l => by
    rw [spots_cons, List.map_append, List.map_map]
    have : ((fun x => (p :: l)[x]?) ∘ fun x => x + 1) = (l[·]?) := by funext i; simp
    rw [this, spots_get q l, List.filter_cons]
    by_cases h : p.2 = q
    · simp [h]
    · simp [h]

theorem spots_length {α : Type} (q : Bool) (l : List (α × Bool)) : (spots q l).length = (l.filter (·.2 == q)).length := by
  have := congrArg List.length (spots_get q l)
  simpa using this

theorem spots_nodup {α : Type} (q : Bool) (l : List (α × Bool)) : (spots q l).Nodup := List.Pairwise.filter _ List.nodup_range

theorem vis_eq (f : XFunc) : f.vis = (spots false f.others).reverse := rfl

theorem hid_eq (f : XFunc) : f.hid = (spots true f.others).reverse := rfl

/-! ### Functions of a file -/

variable {d : Def} {f : XFunc}

theorem fn_eq (h : d.fn = some f) : ∃ fr, d.raw.lay = some fr ∧ f = { d.raw with body := relS (d.raw.spot fr) d.body } := by
  unfold Def.fn at h
  simp only [Option.bind_eq_bind, Option.bind_eq_some_iff] at h
  obtain ⟨fr, h1, h2⟩ := h
  cases h2
  exact ⟨fr, h1, rfl⟩

theorem fn_lay (h : d.fn = some f) : f.lay = d.raw.lay := by
  obtain ⟨fr, _, rfl⟩ := fn_eq h
  rfl

theorem fn_hid (h : d.fn = some f) : f.hid.length = hidden (made f.body) + 1 := by
  obtain ⟨fr, _, rfl⟩ := fn_eq h
  show (XFunc.hid _).length = hidden (made (relS _ d.body)) + 1
  rw [hid_eq, List.length_reverse, spots_length, rel_made]
  show (((made d.body).reverse ++ [((⟨.int, 8, 8⟩ : Frame.Var), true)]).filter (·.2 == true)).length = _
  rw [List.filter_append, List.length_append, List.filter_reverse, List.length_reverse]
  unfold hidden
  simp

/-- A typed body is rewritten. -/
theorem trS_total (tmp : Nat → Int) {rt : CTy} {x : XStmt} (h : x.typed rt = true) : ∃ s k, trS tmp rt x 0 = some (s, k) := by
  let E : CEnv := { fp := 0, sym := fun _ => 0, valid := fun _ => false, call := fun _ _ _ _ _ => none, room := 0 }
  have H : Low.Hidden E E tmp 0 := by
    refine ⟨rfl, rfl, fun _ h => h, ?_, ?_, ?_, ?_⟩
    · intro b k h; cases h
    · intro k i h; omega
    · intro k k' b h; omega
    · intro a d ty vs m m1 v m' _ h; cases h
  obtain ⟨s, k, e, _⟩ := Props.C72_rewritten_body_partial H (by intro a k ty vs m v m' h; cases h) rt x h 0
  exact ⟨s, k, e⟩

/-- Enough hidden variables have been made. -/
theorem low_total (h : d.fn = some f) (ht : f.body.typed f.ret = true) : ∃ g, f.low = some g := by
  obtain ⟨fr, hl, _⟩ := fn_eq h
  have hl' := hl
  rw [← fn_lay h] at hl'
  obtain ⟨s, k, e⟩ := trS_total (f.tmp fr) ht
  have hk := trS_count _ _ _ e
  have hh := fn_hid h
  refine ⟨⟨f.name, f.ret.low, f.params.map (·.low), f.others.map (·.1), s⟩, ?_⟩
  unfold XFunc.low
  simp only [hl', Option.bind_eq_bind, Option.bind_some, e]
  rw [if_pos (by omega)]

/-! ### Places -/

theorem made_vis : ∀ x : XStmt, (made x).filter (·.2 == false) = (decls x).map fun t => (varOf t, false) := by
  have hh : ∀ e : SExpr, (hids e).filter (·.2 == false) = [] := by
    intro e
    rw [List.filter_eq_nil_iff]
    intro p hp
    obtain ⟨_, _, rfl⟩ := List.mem_map.mp hp
    simp
  have ho : ∀ o : Option SExpr, (hidO o).filter (·.2 == false) = [] := by
    intro o
    cases o with
    | none => rfl
    | some e => exact hh e
  have hi : ∀ is : List XI, (is.flatMap madeI).filter (·.2 == false) = (is.flatMap declI).map fun t => (varOf t, false) := by
    intro is
    induction is with
    | nil => rfl
    | cons i r ih =>
      rw [List.flatMap_cons, List.flatMap_cons, List.filter_append, List.map_append, ih]
      congr 1
      cases i with
      | expr e => exact hh e
      | var t => rfl
      | ini t o e =>
        rw [madeI, declI, List.filter_cons, hh]; rfl
  intro x
  induction x with
  | skip | goto _ | brk | cont => rfl
  | seq a b iha ihb => rw [made, decls, List.filter_append, iha, ihb, List.map_append]
  | items is => exact hi is
  | ifs c a b iha ihb => rw [made, decls, List.filter_append, List.filter_append, hh, iha, ihb, List.map_append]; rfl
  | loop init c inc b ih =>
    rw [made, decls, List.filter_append, List.filter_append, List.filter_append, ho, ho, ih, hi, List.map_append, List.append_nil, List.append_nil]
  | doW b c ih => rw [made, decls, List.filter_append, hh, ih, List.append_nil]
  | switch c b ih => rw [made, decls, List.filter_append, hh, ih, List.nil_append]
  | case lo hi b ih => exact ih
  | dflt b ih => exact ih
  | label l b ih => exact ih
  | ret e => exact ho e

theorem vis_get (d : Def) : d.raw.vis.map (d.raw.others[·]?) = (decls d.body).map fun t => some (varOf t, false) := by
  rw [vis_eq, List.map_reverse, spots_get]
  show ((((made d.body).reverse ++ [((⟨.int, 8, 8⟩ : Frame.Var), true)]).filter (·.2 == false)).map some).reverse = _
  rw [List.filter_append, List.filter_reverse, made_vis]
  simp

/-- The position of variable number `n` among the locals of the frame. -/
def Def.at (d : Def) (n : Nat) : Nat :=
  let p := d.params.length
  if n < p then d.raw.others.length + (p - 1 - n) else if n = p then d.raw.others.length - 1 else (d.raw.vis[n - p - 1]?).getD 0

theorem spot_at (d : Def) (fr : Frame) (n : Nat) : d.raw.spot fr n = (fr.offs[d.at n]?).getD 0 := by
  unfold XFunc.spot Def.at
  dsimp only
  rw [Int.toNat_natCast]
  show (if n < d.params.length then _ else if n = d.params.length then _ else _) = _
  split
  · rfl
  · split <;> rfl

theorem raw_length (d : Def) : d.raw.others.length = (made d.body).length + 1 := by
  show ((made d.body).reverse ++ [_]).length = _
  simp

theorem raw_last (d : Def) : d.raw.others[d.raw.others.length - 1]? = some (⟨.int, 8, 8⟩, true) := by
  rw [raw_length]
  show ((made d.body).reverse ++ [_])[_]? = _
  rw [List.getElem?_append_right (by simp)]
  simp

/-- Which kind of variable a number is. -/
theorem named_cases {n : Nat} {t : CTy} (h : d.named[n]? = some t) :
    (n < d.params.length ∧ d.params[d.params.length - 1 - n]? = some t) ∨ (n = d.params.length ∧ t = .ptr (.char false)) ∨
      (d.params.length < n ∧ (decls d.body)[n - d.params.length - 1]? = some t) := by
  unfold Def.named at h
  by_cases h1 : n < d.params.length
  · left
    rw [List.getElem?_append_left (by simpa using h1), List.getElem?_reverse h1] at h
    exact ⟨h1, h⟩
  · right
    rw [List.getElem?_append_right (by simpa using h1), List.length_reverse] at h
    by_cases h2 : n = d.params.length
    · left
      rw [h2, Nat.sub_self] at h
      cases h
      exact ⟨h2, rfl⟩
    · right
      refine ⟨by omega, ?_⟩
      obtain ⟨k, hk⟩ : ∃ k, n - d.params.length = k + 1 := ⟨n - d.params.length - 1, by omega⟩
      rw [hk, List.getElem?_cons_succ] at h
      rw [hk]
      exact h

theorem vis_at {k : Nat} {t : CTy} (h : (decls d.body)[k]? = some t) : ∃ j, d.raw.vis[k]? = some j ∧ d.raw.others[j]? = some (varOf t, false) := by
  have e := congrArg (·[k]?) (vis_get d)
  simp only [List.getElem?_map, h, Option.map_some] at e
  cases hv : d.raw.vis[k]? with
  | none => rw [hv] at e; cases e
  | some j => rw [hv] at e; simp only [Option.map_some, Option.some.injEq] at e; exact ⟨j, rfl, e⟩

theorem low_size (t : CTy) : t.low.size = t.size := by cases t <;> rfl

/-- The variable at that position, and its mark. -/
theorem at_var {n : Nat} {t : CTy} (h : d.named[n]? = some t) : ∃ v, d.raw.frame.locals[d.at n]? = some v ∧ v.size = t.size ∧
    (d.raw.others.map (·.2) ++ d.raw.params.map fun _ => false)[d.at n]? = some (decide (n = d.params.length)) := by
  rw [locals_eq]
  unfold Def.at
  dsimp only
  rcases named_cases h with ⟨h1, h2⟩ | ⟨h1, rfl⟩ | ⟨h1, h2⟩
  · rw [if_pos h1]
    refine ⟨intVar t.low, ?_, low_size t, ?_⟩
    · rw [List.getElem?_append_right (by simp), List.length_map, Nat.add_sub_cancel_left, List.getElem?_map]
      show Option.map _ d.params[_]? = _
      rw [h2]; rfl
    · rw [List.getElem?_append_right (by simp), List.length_map, Nat.add_sub_cancel_left, List.getElem?_map]
      show Option.map _ d.params[_]? = _
      rw [h2, decide_eq_false (by omega)]; rfl
  · subst h1
    rw [if_neg (by omega), if_pos rfl]
    have hp : d.raw.others.length - 1 < d.raw.others.length := by rw [raw_length]; omega
    refine ⟨⟨.int, 8, 8⟩, ?_, rfl, ?_⟩
    · rw [List.getElem?_append_left (by simpa using hp), List.getElem?_map, raw_last]; rfl
    · rw [List.getElem?_append_left (by simpa using hp), List.getElem?_map, raw_last, decide_eq_true rfl]; rfl
  · rw [if_neg (by omega), if_neg (by omega)]
    obtain ⟨j, e1, e2⟩ := vis_at h2
    rw [e1, Option.getD_some]
    have hj := (List.getElem?_eq_some_iff.mp e2).1
    refine ⟨varOf t, ?_, rfl, ?_⟩
    · rw [List.getElem?_append_left (by simpa using hj), List.getElem?_map, e2]; rfl
    · rw [List.getElem?_append_left (by simpa using hj), List.getElem?_map, e2, decide_eq_false (by omega)]; rfl

/-- Different numbers, different positions. -/
theorem at_inj {n n' : Nat} {t t' : CTy} (h : d.named[n]? = some t) (h' : d.named[n']? = some t') (e : d.at n = d.at n') : n = n' := by
  obtain ⟨_, _, _, m1⟩ := at_var h
  obtain ⟨_, _, _, m2⟩ := at_var h'
  rw [e, m2] at m1
  simp only [Option.some.injEq, decide_eq_decide] at m1
  unfold Def.at at e
  dsimp only at e
  rcases named_cases h with ⟨h1, h2⟩ | ⟨h1, rfl⟩ | ⟨h1, h2⟩
  · rcases named_cases h' with ⟨h1', h2'⟩ | ⟨h1', rfl⟩ | ⟨h1', h2'⟩
    · rw [if_pos h1, if_pos h1'] at e; omega
    · omega
    · rw [if_pos h1, if_neg (by omega), if_neg (by omega)] at e
      obtain ⟨j, e1, e2⟩ := vis_at h2'
      rw [e1, Option.getD_some] at e
      have hj := (List.getElem?_eq_some_iff.mp e2).1
      omega
  · omega
  · rcases named_cases h' with ⟨h1', h2'⟩ | ⟨h1', rfl⟩ | ⟨h1', h2'⟩
    · rw [if_pos h1', if_neg (by omega), if_neg (by omega)] at e
      obtain ⟨j, e1, e2⟩ := vis_at h2
      rw [e1, Option.getD_some] at e
      have hj := (List.getElem?_eq_some_iff.mp e2).1
      omega
    · omega
    · rw [if_neg (by omega), if_neg (by omega), if_neg (by omega), if_neg (by omega)] at e
      obtain ⟨j, e1, _⟩ := vis_at h2
      obtain ⟨j', e1', _⟩ := vis_at h2'
      rw [e1, e1', Option.getD_some, Option.getD_some] at e
      subst e
      have hn : d.raw.vis.Nodup := by rw [vis_eq]; exact (List.reverse_perm _).nodup_iff.mpr (spots_nodup _ _)
      have k1 := (List.getElem?_eq_some_iff.mp e1).1
      have := (List.getElem?_inj k1 hn).mp (e1.trans e1'.symm)
      omega

theorem align_pos : ∀ t : CTy, 0 < CTy.align t
  | .arr b _ => by rw [CTy.align]; exact align_pos b
  | .void | .bool | .char _ | .short _ | .int _ | .long _ | .enum | .ptr _ | .struc _ | .func _ => by simp [CTy.align, CTy.size]

theorem made_align : ∀ x : XStmt, ∀ p ∈ made x, 0 < p.1.align := by
  have hh : ∀ e : SExpr, ∀ p ∈ hids e, 0 < p.1.align := by
    intro e p hp
    obtain ⟨t, _, rfl⟩ := List.mem_map.mp hp
    exact align_pos t
  have ho : ∀ o : Option SExpr, ∀ p ∈ hidO o, 0 < p.1.align := by
    intro o
    cases o with
    | none => intro p hp; cases hp
    | some e => exact hh e
  have hi : ∀ is : List XI, ∀ p ∈ is.flatMap madeI, 0 < p.1.align := by
    intro is p hp
    obtain ⟨i, _, hp⟩ := List.mem_flatMap.mp hp
    cases i with
    | expr e => exact hh e p hp
    | var t => rw [madeI, List.mem_singleton] at hp; subst hp; exact align_pos t
    | ini t o e =>
      rcases List.mem_cons.mp hp with rfl | hp
      · exact align_pos t
      · exact hh e p hp
  intro x
  induction x with
  | skip | goto _ | brk | cont => intro p hp; cases hp
  | seq a b iha ihb => intro p hp; exact (List.mem_append.mp hp).elim (fun h => by exact iha p h) (fun h => by exact ihb p h)
  | items is => exact hi is
  | ifs c a b iha ihb =>
    intro p hp
    simp only [made, List.mem_append] at hp
    rcases hp with (h | h) | h
    · exact hh c p h
    · exact iha p h
    · exact ihb p h
  | loop init c inc b ih =>
    intro p hp
    simp only [made, List.mem_append] at hp
    rcases hp with ((h | h) | h) | h
    · exact hi init p h
    · exact ho c p h
    · exact ho inc p h
    · exact ih p h
  | doW b c ih => intro p hp; exact (List.mem_append.mp hp).elim (fun h => by exact ih p h) (fun h => by exact hh c p h)
  | switch c b ih => intro p hp; exact (List.mem_append.mp hp).elim (fun h => by exact hh c p h) (fun h => by exact ih p h)
  | case lo hi b ih => exact ih
  | dflt b ih => exact ih
  | label l b ih => exact ih
  | ret e => exact ho e

theorem raw_align (hp : ∀ t ∈ d.params, 0 < t.size) : ∀ v ∈ d.raw.frame.locals, 0 < v.align := by
  intro v hv
  rw [locals_eq] at hv
  rcases List.mem_append.mp hv with h | h
  · obtain ⟨p, h', rfl⟩ := List.mem_map.mp h
    rcases List.mem_append.mp (show p ∈ (made d.body).reverse ++ [((⟨.int, 8, 8⟩ : Frame.Var), true)] from h') with h | h
    · exact made_align d.body p (List.mem_reverse.mp h)
    · rw [List.mem_singleton] at h; subst h; decide
  · obtain ⟨t, h', rfl⟩ := List.mem_map.mp h
    show 0 < t.low.size
    rw [low_size]; exact hp t h'

end Toycc.Src
