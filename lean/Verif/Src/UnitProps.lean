import Verif.Src.UnitGeom
/-!
C74: a file is compiled from its tokens to a text that does on the machine what C prescribes.

Vocabulary of the statements: `IsFile val ts U` (Verif.Src.UnitSpec): the tokens `ts` are the text of a file in which the functions `U` are defined. In `U` a local variable is named by its
number; `d.named` are the types of the variables of `d` by number. `d.fn` is the function after its frame has been laid out: there a variable is named by its offset.
-/
namespace Toycc.Src.Props
open Toycc.Rv Toycc.Cg Toycc.Low Toycc.Src
open Toycc.Parse (Tok P Tree)
open Toycc.Frame hiding St
open Toycc.Whole (Func Loaded ExtOk parseFns emitFns CodeOf emitted_code intVar)

variable (val : Sc → Tree TN → Option Int)

/-- **C74**, reading. The text of a file is accepted, and the function definitions read are those written.

Missing: what Verif.Src.Unit and Verif.Src.Text leave out: storage classes other than typedef, initialisers of variables of file scope, structures, variadic functions. -/
theorem C74_read_partial {ts : List Tok} {U : List Def} (h : IsFile val ts U) : ∃ M a o, ∀ n, M ≤ n → unitT val n n start ts = .ok ⟨a, U.reverse, o⟩ := by
  obtain ⟨M, b, o, _, h2⟩ := unit_read val h start rfl rfl start_ok
  refine ⟨M, b, o, fun n hn => ?_⟩
  have := h2 n n hn hn
  rwa [show U.reverse ++ start.defs = U.reverse from List.append_nil _] at this

/-- **C74**, variables. Every local variable named in the body of a function of the file has a number in the list of variables of the function, and is used at the type it has there. -/
theorem C74_variables {ts : List Tok} {U : List Def} (h : IsFile val ts U) {d : Def} (hd : d ∈ U) : ∀ p ∈ localsS d.body, ∃ n : Nat, p.2 = n ∧ d.named[n]? = some p.1 := by
  intro p hp
  refine file_locals h ?_ d hd p hp
  intro s hs x t i hx
  rw [List.mem_singleton] at hs
  subst hs
  exact absurd hx List.not_mem_nil

/-- **C74**, places. In the function after its frame has been laid out every variable is replaced by its offset in the frame. Variables with different numbers are apart from each other; each
has as many bytes as its type; all but `__alloca_size__` are objects of a call; and the parameters are where the arguments are stored. -/
theorem C74_places {d : Def} {f : XFunc} (h : d.fn = some f) (hp : ∀ t ∈ d.params, 0 < t.size) :
    ∃ (fr : Frame) (place : Nat → Int), f.lay = some fr ∧ f.name = d.name ∧ f.ret = d.ret ∧ f.params = d.params ∧ f.body = relS (fun n => place n.toNat) d.body ∧
      (∀ (n : Nat) (t : CTy), d.named[n]? = some t → n ≠ d.params.length → ∃ v, (place n, v) ∈ f.objs fr ∧ v.size = t.size) ∧
      (∀ (n n' : Nat) (t t' : CTy), n ≠ n' → d.named[n]? = some t → d.named[n']? = some t' → place n + t.size ≤ place n' ∨ place n' + t'.size ≤ place n) ∧
      (∀ (i : Nat) (t : CTy), d.params[i]? = some t → (f.slots fr)[i]? = some (t.low, place (d.params.length - 1 - i))) := by
  obtain ⟨fr, hl, rfl⟩ := fn_eq h
  have hl' : layout d.raw.frame = .ok fr := by
    unfold XFunc.lay at hl
    cases e : layout d.raw.frame with
    | error x => rw [e] at hl; cases hl
    | ok x => rw [e] at hl; cases hl; rfl
  obtain ⟨c1, _, _, _, _, _, c7⟩ := C48_frame d.raw.frame fr (raw_align hp) hl'
  have off : ∀ {n : Nat} {t : CTy}, d.named[n]? = some t → ∃ v, d.raw.frame.locals[d.at n]? = some v ∧ v.size = t.size ∧ fr.offs[d.at n]? = some (d.raw.spot fr n) ∧
      (d.raw.others.map (·.2) ++ d.raw.params.map fun _ => false)[d.at n]? = some (decide (n = d.params.length)) := by
    intro n t hn
    obtain ⟨v, v1, v2, v3⟩ := at_var hn
    refine ⟨v, v1, v2, ?_, v3⟩
    have hlt : d.at n < fr.offs.length := by rw [c1]; exact (List.getElem?_eq_some_iff.mp v1).1
    rw [spot_at, List.getElem?_eq_getElem hlt]
    rfl
  refine ⟨fr, fun n => d.raw.spot fr n, hl, rfl, rfl, rfl, ?_, ?_, ?_, ?_⟩
  · show relS _ _ = relS _ _
    congr 1
  · intro n t hn hne
    obtain ⟨v, v1, v2, v3, v4⟩ := off hn
    refine ⟨v, ?_, v2⟩
    unfold XFunc.objs
    refine List.mem_filterMap.mpr ⟨((d.raw.spot fr n, v), false), ?_, rfl⟩
    refine List.mem_of_getElem? (i := d.at n) ?_
    rw [List.getElem?_zip_eq_some, List.getElem?_zip_eq_some]
    refine ⟨⟨v3, v1⟩, ?_⟩
    rw [decide_eq_false hne] at v4
    exact v4
  · intro n n' t t' hne hn hn'
    obtain ⟨v, v1, v2, v3, _⟩ := off hn
    obtain ⟨w, w1, w2, w3, _⟩ := off hn'
    have := c7 _ _ v w _ _ (fun e => hne (at_inj hn hn' e)) v1 w1 v3 w3
    unfold Frame.Apart at this
    rw [v2, w2] at this
    exact this
  · intro i t hi
    have hlt := (List.getElem?_eq_some_iff.mp hi).1
    unfold XFunc.slots
    rw [List.getElem?_zip_eq_some]
    refine ⟨by rw [List.getElem?_map]; show Option.map _ d.params[i]? = _; rw [hi]; rfl, ?_⟩
    rw [List.getElem?_drop]
    have hn : d.named[d.params.length - 1 - i]? = some t := by
      unfold Def.named
      rw [List.getElem?_append_left (by simp; omega), List.getElem?_reverse (by omega)]
      rw [show d.params.length - 1 - (d.params.length - 1 - i) = i by omega]
      exact hi
    obtain ⟨_, _, _, v3, _⟩ := off hn
    rw [← v3]
    congr 1
    show fr.offs.length - d.params.length + i = _
    have : fr.offs.length = d.raw.others.length + d.params.length := by
      rw [c1, locals_eq, List.length_append, List.length_map, List.length_map]; rfl
    unfold Def.at
    dsimp only
    rw [if_pos (by omega)]
    omega

theorem mapM_names {U : List Def} {Xs : List XFunc} (h : U.mapM Def.fn = some Xs) : Xs.map (·.name) = U.map (·.name) := by
  induction U generalizing Xs with
  | nil => cases h; rfl
  | cons d U ih =>
    simp only [List.mapM_cons, Option.bind_eq_bind, Option.bind_eq_some_iff, Option.pure_def, Option.some.injEq] at h
    obtain ⟨f, h1, r, h2, rfl⟩ := h
    obtain ⟨_, _, rfl⟩ := fn_eq h1
    simp only [List.map_cons, ih h2]
    rfl

theorem low_names {Xs : List XFunc} {Gs : List Func} (h : Xs.mapM XFunc.low = some Gs) : Gs.map (·.name) = Xs.map (·.name) := by
  induction Xs generalizing Gs with
  | nil => cases h; rfl
  | cons d U ih =>
    simp only [List.mapM_cons, Option.bind_eq_bind, Option.bind_eq_some_iff, Option.pure_def, Option.some.injEq] at h
    obtain ⟨f, h1, r, h2, rfl⟩ := h
    obtain ⟨_, _, _, _, _, _, rfl⟩ := low_eq h1
    simp only [List.map_cons, ih h2]

theorem low_back {Xs : List XFunc} {Gs : List Func} (h : Xs.mapM XFunc.low = some Gs) : ∀ g ∈ Gs, ∃ f ∈ Xs, f.low = some g := by
  induction Xs generalizing Gs with
  | nil => cases h; intro g hg; cases hg
  | cons d U ih =>
    simp only [List.mapM_cons, Option.bind_eq_bind, Option.bind_eq_some_iff, Option.pure_def, Option.some.injEq] at h
    obtain ⟨f, h1, r, h2, rfl⟩ := h
    intro g hg
    rcases List.mem_cons.mp hg with rfl | hg
    · exact ⟨d, List.mem_cons_self, h1⟩
    · obtain ⟨f', k1, k2⟩ := ih h2 g hg
      exact ⟨f', List.mem_cons_of_mem _ k1, k2⟩

/-- The functions as they are written, in the order of others made of them. -/
theorem reorder {Xs : List XFunc} {Gs : List Func} (h : Xs.mapM XFunc.low = some Gs) : ∀ Es : List Func, (∀ g ∈ Es, g ∈ Gs) →
    ∃ Xe : List XFunc, Xe.mapM XFunc.low = some Es ∧ ∀ f ∈ Xe, f ∈ Xs
  | [], _ => ⟨[], rfl, fun _ h => absurd h List.not_mem_nil⟩
  | g :: Es, hs => by
    obtain ⟨Xe, h1, h2⟩ := reorder h Es (fun g hg => hs g (List.mem_cons_of_mem _ hg))
    obtain ⟨f, f1, f2⟩ := low_back h g (hs g List.mem_cons_self)
    refine ⟨f :: Xe, ?_, ?_⟩
    · simp only [List.mapM_cons, f2, h1, Option.bind_eq_bind, Option.bind_some, Option.pure_def]
    · intro x hx
      rcases List.mem_cons.mp hx with rfl | hx
      · exact f1
      · exact h2 x hx

theorem name_inj {α : Type} {g : α → String} {l : List α} (hn : (l.map g).Nodup) {x y : α} (hx : x ∈ l) (hy : y ∈ l) (e : g x = g y) : x = y := by
  have hp : List.Pairwise (fun a b => g a ≠ g b) l := List.pairwise_map.mp hn
  obtain ⟨i, hi, rfl⟩ := List.mem_iff_getElem.mp hx
  obtain ⟨j, hj, rfl⟩ := List.mem_iff_getElem.mp hy
  rw [List.pairwise_iff_getElem] at hp
  rcases Nat.lt_trichotomy i j with hlt | rfl | hlt
  · exact absurd e (hp i j hi hj hlt)
  · rfl
  · exact absurd e.symm (hp j i hj hi hlt)

/-- **C74**, hidden variables. For a function whose body is typed the rewriting of the parser succeeds, and takes no more hidden variables than have been made. -/
theorem C74_hidden {d : Def} {f : XFunc} (h : d.fn = some f) (ht : f.body.typed f.ret = true) :
    (∃ g, f.low = some g) ∧ f.others.getLast? = some (⟨.int, 8, 8⟩, true) := by
  refine ⟨low_total h ht, ?_⟩
  obtain ⟨_, _, rfl⟩ := fn_eq h
  show ((made d.body).reverse ++ [_]).getLast? = _
  simp

/-- **C74**. `ts` is the text of a file that defines the functions `U`; `Xs` are these functions with their frames laid out, and `Gs` are the same as the code generator gets them. Then the
file compiles to some text `P`. If C says that calling `f` of `Xs` with arguments `vs` yields `v` and leaves `m'`, then the machine with `P` loaded does that (see C73_program_partial, where
the functions are given and here they are read from the tokens).

Missing: what C73_program_partial and C74_read_partial lack. -/
theorem C74_file_partial {ts : List Tok} {U : List Def} (h : IsFile val ts U) {Xs : List XFunc} (hX : U.mapM Def.fn = some Xs) {Gs : List Func} (hG : Xs.mapM XFunc.low = some Gs)
    (hx : ∀ f ∈ Xs, f.Wf) (hw : ∀ g ∈ Gs, Whole.Wf g) :
    ∃ P, (∃ M, ∀ n, M ≤ n → compileUnit val n ts = some P) ∧
      ∀ {env : Env} {sym : Label → W} {X : Whole.Ext} {Y : ExtX} {R C : Nat}, Loaded P env sym Gs → ExtOk env X → ExtSim Y X R → R ≤ C →
        (∀ g ∈ Gs, ∀ fr, g.lay = some fr → Func.bytes fr / 8 + g.temps ≤ C) →
        ∀ {D it lo hi room : Nat} {sp : W} {valid : W → Bool}, (D + 1) * C ≤ room → lo + 8 * room ≤ sp.toNat → sp.toNat ≤ hi → (∀ b, idx sp b < 8 * room → valid b = false) →
        ∀ f ∈ Xs, ∀ {vs : List Int} {m m' : Mem} {v : Int},
        callsX Xs Y sym lo hi it D valid (sym (.sym f.name)) f.ret.low ((f.params.map (·.low)).zip vs) m = some (v, m') →
        ∀ {s : St}, s.r .sp = sp → (∀ b, valid b = true → s.mem b = m b) →
        (∀ (i : Nat) (t : CTy) (x : Int), f.params[i]? = some t → vs[i]? = some x → ArgRep t.low x (argAt s i)) → ∀ {t : Nat}, env.index (s.r .ra) = some t →
        ∃ pos, find P (.sym f.name) = some pos ∧ ∃ s', Runs P env (pos, s) (t, s') ∧ s'.r .sp = s.r .sp ∧ s'.r .fp = s.r .fp ∧
          (∀ b, valid b = true → s'.mem b = m' b) ∧ RetRep f.ret.low v (s'.r .a0) ∧
          ∀ b, valid b = false → ¬ idx sp b < 8 * room → s'.mem b = s.mem b := by
  obtain ⟨M, a, o, ok, hr⟩ := unit_read val h start rfl rfl start_ok
  rw [show U.reverse ++ start.defs = U.reverse from List.append_nil _] at ok hr
  have hnames : Gs.map (·.name) = U.map (·.name) := (low_names hG).trans (mapM_names hX)
  have hnd : (Gs.map (·.name)).Nodup := by
    rw [hnames]
    have := ok.defs
    rw [List.map_reverse] at this
    exact (List.reverse_perm _).nodup_iff.mp this
  obtain ⟨ps, uid', hp, hps, hem⟩ := Whole.Props.C66_compiles Gs hw 0
  have hpart : Stm.PartOf (emitted o ps) ps := partOf_of _ _ (emitted_nodup ok.order) fun p hp => (mem_emitted hp).1
  obtain ⟨P, gs', he⟩ := hem (emitted o ps) ⟨0, 0⟩ hpart
  refine ⟨P, ⟨M, fun n hn => ?_⟩, ?_⟩
  · unfold compileUnit
    rw [hr n n hn hn]
    simp only [Except.toOption, Option.bind_eq_bind, Option.bind_some, List.reverse_reverse, hX, hG, hp, he]
  intro env sym X Y R C hload hext hY hR hC D it lo hi room sp valid hroom hlo hhi hst f hf vs m m' v hc s hsp hm ha t hra
  -- all functions are emitted
  have hEs : ∀ g, g ∈ (emitted o ps).map (·.1) ↔ g ∈ Gs := by
    intro g
    constructor
    · intro hg
      obtain ⟨p, hp', rfl⟩ := List.mem_map.mp hg
      rw [← hps]
      exact List.mem_map_of_mem (mem_emitted hp').1
    · intro hg
      rw [← hps] at hg
      obtain ⟨p, hp', rfl⟩ := List.mem_map.mp hg
      refine List.mem_map_of_mem (emitted_mem ?_ hp' ?_)
      · rw [← hps, List.map_map] at hnd
        exact hnd
      · have : p.1.name ∈ Gs.map (·.name) := by
          rw [← hps, List.map_map]
          exact List.mem_map_of_mem (f := fun q => q.1.name) hp'
        rw [hnames] at this
        obtain ⟨d, hd, e⟩ := List.mem_map.mp this
        rw [← e]
        exact ok.listed d (List.mem_reverse.mpr hd)
  obtain ⟨Xe, hXe, hsub⟩ := reorder hG ((emitted o ps).map (·.1)) (fun g hg => (hEs g).mp hg)
  have hXn : (Xs.map (·.name)).Nodup := by rw [← low_names hG]; exact hnd
  have hsame : ∀ x, x ∈ Xs ↔ x ∈ Xe := by
    intro x
    refine ⟨fun hx' => ?_, hsub x⟩
    obtain ⟨g, hg, hxg⟩ := low_mem hG x hx'
    obtain ⟨y, hy, hyg⟩ := low_back hXe g ((hEs g).mpr hg)
    have e : y = x := by
      refine name_inj hXn (hsub y hy) hx' ?_
      obtain ⟨_, _, _, _, _, _, e1⟩ := low_eq hxg
      obtain ⟨_, _, _, _, _, _, e2⟩ := low_eq hyg
      have := e1.symm.trans e2
      simp only [Whole.Func.mk.injEq] at this
      exact this.1.symm
    exact e ▸ hy
  obtain ⟨hu, hes, _⟩ := emitted_code hp hpart he rfl hnd hw
  have hload' : Loaded P env sym ((emitted o ps).map (·.1)) := ⟨hload.syms, fun g hg => hload.fns g ((hEs g).mp hg), hload.back⟩
  -- functions have different addresses
  have hpos : ∀ x ∈ Xs, ∃ i : Nat, env.index (sym (.sym x.name)) = some i ∧ P[i]? = some (.label (.sym x.name)) := by
    intro x hx'
    obtain ⟨g, hg, hxg⟩ := low_mem hG x hx'
    obtain ⟨_, _, _, _, _, _, e1⟩ := low_eq hxg
    have en : g.name = x.name := by rw [e1]
    obtain ⟨p, hp', e⟩ := List.mem_map.mp ((hEs g).mpr hg)
    obtain ⟨pos, _, _, _, _, _, _, _, _, _, _, _, hcode⟩ := (hes p hp').2
    have h0 : P[pos]? = some (.label (.sym g.name)) := by
      have := hcode 0 (by simp)
      rw [← e]
      simpa using this
    refine ⟨pos, ?_, en ▸ h0⟩
    rw [← en, hload.fns g hg]
    exact find_eq hu h0
  have hinj : ∀ x ∈ Xs, ∀ y ∈ Xs, sym (.sym x.name) = sym (.sym y.name) → x = y := by
    intro x hx' y hy e
    obtain ⟨i, i1, i2⟩ := hpos x hx'
    obtain ⟨j, j1, j2⟩ := hpos y hy
    rw [e, j1] at i1
    cases i1
    rw [i2] at j2
    simp only [Option.some.injEq, Instr.label.injEq, Label.sym.injEq] at j2
    exact name_inj hXn hx' hy j2
  rw [callsX_same hsame hinj] at hc
  exact C73_program_partial hp hpart he rfl hnd hw hXe (fun f hf => hx f ((hsame f).mpr hf)) hload' hext hY hR (fun g hg => hC g ((hEs g).mp hg)) hroom hlo hhi hst ((hsame f).mp hf) hc hsp hm ha hra

end Toycc.Src.Props
