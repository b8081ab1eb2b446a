import Verif.Init.Spec
/-! The bits an initialiser determines, as a list, in order of position. -/
namespace Toycc.Init
open Toycc.Cg Toycc.Low Toycc.Rv

structure Fld where
  pos : Nat
  width : Nat
  val : W

variable {α : Type} {M : Meaning α}

mutual
def flds (M : Meaning α) : Ty → Ini α → Nat → List Fld
  | .arr b k, .mk _ _ cs, o => fldsArr M b k cs o
  | .struc _ ms, .mk _ _ cs, o => fldsMems M ms cs o
  | .union _ _, .mk _ none _, _ => []
  | .union _ ms, .mk _ (some k) cs, o => fldsNth M k ms cs o
  | _, .mk none _ _, _ => []
  | t, .mk (some e) _ _, o => [⟨8 * o, 8 * t.size, M.scalar t e⟩]
def fldsArr (M : Meaning α) : Ty → Nat → Inis α → Nat → List Fld
  | _, 0, _, _ => []
  | _, _ + 1, .nil, _ => []
  | b, k + 1, .cons c r, o => flds M b c o ++ fldsArr M b k r (o + b.size)
def fldsMems (M : Meaning α) : Mems → Inis α → Nat → List Fld
  | .nil, _, _ => []
  | .cons _ _ _ _, .nil, _ => []
  | .cons off (some (bo, bw)) (.scalar t) r, .cons c cs, o =>
    (match c.expr with
    | none => []
    | some e => [⟨8 * (o + off) + bo, bw, M.field t bw e⟩]) ++ fldsMems M r cs o
  | .cons _ (some _) _ r, .cons _ cs, o => fldsMems M r cs o
  | .cons off none t r, .cons c cs, o => flds M t c (o + off) ++ fldsMems M r cs o
def fldsNth (M : Meaning α) : Nat → Mems → Inis α → Nat → List Fld
  | 0, .cons off none t _, .cons c _, o => flds M t c (o + off)
  | 0, .cons off (some (bo, bw)) (.scalar t) _, .cons c _, o =>
    match c.expr with
    | none => []
    | some e => [⟨8 * (o + off) + bo, bw, M.field t bw e⟩]
  | 0, .cons _ (some _) _ _, .cons _ _, _ => []
  | k + 1, .cons _ _ _ r, .cons _ cs, o => fldsNth M k r cs o
  | _, _, _, _ => []
end

abbrev Fld.has (f : Fld) (i : Nat) : Prop := f.pos ≤ i ∧ i < f.pos + f.width

/-! ### The list and the specification -/

theorem flds_arr_mem {b : Ty} {f : Fld} {cs : Inis α} : ∀ {n o : Nat}, f ∈ fldsArr M b n cs o ↔ ∃ k c, k < n ∧ cs.get? k = some c ∧ f ∈ flds M b c (o + b.size * k) := by
  intro n
  induction n generalizing cs with
  | zero => intro o; simp [fldsArr]
  | succ n ih =>
    intro o
    cases cs with
    | nil => simp [fldsArr, Inis.get?]
    | cons c r =>
      simp only [fldsArr, List.mem_append, ih]
      constructor
      · rintro (h | ⟨k, c', h1, h2, h3⟩)
        · exact ⟨0, c, by omega, rfl, by simpa using h⟩
        · refine ⟨k + 1, c', by omega, h2, ?_⟩
          rw [Nat.mul_succ, ← Nat.add_assoc, Nat.add_right_comm]; exact h3
      · rintro ⟨k, c', h1, h2, h3⟩
        cases k with
        | zero => left; cases h2; simpa using h3
        | succ k =>
          right
          refine ⟨k, c', by omega, h2, ?_⟩
          rw [Nat.mul_succ, ← Nat.add_assoc, Nat.add_right_comm] at h3; exact h3

/-- What a member contributes. -/
def fldsMem (M : Meaning α) (off : Nat) (b : Option (Nat × Nat)) (t : Ty) (c : Ini α) (o : Nat) : List Fld :=
  match b, t with
  | none, t => flds M t c (o + off)
  | some (bo, bw), .scalar t =>
    match c.expr with
    | none => []
    | some e => [⟨8 * (o + off) + bo, bw, M.field t bw e⟩]
  | some _, _ => []

theorem fldsMems_cons (off : Nat) (b : Option (Nat × Nat)) (t : Ty) (r : Mems) (c : Ini α) (cs : Inis α) (o : Nat) :
    fldsMems M (.cons off b t r) (.cons c cs) o = fldsMem M off b t c o ++ fldsMems M r cs o := by
  cases b with
  | none => simp [fldsMems, fldsMem]
  | some p =>
    obtain ⟨bo, bw⟩ := p
    cases t <;> simp [fldsMems, fldsMem]

theorem flds_mems_mem {f : Fld} {o : Nat} : ∀ {ms : Mems} {cs : Inis α}, f ∈ fldsMems M ms cs o ↔
    ∃ k off b t c, ms.get? k = some (off, b, t) ∧ cs.get? k = some c ∧ f ∈ fldsMem M off b t c o
  | .nil, cs => by simp [fldsMems, Mems.get?]
  | .cons _ _ _ _, .nil => by simp [fldsMems, Inis.get?]
  | .cons off b t r, .cons c cs => by
    rw [fldsMems_cons, List.mem_append, flds_mems_mem (ms := r) (cs := cs)]
    constructor
    · rintro (h | ⟨k, off', b', t', c', h1, h2, h3⟩)
      · exact ⟨0, off, b, t, c, rfl, rfl, h⟩
      · exact ⟨k + 1, off', b', t', c', h1, h2, h3⟩
    · rintro ⟨k, off', b', t', c', h1, h2, h3⟩
      cases k with
      | zero => left; cases h1; cases h2; exact h3
      | succ k => right; exact ⟨k, off', b', t', c', h1, h2, h3⟩

theorem flds_nth_mem {f : Fld} {o : Nat} : ∀ {k : Nat} {ms : Mems} {cs : Inis α}, f ∈ fldsNth M k ms cs o ↔
    ∃ off b t c, ms.get? k = some (off, b, t) ∧ cs.get? k = some c ∧ f ∈ fldsMem M off b t c o
  | k, .nil, cs => by cases k <;> simp [fldsNth, Mems.get?]
  | k, .cons _ _ _ _, .nil => by cases k <;> simp [fldsNth, Inis.get?]
  | 0, .cons off b t r, .cons c cs => by
    have e : fldsNth M 0 (.cons off b t r) (.cons c cs) o = fldsMem M off b t c o := by
      cases b with
      | none => simp [fldsNth, fldsMem]
      | some p =>
        obtain ⟨bo, bw⟩ := p
        cases t <;> simp [fldsNth, fldsMem]
    rw [e]
    constructor
    · intro h; exact ⟨off, b, t, c, rfl, rfl, h⟩
    · rintro ⟨off', b', t', c', h1, h2, h3⟩; cases h1; cases h2; exact h3
  | k + 1, .cons off b t r, .cons c cs => by
    rw [show fldsNth M (k + 1) (.cons off b t r) (.cons c cs) o = fldsNth M k r cs o from rfl, flds_nth_mem (k := k) (ms := r) (cs := cs)]
    rfl

mutual
theorem sets_of_flds {f : Fld} : ∀ {i : Ini α} {t : Ty} {o : Nat}, f ∈ flds M t i o → Sets M t i o f.pos f.width f.val
  | .mk x m cs, .arr b n, o, h => by
    obtain ⟨k, c, h1, h2, h3⟩ := flds_arr_mem.mp h
    exact .elem h1 h2 (sets_of_child cs k c h2 h3)
  | .mk x m cs, .struc n ms, o, h => by
    obtain ⟨k, off, b, t, c, h1, h2, h3⟩ := flds_mems_mem.mp h
    cases b with
    | none => exact .member h1 h2 (sets_of_child cs k c h2 h3)
    | some p =>
      obtain ⟨bo, bw⟩ := p
      cases t <;> simp only [fldsMem] at h3 <;> try (cases h3; done)
      cases he : c.expr with
      | none => rw [he] at h3; cases h3
      | some e => rw [he] at h3; rw [List.mem_singleton.mp h3]; exact .bits h1 h2 he
  | .mk x none cs, .union n ms, o, h => by cases h
  | .mk x (some k) cs, .union n ms, o, h => by
    obtain ⟨off, b, t, c, h1, h2, h3⟩ := flds_nth_mem.mp h
    cases b with
    | none => exact .umember h1 h2 (sets_of_child cs k c h2 h3)
    | some p =>
      obtain ⟨bo, bw⟩ := p
      cases t <;> simp only [fldsMem] at h3 <;> try (cases h3; done)
      cases he : c.expr with
      | none => rw [he] at h3; cases h3
      | some e => rw [he] at h3; rw [List.mem_singleton.mp h3]; exact .ubits h1 h2 he
  | .mk none m cs, .scalar t, o, h => by cases h
  | .mk none m cs, .flt, o, h => by cases h
  | .mk none m cs, .dbl, o, h => by cases h
  | .mk none m cs, .ldbl, o, h => by cases h
  | .mk (some e) m cs, .scalar t, o, h => by rw [List.mem_singleton.mp h]; exact .scalar rfl
  | .mk (some e) m cs, .flt, o, h => by rw [List.mem_singleton.mp h]; exact .scalar rfl
  | .mk (some e) m cs, .dbl, o, h => by rw [List.mem_singleton.mp h]; exact .scalar rfl
  | .mk (some e) m cs, .ldbl, o, h => by rw [List.mem_singleton.mp h]; exact .scalar rfl
theorem sets_of_child {f : Fld} : ∀ (cs : Inis α) (k : Nat) (c : Ini α) {t : Ty} {o : Nat}, cs.get? k = some c → f ∈ flds M t c o → Sets M t c o f.pos f.width f.val
  | .nil, _, _, _, _, h, _ => by simp [Inis.get?] at h
  | .cons i _, 0, _, _, _, h, hf => by cases h; exact sets_of_flds hf
  | .cons _ r, k + 1, c, _, _, h, hf => sets_of_child r k c h hf
end

theorem flds_of_sets {t : Ty} {i : Ini α} {o p w : Nat} {v : W} (h : Sets M t i o p w v) : (⟨p, w, v⟩ : Fld) ∈ flds M t i o := by
  induction h with
  | @scalar t e m cs o h => cases t <;> first | (cases h; done) | exact List.mem_singleton.mpr rfl
  | elem hk hc h ih => exact flds_arr_mem.mpr ⟨_, _, hk, hc, ih⟩
  | member hm hc h ih => exact flds_mems_mem.mpr ⟨_, _, _, _, _, hm, hc, ih⟩
  | bits hm hc he => exact flds_mems_mem.mpr ⟨_, _, _, _, _, hm, hc, by simp [fldsMem, he]⟩
  | umember hm hc h ih => exact flds_nth_mem.mpr ⟨_, _, _, _, hm, hc, ih⟩
  | ubits hm hc he => exact flds_nth_mem.mpr ⟨_, _, _, _, hm, hc, by simp [fldsMem, he]⟩

/-! ### Order -/

/-- Fields in order and apart, between two bits. -/
def Apart (lo hi : Nat) (fs : List Fld) : Prop :=
  fs.Pairwise (fun f g => f.pos + f.width ≤ g.pos) ∧ ∀ f ∈ fs, lo ≤ f.pos ∧ f.pos + f.width ≤ hi

theorem Apart.append {lo mid hi : Nat} {fs gs : List Fld} (h1 : Apart lo mid fs) (h2 : Apart mid hi gs) (hm : lo ≤ mid) (hh : mid ≤ hi) : Apart lo hi (fs ++ gs) := by
  refine ⟨List.pairwise_append.mpr ⟨h1.1, h2.1, fun f hf g hg => ?_⟩, fun f hf => ?_⟩
  · have := h1.2 f hf; have := h2.2 g hg; omega
  · rcases List.mem_append.mp hf with h | h
    · have := h1.2 f h; omega
    · have := h2.2 f h; omega

theorem Apart.nil (lo hi : Nat) : Apart lo hi [] := ⟨.nil, by simp⟩

theorem Apart.one {lo hi : Nat} {f : Fld} (h1 : lo ≤ f.pos) (h2 : f.pos + f.width ≤ hi) : Apart lo hi [f] :=
  ⟨by simp, by simp [h1, h2]⟩

theorem Apart.mono {lo hi lo' hi' : Nat} {fs : List Fld} (h : Apart lo hi fs) (h1 : lo' ≤ lo) (h2 : hi ≤ hi') : Apart lo' hi' fs :=
  ⟨h.1, fun f hf => by have := h.2 f hf; omega⟩

theorem Mems.Wf.le {n : Nat} : ∀ {ms : Mems} {cur : Nat}, ms.Wf n cur → cur ≤ 8 * n
  | .nil, _, h => h
  | .cons off none t r, cur, h => by have := h.1; have := h.2.2.1; omega
  | .cons off (some (bo, bw)) t r, cur, h => by
    obtain ⟨h1, -, -, h3, h4, h5, -⟩ := h
    omega

mutual
theorem flds_apart : ∀ (i : Ini α) (t : Ty) (o : Nat), t.Wf → Apart (8 * o) (8 * (o + t.size)) (flds M t i o)
  | .mk x m cs, .arr b n, o, h => by
    have := fldsArr_apart cs b n o h
    simpa [flds, Ty.size] using this
  | .mk x m cs, .struc n ms, o, h => by
    have := fldsMems_apart cs ms n 0 o h
    simpa [flds, Ty.size] using this
  | .mk x none cs, .union n ms, o, h => Apart.nil _ _
  | .mk x (some k) cs, .union n ms, o, h => fldsNth_apart cs k ms n o h
  | .mk none m cs, .scalar t, o, h => Apart.nil _ _
  | .mk none m cs, .flt, o, h => Apart.nil _ _
  | .mk none m cs, .dbl, o, h => Apart.nil _ _
  | .mk none m cs, .ldbl, o, h => Apart.nil _ _
  | .mk (some e) m cs, .scalar t, o, h => Apart.one (Nat.le_refl _) (by show 8 * o + 8 * _ ≤ _; omega)
  | .mk (some e) m cs, .flt, o, h => Apart.one (Nat.le_refl _) (by show 8 * o + 8 * _ ≤ _; omega)
  | .mk (some e) m cs, .dbl, o, h => Apart.one (Nat.le_refl _) (by show 8 * o + 8 * _ ≤ _; omega)
  | .mk (some e) m cs, .ldbl, o, h => Apart.one (Nat.le_refl _) (by show 8 * o + 8 * _ ≤ _; omega)
theorem fldsArr_apart : ∀ (cs : Inis α) (b : Ty) (n o : Nat), b.Wf → Apart (8 * o) (8 * (o + b.size * n)) (fldsArr M b n cs o)
  | _, b, 0, o, h => by simpa [fldsArr] using Apart.nil _ _
  | .nil, b, n + 1, o, h => Apart.nil _ _
  | .cons c r, b, n + 1, o, h => by
    have h1 := flds_apart c b o h
    have h2 := fldsArr_apart r b n (o + b.size) h
    have e : o + b.size + b.size * n = o + b.size * (n + 1) := by rw [Nat.mul_succ]; omega
    rw [e] at h2
    exact h1.append h2 (by omega) (by rw [Nat.mul_succ]; omega)
theorem fldsMems_apart : ∀ (cs : Inis α) (ms : Mems) (n cur o : Nat), ms.Wf n cur → Apart (8 * o + cur) (8 * (o + n)) (fldsMems M ms cs o)
  | _, .nil, n, cur, o, h => by simpa [fldsMems] using Apart.nil _ _
  | .nil, .cons _ _ _ _, n, cur, o, h => Apart.nil _ _
  | .cons c cs, .cons off none t r, n, cur, o, h => by
    obtain ⟨h1, h2, h3, h4⟩ := h
    have a1 := flds_apart c t (o + off) h2
    have a2 := fldsMems_apart cs r n _ o h4
    rw [fldsMems_cons]
    refine (a1.mono (lo' := 8 * o + cur) (hi' := 8 * o + 8 * (off + t.size)) (by omega) (by omega)).append a2 (by omega) (by omega)
  | .cons c cs, .cons off (some (bo, bw)) t r, n, cur, o, h => by
    obtain ⟨h1, h2, h3, h4, h5, h6, h7⟩ := h
    have a2 := fldsMems_apart cs r n _ o h7
    rw [fldsMems_cons]
    obtain ⟨ct, rfl, -⟩ := h3
    refine Apart.append (mid := 8 * o + (8 * off + bo + bw)) ?_ a2 (by omega) (by omega)
    simp only [fldsMem]
    cases c.expr with
    | none => exact Apart.nil _ _
    | some e => exact Apart.one (by dsimp only; omega) (by dsimp only; omega)
theorem fldsNth_apart : ∀ (cs : Inis α) (k : Nat) (ms : Mems) (n o : Nat), ms.WfU n → Apart (8 * o) (8 * (o + n)) (fldsNth M k ms cs o)
  | cs, k, .nil, n, o, h => by cases k <;> simpa [fldsNth] using Apart.nil _ _
  | .nil, k, .cons _ _ _ _, n, o, h => by cases k <;> simpa [fldsNth] using Apart.nil _ _
  | .cons c cs, 0, .cons off none t r, n, o, h => by
    obtain ⟨h1, h2, h3, h4, h5⟩ := h
    have a1 := flds_apart c t (o + off) h2
    exact a1.mono (by omega) (by omega)
  | .cons c cs, 0, .cons off (some (bo, bw)) t r, n, o, h => by
    obtain ⟨h1, h2, h3, h4, h5⟩ := h
    obtain ⟨g1, g2, g3, ct, rfl, -⟩ := h4 bo bw rfl
    simp only [fldsNth]
    cases c.expr with
    | none => exact Apart.nil _ _
    | some e => exact Apart.one (by dsimp only; omega) (by dsimp only; omega)
  | .cons c cs, k + 1, .cons off b t r, n, o, h => fldsNth_apart cs k r n o h.2.2.2.2
end

/-! ### Blank initialisers -/

mutual
theorem blank_flds : ∀ (i : Ini α) (t : Ty) (o : Nat), i.blank = true → flds M t i o = []
  | .mk x m cs, .arr b n, o, h => by
    simp only [Ini.blank, Bool.and_eq_true] at h
    exact List.eq_nil_iff_forall_not_mem.mpr fun f hf => by
      obtain ⟨k, c, -, h2, h3⟩ := flds_arr_mem.mp hf
      rw [(blank_child cs k c h.2 h2).2] at h3; cases h3
  | .mk x m cs, .struc n ms, o, h => by
    simp only [Ini.blank, Bool.and_eq_true] at h
    exact blank_mems cs ms o h.2
  | .mk x none cs, .union n ms, o, h => rfl
  | .mk x (some k) cs, .union n ms, o, h => by
    simp only [Ini.blank, Bool.and_eq_true] at h
    exact List.eq_nil_iff_forall_not_mem.mpr fun f hf => by
      obtain ⟨off, b, t, c, -, h2, h3⟩ := flds_nth_mem.mp hf
      cases b with
      | none => rw [show fldsMem M off none t c o = flds M t c (o + off) from rfl, (blank_child cs k c h.2 h2).2] at h3; cases h3
      | some p =>
        obtain ⟨bo, bw⟩ := p
        cases t <;> simp only [fldsMem] at h3 <;> try (cases h3; done)
        rw [(blank_child (t := .flt) (o := 0) cs k c h.2 h2).1] at h3
        cases h3
  | .mk none m cs, .scalar t, o, h => rfl
  | .mk none m cs, .flt, o, h => rfl
  | .mk none m cs, .dbl, o, h => rfl
  | .mk none m cs, .ldbl, o, h => rfl
  | .mk (some e) m cs, .scalar t, o, h => by simp [Ini.blank] at h
  | .mk (some e) m cs, .flt, o, h => by simp [Ini.blank] at h
  | .mk (some e) m cs, .dbl, o, h => by simp [Ini.blank] at h
  | .mk (some e) m cs, .ldbl, o, h => by simp [Ini.blank] at h
theorem blank_child : ∀ (cs : Inis α) (k : Nat) (c : Ini α) {t : Ty} {o : Nat}, cs.blank = true → cs.get? k = some c → c.expr = none ∧ flds M t c o = []
  | .nil, _, _, _, _, _, h => by simp [Inis.get?] at h
  | .cons i _, 0, _, t, o, hb, h => by
    simp only [Inis.blank, Bool.and_eq_true] at hb
    cases h
    refine ⟨?_, blank_flds i t o hb.1⟩
    cases i; simp only [Ini.blank, Bool.and_eq_true, Option.isNone_iff_eq_none] at hb; exact hb.1.1
  | .cons _ r, k + 1, c, _, _, hb, h => by
    simp only [Inis.blank, Bool.and_eq_true] at hb
    exact blank_child r k c hb.2 h
theorem blank_mems : ∀ (cs : Inis α) (ms : Mems) (o : Nat), cs.blank = true → fldsMems M ms cs o = []
  | _, .nil, _, _ => by simp [fldsMems]
  | .nil, .cons _ _ _ _, _, _ => rfl
  | .cons c cs, .cons off b t r, o, h => by
    simp only [Inis.blank, Bool.and_eq_true] at h
    rw [fldsMems_cons, blank_mems cs r o h.2, List.append_nil]
    cases b with
    | none => exact blank_flds c t _ h.1
    | some p =>
      obtain ⟨bo, bw⟩ := p
      have : c.expr = none := by
        cases c; have h1 := h.1; simp only [Ini.blank, Bool.and_eq_true, Option.isNone_iff_eq_none] at h1; exact h1.1
      cases t <;> simp [fldsMem, this]
end

/-! ### Putting fields -/

/-- The bits after a field got its value. -/
def put (f : Fld) (g : Nat → Bool) : Nat → Bool := fun i => if f.has i then f.val.getLsbD (i - f.pos) else g i

/-- The bits after all fields got their values, in order. -/
def over : List Fld → (Nat → Bool) → Nat → Bool
  | [], g => g
  | f :: fs, g => over fs (put f g)

theorem over_append (fs gs : List Fld) (g : Nat → Bool) : over (fs ++ gs) g = over gs (over fs g) := by
  induction fs generalizing g with
  | nil => rfl
  | cons f fs ih => exact ih _

theorem over_out {fs : List Fld} {g : Nat → Bool} {i : Nat} (h : ∀ f ∈ fs, ¬ f.has i) : over fs g i = g i := by
  induction fs generalizing g with
  | nil => rfl
  | cons f fs ih =>
    rw [over, ih fun f' hf' => h f' (List.mem_cons_of_mem _ hf'), put, if_neg (h f (List.mem_cons_self ..))]

theorem over_in {fs : List Fld} {g : Nat → Bool} {f : Fld} {k : Nat} (hp : fs.Pairwise (fun f g => f.pos + f.width ≤ g.pos)) (hf : f ∈ fs) (hk : k < f.width) :
    over fs g (f.pos + k) = f.val.getLsbD k := by
  induction fs generalizing g with
  | nil => cases hf
  | cons f' fs ih =>
    rw [List.pairwise_cons] at hp
    rcases List.mem_cons.mp hf with rfl | hf
    · rw [over, over_out, put, if_pos ⟨by omega, by omega⟩]
      · congr 1; omega
      · intro g' hg' hh
        have := hp.1 g' hg'
        have := hh.1
        omega
    · exact ih hp.2 hf

/-- Putting the fields of a well-formed type on zero bits initialises the object. -/
theorem initialised_over {t : Ty} {i : Ini α} (hw : t.Wf) {bit : Nat → Bool} (g : Nat → Bool) (hb : ∀ j, j < 8 * t.size → bit j = over (flds M t i 0) g j)
    (hg : ∀ j, j < 8 * t.size → g j = false) (ho : ∀ j, 8 * t.size ≤ j → bit j = false) : Initialised M t i bit := by
  have ha := flds_apart (M := M) i t 0 hw
  constructor
  · intro p w v hs k hk
    have hm := flds_of_sets hs
    have := (ha.2 _ hm).2
    dsimp only at this
    rw [hb _ (by omega)]
    exact over_in ha.1 hm hk
  · intro j hj
    by_cases h : j < 8 * t.size
    · rw [hb j h, over_out, hg j h]
      intro f hf
      exact hj _ _ _ (sets_of_flds hf)
    · exact ho j (by omega)

end Toycc.Init
