import Verif.Src.ProgSpec
import Verif.Whole.Call
import Verif.Low.Mem
/-! Where the variables of a function of a program are, the hidden ones among them. -/
namespace Toycc.Src
open Toycc.Rv Toycc.Cg Toycc.Low
open Toycc.Frame hiding St
open Toycc.Whole (Func intVar inObjs bindArgs sub_sixteen idx_obj idx_down bytes_eq obj_in objs_idx)

variable {f : XFunc} {g : Func} {fr : Frame}

/-- What is known of the compiled form. -/
theorem low_eq (h : f.low = some g) : ∃ fr st k, layout f.frame = .ok fr ∧ trS (f.tmp fr) f.ret f.body 0 = some (st, k) ∧ k + 1 ≤ f.hid.length ∧
    g = ⟨f.name, f.ret.low, f.params.map (·.low), f.others.map (·.1), st⟩ := by
  unfold XFunc.low at h
  simp only [Option.bind_eq_bind, Option.bind_eq_some_iff] at h
  obtain ⟨fr, h1, ⟨st, k⟩, h2, h3⟩ := h
  dsimp only at h3
  split at h3
  · rename_i hk
    cases h3
    refine ⟨fr, st, k, ?_, h2, hk, rfl⟩
    unfold XFunc.lay at h1
    cases hx : layout f.frame with
    | error e => rw [hx] at h1; cases h1
    | ok x => rw [hx] at h1; cases h1; rfl
  · cases h3

theorem low_frame (h : f.low = some g) : g.frame = f.frame := by
  obtain ⟨_, _, _, _, _, _, rfl⟩ := low_eq h
  simp [Func.frame, XFunc.frame]

theorem low_lay (h : f.low = some g) : g.lay = f.lay := by
  unfold Func.lay XFunc.lay; rw [low_frame h]

theorem low_slots (h : f.low = some g) : g.slots fr = f.slots fr := by
  obtain ⟨_, _, _, _, _, _, rfl⟩ := low_eq h
  simp [Func.slots, XFunc.slots]

theorem low_others (h : f.low = some g) : g.others.length = f.others.length := by
  obtain ⟨_, _, _, _, _, _, rfl⟩ := low_eq h
  simp

theorem locals_eq (f : XFunc) : f.frame.locals = f.others.map (·.1) ++ f.params.map fun t => intVar t.low := by simp [Fn.locals, XFunc.frame]

theorem mem_objs {o : Int} {v : Frame.Var} (h : (o, v) ∈ f.objs fr) :
    ∃ i : Nat, fr.offs[i]? = some o ∧ f.frame.locals[i]? = some v ∧ (f.others.map (·.2) ++ f.params.map fun _ => false)[i]? = some false := by
  unfold XFunc.objs at h
  rw [List.mem_filterMap] at h
  obtain ⟨⟨p, q⟩, h1, h2⟩ := h
  dsimp only at h2
  cases q with
  | true => cases h2
  | false =>
    cases h2
    obtain ⟨i, hi⟩ := List.getElem?_of_mem h1
    rw [List.getElem?_zip_eq_some, List.getElem?_zip_eq_some] at hi
    exact ⟨i, hi.1.1, hi.1.2, hi.2⟩

theorem XFunc.Wf.pos (h : f.Wf) : 0 < f.others.length := by
  have := h.last
  cases ho : f.others with
  | nil => rw [ho] at this; simp at this
  | cons a r => simp

theorem XFunc.Wf.last' (h : f.Wf) : f.others[f.others.length - 1]? = some (⟨.int, 8, 8⟩, true) := by
  rw [← List.getLast?_eq_getElem?]; exact h.last

/-- A named variable is not at the position of a hidden one. -/
theorem flag_ne {i j : Nat} {v : Frame.Var} (hi : (f.others.map (·.2) ++ f.params.map fun _ => false)[i]? = some false) (hj : f.others[j]? = some (v, true)) : i ≠ j := by
  rintro rfl
  have hl := (List.getElem?_eq_some_iff.mp hj).1
  rw [List.getElem?_append_left (by simpa using hl), List.getElem?_map, hj] at hi
  cases hi

theorem objs_sub (hx : f.Wf) (h : f.low = some g) {p : Int × Frame.Var} (hp : p ∈ f.objs fr) : p ∈ g.objs fr := by
  obtain ⟨o, v⟩ := p
  obtain ⟨i, h1, h2, h3⟩ := mem_objs hp
  rw [Func.objs, List.mem_eraseIdx_iff_getElem?]
  refine ⟨i, ?_, ?_⟩
  · rw [low_others h]
    exact flag_ne h3 hx.last'
  · rw [List.getElem?_zip_eq_some, low_frame h]
    exact ⟨h1, h2⟩

theorem inObjs_sub (hx : f.Wf) (h : f.low = some g) {fp b : W} (hb : inObjs fp (f.objs fr) b = true) : inObjs fp (g.objs fr) b = true := by
  unfold inObjs at *
  rw [List.any_eq_true] at *
  obtain ⟨p, h1, h2⟩ := hb
  exact ⟨p, objs_sub hx h h1, h2⟩

/-! ### The hidden variables -/

/-- Position of the `k`-th one. -/
def XFunc.pos (f : XFunc) (k : Nat) : Nat := (f.hid[k + 1]?).getD (f.others.length - 1)

theorem mem_hid {i : Nat} : i ∈ f.hid ↔ ∃ v, f.others[i]? = some (v, true) := by
  unfold XFunc.hid
  rw [List.mem_reverse, List.mem_filter, List.mem_range]
  constructor
  · rintro ⟨h1, h2⟩
    rw [List.getElem?_eq_getElem h1] at h2 ⊢
    simp only [Option.map_some, beq_iff_eq, Option.some.injEq] at h2
    exact ⟨(f.others[i]).1, by rw [← h2]⟩
  · rintro ⟨v, h⟩
    exact ⟨(List.getElem?_eq_some_iff.mp h).1, by rw [h]; rfl⟩

theorem hid_nodup : f.hid.Nodup := by
  unfold XFunc.hid
  exact ((List.reverse_perm _).nodup_iff).mpr (List.Nodup.sublist List.filter_sublist List.nodup_range)

theorem pos_others (hx : f.Wf) (k : Nat) : f.others[f.pos k]? = some (⟨.int, 8, 8⟩, true) := by
  unfold XFunc.pos
  cases h : f.hid[k + 1]? with
  | none => exact hx.last'
  | some i =>
    obtain ⟨v, hv⟩ := mem_hid.mp (List.mem_of_getElem? h)
    rw [Option.getD_some, hv]
    have := hx.hidden _ (List.mem_of_getElem? hv) rfl
    dsimp only at this
    rw [this]

theorem hid_first (hx : f.Wf) : f.hid[0]? = some (f.others.length - 1) := by
  have hp := hx.pos
  unfold XFunc.hid
  have e : f.others.length = (f.others.length - 1) + 1 := by omega
  have : ((List.range f.others.length).filter fun i => (f.others[i]?.map (·.2)) == some true) =
      ((List.range (f.others.length - 1)).filter fun i => (f.others[i]?.map (·.2)) == some true) ++ [f.others.length - 1] := by
    rw [e, List.range_succ, List.filter_append, Nat.add_sub_cancel]
    congr 1
    rw [List.filter_cons_of_pos (by rw [hx.last']; rfl), List.filter_nil]
  rw [this, List.reverse_append]
  rfl

theorem pos_ne_last (hx : f.Wf) {k : Nat} (hk : k + 1 < f.hid.length) : f.pos k ≠ f.others.length - 1 := by
  unfold XFunc.pos
  rw [List.getElem?_eq_getElem hk, Option.getD_some]
  intro h
  have h0 := hid_first hx
  have h1 : f.hid[k + 1]? = f.hid[0]? := by rw [h0, List.getElem?_eq_getElem hk, h]
  have := (List.getElem?_inj hk hid_nodup).mp h1
  omega

theorem pos_inj {k k' : Nat} (hk : k + 1 < f.hid.length) (hk' : k' + 1 < f.hid.length) (h : f.pos k = f.pos k') : k = k' := by
  unfold XFunc.pos at h
  rw [List.getElem?_eq_getElem hk, Option.getD_some, List.getElem?_eq_getElem hk', Option.getD_some] at h
  have h1 : f.hid[k + 1]? = f.hid[k' + 1]? := by rw [List.getElem?_eq_getElem hk, List.getElem?_eq_getElem hk', h]
  have := (List.getElem?_inj hk hid_nodup).mp h1
  omega

theorem pos_local (hx : f.Wf) (k : Nat) : f.frame.locals[f.pos k]? = some ⟨.int, 8, 8⟩ := by
  have h := pos_others hx k
  have hl := (List.getElem?_eq_some_iff.mp h).1
  rw [locals_eq, List.getElem?_append_left (by simpa using hl), List.getElem?_map, h]
  rfl

theorem align_of (h : f.low = some g) (hw : Whole.Wf g) : ∀ v ∈ f.frame.locals, 0 < v.align := by
  rw [← low_frame h]; exact hw.align

theorem tmp_pos (hx : f.Wf) (h : f.low = some g) (hw : Whole.Wf g) (hl : layout f.frame = .ok fr) (k : Nat) : fr.offs[f.pos k]? = some (f.tmp fr k) := by
  obtain ⟨c1, _⟩ := C48_frame f.frame fr (align_of h hw) hl
  have hlt := (List.getElem?_eq_some_iff.mp (pos_local hx k)).1
  show fr.offs[f.pos k]? = some ((fr.offs[f.pos k]?).getD 0)
  rw [List.getElem?_eq_getElem (by omega), Option.getD_some]

theorem tmp_in (hx : f.Wf) (h : f.low = some g) (hw : Whole.Wf g) (hl : layout f.frame = .ok fr) (k : Nat) : InFrame fr.size ⟨.int, 8, 8⟩ (f.tmp fr k) := by
  obtain ⟨_, _, _, c4, _⟩ := C48_frame f.frame fr (align_of h hw) hl
  obtain ⟨o, e1, e2⟩ := c4 (f.pos k) ⟨.int, 8, 8⟩ (by
    show (f.others.map (·.1))[f.pos k]? = _
    rw [List.getElem?_map, pos_others hx k]; rfl)
  rw [tmp_pos hx h hw hl] at e1
  cases e1
  exact e2

/-- A hidden variable is an object of the compiled function. -/
theorem tmp_obj (hx : f.Wf) (h : f.low = some g) (hw : Whole.Wf g) (hl : layout f.frame = .ok fr) {k : Nat} (hk : k + 1 < f.hid.length) :
    (f.tmp fr k, (⟨.int, 8, 8⟩ : Frame.Var)) ∈ g.objs fr := by
  rw [Func.objs, List.mem_eraseIdx_iff_getElem?]
  refine ⟨f.pos k, ?_, ?_⟩
  · rw [low_others h]; exact pos_ne_last hx hk
  · rw [List.getElem?_zip_eq_some, low_frame h]
    exact ⟨tmp_pos hx h hw hl k, pos_local hx k⟩

theorem tmp_apart (hx : f.Wf) (h : f.low = some g) (hw : Whole.Wf g) (hl : layout f.frame = .ok fr) {k k' : Nat} (hne : f.pos k ≠ f.pos k') :
    Apart (f.tmp fr k) 8 (f.tmp fr k') 8 := by
  obtain ⟨_, _, _, _, _, _, c7⟩ := C48_frame f.frame fr (align_of h hw) hl
  exact c7 _ _ _ _ _ _ hne (pos_local hx k) (pos_local hx k') (tmp_pos hx h hw hl k) (tmp_pos hx h hw hl k')

theorem obj_apart (hx : f.Wf) (h : f.low = some g) (hw : Whole.Wf g) (hl : layout f.frame = .ok fr) {o : Int} {v : Frame.Var} (ho : (o, v) ∈ f.objs fr) (k : Nat) :
    Apart o v.size (f.tmp fr k) 8 := by
  obtain ⟨_, _, _, _, _, _, c7⟩ := C48_frame f.frame fr (align_of h hw) hl
  obtain ⟨i, h1, h2, h3⟩ := mem_objs ho
  exact c7 _ _ _ _ _ _ (flag_ne h3 (pos_others hx k)) h2 (pos_local hx k) h1 (tmp_pos hx h hw hl k)

/-! ### On the stack -/

/-- Bytes of hidden variables, counted from the stack pointer of the caller. -/
theorem tmp_idx (hx : f.Wf) (h : f.low = some g) (hw : Whole.Wf g) (hl : layout f.frame = .ok fr) (hb : Func.bytes fr < 2 ^ 64) {S b : W} {k : Nat}
    (hlt : (b - (S - 8 - 8 + BitVec.ofInt 64 (f.tmp fr k))).toNat < 8) : idx S b < Func.bytes fr ∧
      (idx S b : Int) = 15 - f.tmp fr k - (b - (S - 8 - 8 + BitVec.ofInt 64 (f.tmp fr k))).toNat := by
  obtain ⟨g1, g2, _⟩ := tmp_in hx h hw hl k
  dsimp only at g2
  unfold Func.bytes at *
  generalize f.tmp fr k = o at *
  obtain ⟨q, rfl⟩ : ∃ q : Nat, o = -(q : Int) := ⟨(-o).toNat, by omega⟩
  have e2 := idx_obj rfl (by omega) (by omega) (S := S) (b := b) (n := q)
  omega

theorem tmp_apart_obj (hx : f.Wf) (h : f.low = some g) (hw : Whole.Wf g) (hl : layout f.frame = .ok fr) (hneg : ∀ p ∈ g.slots fr, p.2 ≤ 0)
    (hb : Func.bytes fr < 2 ^ 64) {S b : W} (ho : inObjs (S - 8 - 8) (f.objs fr) b = true) (k : Nat) :
    8 ≤ (b - (S - 8 - 8 + BitVec.ofInt 64 (f.tmp fr k))).toNat := by
  apply Nat.le_of_not_lt
  intro hlt
  obtain ⟨_, e⟩ := tmp_idx hx h hw hl hb hlt
  unfold inObjs at ho
  rw [List.any_eq_true] at ho
  obtain ⟨⟨o, v⟩, hm, ho⟩ := ho
  rw [decide_eq_true_eq] at ho
  dsimp only at ho
  have hap := obj_apart hx h hw hl hm k
  obtain ⟨⟨h1, h2, _⟩, _⟩ := obj_in hw (by rw [low_frame h]; exact hl) hneg (objs_sub hx h hm)
  have hsz := (bytes_eq hw (by rw [low_frame h]; exact hl)).2
  unfold Func.bytes at hb
  obtain ⟨n, rfl⟩ : ∃ n : Nat, o = -(n : Int) := ⟨(-o).toNat, by omega⟩
  have e2 := idx_obj rfl (by omega) (by omega) (S := S) (b := b) (n := n)
  rcases hap with hap | hap <;> omega

theorem tmp_disjoint (hx : f.Wf) (h : f.low = some g) (hw : Whole.Wf g) (hl : layout f.frame = .ok fr) (hb : Func.bytes fr < 2 ^ 64) {S b : W} {k k' : Nat}
    (hk : k + 1 < f.hid.length) (hk' : k' + 1 < f.hid.length) (hne : k ≠ k') (hlt : (b - (S - 8 - 8 + BitVec.ofInt 64 (f.tmp fr k))).toNat < 8) :
    8 ≤ (b - (S - 8 - 8 + BitVec.ofInt 64 (f.tmp fr k'))).toNat := by
  apply Nat.le_of_not_lt
  intro hlt'
  obtain ⟨_, e⟩ := tmp_idx hx h hw hl hb hlt
  obtain ⟨_, e'⟩ := tmp_idx hx h hw hl hb hlt'
  rcases tmp_apart hx h hw hl (mt (pos_inj hk hk') hne) with hap | hap <;> omega

theorem tmp_valid (hx : f.Wf) (h : f.low = some g) (hw : Whole.Wf g) (hl : layout f.frame = .ok fr) {fp : W} {k i : Nat} (hk : k + 1 < f.hid.length) (hi : i < 8) :
    inObjs fp (g.objs fr) (fp + BitVec.ofInt 64 (f.tmp fr k) + BitVec.ofNat 64 i) = true := by
  unfold inObjs
  rw [List.any_eq_true]
  refine ⟨_, tmp_obj hx h hw hl hk, ?_⟩
  rw [decide_eq_true_eq]
  dsimp only
  rw [slot_idx _ hi]
  exact hi

end Toycc.Src
