import Verif.Whole.Enter
/-! Where the objects of a call are on the stack. -/
namespace Toycc.Whole
open Toycc.Rv Toycc.Cg Toycc.Fn
open Toycc.Stm hiding exec
open Toycc.Frame hiding St

theorem idx_sub (B b : W) (K : Nat) : B - BitVec.ofNat 64 K - 1 - b = (B - 1 - b) - BitVec.ofNat 64 K := by
  simp only [BitVec.sub_eq_add_neg]; ac_rfl

theorem idx_down {B b : W} {K : Nat} (h : idx (B - BitVec.ofNat 64 K) b + K < 2 ^ 64) : idx B b = idx (B - BitVec.ofNat 64 K) b + K := by
  unfold idx at *
  rw [idx_sub] at *
  generalize B - 1 - b = x at *
  rw [BitVec.toNat_sub, BitVec.toNat_ofNat] at *
  have := x.isLt
  omega

theorem idx_in {B b : W} {K : Nat} (hK : K ≤ idx B b) : idx (B - BitVec.ofNat 64 K) b = idx B b - K := by
  unfold idx at *
  rw [idx_sub]
  generalize B - 1 - b = x at *
  rw [BitVec.toNat_sub, BitVec.toNat_ofNat] at *
  have := x.isLt
  omega

theorem idx_out {B b : W} {K : Nat} (hK : idx B b < K) (h : K < 2 ^ 64) : idx (B - BitVec.ofNat 64 K) b = idx B b + 2 ^ 64 - K := by
  unfold idx at *
  rw [idx_sub]
  generalize B - 1 - b = x at *
  rw [BitVec.toNat_sub, BitVec.toNat_ofNat] at *
  have := x.isLt
  omega

/-- Byte `j` of something that starts `n` bytes below `S`. -/
theorem idx_byte {S b : W} {n j : Nat} (hj : (b - (S - BitVec.ofNat 64 n)).toNat = j) (h : j < n) (hn : n < 2 ^ 64) : idx S b = n - 1 - j := by
  unfold idx
  have e : S - 1 - b = BitVec.ofNat 64 n - 1 - (b - (S - BitVec.ofNat 64 n)) := by
    have : b = (b - (S - BitVec.ofNat 64 n)) + (S - BitVec.ofNat 64 n) := (BitVec.sub_add_cancel _ _).symm
    generalize b - (S - BitVec.ofNat 64 n) = x at *
    subst this
    generalize BitVec.ofNat 64 n = N
    have e1 : S - 1 - (x + (S - N)) = (S - S) + (N - 1 - x) := by
      simp only [BitVec.sub_eq_add_neg, BitVec.neg_add, BitVec.neg_neg]; ac_rfl
    rw [e1, BitVec.sub_self, BitVec.zero_add]
  rw [e]
  generalize b - (S - BitVec.ofNat 64 n) = x at *
  have h1 : BitVec.ofNat 64 n - 1 = BitVec.ofNat 64 (n - 1) := by
    apply BitVec.eq_of_toNat_eq
    simp only [BitVec.toNat_sub, BitVec.toNat_ofNat, BitVec.ofNat_eq_ofNat]
    omega
  rw [h1, BitVec.toNat_sub, BitVec.toNat_ofNat, hj]
  omega

theorem sub_eight (S : W) : S - 8 = S - BitVec.ofNat 64 8 := rfl

theorem sub_sixteen (S : W) : S - 8 - 8 = S - BitVec.ofNat 64 16 := by
  have e : S - 8 - 8 = S + (-8 + -8 : W) := by
    simp only [BitVec.sub_eq_add_neg]; ac_rfl
  rw [e, BitVec.sub_eq_add_neg]; rfl

theorem sub_obj (S : W) (n : Nat) : S - 8 - 8 + BitVec.ofInt 64 (-(n : Int)) = S - BitVec.ofNat 64 (16 + n) := by
  rw [sub_sixteen, BitVec.ofInt_neg, BitVec.ofInt_natCast, BitVec.ofNat_add, BitVec.sub_eq_add_neg, BitVec.sub_eq_add_neg, BitVec.neg_add,
    BitVec.sub_eq_add_neg, BitVec.add_assoc]

/-- Byte `j` of an object at offset `-n` from the frame pointer. -/
theorem idx_obj {S b : W} {n j : Nat} (hj : (b - (S - 8 - 8 + BitVec.ofInt 64 (-(n : Int)))).toNat = j) (h : j ≤ n + 15) (hn : n + 16 < 2 ^ 64) :
    idx S b = 15 + n - j := by
  rw [sub_obj] at hj
  rw [idx_byte hj (by omega) (by omega)]
  omega

theorem idx_push {S b : W} {j : Nat} (hj : (b - (S - 8)).toNat = j) (h : j < 8) : idx S b = 7 - j := by
  rw [sub_eight] at hj
  rw [idx_byte hj (by omega) (by omega)]

theorem idx_push2 {S b : W} {j : Nat} (hj : (b - (S - 8 - 8)).toNat = j) (h : j < 8) : idx S b = 15 - j := by
  rw [sub_sixteen] at hj
  rw [idx_byte hj (by omega) (by omega)]

/-- What the theorems need of a function: at most 8 parameters, of integer or pointer types, `__alloca_size__` declared first, and a body
in the class of C40. -/
structure Wf (f : Func) : Prop where
  few : f.params.length ≤ 8
  scalar : ∀ t ∈ f.params, t.scalar = true
  last : f.others.getLast? = some ⟨.int, 8, 8⟩
  aligned : ∀ v ∈ f.others, 0 < v.align
  body : Props.Covered f.body

theorem Wf.pos {f : Func} (h : Wf f) : 0 < f.others.length := by
  have := h.last
  cases ho : f.others with
  | nil => rw [ho] at this; simp at this
  | cons a r => simp

theorem Wf.last' {f : Func} (h : Wf f) : f.others[f.others.length - 1]? = some ⟨.int, 8, 8⟩ := by
  rw [← List.getLast?_eq_getElem?]; exact h.last

theorem locals_eq (f : Func) : f.frame.locals = f.others ++ f.params.map intVar := by simp [Fn.locals, Func.frame]

theorem Wf.align {f : Func} (h : Wf f) : ∀ v ∈ f.frame.locals, 0 < v.align := by
  intro v hv
  rw [locals_eq, List.mem_append, List.mem_map] at hv
  rcases hv with hv | ⟨t, ht, rfl⟩
  · exact h.aligned v hv
  · have := scalar_size (h.scalar t ht)
    simp only [intVar]; omega

variable {f : Func} {fr : Frame}

/-- Every object but `__alloca_size__` is inside the frame, and apart from `__alloca_size__`. -/
theorem obj_in (hw : Wf f) (hl : layout f.frame = .ok fr) (hneg : ∀ p ∈ f.slots fr, p.2 ≤ 0) {o : Int} {v : Frame.Var} (h : (o, v) ∈ f.objs fr) :
    InFrame fr.size v o ∧ ∀ al, fr.offs[f.others.length - 1]? = some al → InFrame fr.size ⟨.int, 8, 8⟩ al ∧ Apart o v.size al 8 := by
  obtain ⟨c1, _, _, c4, c5, _, c7⟩ := C48_frame f.frame fr hw.align hl
  rw [Func.objs, List.mem_eraseIdx_iff_getElem?] at h
  obtain ⟨i, hi, h⟩ := h
  rw [List.getElem?_zip_eq_some] at h
  obtain ⟨h1, h2⟩ := h
  dsimp only at h1 h2
  have hlast : f.frame.locals[f.others.length - 1]? = some ⟨.int, 8, 8⟩ := by
    rw [locals_eq, List.getElem?_append_left (by have := hw.pos; omega), hw.last']
  have hA : InFrame fr.size v o := by
    have h2' := h2
    rw [locals_eq, List.getElem?_append] at h2'
    split at h2'
    · obtain ⟨o', e1, e2⟩ := c4 i v h2'
      rw [h1] at e1; cases e1; exact e2
    · rename_i hge
      obtain ⟨o', e1, e2⟩ := c5 (i - f.others.length) v h2'
      have hlen : fr.offs.length - f.frame.params.length + (i - f.others.length) = i := by
        rw [c1, locals_eq]
        simp only [List.length_append, List.length_map, Func.frame]
        omega
      rw [hlen, h1] at e1; cases e1
      rcases e2 with e2 | e2
      · exact e2
      · exfalso
        rw [List.getElem?_map, Option.map_eq_some_iff] at h2'
        obtain ⟨t, ht, _⟩ := h2'
        have : (t, o) ∈ f.slots fr := by
          refine List.mem_of_getElem? (i := i - f.others.length) ?_
          rw [Func.slots, List.getElem?_zip_eq_some, List.getElem?_drop]
          refine ⟨ht, ?_⟩
          dsimp only
          have e : f.frame.params.length = f.params.length := by simp [Func.frame]
          rw [← e, hlen, h1]
        have := hneg _ this
        have := e2.1
        dsimp only at *
        omega
  refine ⟨hA, fun al hal => ⟨?_, c7 i _ v ⟨.int, 8, 8⟩ o al hi h2 hlast h1 hal⟩⟩
  obtain ⟨o', e1, e2⟩ := c4 _ _ hw.last'
  rw [hal] at e1; cases e1; exact e2

theorem bytes_eq (hw : Wf f) (hl : layout f.frame = .ok fr) : 8 * (Func.bytes fr / 8) = Func.bytes fr ∧ 0 ≤ fr.size := by
  obtain ⟨_, c2, c3, _⟩ := C48_frame f.frame fr hw.align hl
  unfold Func.bytes
  omega

/-- The bytes of the objects, counted from the stack pointer of the caller. -/
theorem objs_idx (hw : Wf f) (hl : layout f.frame = .ok fr) (hneg : ∀ p ∈ f.slots fr, p.2 ≤ 0) (hb : Func.bytes fr < 2 ^ 64) {S b : W}
    (h : inObjs (S - 8 - 8) (f.objs fr) b = true) :
    16 ≤ idx S b ∧ idx S b < Func.bytes fr ∧ ∀ al, fr.offs[f.others.length - 1]? = some al → ¬ (b - (S - 8 - 8 + BitVec.ofInt 64 al)).toNat < 8 := by
  rw [inObjs, List.any_eq_true] at h
  obtain ⟨⟨o, v⟩, hm, h⟩ := h
  rw [decide_eq_true_eq] at h
  dsimp only at h
  obtain ⟨⟨h1, h2, _⟩, h3⟩ := obj_in hw hl hneg hm
  have hsz := (bytes_eq hw hl).2
  unfold Func.bytes at *
  obtain ⟨n, rfl⟩ : ∃ n : Nat, o = -(n : Int) := ⟨(-o).toNat, by omega⟩
  have e := idx_obj rfl (by omega) (by omega) (S := S) (b := b) (n := n)
  refine ⟨by omega, by omega, ?_⟩
  intro al hal hlt
  obtain ⟨⟨g1, g2, _⟩, ga⟩ := h3 al hal
  dsimp only at g2
  obtain ⟨q, rfl⟩ : ∃ q : Nat, al = -(q : Int) := ⟨(-al).toNat, by omega⟩
  have e2 := idx_obj rfl (by omega) (by omega) (S := S) (b := b) (n := q)
  rcases ga with ga | ga <;> omega

/-- The slot of `__alloca_size__`. -/
theorem alloca_idx (hw : Wf f) (hl : layout f.frame = .ok fr) (hb : Func.bytes fr < 2 ^ 64) {S b : W} {al : Int}
    (hal : fr.offs[f.others.length - 1]? = some al) (h : (b - (S - 8 - 8 + BitVec.ofInt 64 al)).toNat < 8) :
    16 ≤ idx S b ∧ idx S b < Func.bytes fr := by
  obtain ⟨_, _, _, c4, _⟩ := C48_frame f.frame fr hw.align hl
  obtain ⟨o', e1, g1, g2, _⟩ := c4 _ _ hw.last'
  rw [hal] at e1; cases e1
  dsimp only at g2
  unfold Func.bytes at *
  obtain ⟨q, rfl⟩ : ∃ q : Nat, al = -(q : Int) := ⟨(-al).toNat, by omega⟩
  have e2 := idx_obj rfl (by omega) (by omega) (S := S) (b := b) (n := q)
  omega

/-- The parameters are among the objects. -/
theorem slot_obj (hw : Wf f) (hl : layout f.frame = .ok fr) {t : Ty} {o : Int} (h : (t, o) ∈ f.slots fr) : (o, intVar t) ∈ f.objs fr := by
  obtain ⟨c1, _⟩ := C48_frame f.frame fr hw.align hl
  obtain ⟨i, hi⟩ := List.getElem?_of_mem h
  rw [Func.slots, List.getElem?_zip_eq_some, List.getElem?_drop] at hi
  obtain ⟨h1, h2⟩ := hi
  dsimp only at h1 h2
  have hlen : fr.offs.length - f.params.length = f.others.length := by
    rw [c1, locals_eq]; simp
  rw [hlen] at h2
  rw [Func.objs, List.mem_eraseIdx_iff_getElem?]
  refine ⟨f.others.length + i, by have := hw.pos; omega, ?_⟩
  rw [List.getElem?_zip_eq_some]
  refine ⟨h2, ?_⟩
  dsimp only
  rw [locals_eq, List.getElem?_append_right (by omega), Nat.add_sub_cancel_left, List.getElem?_map, h1]
  rfl

theorem bindArgs_out {fp b : W} : ∀ (l : List (Ty × Int)) (vs : List Int) (m : Mem), (∀ t o, (t, o) ∈ l → ¬ (b - (fp + BitVec.ofInt 64 o)).toNat < t.size) →
    bindArgs fp l vs m b = m b
  | [], _, _, _ => by simp [bindArgs]
  | _ :: _, [], _, _ => by simp [bindArgs]
  | (t, o) :: l, v :: vs, m, h => by
    rw [bindArgs, bindArgs_out l vs _ (fun t o h' => h t o (List.mem_cons_of_mem _ h')), writeN, if_neg (h t o List.mem_cons_self)]

theorem bindArgs_congr {fp b : W} : ∀ (l : List (Ty × Int)) (vs : List Int) (m m' : Mem), m b = m' b → bindArgs fp l vs m b = bindArgs fp l vs m' b
  | [], _, _, _, h => by simpa [bindArgs] using h
  | _ :: _, [], _, _, h => by simpa [bindArgs] using h
  | (t, o) :: l, v :: vs, m, m', h => by
    rw [bindArgs, bindArgs]
    refine bindArgs_congr l vs _ _ ?_
    simp only [writeN, h]

/-- Bytes outside the objects keep their contents when the arguments are stored. -/
theorem bind_keep (hw : Wf f) (hl : layout f.frame = .ok fr) {fp b : W} {vs : List Int} {m : Mem} (h : inObjs fp (f.objs fr) b = false) :
    bindArgs fp (f.slots fr) vs m b = m b := by
  apply bindArgs_out
  intro t o ht hlt
  have := slot_obj hw hl ht
  rw [inObjs, List.any_eq_false] at h
  have := h _ this
  simp only [decide_eq_true_eq] at this
  exact this hlt

end Toycc.Whole
