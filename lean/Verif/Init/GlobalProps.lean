import Verif.Init.Global
import Verif.Layout.Props
/-! C51: the image of a static object is its initialiser. -/
namespace Toycc.Init.Props
open Toycc.Cg Toycc.Low Toycc.Rv Toycc.Init

/-- **C51** For every type and every initialiser of its shape (with the restrictions in `Handled`): if the buffer malloc returned happens to be zero, the data directives printed for the object amount to
exactly `sizeof` bytes after linking, wherever the symbols are put; each scalar element or member and each bit-field with an initialising expression has the value of the expression converted to its type (an
address for the address of a symbol), at the position the layout gives it; all other bits are zero. -/
theorem C51_image_partial (ty : Ty) (ini : Ini CVal) (hw : ty.Wf) (hf : Fits ty ini) (hh : Handled ty ini) (junk : Nat → BitVec 8) (hz : ∀ i, i < ty.size → junk i = 0)
    (ρ : String → W) :
    ∃ st, gvarInit ty ini junk = some st ∧ (linked ρ (emit ty.size st.buf st.rels 0)).length = ty.size ∧
      Initialised (constMeaning ρ) ty ini (bitOf (linked ρ (emit ty.size st.buf st.rels 0))) := by
  have h0 : ∀ i, i < 8 * ty.size → bit junk i = false := fun i hi => by
    unfold bit; rw [hz _ (by omega)]; simp
  obtain ⟨st, e, hi, hb⟩ := write_puts (n := ty.size) (ρ := ρ) ini ty 0 0 ⟨junk, []⟩ hw hf hh ⟨fun i _ h => h0 i h, by simp, .nil⟩ (Nat.le_refl _) (by omega)
  have hrel : ∀ r ∈ st.rels, 0 ≤ r.offset ∧ r.offset + 8 ≤ ty.size := fun r hr => by have := hi.below r hr; omega
  obtain ⟨g1, g2⟩ := emit_img ρ ty.size st.buf (ty.size - 0) 0 st.rels (Nat.le_refl _) (Nat.zero_le _) hrel hi.order
  refine ⟨st, e, by simpa using g1, initialised_over hw (bit junk) (fun j hj => ?_) h0 (fun j hj => ?_)⟩
  · have := g2 j (by omega)
    rw [this, show 8 * 0 + j = j by omega, hb j hj]
    rfl
  · unfold bitOf
    rw [List.getElem?_eq_none (by omega)]

/-! ### The layouts of C33 and C34 are well-formed -/

/-- Members of a type, from the placement computed by struct_decl. -/
def toMems : List (Layout.Mem × Layout.Place × Ty) → Mems
  | [] => .nil
  | (m, p, t) :: r => .cons p.offset.toNat (m.width.map fun w => (p.bitOffset.toNat, w.toNat)) t (toMems r)

/-- A struct laid out by struct_decl (not packed, no zero-width bit-fields, alignments powers of two, bit-fields aligned to their size): it meets the hypothesis of `C51_image_partial`. -/
theorem C51_layout (t t' : Layout.Agg) (tys : List Ty) (hp : t.packed = false) (hs : 0 ≤ t.size) (ha : ∃ k : Nat, t.align = 2 ^ k)
    (hok : ∀ x ∈ t.members, x.1.Ok ∧ (∃ k : Nat, x.1.align = 2 ^ k) ∧ (∀ w, x.1.width = some w → x.1.size ∣ x.1.align ∧ 0 < w))
    (h : Layout.structDecl t = some t') (hlen : tys.length = t'.members.length)
    (hty : ∀ x ∈ t'.members.zip tys, x.2.Wf ∧ x.1.1.size = x.2.size ∧ (x.1.1.width.isSome → ∃ c, x.2 = .scalar c ∧ c.isInt = true)) :
    (Ty.struc t'.size.toNat (toMems ((t'.members.zip tys).map fun x => (x.1.1, x.1.2, x.2)))).Wf := by
  have ha0 : 0 < t.align := by obtain ⟨k, hk⟩ := ha; rw [hk]; exact Int.pow_pos (by decide)
  obtain ⟨n1, n2, n3, n4, -, -⟩ := Layout.C33_C34_no_overlap t t' hp hs ha0 (fun x hx => (hok x hx).1) h
  have u := Layout.C34_unit_inside t t' hp hs ha (fun x hx => ⟨(hok x hx).1, (hok x hx).2.1, fun w hw => ((hok x hx).2.2 w hw).1⟩) h
  obtain ⟨t1, fin, e, h1, h2, h3, h4⟩ := Layout.C33_struct_layout t hp hs ha0 (fun x hx => (hok x hx).1)
  rw [h] at e; cases e
  have hok' : ∀ x ∈ t'.members, x.1.Ok ∧ (∀ w, x.1.width = some w → 0 < w) := by
    intro x hx
    have : x.1 ∈ t.members.map (·.1) := by rw [← h1]; exact List.mem_map_of_mem hx
    obtain ⟨y, hy, e⟩ := List.mem_map.mp this
    rw [← e]; exact ⟨(hok y hy).1, fun w hw => ((hok y hy).2.2 w hw).2⟩
  have hocc : ∀ x ∈ t'.members, Layout.Occupies x.1 := fun x hx hc => by have := (hok' x hx).2 0 hc; omega
  have hsz : 0 ≤ t'.size := by
    obtain ⟨⟨-, hf⟩, -⟩ := h4
    have := (Layout.laid_range h2 fun x hx => (hok' x hx).1).1
    omega
  show Mems.Wf _ _ 0
  have main : ∀ (ms : List (Layout.Mem × Layout.Place)) (ts : List Ty) (cur : Nat), ts.length = ms.length → (∀ x ∈ ms, x ∈ t'.members) →
      (ms.Pairwise fun x y => Layout.Occupies x.1 → Layout.Occupies y.1 → Layout.first x.1 x.2 + Layout.extent x.1 ≤ Layout.first y.1 y.2) →
      (∀ x ∈ ms.zip ts, x.2.Wf ∧ x.1.1.size = x.2.size ∧ (x.1.1.width.isSome → ∃ c, x.2 = .scalar c ∧ c.isInt = true)) →
      (∀ x ∈ ms, (cur : Int) ≤ Layout.first x.1 x.2) → (cur : Int) ≤ 8 * t'.size →
      Mems.Wf t'.size.toNat (toMems ((ms.zip ts).map fun x => (x.1.1, x.1.2, x.2))) cur := by
    intro ms
    induction ms with
    | nil => intro ts cur hl _ _ _ _ hc; show cur ≤ 8 * _; omega
    | cons x ms ih =>
      intro ts cur hl hsub hpw hty hcur hc
      cases ts with
      | nil => simp at hl
      | cons ct ts =>
        obtain ⟨m, p⟩ := x
        rw [List.pairwise_cons] at hpw
        have hx := hsub (m, p) (List.mem_cons_self ..)
        obtain ⟨g1, g2, g3⟩ := hty ((m, p), ct) (by simp)
        obtain ⟨r1, r2⟩ := n4 _ hx (hocc _ hx)
        have hcu := hcur (m, p) (List.mem_cons_self ..)
        dsimp only at r1 r2 hcu
        have hnext : ∀ y ∈ ms, Layout.first m p + Layout.extent m ≤ Layout.first y.1 y.2 := fun y hy =>
          hpw.1 y hy (hocc _ hx) (hocc y (hsub y (List.mem_cons_of_mem _ hy)))
        have rest : ∀ cur' : Nat, (cur' : Int) = Layout.first m p + Layout.extent m →
            Mems.Wf t'.size.toNat (toMems ((ms.zip ts).map fun x => (x.1.1, x.1.2, x.2))) cur' := fun cur' hc' =>
          ih ts cur' (by simpa using hl) (fun y hy => hsub y (List.mem_cons_of_mem _ hy)) hpw.2 (fun y hy => hty y (by simp [hy])) (fun y hy => by
            have := hnext y hy; omega) (by omega)
        cases hwd : m.width with
        | none =>
          simp only [List.zip_cons_cons, List.map_cons, toMems, hwd, Option.map_none]
          simp only [Layout.first, Layout.extent, hwd] at hcu r1 r2 rest
          dsimp only at g2
          refine ⟨by omega, g1, by omega, rest _ (by omega)⟩
        | some w =>
          simp only [List.zip_cons_cons, List.map_cons, toMems, hwd, Option.map_some]
          simp only [Layout.first, Layout.extent, hwd] at hcu r1 r2 rest
          have hw0 := (hok' _ hx).2 w hwd
          obtain ⟨b1, b2, b3⟩ := n3 _ hx w hwd hw0
          obtain ⟨v1, v2⟩ := u _ hx w hwd hw0
          dsimp only at g2 b1 b2 b3 v1 v2
          refine ⟨by omega, g1, g3 (by rw [hwd]; rfl), by omega, by omega, by omega, rest _ (by omega)⟩
  refine main t'.members tys 0 hlen (fun _ h => h) n1 hty (fun x hx => ?_) (by omega)
  exact (n4 x hx (hocc x hx)).1

/-! ### Example -/

/-- `struct { char c; int b : 3, d : 5; char *p[2]; } x = { 'A', 7, .p = { 0, &y + 4 }, .d = -1 }`, as a tree. -/
def exTy : Ty := .struc 24 (.cons 0 none (.scalar (.char false)) (.cons 0 (some (8, 3)) (.scalar (.int false)) (.cons 0 (some (11, 5)) (.scalar (.int false))
  (.cons 8 none (.arr (.scalar (.ptr (.char false))) 2) .nil))))

def leaf {α : Type} (e : Option α) : Ini α := .mk e none .nil

def num (v : W) : Ini CVal := leaf (some ⟨.num v, 0, 0⟩)

def exIni : Ini CVal := .mk none none (.cons (num 65) (.cons (num 7) (.cons (num (-1)) (.cons (.mk none none (.cons (num 0) (.cons (leaf (some ⟨.sym "y" 4, 0, 0⟩)) .nil))) .nil))))

theorem ex_ok : exTy.Wf ∧ Fits exTy exIni ∧ Handled exTy exIni := by
  refine ⟨?_, ?_, ?_⟩
  · simp [exTy, Ty.Wf, Mems.Wf, Ty.size, CTy.size, CTy.scalar, CTy.isInt]
  · simp [exTy, exIni, Fits, FitsMems, FitsArr, num, leaf]
  · simp [exTy, exIni, Handled, HandledMems, HandledArr, num, leaf, CVal.okFor, CTy.size, Ini.expr]

example : ∃ st, gvarInit exTy exIni (fun _ => 0) = some st ∧ emit 24 st.buf st.rels 0 =
    [.byte 65, .byte 255, .byte 0, .byte 0, .byte 0, .byte 0, .byte 0, .byte 0, .byte 0, .byte 0, .byte 0, .byte 0, .byte 0, .byte 0, .byte 0, .byte 0, .quad "y" 4] :=
  ⟨_, rfl, by decide +kernel⟩

example (ρ : String → W) : ∃ st, gvarInit exTy exIni (fun _ => 0) = some st ∧ (linked ρ (emit 24 st.buf st.rels 0)).length = 24 ∧
    Initialised (constMeaning ρ) exTy exIni (bitOf (linked ρ (emit 24 st.buf st.rels 0))) :=
  C51_image_partial exTy exIni ex_ok.1 ex_ok.2.1 ex_ok.2.2 _ (fun _ _ => rfl) ρ

/-! ### Violations -/

/-- The object has an image, and it is not what the initialiser says. -/
def Wrong (ty : Ty) (ini : Ini CVal) (junk : Nat → BitVec 8) : Prop :=
  ∃ st, gvarInit ty ini junk = some st ∧ ∀ ρ, ¬ Initialised (constMeaning ρ) ty ini (bitOf (linked ρ (emit ty.size st.buf st.rels 0)))

def intT : Ty := .scalar (.int false)

/-- **C51** is violated when malloc returns memory that is not zero: in `int x[2] = {1};` the second element is what was in the buffer. -/
theorem C51_violated_garbage : Wrong (.arr intT 2) (.mk none none (.cons (num 1) (.cons (leaf none) .nil))) (fun _ => 0xab) := by
  refine ⟨_, rfl, fun ρ h => ?_⟩
  have he : emit 8 (fun i => if 0 ≤ i ∧ i < 0 + 4 then byteOf 1 (i - 0) else 0xab) [] 0 = [.byte 1, .byte 0, .byte 0, .byte 0, .byte 0xab, .byte 0xab, .byte 0xab, .byte 0xab] := by
    decide +kernel
  change Initialised _ _ _ (bitOf (linked ρ (emit 8 (fun i => if 0 ≤ i ∧ i < 0 + 4 then byteOf 1 (i - 0) else 0xab) [] 0))) at h
  rw [he] at h
  have := h.2 32 (fun p w v hs => by
    have hm := flds_of_sets hs
    simp [flds, fldsArr, num, leaf, intT, Ty.size, CTy.size] at hm
    omega)
  cases this

/-- **C51** is violated when a bit-field is left out before another member: `struct { int a : 3; int c; } x = { .c = 5 };` leaves `c` zero. -/
theorem C51_violated_break : Wrong (.struc 8 (.cons 0 (some (0, 3)) intT (.cons 4 none intT .nil))) (.mk none none (.cons (leaf none) (.cons (num 5) .nil))) (fun _ => 0) := by
  refine ⟨_, rfl, fun ρ h => ?_⟩
  have he : emit 8 (fun _ => 0) [] 0 = [.byte 0, .byte 0, .byte 0, .byte 0, .byte 0, .byte 0, .byte 0, .byte 0] := by decide +kernel
  change Initialised _ _ _ (bitOf (linked ρ (emit 8 (fun _ => 0) [] 0))) at h
  rw [he] at h
  have hs : Sets (constMeaning ρ) intT (num 5) 4 32 32 ((constMeaning ρ).scalar intT ⟨.num 5, 0, 0⟩) := .scalar rfl
  have := h.1 32 32 _ (.member (k := 1) (off := 4) rfl rfl hs) 0 (by decide)
  rw [show (constMeaning ρ).scalar intT ⟨.num 5, 0, 0⟩ = 5#64 by simp only [constMeaning, IVal.value, intT]; decide +kernel] at this
  cases this

/-- **C51** is violated for `_Bool`: `static _Bool b = 2;` is stored as 2. -/
theorem C51_violated_bool : Wrong (.scalar .bool) (num 2) (fun _ => 0) := by
  refine ⟨_, rfl, fun ρ h => ?_⟩
  have he : emit 1 (fun i => if 0 ≤ i ∧ i < 0 + 1 then byteOf 2 (i - 0) else 0) [] 0 = [.byte 2] := by decide +kernel
  change Initialised _ _ _ (bitOf (linked ρ (emit 1 (fun i => if 0 ≤ i ∧ i < 0 + 1 then byteOf 2 (i - 0) else 0) [] 0))) at h
  rw [he] at h
  have hs : Sets (constMeaning ρ) (.scalar .bool) (num 2) 0 0 8 ((constMeaning ρ).scalar (.scalar .bool) ⟨.num 2, 0, 0⟩) := .scalar rfl
  have := h.1 0 8 _ hs 0 (by decide)
  rw [show (constMeaning ρ).scalar (.scalar .bool) ⟨.num 2, 0, 0⟩ = 1#64 from rfl] at this
  cases this

/-- **C51** is violated for bit-fields of unions: `union { unsigned a : 3; } u = {15};` is stored as 15. -/
theorem C51_violated_union : Wrong (.union 4 (.cons 0 (some (0, 3)) (.scalar (.int true)) .nil)) (.mk none (some 0) (.cons (num 15) .nil)) (fun _ => 0) := by
  refine ⟨_, rfl, fun ρ h => ?_⟩
  have he : emit 4 (fun i => if 0 ≤ i ∧ i < 0 + 4 then byteOf 15 (i - 0) else 0) [] 0 = [.byte 15, .byte 0, .byte 0, .byte 0] := by decide +kernel
  change Initialised _ _ _ (bitOf (linked ρ (emit 4 (fun i => if 0 ≤ i ∧ i < 0 + 4 then byteOf 15 (i - 0) else 0) [] 0))) at h
  rw [he] at h
  have := h.2 3 (fun p w v hs => by
    have hm := flds_of_sets hs
    simp [flds, fldsNth, num, leaf, Ini.expr] at hm
    omega)
  cases this

/-- **C51** is violated for long double: the compiler itself stops at "unreachable". -/
theorem C51_violated_long_double : gvarInit .ldbl (num 1) (fun _ => 0) = none := rfl

end Toycc.Init.Props
