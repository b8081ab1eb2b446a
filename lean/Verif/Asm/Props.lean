import Verif.Asm.Proof
import Verif.Init.GlobalProps
/-! C90: objects of file scope and functions in the object file. -/
namespace Toycc.Asm
open Toycc.Init (Item Reloc emit linked byteOf bitOf)
open Toycc.Cg Toycc.Low Toycc.Rv

/-- The assembly text exists, is accepted, and every object is in its place. -/
theorem codegen_places (fc : Bool) (objs : List Obj) (hok : ∀ o ∈ objs, o.out = true → o.Ok) (hn : ((objs.filter Obj.out).map (·.name)).Nodup) :
    ∃ ls a, codegen fc objs = some ls ∧ assemble {} ls = some a ∧ (∀ o ∈ objs, o.out = true → ∃ n, At fc a o n) ∧ (order objs).Pairwise (Apart a) ∧
      (∀ x, a.defines x → ∃ o ∈ objs, o.out = true ∧ o.name = x) ∧ (∀ x, x ∈ a.globals ↔ ∃ o ∈ objs, o.out = true ∧ o.name = x ∧ o.isStatic = false) := by
  obtain ⟨lss, a, h1, h2, h3, h4, h5, h6⟩ := chunks_run fc (order objs) [] {} (fun o ho => ⟨(mem_order.mp ho).2, hok o (mem_order.mp ho).1 (mem_order.mp ho).2⟩)
    (by simp) (by simpa using order_nodup hn) (fun s => ⟨0, rfl⟩) (by simp) .nil (fun x h => by rcases h with h | h <;> exact absurd rfl h) (by simp)
  rw [List.nil_append] at h3 h4 h5 h6
  obtain ⟨x, y, e1, e2, rfl⟩ := mapM_split _ _ _ h1
  refine ⟨x.flatten ++ objs.flatMap fnLines, a, ?_, ?_, fun o ho hout => h3 o (mem_order.mpr ⟨ho, hout⟩), h4, fun z hz => ?_, fun z => ?_⟩
  · unfold codegen
    rw [data_lines fc objs e1, Option.map_some]
  · rw [fn_lines fc objs e2, ← List.flatten_append]
    exact h2
  · obtain ⟨o, ho, e⟩ := h5 z hz
    exact ⟨o, (mem_order.mp ho).1, (mem_order.mp ho).2, e⟩
  · rw [h6]
    constructor
    · rintro ⟨o, ho, e⟩
      exact ⟨o, (mem_order.mp ho).1, (mem_order.mp ho).2, e⟩
    · rintro ⟨o, ho, hout, e⟩
      exact ⟨o, mem_order.mpr ⟨ho, hout⟩, e⟩

/-- **C90**, the object file. For any objects and functions, defined or only declared, with and without `-fcommon`: if those that are printed have different names, sizes
that are not negative, alignments that are powers of two, and relocations inside and in order, the text is printed and the assembler accepts it. The symbols defined are
exactly those of the definitions (of functions: those that are used); a symbol is global exactly if the object or function is not static. Tentative definitions under
`-fcommon` are common symbols with the size and alignment of the object; every other object is in its section, at an offset that has its alignment, as does the section.
No two objects share a byte. -/
theorem C90_objects (fc : Bool) (objs : List Obj) (hok : ∀ o ∈ objs, o.out = true → o.Ok) (hn : ((objs.filter Obj.out).map (·.name)).Nodup) :
    ∃ ls a, codegen fc objs = some ls ∧ assemble {} ls = some a ∧
      (∀ x, a.defines x ↔ ∃ o ∈ objs, o.out = true ∧ o.name = x) ∧
      (∀ x, x ∈ a.globals ↔ ∃ o ∈ objs, o.out = true ∧ o.name = x ∧ o.isStatic = false) ∧
      (∀ o ∈ objs, o.out = true → o.isCommon fc = true → a.common o.name = some (o.size.toNat, o.align.toNat)) ∧
      (∀ o ∈ objs, o.out = true → o.isCommon fc = false → ∃ off, a.place o.name = some (o.sec, off) ∧ o.al ∣ off ∧ o.al ∣ a.al o.sec ∧ off + o.len ≤ bytes (a.cont o.sec)) ∧
      (∀ o ∈ objs, ∀ o' ∈ objs, o.out = true → o'.out = true → o.name ≠ o'.name → ∀ s n n', a.place o.name = some (s, n) → a.place o'.name = some (s, n') →
        n + o.len ≤ n' ∨ n' + o'.len ≤ n) := by
  obtain ⟨ls, a, h1, h2, h3, h4, h5, h6⟩ := codegen_places fc objs hok hn
  refine ⟨ls, a, h1, h2, fun x => ⟨h5 x, ?_⟩, h6, fun o ho hout hc => ?_, fun o ho hout hc => ?_, ?_⟩
  · rintro ⟨o, ho, hout, rfl⟩
    obtain ⟨n, hat⟩ := h3 o ho hout
    unfold At at hat
    split at hat
    · exact .inr (by rw [hat.1]; simp)
    · obtain ⟨off, p, q, g1, -⟩ := hat
      exact .inl (by rw [g1]; simp)
  · obtain ⟨n, hat⟩ := h3 o ho hout
    unfold At at hat
    rw [if_pos hc] at hat
    exact hat.1
  · obtain ⟨n, hat⟩ := h3 o ho hout
    unfold At at hat
    rw [if_neg (by simp [hc])] at hat
    obtain ⟨off, p, q, g1, g2, g3, g4, g5, -⟩ := hat
    refine ⟨off, g1, g2, g3, ?_⟩
    rw [g4, bytes_append, bytes_append, image_len (hok o ho hout), g5]
    omega
  · intro o ho o' ho' hout hout' hne s n n' e1 e2
    have m1 := mem_order.mpr ⟨ho, hout⟩
    have m2 := mem_order.mpr ⟨ho', hout'⟩
    have sym : ∀ {l : List Obj}, l.Pairwise (Apart a) → o ∈ l → o' ∈ l → o.name ≠ o'.name → n + o.len ≤ n' ∨ n' + o'.len ≤ n := by
      intro l hl
      induction hl with
      | nil => intro h; cases h
      | cons hx _ ih =>
        intro p1 p2 hne
        rcases List.mem_cons.mp p1 with rfl | p3
        · rcases List.mem_cons.mp p2 with rfl | p2
          · exact absurd rfl hne
          · exact hx _ p2 s n n' e1 e2
        · rcases List.mem_cons.mp p2 with rfl | p4
          · exact (hx _ p3 s n' n e2 e1).symm
          · exact ih p3 p4 hne
    exact sym h4 m1 m2 hne

/-- **C90**, the program in memory. Wherever linker and loader put the sections: every object defined has an address that is a multiple of its alignment, and its bytes are its
initial value: those of the initialiser with addresses where they belong, zero without an initialiser; a function's symbol is the address of its code. -/
theorem C90_memory (fc : Bool) (objs : List Obj) (hok : ∀ o ∈ objs, o.out = true → o.Ok) (hn : ((objs.filter Obj.out).map (·.name)).Nodup)
    (ht : ∀ o ∈ objs, o.tentative = true → o.init = none) {ls : List Line} {a : File} (hls : codegen fc objs = some ls) (ha : assemble {} ls = some a)
    {base : Sec → Nat} {ρ : String → W} {mem : Nat → BitVec 8} (hl : Loaded a base ρ mem) {o : Obj} (ho : o ∈ objs) (hout : o.out = true) :
    o.al ∣ (ρ o.name).toNat ∧ o.Value ρ mem (ρ o.name).toNat := by
  obtain ⟨ls', a', h1, h2, h3, -⟩ := codegen_places fc objs hok hn
  rw [hls] at h1
  cases h1
  rw [ha] at h2
  cases h2
  obtain ⟨n, hat⟩ := h3 o ho hout
  unfold At at hat
  split at hat
  · rename_i hc
    obtain ⟨c1, c2⟩ := hl.commons _ _ _ hat.1
    unfold Obj.isCommon at hc
    simp only [Bool.and_eq_true, Bool.not_eq_true'] at hc
    refine ⟨?_, ?_⟩
    · unfold Obj.al; rw [hc.1]; exact c1
    · unfold Obj.Value
      rw [hc.1, ht o ho hc.2.2]
      exact c2
  · obtain ⟨off, p, q, g1, g2, g3, g4, g5, -⟩ := hat
    subst g5
    refine ⟨?_, image_value (hok o ho hout) fun i b hb => loaded_image hl g1 g4 hb⟩
    rw [hl.labels _ _ _ g1]
    exact Nat.dvd_add (Nat.dvd_trans g3 (hl.aligned _)) g2

/-- **C90** with C51: an object with an initialiser holds the values of the initialiser at run time, in the memory of the program. -/
theorem C90_initialised_partial (fc : Bool) (objs : List Obj) (hok : ∀ o ∈ objs, o.out = true → o.Ok) (hn : ((objs.filter Obj.out).map (·.name)).Nodup)
    {ls : List Line} {a : File} (hls : codegen fc objs = some ls) (ha : assemble {} ls = some a)
    {base : Sec → Nat} {ρ : String → W} {mem : Nat → BitVec 8} (hl : Loaded a base ρ mem) {o : Obj} (ho : o ∈ objs) (hout : o.out = true) (hf : o.isFn = false)
    (hnt : o.tentative = false) (ty : Init.Ty) (ini : Init.Ini Init.CVal) (hw : ty.Wf) (hfit : Init.Fits ty ini) (hh : Init.Handled ty ini)
    {st : Init.St} (hst : Init.gvarInit ty ini (fun _ => 0) = some st) (hi : o.init = some (st.buf, st.rels)) (hsz : o.size = ty.size) :
    Init.Initialised (Init.constMeaning ρ) ty ini (bitOf ((List.range ty.size).map fun i => mem ((ρ o.name).toNat + i))) := by
  obtain ⟨ls', a', h1, h2, h3, -⟩ := codegen_places fc objs hok hn
  rw [hls] at h1
  cases h1
  rw [ha] at h2
  cases h2
  obtain ⟨n, hat⟩ := h3 o ho hout
  unfold At at hat
  rw [if_neg (by unfold Obj.isCommon; simp [hnt])] at hat
  obtain ⟨off, p, q, g1, g2, g3, g4, g5, -⟩ := hat
  subst g5
  obtain ⟨st', e1, e2, e3⟩ := Init.Props.C51_image_partial ty ini hw hfit hh (fun _ => 0) (fun _ _ => rfl) ρ
  rw [hst] at e1
  cases e1
  have him : o.image = emit ty.size st.buf st.rels 0 := by
    unfold Obj.image
    rw [hf, hi, hsz]
    rfl
  have : (List.range ty.size).map (fun i => mem ((ρ o.name).toNat + i)) = linked ρ (emit ty.size st.buf st.rels 0) := by
    apply List.ext_getElem
    · rw [List.length_map, List.length_range, e2]
    · intro i h1 h2
      rw [List.getElem_map, List.getElem_range]
      refine loaded_image hl g1 g4 ?_
      rw [him, List.getElem?_eq_getElem h2]
  rw [this]
  exact e3

/-! ### Declarations -/

/-- **C90**, declarations of file scope, except `extern` with an initialiser: the object is printed exactly if C makes the declaration a definition or a tentative definition;
its symbol is local exactly if the linkage is internal; it has the alignment of `_Alignas`, or that of the type; it counts as tentative exactly as in C, so that only
tentative definitions become common symbols; `_Thread_local` decides about the section. -/
theorem C90_declaration_partial (attr : Attr) (name : String) (size al : Int) (init : Option ((Nat → BitVec 8) × List Reloc)) (h : ¬ (attr.isExtern = true ∧ init.isSome = true)) :
    ((globalVariable attr name size al init).out = true ↔ status attr init.isSome ≠ .declaration) ∧
    ((globalVariable attr name size al init).isStatic = true ↔ linkage attr = .internal) ∧
    ((globalVariable attr name size al init).tentative = true ↔ status attr init.isSome = .tentative) ∧
    (globalVariable attr name size al init).align = (if attr.align = 0 then al else attr.align) ∧
    (globalVariable attr name size al init).size = size ∧
    (globalVariable attr name size al init).sec = (match init.isSome, attr.tls with | true, true => .tdata | true, false => .data | false, true => .tbss | false, false => .bss) := by
  obtain ⟨s, e, t, k⟩ := attr
  refine ⟨?_, ?_, ?_, ?_, rfl, ?_⟩
  · unfold globalVariable Obj.out status
    cases init <;> cases e <;> cases t <;> simp_all
  · unfold globalVariable linkage
    cases s <;> simp
  · unfold globalVariable status
    cases init <;> cases e <;> cases t <;> simp_all
  · unfold globalVariable
    by_cases hk : k = 0 <;> simp [hk]
  · unfold globalVariable Obj.sec
    cases init <;> cases t <;> rfl

/-- **C90** is violated for `extern int x = 5;`: by 6.9.2p1 this defines `x`; nothing is printed, and the symbol stays undefined. -/
theorem C90_violated_extern (fc : Bool) (buf : Nat → BitVec 8) :
    status { isExtern := true } true = .definition ∧ codegen fc [globalVariable { isExtern := true } "x" 4 4 (some (buf, []))] = some [] := ⟨rfl, rfl⟩

/-- **C90** is violated for `int a[];`, a tentative definition that defines an array of one element (6.9.2p5): the type has a negative size, and the assembler does not accept the text. -/
theorem C90_violated_array : status {} false = .tentative ∧
    codegen true [globalVariable {} "a" (-4) 4 none] = some [.glob "a", .comm "a" (-4) 4] ∧ assemble {} [.glob "a", .comm "a" (-4) 4] = none ∧
    codegen false [globalVariable {} "a" (-4) 4 none] = some [.glob "a", .sect .bss, .align 2, .label "a", .zero (-4)] ∧
    assemble {} [.glob "a", .sect .bss, .align 2, .label "a", .zero (-4)] = none := by
  refine ⟨rfl, rfl, rfl, ?_, rfl⟩
  have : Util.llog2 4 = some 2 := (Util.C61_llog2 4 2 (by decide)).mpr rfl
  unfold codegen emitData
  simp only [List.mapM_cons, List.mapM_nil]
  unfold objLines globalVariable
  simp [this, fnLines, bind]

/-! ### The hypotheses are met -/

/-- `char c = 1; static int z; _Alignas(16) char *p = &c + 2; _Thread_local int t = 7; extern int e;`, a function that is used and one that is not. -/
def sample : List Obj :=
  [globalVariable {} "c" 1 1 (some (fun _ => 1, [])), globalVariable { isStatic := true } "z" 4 4 none,
   globalVariable { align := 16 } "p" 8 8 (some (fun _ => 0, [⟨0, "c", 2⟩])), globalVariable { tls := true } "t" 4 4 (some (fun i => if i = 0 then 7 else 0, [])),
   globalVariable { isExtern := true } "e" 4 4 none,
   { name := "main", isFn := true, isStatic := false, live := true, code := [0x67, 0x80, 0, 0] }, { name := "unused", isFn := true, isStatic := true, live := false }]

theorem sample_ok : ∀ o ∈ sample, o.out = true → o.Ok := by
  intro o ho _
  unfold sample globalVariable at ho
  simp only [List.mem_cons, List.not_mem_nil, or_false] at ho
  rcases ho with rfl | rfl | rfl | rfl | rfl | rfl | rfl
  · exact ⟨by decide, ⟨0, rfl⟩, by intro b r h; cases h; simp⟩
  · exact ⟨by decide, ⟨2, rfl⟩, by intro b r h; cases h⟩
  · exact ⟨by decide, ⟨4, rfl⟩, by intro b r h; cases h; simp⟩
  · exact ⟨by decide, ⟨2, rfl⟩, by intro b r h; cases h; simp⟩
  · exact ⟨by decide, ⟨2, rfl⟩, by intro b r h; cases h⟩
  · exact ⟨by decide, ⟨0, rfl⟩, by intro b r h; cases h⟩
  · exact ⟨by decide, ⟨0, rfl⟩, by intro b r h; cases h⟩

example : ((sample.filter Obj.out).map (·.name)).Nodup := by decide

example : ∃ ls a, codegen true sample = some ls ∧ assemble {} ls = some a ∧ (∀ x, x ∈ a.globals ↔ x ∈ ["c", "p", "t", "main"]) ∧ a.common "z" = some (4, 4) := by
  obtain ⟨ls, a, h1, h2, -, h4, h5, -⟩ := C90_objects true sample sample_ok (by decide)
  refine ⟨ls, a, h1, h2, fun x => ?_, h5 _ (.tail _ (.head _)) rfl rfl⟩
  rw [h4]
  simp [sample, globalVariable, Obj.out]
  constructor
  · rintro (h | h | h | h) <;> simp [← h]
  · rintro (h | h | h | h) <;> simp [h]

/-- Assembling by hand: `c` and `p` share a section, `p` at offset 16. -/
example : (assemble {} [.glob "c", .sect .data, .align 0, .label "c", .item (.byte 1), .glob "p", .sect .data, .align 4, .label "p", .item (.quad "c" 2)]).map
    (fun a => (a.place "c", a.place "p", bytes (a.cont .data), a.al .data)) = some (some (.data, 0), some (.data, 16), 24, 16) := by decide +kernel

end Toycc.Asm
