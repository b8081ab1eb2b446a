import Verif.Asm.Spec
/-! C90: lemmas. -/
namespace Toycc.Asm
open Toycc.Init (Item Reloc emit linked)
open Toycc.Cg Toycc.Low Toycc.Rv

/-- Its contents. -/
def Obj.image (o : Obj) : List Item :=
  if o.isFn then o.code.map .byte
  else
    match o.init with
    | some (buf, rels) => emit o.size.toNat buf rels 0
    | none => List.replicate o.size.toNat (.byte 0)

theorem bytes_append (a b : List Item) : bytes (a ++ b) = bytes a + bytes b := by
  induction a with
  | nil => simp [bytes]
  | cons i r ih => cases i <;> simp [bytes, ih] <;> omega

theorem bytes_linked (ρ : String → W) (l : List Item) : (linked ρ l).length = bytes l := by
  induction l with
  | nil => rfl
  | cons i r ih =>
    unfold linked at ih ⊢
    rw [List.flatMap_cons, List.length_append, ih]
    cases i <;> simp [bytes, Init.Item.bytes]

theorem bytes_replicate (n : Nat) (b : BitVec 8) : bytes (List.replicate n (.byte b)) = n := by
  induction n with
  | zero => rfl
  | succ n ih => rw [List.replicate_succ]; simp [bytes, ih]; omega

theorem bytes_code (l : List (BitVec 8)) : bytes (l.map .byte) = l.length := by
  induction l with
  | nil => rfl
  | cons b l ih => simp [bytes, ih]; omega

theorem image_len {o : Obj} (h : o.Ok) : bytes o.image = o.len := by
  unfold Obj.image Obj.len
  split
  · exact bytes_code _
  · cases hi : o.init with
    | none => exact bytes_replicate _ _
    | some p =>
      obtain ⟨buf, rels⟩ := p
      obtain ⟨h1, h2⟩ := h.rels buf rels hi
      have := (Init.emit_img (fun _ => 0) o.size.toNat buf o.size.toNat 0 rels (by omega) (Nat.zero_le _) (fun r hr => ⟨Nat.zero_le _, h1 r hr⟩) h2).1
      rw [bytes_linked] at this
      simpa using this

/-- What an object adds to the file. -/
structure Adds (o : Obj) (a a' : File) : Prop where
  cont : ∀ s, ∃ l, a'.cont s = a.cont s ++ l
  al : ∀ s, a.al s ∣ a'.al s
  pow : ∀ s, ∃ j, a'.al s = 2 ^ j
  others : ∀ x, x ≠ o.name → a'.place x = a.place x ∧ a'.common x = a.common x
  defd : a'.defines o.name
  globals : ∀ x, x ∈ a'.globals ↔ x ∈ a.globals ∨ (x = o.name ∧ o.isStatic = false)

/-- Where an object is. -/
def At (fc : Bool) (a : File) (o : Obj) (from_ : Nat) : Prop :=
  if o.isCommon fc then a.common o.name = some (o.size.toNat, o.align.toNat) ∧ a.place o.name = none
  else ∃ off p q, a.place o.name = some (o.sec, off) ∧ o.al ∣ off ∧ o.al ∣ a.al o.sec ∧ a.cont o.sec = p ++ (o.image ++ q) ∧ bytes p = off ∧ from_ ≤ off

theorem place_cons (a : File) (x s : String) (c : Sec) (n : Nat) (h : x ≠ s) : ({ a with labels := (s, c, n) :: a.labels } : File).place x = a.place x := by
  unfold File.place
  rw [List.find?_cons_of_neg (by simpa using fun e => h e.symm)]

theorem place_new (a : File) (s : String) (c : Sec) (n : Nat) : ({ a with labels := (s, c, n) :: a.labels } : File).place s = some (c, n) := by
  unfold File.place
  rw [List.find?_cons_of_pos (by simp)]
  rfl

theorem common_cons (a : File) (x s : String) (n k : Nat) (h : x ≠ s) : ({ a with commons := (s, n, k) :: a.commons } : File).common x = a.common x := by
  unfold File.common
  rw [List.find?_cons_of_neg (by simpa using fun e => h e.symm)]

theorem common_new (a : File) (s : String) (n k : Nat) : ({ a with commons := (s, n, k) :: a.commons } : File).common s = some (n, k) := by
  unfold File.common
  rw [List.find?_cons_of_pos (by simp)]
  rfl

theorem assemble_append (a : File) (l r : List Line) : assemble a (l ++ r) = (assemble a l).bind fun a => assemble a r := by
  induction l generalizing a with
  | nil => rfl
  | cons x l ih =>
    rw [List.cons_append, assemble, assemble]
    cases step a x with
    | none => rfl
    | some a => exact ih a

/-- Data directives add themselves. -/
theorem items_put (a : File) (l : List Item) (h : a.cur ≠ .bss ∧ a.cur ≠ .tbss) : assemble a (l.map .item) = some (a.put l) := by
  induction l generalizing a with
  | nil =>
    rw [List.map_nil, assemble]
    unfold File.put
    congr 1
    cases a
    simp
  | cons i l ih =>
    rw [List.map_cons, assemble]
    simp only [step, h.1, h.2, or_self, if_false]
    rw [ih (a.put [i]) h]
    unfold File.put
    congr 2
    funext s
    by_cases hs : s = a.cur <;> simp [hs]

theorem pad_dvd (n k : Nat) : 2 ^ k ∣ n + (2 ^ k - n % 2 ^ k) % 2 ^ k := by
  have hp : 0 < 2 ^ k := Nat.two_pow_pos k
  generalize 2 ^ k = m at hp ⊢
  rw [Nat.dvd_iff_mod_eq_zero]
  by_cases h0 : n % m = 0
  · rw [h0, Nat.sub_zero, Nat.mod_self, Nat.add_zero, h0]
  · have hlt := Nat.mod_lt n hp
    rw [Nat.mod_eq_of_lt (by omega : m - n % m < m)]
    have := Nat.div_add_mod n m
    have e : n + (m - n % m) = m * (n / m) + m := by omega
    rw [e, Nat.add_mod_right, Nat.mul_mod_right]

theorem pow_dvd_max {i j : Nat} : 2 ^ i ∣ max (2 ^ i) (2 ^ j) ∧ 2 ^ j ∣ max (2 ^ i) (2 ^ j) ∧ ∃ k, max (2 ^ i) (2 ^ j) = 2 ^ k := by
  rcases Nat.le_total i j with h | h
  · have hp : (2 : Nat) ^ i ≤ 2 ^ j := Nat.pow_le_pow_right (by decide) h
    rw [Nat.max_eq_right hp]
    exact ⟨Nat.pow_dvd_pow 2 h, Nat.dvd_refl _, j, rfl⟩
  · have hp : (2 : Nat) ^ j ≤ 2 ^ i := Nat.pow_le_pow_right (by decide) h
    rw [Nat.max_eq_left hp]
    exact ⟨Nat.dvd_refl _, Nat.pow_dvd_pow 2 h, i, rfl⟩

/-- The file after the binding line. -/
def bound (a : File) (o : Obj) : File := if o.isStatic then a else { a with globals := o.name :: a.globals }

theorem step_bind (a : File) (o : Obj) : step a (bind o) = some (bound a o) := by
  unfold bind bound
  cases o.isStatic <;> rfl

theorem bound_globals (a : File) (o : Obj) (x : String) : x ∈ (bound a o).globals ↔ x ∈ a.globals ∨ (x = o.name ∧ o.isStatic = false) := by
  unfold bound
  cases o.isStatic
  · simp only [Bool.false_eq_true, if_false, List.mem_cons, and_true]; exact Or.comm
  · simp

/-- The file after a labelled object of section `s` with alignment `2 ^ k` and contents `l`. -/
def placed (a : File) (o : Obj) (s : Sec) (k : Nat) (l : List Item) : File :=
  let pad := List.replicate ((2 ^ k - bytes (a.cont s) % 2 ^ k) % 2 ^ k) (Item.byte 0)
  { cur := s, cont := fun t => if t = s then a.cont t ++ (pad ++ l) else a.cont t, al := fun t => if t = s then max (a.al t) (2 ^ k) else a.al t,
    labels := (o.name, s, bytes (a.cont s ++ pad)) :: a.labels, globals := (bound a o).globals, commons := a.commons }

theorem placed_adds (a : File) (o : Obj) (s : Sec) (k : Nat) (l : List Item) (hp : ∀ s, ∃ j, a.al s = 2 ^ j) : Adds o a (placed a o s k l) where
  cont t := by
    show ∃ l', (if t = s then _ else _) = _
    split
    · exact ⟨_, rfl⟩
    · exact ⟨[], (List.append_nil _).symm⟩
  al t := by
    show _ ∣ (if t = s then max (a.al t) (2 ^ k) else a.al t)
    split
    · obtain ⟨j, hj⟩ := hp t
      rw [hj]; exact pow_dvd_max.1
    · exact Nat.dvd_refl _
  pow t := by
    show ∃ j, (if t = s then max (a.al t) (2 ^ k) else a.al t) = 2 ^ j
    obtain ⟨j, hj⟩ := hp t
    split
    · rw [hj]; exact pow_dvd_max.2.2
    · exact ⟨j, hj⟩
  others x hx := ⟨place_cons a x _ _ _ hx, rfl⟩
  defd := .inl (by rw [show (placed a o s k l).place o.name = _ from place_new a _ _ _]; simp)
  globals x := bound_globals a o x

theorem placed_at (fc : Bool) (a : File) (o : Obj) (k : Nat) (hal : o.al = 2 ^ k) (hc : o.isCommon fc = false) (hp : ∀ s, ∃ j, a.al s = 2 ^ j) :
    At fc (placed a o o.sec k o.image) o (bytes (a.cont o.sec)) := by
  unfold At
  rw [if_neg (by simp [hc])]
  refine ⟨_, a.cont o.sec ++ List.replicate ((2 ^ k - bytes (a.cont o.sec) % 2 ^ k) % 2 ^ k) (Item.byte 0), [], place_new a _ _ _, ?_, ?_, ?_, rfl, ?_⟩
  · rw [hal, bytes_append, bytes_replicate]
    exact pad_dvd _ _
  · show _ ∣ (if o.sec = o.sec then max (a.al o.sec) (2 ^ k) else a.al o.sec)
    rw [if_pos rfl, hal]
    obtain ⟨j, hj⟩ := hp o.sec
    rw [hj]; exact pow_dvd_max.2.1
  · show (if o.sec = o.sec then _ else _) = _
    rw [if_pos rfl, List.append_nil, List.append_assoc]
  · rw [bytes_append]; omega

/-- The lines of an object. -/
def chunk (fc : Bool) (o : Obj) : Option (List Line) := if o.isFn then some (fnLines o) else objLines fc o

theorem chunk_adds {fc : Bool} {o : Obj} (ho : o.out = true) (hok : o.Ok) {a : File} (hd : ¬ a.defines o.name) (hp : ∀ s, ∃ j, a.al s = 2 ^ j) :
    ∃ ls a', chunk fc o = some ls ∧ assemble a ls = some a' ∧ Adds o a a' ∧ At fc a' o (bytes (a.cont o.sec)) := by
  have hdef : o.isDef = true := by unfold Obj.out at ho; simp only [Bool.and_eq_true] at ho; exact ho.1
  unfold chunk
  cases hf : o.isFn with
  | true =>
    have hl : o.live = true := by unfold Obj.out at ho; simpa [hf, hdef] using ho
    have hsec : o.sec = .text := by unfold Obj.sec; rw [hf]; rfl
    have him : o.image = o.code.map .byte := by unfold Obj.image; rw [hf]; rfl
    have hdb : ∀ c ct al gl, ¬ (File.mk c ct al a.labels gl a.commons).defines o.name := fun _ _ _ _ h => hd h
    refine ⟨_, placed a o o.sec 0 o.image, rfl, ?_, placed_adds a o _ _ _ hp, placed_at fc a o 0 (by unfold Obj.al; rw [hf]; rfl) (by unfold Obj.isCommon; rw [hf]; rfl) hp⟩
    unfold fnLines
    rw [if_pos (by simp [hf, hdef, hl]), hsec, him]
    unfold bind placed bound
    have hn : ∀ n : Nat, (2 ^ 0 - n % 2 ^ 0) % 2 ^ 0 = 0 := fun n => Nat.mod_one _
    have hal : (fun t => if t = Sec.text then max (a.al t) (2 ^ 0) else a.al t) = a.al := by
      funext t
      split
      · obtain ⟨j, hj⟩ := hp t
        have := Nat.two_pow_pos j
        rw [Nat.max_eq_left (by omega)]
      · rfl
    rw [hal]
    cases hst : o.isStatic <;>
      · simp only [Bool.false_eq_true, if_false, if_true, assemble, step, hn, List.replicate_zero, List.nil_append, List.append_nil]
        rw [if_neg (hdb _ _ _ _)]
        simp only [File.put, reduceCtorEq, or_self, if_false]
  | false =>
    simp only [Bool.false_eq_true, if_false]
    unfold objLines
    rw [if_neg (by simp [hf, hdef])]
    cases hc : fc && o.tentative with
    | true =>
      simp only [if_true]
      refine ⟨_, { bound a o with commons := (o.name, o.size.toNat, o.align.toNat) :: a.commons }, rfl, ?_, ?_, ?_⟩
      · rw [assemble, step_bind]
        simp only [assemble, step]
        have hb : ¬ (bound a o).defines o.name := by unfold bound; split <;> exact hd
        obtain ⟨k, hk⟩ := hok.align
        have hk2 : o.align.toNat = 2 ^ k := by
          have : ((2 : Int) ^ k) = ((2 ^ k : Nat) : Int) := by simp
          rw [hk, this, Int.toNat_natCast]
        rw [if_neg (by
          rintro (h | h | h)
          · exact hb h
          · have := hok.size; omega
          · refine h ⟨k, ?_, ?_⟩
            · rw [hk2]; exact Nat.lt_two_pow_self
            · exact hk2)]
        unfold bound
        cases o.isStatic <;> rfl
      · have hb : ∀ {α : Type} (g : File → α), (∀ s, g { a with globals := s } = g a) → g (bound a o) = g a := by
          intro α g h
          unfold bound
          cases o.isStatic
          · exact h _
          · rfl
        have e1 : (bound a o).cont = a.cont := hb (·.cont) fun _ => rfl
        have e2 : (bound a o).al = a.al := hb (·.al) fun _ => rfl
        have e3 : (bound a o).labels = a.labels := hb (·.labels) fun _ => rfl
        refine ⟨fun s => ⟨[], ?_⟩, fun s => ?_, fun s => ?_, fun x hx => ⟨?_, ?_⟩, .inr ?_, fun x => bound_globals a o x⟩
        · show (bound a o).cont s = _; rw [e1, List.append_nil]
        · show _ ∣ (bound a o).al s; rw [e2]; exact Nat.dvd_refl _
        · show ∃ j, (bound a o).al s = _; rw [e2]; exact hp s
        · unfold File.place; show Option.map _ (List.find? _ (bound a o).labels) = _; rw [e3]
        · exact common_cons a x _ _ _ hx
        · exact fun h => Option.some_ne_none _ ((common_new a _ _ _).symm.trans h)
      · unfold At
        rw [if_pos (by unfold Obj.isCommon; simp [hf, hc])]
        refine ⟨common_new a _ _ _, ?_⟩
        have e3 : (bound a o).labels = a.labels := by unfold bound; cases o.isStatic <;> rfl
        unfold File.place
        show Option.map _ (List.find? _ (bound a o).labels) = _
        rw [e3]
        cases h : a.place o.name with
        | none => exact h
        | some p => exact absurd (.inl (by rw [h]; simp)) hd
    | false =>
      obtain ⟨k, hk⟩ := hok.align
      have hk0 : 0 < o.align := by rw [hk]; exact Int.pow_pos (by decide)
      have hll : Util.llog2 o.align = some k := (Util.C61_llog2 o.align k hk0).mpr hk
      have hal : o.al = 2 ^ k := by
        unfold Obj.al
        rw [hf, hk]
        simp only [Bool.false_eq_true, if_false]
        have : ((2 : Int) ^ k) = ((2 ^ k : Nat) : Int) := by simp
        rw [this, Int.toNat_natCast]
      have hcm : o.isCommon fc = false := by unfold Obj.isCommon; rw [hc]; simp
      simp only [Bool.false_eq_true, if_false, hll]
      have hdb : ∀ c ct al gl, ¬ (File.mk c ct al a.labels gl a.commons).defines o.name := fun _ _ _ _ h => hd h
      cases hi : o.init with
      | none =>
        have him : o.image = List.replicate o.size.toNat (.byte 0) := by unfold Obj.image; rw [hf, hi]; rfl
        have hsec : o.sec = if o.tls then .tbss else .bss := by unfold Obj.sec; rw [hf, hi]; rfl
        refine ⟨_, placed a o o.sec k o.image, rfl, ?_, placed_adds a o _ _ _ hp, placed_at fc a o k hal hcm hp⟩
        rw [him, ← hsec]
        generalize o.sec = sc
        unfold bind placed bound
        cases hst : o.isStatic <;>
          · simp only [Bool.false_eq_true, if_false, if_true, assemble, step, File.put, bytes_append]
            rw [if_neg (hdb _ _ _ _)]
            simp only []
            rw [if_neg (by have := hok.size; omega)]
            simp only [Option.some.injEq, File.mk.injEq, true_and, and_true]
            funext t
            by_cases ht : t = sc <;> simp [ht]
      | some p =>
        obtain ⟨buf, rels⟩ := p
        have him : o.image = emit o.size.toNat buf rels 0 := by unfold Obj.image; rw [hf, hi]; rfl
        have hsec : o.sec = if o.tls then .tdata else .data := by unfold Obj.sec; rw [hf, hi]; rfl
        have hcur : o.sec ≠ .bss ∧ o.sec ≠ .tbss := by rw [hsec]; cases o.tls <;> decide
        refine ⟨_, placed a o o.sec k o.image, rfl, ?_, placed_adds a o _ _ _ hp, placed_at fc a o k hal hcm hp⟩
        rw [him, ← hsec]
        generalize o.sec = sc at hcur ⊢
        generalize emit o.size.toNat buf rels 0 = l
        rw [assemble_append]
        unfold bind placed bound
        cases hst : o.isStatic <;>
          · simp only [Bool.false_eq_true, if_false, if_true, assemble, step, File.put, bytes_append]
            rw [if_neg (hdb _ _ _ _)]
            simp only [Option.bind_some]
            rw [items_put _ _ hcur]
            simp only [File.put, Option.some.injEq, File.mk.injEq, true_and, and_true]
            funext t
            by_cases ht : t = sc <;> simp [ht]

theorem At.mono {fc : Bool} {o o' : Obj} {a a' : File} {n : Nat} (h : At fc a o n) (hA : Adds o' a a') (hne : o.name ≠ o'.name) : At fc a' o n := by
  unfold At at h ⊢
  obtain ⟨e1, e2⟩ := hA.others o.name hne
  split
  · rename_i hc
    rw [if_pos hc] at h
    rw [e1, e2]; exact h
  · rename_i hc
    rw [if_neg hc] at h
    obtain ⟨off, p, q, h1, h2, h3, h4, h5, h6⟩ := h
    obtain ⟨l, hl⟩ := hA.cont o.sec
    exact ⟨off, p, q ++ l, by rw [e1]; exact h1, h2, Nat.dvd_trans h3 (hA.al _), by rw [hl, h4]; simp, h5, h6⟩

/-- Two objects do not share bytes. -/
def Apart (a : File) (o o' : Obj) : Prop := ∀ s n n', a.place o.name = some (s, n) → a.place o'.name = some (s, n') → n + o.len ≤ n' ∨ n' + o'.len ≤ n

theorem Apart.mono {x o o' : Obj} {a a' : File} (h : Apart a o o') (hA : Adds x a a') (h1 : o.name ≠ x.name) (h2 : o'.name ≠ x.name) : Apart a' o o' := by
  intro s n n' e1 e2
  rw [(hA.others _ h1).1] at e1
  rw [(hA.others _ h2).1] at e2
  exact h s n n' e1 e2

/-- All objects, one after the other. -/
theorem chunks_run (fc : Bool) : ∀ (os : List Obj) (done : List Obj) (a : File), (∀ o ∈ os, o.out = true ∧ o.Ok) → (∀ o ∈ done, o.Ok) →
    ((done ++ os).map (·.name)).Nodup → (∀ s, ∃ j, a.al s = 2 ^ j) →
    (∀ o ∈ done, ∃ n, At fc a o n) → (done.Pairwise (Apart a)) → (∀ x, a.defines x → ∃ o ∈ done, o.name = x) → (∀ x, x ∈ a.globals ↔ ∃ o ∈ done, o.name = x ∧ o.isStatic = false) →
    ∃ lss a', os.mapM (chunk fc) = some lss ∧ assemble a lss.flatten = some a' ∧ (∀ o ∈ done ++ os, ∃ n, At fc a' o n) ∧ (done ++ os).Pairwise (Apart a') ∧
      (∀ x, a'.defines x → ∃ o ∈ done ++ os, o.name = x) ∧ (∀ x, x ∈ a'.globals ↔ ∃ o ∈ done ++ os, o.name = x ∧ o.isStatic = false)
  | [], done, a, _, _, _, _, h1, h2, h3, h4 => ⟨[], a, rfl, rfl, by simpa using h1, by simpa using h2, by simpa using h3, by simpa using h4⟩
  | o :: os, done, a, ho, hdone, hn, hp, h1, h2, h3, h4 => by
    obtain ⟨hout, hok⟩ := ho o (by simp)
    have hne : ∀ d ∈ done, d.name ≠ o.name := by
      intro d hd e
      rw [List.map_append, List.nodup_append] at hn
      exact hn.2.2 d.name (List.mem_map_of_mem hd) o.name (by simp) e
    have hnd : ¬ a.defines o.name := fun h => by
      obtain ⟨d, hd, e⟩ := h3 _ h
      exact hne d hd e
    obtain ⟨ls, a1, e1, e2, hA, hat⟩ := chunk_adds (fc := fc) hout hok hnd hp
    have key := chunks_run fc os (done ++ [o]) a1 (fun x hx => ho x (by simp [hx]))
      (by intro x hx; rcases List.mem_append.mp hx with hx | hx
          · exact hdone x hx
          · rw [List.mem_singleton] at hx; subst hx; exact hok) (by simpa using hn) hA.pow ?_ ?_ ?_ ?_
    · obtain ⟨lss, a2, k1, k2, k3, k4, k5, k6⟩ := key
      refine ⟨ls :: lss, a2, ?_, ?_, by simpa using k3, by simpa using k4, by simpa using k5, by simpa using k6⟩
      · simp only [List.mapM_cons, e1, k1, Option.bind_eq_bind, Option.bind_some, Option.pure_def]
      · rw [List.flatten_cons, assemble_append, e2]; exact k2
    · intro x hx
      rcases List.mem_append.mp hx with hx | hx
      · obtain ⟨n, hn'⟩ := h1 x hx
        exact ⟨n, hn'.mono hA (hne x hx)⟩
      · rw [List.mem_singleton] at hx; subst hx; exact ⟨_, hat⟩
    · rw [List.pairwise_append]
      refine ⟨?_, List.pairwise_singleton _ _, ?_⟩
      · refine (List.Pairwise.and_mem.mp h2).imp ?_
        rintro x y ⟨hx, hy, hxy⟩
        exact hxy.mono hA (hne x hx) (hne y hy)
      · intro x hx y hy
        rw [List.mem_singleton] at hy; subst hy
        intro s n n' q1 q2
        left
        obtain ⟨m, hm⟩ := h1 x hx
        rw [(hA.others _ (hne x hx)).1] at q1
        unfold At at hm hat
        split at hm
        · rw [hm.2] at q1; cases q1
        · obtain ⟨off, p, q, g1, g2, g3, g4, g5, g6⟩ := hm
          rw [g1] at q1
          simp only [Option.some.injEq, Prod.mk.injEq] at q1
          obtain ⟨rfl, rfl⟩ := q1
          split at hat
          · rw [hat.2] at q2; cases q2
          · obtain ⟨off', p', q', g1', g2', g3', g4', g5', g6'⟩ := hat
            rw [g1'] at q2
            simp only [Option.some.injEq, Prod.mk.injEq] at q2
            obtain ⟨e, rfl⟩ := q2
            rw [e] at g6'
            rw [g4, bytes_append, bytes_append, image_len (hdone x hx), g5] at g6'
            omega
    · intro x hx
      by_cases hxo : x = o.name
      · exact ⟨o, by simp, hxo.symm⟩
      · unfold File.defines at hx
        rw [(hA.others x hxo).1, (hA.others x hxo).2] at hx
        obtain ⟨d, hd, e⟩ := h3 x hx
        exact ⟨d, by simp [hd], e⟩
    · intro x
      rw [hA.globals, h4]
      constructor
      · rintro (⟨d, hd, e⟩ | ⟨rfl, e⟩)
        · exact ⟨d, by simp [hd], e⟩
        · exact ⟨o, by simp, rfl, e⟩
      · rintro ⟨d, hd, e3, e4⟩
        rcases List.mem_append.mp hd with hd | hd
        · exact .inl ⟨d, hd, e3, e4⟩
        · rw [List.mem_singleton] at hd; subst hd; exact .inr ⟨e3.symm, e4⟩

/-- The objects and functions in the order in which they are printed. -/
def order (objs : List Obj) : List Obj := objs.filter (fun o => o.out && !o.isFn) ++ objs.filter (fun o => o.out && o.isFn)

theorem mapM_append' {α β : Type} (f : α → Option β) (a b : List α) {x y : List β} (h1 : a.mapM f = some x) (h2 : b.mapM f = some y) : (a ++ b).mapM f = some (x ++ y) := by
  simp [h1, h2]

theorem mapM_split {α β : Type} (f : α → Option β) : ∀ (a b : List α) {z : List β}, (a ++ b).mapM f = some z → ∃ x y, a.mapM f = some x ∧ b.mapM f = some y ∧ z = x ++ y := by
  intro a b z h
  simp only [List.mapM_append, Option.bind_eq_bind, Option.pure_def] at h
  cases h1 : a.mapM f with
  | none => rw [h1] at h; cases h
  | some x =>
    cases h2 : b.mapM f with
    | none => rw [h1, h2] at h; cases h
    | some y =>
      rw [h1, h2] at h
      cases h
      exact ⟨x, y, rfl, rfl, rfl⟩

theorem data_lines (fc : Bool) : ∀ (objs : List Obj) {x : List (List Line)}, (objs.filter fun o => o.out && !o.isFn).mapM (chunk fc) = some x →
    emitData fc objs = some x.flatten
  | [], x, h => by cases h; rfl
  | o :: objs, x, h => by
    by_cases hc : (o.out && !o.isFn) = true
    · rw [List.filter_cons, if_pos hc] at h
      simp only [List.mapM_cons, Option.bind_eq_bind, Option.bind_eq_some_iff, Option.pure_def, Option.some.injEq] at h
      obtain ⟨l, h1, r, h2, rfl⟩ := h
      have ih := data_lines fc objs h2
      unfold emitData at ih ⊢
      simp only [Option.map_eq_some_iff] at ih
      obtain ⟨z, z1, z2⟩ := ih
      have hf : o.isFn = false := by simp only [Bool.and_eq_true, Bool.not_eq_true'] at hc; exact hc.2
      unfold chunk at h1
      rw [hf] at h1
      simp only [Bool.false_eq_true, if_false] at h1
      simp only [List.mapM_cons, h1, z1, Option.bind_eq_bind, Option.bind_some, Option.pure_def, Option.map_some, List.flatten_cons, z2]
    · rw [List.filter_cons, if_neg hc] at h
      have ih := data_lines fc objs h
      unfold emitData at ih ⊢
      simp only [Option.map_eq_some_iff] at ih
      obtain ⟨z, z1, z2⟩ := ih
      have h1 : objLines fc o = some [] := by
        unfold objLines
        rw [if_pos ?_]
        unfold Obj.out at hc
        cases hf : o.isFn
        · cases hd : o.isDef
          · rfl
          · rw [hf, hd] at hc; exact absurd rfl hc
        · rfl
      simp only [List.mapM_cons, h1, z1, Option.bind_eq_bind, Option.bind_some, Option.pure_def, Option.map_some, List.flatten_cons, z2, List.nil_append]

theorem fn_lines (fc : Bool) : ∀ (objs : List Obj) {x : List (List Line)}, (objs.filter fun o => o.out && o.isFn).mapM (chunk fc) = some x → objs.flatMap fnLines = x.flatten
  | [], x, h => by cases h; rfl
  | o :: objs, x, h => by
    by_cases hc : (o.out && o.isFn) = true
    · rw [List.filter_cons, if_pos hc] at h
      simp only [List.mapM_cons, Option.bind_eq_bind, Option.bind_eq_some_iff, Option.pure_def, Option.some.injEq] at h
      obtain ⟨l, h1, r, h2, rfl⟩ := h
      have hf : o.isFn = true := by simp only [Bool.and_eq_true] at hc; exact hc.2
      unfold chunk at h1
      rw [if_pos hf] at h1
      cases h1
      rw [List.flatMap_cons, fn_lines fc objs h2, List.flatten_cons]
    · rw [List.filter_cons, if_neg hc] at h
      have h1 : fnLines o = [] := by
        unfold fnLines
        rw [if_neg ?_]
        intro he
        apply hc
        unfold Obj.out
        simp only [Bool.and_eq_true] at he
        simp [he.1.1, he.1.2, he.2]
      rw [List.flatMap_cons, fn_lines fc objs h, h1, List.nil_append]

theorem mem_order {objs : List Obj} {o : Obj} : o ∈ order objs ↔ o ∈ objs ∧ o.out = true := by
  unfold order
  rw [List.mem_append, List.mem_filter, List.mem_filter]
  cases o.out <;> cases o.isFn <;> simp

theorem order_nodup {objs : List Obj} (h : ((objs.filter Obj.out).map (·.name)).Nodup) : ((order objs).map (·.name)).Nodup := by
  have hp : (order objs).Perm (objs.filter Obj.out) := by
    unfold order
    rw [← List.filter_filter, ← List.filter_filter]
    have e1 : (objs.filter fun o => !o.isFn).filter Obj.out = (objs.filter Obj.out).filter fun o => !o.isFn := by rw [List.filter_filter, List.filter_filter]; simp only [Bool.and_comm]
    have e2 : (objs.filter fun o => o.isFn).filter Obj.out = (objs.filter Obj.out).filter fun o => o.isFn := by rw [List.filter_filter, List.filter_filter]; simp only [Bool.and_comm]
    rw [e1, e2]
    exact (List.perm_append_comm).trans (List.filter_append_perm (fun o : Obj => o.isFn) _)
  exact ((hp.map _).nodup_iff).mpr h

end Toycc.Asm

namespace Toycc.Asm
open Toycc.Init (Item Reloc emit linked byteOf bitOf img bit)
open Toycc.Cg Toycc.Low Toycc.Rv

theorem img_rel (ρ : String → W) (buf : Nat → BitVec 8) : ∀ {rels : List Reloc} {r : Reloc} {j : Nat}, rels.Pairwise (fun r s => r.offset + 8 ≤ s.offset) → r ∈ rels →
    8 * r.offset ≤ j → j < 8 * r.offset + 64 → img ρ buf rels j = (ρ r.label + r.addend).getLsbD (j - 8 * r.offset)
  | [], _, _, _, h, _, _ => by cases h
  | x :: rels, r, j, hp, h, h1, h2 => by
    unfold img
    rcases List.mem_cons.mp h with rfl | h
    · rw [if_pos (by unfold Init.Reloc.has; omega)]
    · have hx := (List.pairwise_cons.mp hp).1 r h
      rw [if_neg (by unfold Init.Reloc.has; omega)]
      exact img_rel ρ buf (List.pairwise_cons.mp hp).2 h h1 h2

theorem img_free (ρ : String → W) (buf : Nat → BitVec 8) : ∀ {rels : List Reloc} {j : Nat}, (∀ r ∈ rels, ¬ (8 * r.offset ≤ j ∧ j < 8 * r.offset + 64)) →
    img ρ buf rels j = bit buf j
  | [], _, _ => rfl
  | x :: rels, j, h => by
    unfold img
    rw [if_neg (by have := h x (by simp); unfold Init.Reloc.has; omega)]
    exact img_free ρ buf fun r hr => h r (by simp [hr])

/-- The bytes of what emit_data prints. -/
theorem emit_byte (ρ : String → W) (size : Nat) (buf : Nat → BitVec 8) (rels : List Reloc) (hr : ∀ r ∈ rels, r.offset + 8 ≤ size)
    (hp : rels.Pairwise fun r s => r.offset + 8 ≤ s.offset) {i : Nat} (hi : i < size) {v : BitVec 8} (hv : ∀ k, k < 8 → img ρ buf rels (8 * i + k) = v.getLsbD k) :
    (linked ρ (emit size buf rels 0))[i]? = some v := by
  obtain ⟨g1, g2⟩ := Init.emit_img ρ size buf size 0 rels (by omega) (Nat.zero_le _) (fun r h => ⟨Nat.zero_le _, hr r h⟩) hp
  have hl : i < (linked ρ (emit size buf rels 0)).length := by omega
  rw [List.getElem?_eq_getElem hl]
  congr 1
  apply BitVec.eq_of_getLsbD_eq
  intro k hk
  have := g2 (8 * i + k) (by omega)
  unfold bitOf at this
  rw [show (8 * i + k) / 8 = i by omega, show (8 * i + k) % 8 = k by omega, List.getElem?_eq_getElem hl] at this
  rw [← hv k hk]
  simpa using this

theorem linked_append (ρ : String → W) (a b : List Item) : linked ρ (a ++ b) = linked ρ a ++ linked ρ b := by unfold linked; rw [List.flatMap_append]

theorem linked_bytes (ρ : String → W) (l : List (BitVec 8)) : linked ρ (l.map .byte) = l := by
  induction l with
  | nil => rfl
  | cons b l ih => rw [List.map_cons, Init.linked_cons, ih]; rfl

/-- The image of an object is where its symbol points. -/
theorem loaded_image {a : File} {base : Sec → Nat} {ρ : String → W} {mem : Nat → BitVec 8} (h : Loaded a base ρ mem) {o : Obj} {s : Sec} {p q : List Item}
    (hpl : a.place o.name = some (s, bytes p)) (hc : a.cont s = p ++ (o.image ++ q)) {i : Nat} {b : BitVec 8} (hb : (linked ρ o.image)[i]? = some b) :
    mem ((ρ o.name).toNat + i) = b := by
  rw [h.labels _ _ _ hpl, Nat.add_assoc]
  apply h.contents
  rw [hc, linked_append, linked_append, List.getElem?_append_right (by rw [bytes_linked]; omega), bytes_linked, Nat.add_sub_cancel_left]
  have : i < (linked ρ o.image).length := by
    rcases Nat.lt_or_ge i (linked ρ o.image).length with h | h
    · exact h
    · rw [List.getElem?_eq_none h] at hb; cases hb
  rw [List.getElem?_append_left this, hb]

theorem image_value {o : Obj} (hok : o.Ok) {ρ : String → W} {mem : Nat → BitVec 8} {addr : Nat} (h : ∀ i b, (linked ρ o.image)[i]? = some b → mem (addr + i) = b) :
    o.Value ρ mem addr := by
  unfold Obj.Value
  unfold Obj.image at h
  split
  · rename_i hf
    rw [if_pos hf] at h
    intro i b hb
    exact h i b (by rw [linked_bytes]; exact hb)
  · rename_i hf
    rw [if_neg hf] at h
    cases hi : o.init with
    | none =>
      rw [hi] at h
      intro i hlt
      apply h
      rw [← List.map_replicate, linked_bytes, List.getElem?_replicate, if_pos hlt]
    | some p =>
      obtain ⟨buf, rels⟩ := p
      rw [hi] at h
      obtain ⟨h1, h2⟩ := hok.rels buf rels hi
      refine ⟨fun r hr i hlt => h _ _ ?_, fun i hlt hfree => h _ _ ?_⟩
      · have := h1 r hr
        refine emit_byte ρ _ buf rels h1 h2 (by omega) fun k hk => ?_
        rw [img_rel ρ buf h2 hr (by omega) (by omega), Init.byteOf_bit _ _ _ hk]
        congr 1; omega
      · refine emit_byte ρ _ buf rels h1 h2 hlt fun k hk => ?_
        rw [img_free ρ buf fun r hr => by have := hfree r hr; omega]
        unfold bit
        rw [show (8 * i + k) / 8 = i by omega, show (8 * i + k) % 8 = k by omega]

end Toycc.Asm
