import Verif.Frame.Model
import Verif.Util.Props
/-! C48: frame layout. -/
namespace Toycc.Frame
open Toycc.Util

theorem alignE_ok {n a : Int} (hn : 0 ≤ n) (ha : 0 < a) : ∃ r, alignE n a = .ok r ∧ n ≤ r ∧ a ∣ r := by
  obtain ⟨r, h1, h2, h3, -⟩ := C61_alignTo n a hn ha
  exact ⟨r, by simp only [alignE, h1], h3, h2⟩

theorem alignE_of {n a r : Int} (hn : 0 ≤ n) (ha : 0 < a) (h : alignE n a = .ok r) : n ≤ r ∧ a ∣ r := by
  obtain ⟨r', h1, h2⟩ := alignE_ok hn ha
  rw [h] at h1; cases h1; exact h2

/-- The first loop. -/
theorem paramOffsets_spec : ∀ (ps : List Var) (g f : Nat) (top : Int) (os : List (Option Int)) (t : Int), 0 ≤ top →
    paramOffsets ps g f top = .ok (os, t) →
    os.length = ps.length ∧ top ≤ t ∧
    (∀ (i : Nat) (v : Var) (o : Int), ps[i]? = some v → os[i]? = some (some o) → top ≤ o ∧ 8 ∣ o ∧ o + v.size ≤ t) ∧
    (∀ (i j : Nat) (v w : Var) (o p : Int), i < j → ps[i]? = some v → ps[j]? = some w → os[i]? = some (some o) → os[j]? = some (some p) → o + v.size ≤ p)
  | [], g, f, top, os, t, _, h => by
    cases h
    exact ⟨rfl, Int.le_refl _, by simp, by simp⟩
  | v :: r, g, f, top, os, t, ht, h => by
    simp only [paramOffsets, bind, Except.bind] at h
    cases hp : place v g f with
    | error e => rw [hp] at h; cases h
    | ok pl =>
      rw [hp] at h
      cases pl with
      | reg g' f' =>
        simp only at h
        cases hr : paramOffsets r g' f' top with
        | error e => rw [hr] at h; cases h
        | ok q =>
          obtain ⟨os', t'⟩ := q
          rw [hr] at h
          cases h
          obtain ⟨h1, h2, h3, h4⟩ := paramOffsets_spec r g' f' top os' t' ht hr
          refine ⟨by simp [h1], h2, ?_, ?_⟩
          · intro i w o hi ho
            cases i with
            | zero => simp at ho
            | succ i => exact h3 i w o (by simpa using hi) (by simpa using ho)
          · intro i j v' w o p hij hi hj ho hq
            cases i with
            | zero => simp at ho
            | succ i =>
              cases j with
              | zero => omega
              | succ j => exact h4 i j v' w o p (by omega) (by simpa using hi) (by simpa using hj) (by simpa using ho) (by simpa using hq)
      | stack g' f' =>
        simp only at h
        cases ha : alignE top 8 with
        | error e => rw [ha] at h; cases h
        | ok top' =>
          rw [ha] at h
          simp only at h
          obtain ⟨ha1, ha2⟩ := alignE_of ht (by omega) ha
          cases hr : paramOffsets r g' f' (top' + v.size) with
          | error e => rw [hr] at h; cases h
          | ok q =>
            obtain ⟨os', t'⟩ := q
            rw [hr] at h
            cases h
            obtain ⟨h1, h2, h3, h4⟩ := paramOffsets_spec r g' f' (top' + v.size) os' t' (by omega) hr
            refine ⟨by simp [h1], by omega, ?_, ?_⟩
            · intro i w o hi ho
              cases i with
              | zero => simp at hi ho; subst hi; subst ho; exact ⟨ha1, ha2, h2⟩
              | succ i =>
                obtain ⟨x, y, z⟩ := h3 i w o (by simpa using hi) (by simpa using ho)
                exact ⟨by omega, y, z⟩
            · intro i j v' w o p hij hi hj ho hq
              cases j with
              | zero => omega
              | succ j =>
                cases i with
                | zero =>
                  simp at hi ho
                  subst hi; subst ho
                  exact (h3 j w p (by simpa using hj) (by simpa using hq)).1
                | succ i => exact h4 i j v' w o p (by omega) (by simpa using hi) (by simpa using hj) (by simpa using ho) (by simpa using hq)

/-- The second loop. -/
theorem localOffsets_spec : ∀ (vs : List (Var × Option Int)) (bottom : Int) (os : List Int) (b : Int), 0 ≤ bottom → (∀ p ∈ vs, 0 < p.1.align) →
    localOffsets vs bottom = .ok (os, b) →
    os.length = vs.length ∧ bottom ≤ b ∧
    (∀ (i : Nat) (v : Var) (o : Int), vs[i]? = some (v, some o) → os[i]? = some o) ∧
    (∀ (i : Nat) (v : Var) (o : Int), vs[i]? = some (v, none) → os[i]? = some o → -b ≤ o ∧ o + v.size ≤ -bottom ∧ (v.align : Int) ∣ o) ∧
    (∀ (i j : Nat) (v w : Var) (o p : Int), i < j → vs[i]? = some (v, none) → vs[j]? = some (w, none) → os[i]? = some o → os[j]? = some p → p + w.size ≤ o)
  | [], bottom, os, b, _, _, h => by
    cases h
    exact ⟨rfl, Int.le_refl _, by simp, by simp, by simp⟩
  | (v, some x) :: r, bottom, os, b, hb, hal, h => by
    simp only [localOffsets, bind, Except.bind] at h
    cases hr : localOffsets r bottom with
    | error e => rw [hr] at h; cases h
    | ok q =>
      obtain ⟨os', b'⟩ := q
      rw [hr] at h
      cases h
      obtain ⟨h1, h2, h3, h4, h5⟩ := localOffsets_spec r bottom os' b' hb (fun p hp => hal p (List.mem_cons_of_mem _ hp)) hr
      refine ⟨by simp [h1], h2, ?_, ?_, ?_⟩
      · intro i w o hi
        cases i with
        | zero => simp at hi; simp [hi.2]
        | succ i => simpa using h3 i w o (by simpa using hi)
      · intro i w o hi ho
        cases i with
        | zero => simp at hi
        | succ i => exact h4 i w o (by simpa using hi) (by simpa using ho)
      · intro i j v' w o p hij hi hj ho hp
        cases i with
        | zero => simp at hi
        | succ i =>
          cases j with
          | zero => omega
          | succ j => exact h5 i j v' w o p (by omega) (by simpa using hi) (by simpa using hj) (by simpa using ho) (by simpa using hp)
  | (v, none) :: r, bottom, os, b, hb, hal, h => by
    have hva : 0 < v.align := hal _ List.mem_cons_self
    simp only [localOffsets, bind, Except.bind] at h
    cases ha : alignE (bottom + v.size) v.align with
    | error e => rw [ha] at h; cases h
    | ok bottom' =>
      rw [ha] at h
      simp only at h
      obtain ⟨ha1, ha2⟩ := alignE_of (by omega) (by omega) ha
      cases hr : localOffsets r bottom' with
      | error e => rw [hr] at h; cases h
      | ok q =>
        obtain ⟨os', b'⟩ := q
        rw [hr] at h
        cases h
        obtain ⟨h1, h2, h3, h4, h5⟩ := localOffsets_spec r bottom' os' b' (by omega) (fun p hp => hal p (List.mem_cons_of_mem _ hp)) hr
        refine ⟨by simp [h1], by omega, ?_, ?_, ?_⟩
        · intro i w o hi
          cases i with
          | zero => simp at hi
          | succ i => simpa using h3 i w o (by simpa using hi)
        · intro i w o hi ho
          cases i with
          | zero =>
            simp at hi ho
            subst hi; subst ho
            exact ⟨by omega, by omega, (Int.dvd_neg).mpr ha2⟩
          | succ i =>
            obtain ⟨x, y, z⟩ := h4 i w o (by simpa using hi) (by simpa using ho)
            exact ⟨x, by omega, z⟩
        · intro i j v' w o p hij hi hj ho hp
          cases j with
          | zero => omega
          | succ j =>
            cases i with
            | zero =>
              simp at hi ho
              subst hi; subst ho
              exact (h4 j w p (by simpa using hj) (by simpa using hp)).2.1
            | succ i => exact h5 i j v' w o p (by omega) (by simpa using hi) (by simpa using hj) (by simpa using ho) (by simpa using hp)

/-! ### The specification -/

/-- Bytes `[o, o + n)` and `[p, p + m)` do not overlap. -/
def Apart (o : Int) (n : Nat) (p : Int) (m : Nat) : Prop := o + n ≤ p ∨ p + m ≤ o

/-- A slot in the part of the frame between the stack pointer (after the prologue) and the frame pointer, aligned relative to the latter. -/
def InFrame (size : Int) (v : Var) (o : Int) : Prop := -size ≤ o ∧ o + v.size ≤ 0 ∧ (v.align : Int) ∣ o

/-- A slot beyond the saved fp and ra, at a multiple of 8 bytes from the frame pointer. -/
def InCaller (o : Int) : Prop := 16 ≤ o ∧ 8 ∣ o

/-- C48. -/
theorem C48_frame (fn : Fn) (fr : Frame) (hal : ∀ v ∈ fn.locals, 0 < v.align) (h : layout fn = .ok fr) :
    fr.offs.length = fn.locals.length ∧ 0 ≤ fr.size ∧ 8 ∣ fr.size ∧
    -- every variable that is not a parameter is inside the frame
    (∀ (i : Nat) v, fn.others[i]? = some v → ∃ o, fr.offs[i]? = some o ∧ InFrame fr.size v o) ∧
    -- every parameter is either inside the frame or in the area of the caller
    (∀ (i : Nat) v, fn.params[i]? = some v → ∃ o, fr.offs[fr.offs.length - fn.params.length + i]? = some o ∧ (InFrame fr.size v o ∨ InCaller o)) ∧
    -- the area for the variable arguments is in the area of the caller
    (fn.variadic = true → ∃ o, fr.offs[fn.others.length]? = some o ∧ InCaller o) ∧
    -- no two overlap
    (∀ (i j : Nat) (v w : Var) (o p : Int), i ≠ j → fn.locals[i]? = some v → fn.locals[j]? = some w → fr.offs[i]? = some o → fr.offs[j]? = some p → Apart o v.size p w.size) := by
  simp only [layout, bind, Except.bind] at h
  cases hp : paramOffsets fn.params 0 0 16 with
  | error e => rw [hp] at h; cases h
  | ok q =>
    obtain ⟨ps, top⟩ := q
    rw [hp] at h
    simp only at h
    obtain ⟨p1, p2, p3, p4⟩ := paramOffsets_spec fn.params 0 0 16 ps top (by omega) hp
    cases hv : alignE top 8 with
    | error e => rw [hv] at h; cases h
    | ok va =>
      rw [hv] at h
      simp only at h
      obtain ⟨v1, v2⟩ := alignE_of (by omega) (by omega) hv
      generalize hpre : fn.others.map (fun _ => (none : Option Int)) ++ (if fn.variadic then [some va] else []) ++ ps = pre at h
      have hlen : pre.length = fn.locals.length := by
        rw [← hpre]; unfold Fn.locals
        cases fn.variadic <;> simp [p1]
      have hzip : ∀ (i : Nat) v o, fn.locals[i]? = some v → pre[i]? = some o → (fn.locals.zip pre)[i]? = some (v, o) := by
        intro i v o h1 h2
        rw [List.getElem?_zip_eq_some]; exact ⟨h1, h2⟩
      cases hl : localOffsets (fn.locals.zip pre) 0 with
      | error e => rw [hl] at h; cases h
      | ok q =>
        obtain ⟨os, b⟩ := q
        rw [hl] at h
        simp only at h
        obtain ⟨l1, l2, l3, l4, l5⟩ := localOffsets_spec (fn.locals.zip pre) 0 os b (by omega) (fun p hp => hal p.1 (List.of_mem_zip hp).1) hl
        have l1' : os.length = fn.locals.length := by rw [l1]; simp [hlen]
        cases hs : alignE b 8 with
        | error e => rw [hs] at h; cases h
        | ok sz =>
          rw [hs] at h
          cases h
          obtain ⟨s1, s2⟩ := alignE_of (by omega) (by omega) hs
          -- the offsets known beforehand
          have hsome : ∀ (i : Nat) (v : Var) (o : Int), fn.locals[i]? = some v → pre[i]? = some (some o) → os[i]? = some o := fun i v o h1 h2 => l3 i v o (hzip i v _ h1 h2)
          have hnone : ∀ (i : Nat) (v : Var), fn.locals[i]? = some v → pre[i]? = some none → ∃ o, os[i]? = some o ∧ InFrame sz v o := by
            intro i v h1 h2
            have hi : i < os.length := by rw [l1']; exact (List.getElem?_eq_some_iff.mp h1).1
            refine ⟨os[i], List.getElem?_eq_getElem hi, ?_⟩
            obtain ⟨x, y, z⟩ := l4 i v os[i] (hzip i v _ h1 h2) (List.getElem?_eq_getElem hi)
            exact ⟨by omega, by omega, z⟩
          -- the three parts
          have hother : ∀ i : Nat, i < fn.others.length → pre[i]? = some none := by
            intro i hi
            rw [← hpre, List.append_assoc, List.getElem?_append_left (by simpa using hi)]
            simp [hi]
          have hva : fn.variadic = true → pre[fn.others.length]? = some (some va) ∧ fn.locals[fn.others.length]? = some vaArea := by
            intro hvar
            rw [← hpre]
            unfold Fn.locals
            simp [hvar]
          have hpar : ∀ i : Nat, pre[fn.others.length + (if fn.variadic then 1 else 0) + i]? = ps[i]? ∧
              fn.locals[fn.others.length + (if fn.variadic then 1 else 0) + i]? = fn.params[i]? := by
            intro i
            rw [← hpre]
            unfold Fn.locals
            constructor
            · rw [List.getElem?_append_right (by cases fn.variadic <;> simp)]
              congr 1
              cases fn.variadic <;> simp
            · rw [List.getElem?_append_right (by cases fn.variadic <;> simp)]
              congr 1
              cases fn.variadic <;> simp
          have hlen2 : fn.locals.length = fn.others.length + (if fn.variadic then 1 else 0) + fn.params.length := by
            unfold Fn.locals
            cases fn.variadic <;> simp
            omega
          -- any index
          have hidx : ∀ (i : Nat) (v : Var), fn.locals[i]? = some v → (pre[i]? = some none) ∨
              (fn.variadic = true ∧ i = fn.others.length ∧ v = vaArea ∧ pre[i]? = some (some va)) ∨
              (∃ k o, i = fn.others.length + (if fn.variadic then 1 else 0) + k ∧ fn.params[k]? = some v ∧ ps[k]? = some (some o) ∧ pre[i]? = some (some o)) := by
            intro i v hi
            by_cases h1 : i < fn.others.length
            · exact .inl (hother i h1)
            · by_cases h2 : fn.variadic = true ∧ i = fn.others.length
              · obtain ⟨h2, rfl⟩ := h2
                obtain ⟨x, y⟩ := hva h2
                rw [y] at hi; cases hi
                exact .inr (.inl ⟨h2, rfl, rfl, x⟩)
              · have hge : fn.others.length + (if fn.variadic then 1 else 0) ≤ i := by
                  by_cases h3 : fn.variadic = true
                  · rw [if_pos h3]; simp only [h3, true_and] at h2; omega
                  · rw [if_neg h3]; omega
                obtain ⟨k, rfl⟩ := Nat.exists_eq_add_of_le hge
                obtain ⟨x, y⟩ := hpar k
                rw [y] at hi
                have hk : k < ps.length := by rw [p1]; exact (List.getElem?_eq_some_iff.mp hi).1
                cases hpk : ps[k]? with
                | none => rw [List.getElem?_eq_none_iff] at hpk; omega
                | some q =>
                  cases q with
                  | none => exact .inl (by rw [x, hpk])
                  | some o => exact .inr (.inr ⟨k, o, rfl, hi, hpk, by rw [x, hpk]⟩)
          refine ⟨l1', by simp only; omega, s2, ?_, ?_, ?_, ?_⟩
          · intro i v hi
            have hlt := (List.getElem?_eq_some_iff.mp hi).1
            have hi' : fn.locals[i]? = some v := by
              unfold Fn.locals; rw [List.append_assoc, List.getElem?_append_left hlt, hi]
            exact hnone i v hi' (hother i hlt)
          · intro i v hi
            simp only
            obtain ⟨x, y⟩ := hpar i
            have e : os.length - fn.params.length + i = fn.others.length + (if fn.variadic then 1 else 0) + i := by omega
            rw [e]
            rw [hi] at y
            have hk : i < ps.length := by rw [p1]; exact (List.getElem?_eq_some_iff.mp hi).1
            have hpi : ps[i]? = some ps[i] := List.getElem?_eq_getElem hk
            rw [hpi] at x
            cases hq : ps[i] with
            | none =>
              rw [hq] at x
              obtain ⟨o, ho, hf⟩ := hnone _ v y x
              exact ⟨o, ho, .inl hf⟩
            | some o =>
              rw [hq] at x hpi
              obtain ⟨z1, z2, -⟩ := p3 i v o hi hpi
              exact ⟨o, hsome _ v o y x, .inr ⟨z1, z2⟩⟩
          · intro hvar
            obtain ⟨x, y⟩ := hva hvar
            exact ⟨va, hsome _ _ _ y x, by omega, v2⟩
          · intro i j v w o p hij hi hj ho hp
            simp only at ho hp
            -- facts about one index
            have one : ∀ (i : Nat) (v : Var) (o : Int), fn.locals[i]? = some v → os[i]? = some o →
                (pre[i]? = some none ∧ o + v.size ≤ 0) ∨ (fn.variadic = true ∧ i = fn.others.length ∧ v = vaArea ∧ o = va) ∨
                (∃ k, i = fn.others.length + (if fn.variadic then 1 else 0) + k ∧ fn.params[k]? = some v ∧ ps[k]? = some (some o) ∧ 16 ≤ o ∧ o + v.size ≤ top) := by
              intro i v o hi ho
              rcases hidx i v hi with h | ⟨h1, h2, h3, h4⟩ | ⟨k, q, h1, h2, h3, h4⟩
              · obtain ⟨o', ho', hf⟩ := hnone i v hi h
                rw [ho] at ho'; cases ho'
                exact .inl ⟨h, hf.2.1⟩
              · have := hsome i v va hi h4
                rw [ho] at this; cases this
                exact .inr (.inl ⟨h1, h2, h3, rfl⟩)
              · have := hsome i v q hi h4
                rw [ho] at this; cases this
                obtain ⟨z1, -, z3⟩ := p3 k v o h2 h3
                exact .inr (.inr ⟨k, h1, h2, h3, z1, z3⟩)
            unfold Apart
            rcases one i v o hi ho with ⟨a1, a2⟩ | ⟨a1, a2, a3, a4⟩ | ⟨k, a1, a2, a3, a4, a5⟩ <;>
              rcases one j w p hj hp with ⟨b1, b2⟩ | ⟨b1, b2, b3, b4⟩ | ⟨m, b1, b2, b3, b4, b5⟩
            · rcases Nat.lt_or_gt_of_ne hij with hlt | hlt
              · exact .inr (l5 i j v w o p hlt (hzip i v _ hi a1) (hzip j w _ hj b1) ho hp)
              · exact .inl (l5 j i w v p o hlt (hzip j w _ hj b1) (hzip i v _ hi a1) hp ho)
            · left; omega
            · left; omega
            · right; omega
            · omega
            · right; omega
            · right; omega
            · left; omega
            · rcases Nat.lt_or_gt_of_ne hij with hlt | hlt
              · exact .inl (p4 k m v w o p (by omega) a2 b2 a3 b3)
              · exact .inr (p4 m k w v p o (by omega) b2 a2 b3 a3)

/-- Which parameters are in the area of the caller: aggregates above 16 bytes, and what comes when the registers it could use are used up. -/
theorem C48_where (v : Var) (g f : Nat) (hg : g ≤ maxRegs) :
    (∃ g' f', place v g f = .ok (.stack g' f')) ↔
      (v.cls = .agg ∧ 16 < v.size) ∨ (g = maxRegs ∧ 0 < v.size ∧ v.cls ≠ .flt) ∨ (g = maxRegs ∧ v.cls ≠ .flt ∧ v.cls ≠ .agg) ∨ (g = maxRegs ∧ maxRegs ≤ f ∧ v.cls = .flt) := by
  obtain ⟨c, s, a⟩ := v
  have hw : words s ≤ 2 ↔ ¬ 16 < s := by unfold words; omega
  have hw0 : words s = 0 ↔ ¬ 0 < s := by unfold words; omega
  unfold maxRegs at *
  cases c
  · simp only [place, maxRegs]
    by_cases h : g < 8
    · simp [h]; omega
    · simp [h]; omega
  · simp only [place, maxRegs]
    by_cases h : f < 8
    · simp [h]
    · by_cases h2 : g < 8
      · simp [h, h2]; omega
      · simp [h, h2]; omega
  · simp only [place, maxRegs]
    by_cases h : g + 2 ≤ 8
    · simp [h]; omega
    · by_cases h2 : g + 1 = 8
      · simp [h, h2]; omega
      · simp [h, h2]; omega
  · simp only [place, maxRegs]
    by_cases h : words s ≤ 2
    · have h16 := hw.mp h
      by_cases h2 : g + words s ≤ 8
      · simp [h, h2, h16]; omega
      · by_cases h3 : g + 1 = 8
        · simp [h, h2, h3, h16]; omega
        · simp [h, h2, h3, h16]; omega
    · have h16 : 16 < s := by omega
      simp [h, h16]

/-- The layout fails only on a long double or an aggregate of 9 to 16 bytes with one register left (both diagnosed). -/
theorem C48_total (fn : Fn) (hal : ∀ v ∈ fn.locals, 0 < v.align)
    (hp : ∀ v ∈ fn.params, v.cls ≠ .ld ∧ (v.cls = .agg → v.size ≤ 8 ∨ 16 < v.size)) : ∃ fr, layout fn = .ok fr := by
  have h1 : ∀ (ps : List Var) (g f : Nat) (top : Int), g ≤ maxRegs → 0 ≤ top → (∀ v ∈ ps, v.cls ≠ .ld ∧ (v.cls = .agg → v.size ≤ 8 ∨ 16 < v.size)) →
      ∃ q, paramOffsets ps g f top = .ok q := by
    intro ps
    induction ps with
    | nil => intro g f top _ _ _; exact ⟨_, rfl⟩
    | cons v r ih =>
      intro g f top hg ht hv
      have hv0 := hv v List.mem_cons_self
      have hr : ∀ v ∈ r, v.cls ≠ .ld ∧ (v.cls = .agg → v.size ≤ 8 ∨ 16 < v.size) := fun w hw => hv w (List.mem_cons_of_mem _ hw)
      have hpl : ∃ pl, place v g f = .ok pl ∧ (match pl with | .reg g' _ => g' ≤ maxRegs | .stack g' _ => g' ≤ maxRegs) := by
        obtain ⟨c, s, a⟩ := v
        have hw1 : s ≤ 8 → words s ≤ 1 := by unfold words; omega
        have hw2 : 16 < s → 2 < words s := by unfold words; omega
        simp only at hv0
        have hm : maxRegs = 8 := rfl
        cases c
        · by_cases h : g < maxRegs
          · exact ⟨.reg (g + 1) f, by simp [place, h], by simp only; omega⟩
          · exact ⟨.stack g f, by simp [place, h], by simp only; omega⟩
        · by_cases h : f < maxRegs
          · exact ⟨.reg g (f + 1), by simp [place, h], by simp only; omega⟩
          · by_cases h2 : g < maxRegs
            · exact ⟨.reg (g + 1) f, by simp [place, h, h2], by simp only; omega⟩
            · exact ⟨.stack g f, by simp [place, h, h2], by simp only; omega⟩
        · exact absurd rfl hv0.1
        · rcases hv0.2 rfl with h | h
          · have h1 := hw1 h
            have h2 : words s ≤ 2 := by omega
            by_cases h3 : g + words s ≤ maxRegs
            · exact ⟨.reg (g + words s) f, by simp [place, h2, h3], by simp only; omega⟩
            · have h4 : ¬ g + 1 = maxRegs := by omega
              exact ⟨.stack g f, by simp [place, h2, h3, h4], by simp only; omega⟩
          · have h2 := hw2 h
            have h3 : ¬ words s ≤ 2 := by omega
            refine ⟨.stack (if g < maxRegs then g + 1 else g) f, by simp [place, h3], ?_⟩
            simp only
            split <;> omega
      obtain ⟨pl, e, hpl⟩ := hpl
      simp only [paramOffsets, bind, Except.bind, e]
      cases pl with
      | reg g' f' =>
        obtain ⟨q, hq⟩ := ih g' f' top hpl ht hr
        simp only [hq]; exact ⟨_, rfl⟩
      | stack g' f' =>
        obtain ⟨t', ht', ht1, -⟩ := alignE_ok ht (a := 8) (by omega)
        simp only [ht']
        obtain ⟨q, hq⟩ := ih g' f' (t' + v.size) hpl (by omega) hr
        simp only [hq]; exact ⟨_, rfl⟩
  have h2 : ∀ (vs : List (Var × Option Int)) (b : Int), 0 ≤ b → (∀ p ∈ vs, 0 < p.1.align) → ∃ q, localOffsets vs b = .ok q := by
    intro vs
    induction vs with
    | nil => intro b _ _; exact ⟨_, rfl⟩
    | cons p r ih =>
      intro b hb hal
      obtain ⟨v, o⟩ := p
      have hr : ∀ p ∈ r, 0 < p.1.align := fun q hq => hal q (List.mem_cons_of_mem _ hq)
      cases o with
      | some o =>
        obtain ⟨q, hq⟩ := ih b hb hr
        simp only [localOffsets, bind, Except.bind, hq]; exact ⟨_, rfl⟩
      | none =>
        have hva : 0 < v.align := hal _ List.mem_cons_self
        obtain ⟨b', hb', hb1, -⟩ := alignE_ok (n := b + v.size) (a := v.align) (by omega) (by omega)
        obtain ⟨q, hq⟩ := ih b' (by omega) hr
        simp only [localOffsets, bind, Except.bind, hb', hq]; exact ⟨_, rfl⟩
  obtain ⟨⟨ps, top⟩, hq⟩ := h1 fn.params 0 0 16 (by decide) (by omega) hp
  obtain ⟨-, htop, -⟩ := paramOffsets_spec fn.params 0 0 16 ps top (by omega) hq
  obtain ⟨va, hva, -⟩ := alignE_ok (n := top) (a := 8) (by omega) (by omega)
  have hz : ∀ (pre : List (Option Int)), ∀ p ∈ fn.locals.zip pre, 0 < p.1.align := fun pre p hp => hal p.1 (List.of_mem_zip hp).1
  obtain ⟨⟨os, b⟩, hl⟩ := h2 (fn.locals.zip (fn.others.map (fun _ => none) ++ (if fn.variadic then [some va] else []) ++ ps)) 0 (by omega) (hz _)
  obtain ⟨-, hb, -⟩ := localOffsets_spec _ 0 os b (by omega) (hz _) hl
  obtain ⟨sz, hsz, -⟩ := alignE_ok (n := b) (a := 8) (by omega) (by omega)
  exact ⟨⟨os, sz⟩, by simp only [layout, bind, Except.bind, hq, hva, hl, hsz]⟩

/-- A function with ten integer parameters, an aggregate of 24 bytes, a double, and locals of different sizes. -/
def exFn : Fn :=
  { others := [⟨.int, 1, 1⟩, ⟨.agg, 12, 4⟩, ⟨.ld, 16, 16⟩, ⟨.int, 8, 8⟩], variadic := false,
    params := List.replicate 5 ⟨.int, 4, 4⟩ ++ [⟨.agg, 24, 8⟩] ++ List.replicate 5 ⟨.int, 1, 1⟩ ++ [⟨.flt, 8, 8⟩] }

example : layout exFn = .ok ⟨[-1, -16, -32, -40, -44, -48, -52, -56, -60, 16, -61, -62, 40, 48, 56, -72], 72⟩ := by decide +kernel
example : ∀ v ∈ exFn.locals, 0 < v.align := by decide

end Toycc.Frame
