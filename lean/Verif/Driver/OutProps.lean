import Verif.Driver.Out
/-! C98: what is in the output files when the compiler has ended, or was ended. -/
namespace Toycc.Driver.Out

/-- Which file should hold what. -/
inductive Wanted (j : Job) (v : Env) : Path → Bytes → Prop where
  | dep {d t} : (j.m || j.md) = true → v.front = some (d, t) → Wanted j v j.dep d
  | pre {d t} : j.m = false → j.e = true → v.front = some (d, t) → Wanted j v j.pre t
  | asm {a} : j.m = false → j.e = false → v.asm = some a → Wanted j v j.out a

/-- The file of dependencies is another one than the output. -/
def Apart (j : Job) : Prop := j.md = true → j.m = false → j.dep ≠ (if j.e then j.pre else j.out)

theorem pieces_all : ∀ {ws : List Wr} {b : Bytes}, (∀ w ∈ ws, w ≠ .fail) → (pieces ws b).flatten = b
  | [], b, _ => by simp [pieces]
  | .fail :: ws, b, h => absurd rfl (h .fail (by simp))
  | .took n :: ws, b, h => by
    rw [pieces, List.flatten_cons, pieces_all fun w hw => h w (List.mem_cons_of_mem _ hw), List.take_append_drop]

theorem pieces_prefix : ∀ (ws : List Wr) (b : Bytes) (k : Nat), ((pieces ws b).take k).flatten <+: b
  | _, b, 0 => by simp
  | [], b, k + 1 => by simp [pieces]
  | .fail :: ws, b, k + 1 => by simp [pieces]
  | .took n :: ws, b, k + 1 => by
    rw [pieces, List.take_succ_cons, List.flatten_cons]
    obtain ⟨r, hr⟩ := pieces_prefix ws (b.drop n) k
    exact ⟨r, by rw [List.append_assoc, hr, List.take_append_drop]⟩

/-- The path an effect is on. -/
def Act.path : Act → Path
  | .open p => p
  | .put p _ => p

theorem acts_other : ∀ (l : List Act) (fs : Fs) (q : Path), (∀ a ∈ l, a.path ≠ q) → acts fs l q = fs q
  | [], _, _, _ => rfl
  | a :: l, fs, q, h => by
    have := acts_other l (act fs a) q (fun x hx => h x (List.mem_cons_of_mem _ hx))
    rw [acts, List.foldl_cons, ← acts, this]
    have hq : q ≠ a.path := fun e => h a List.mem_cons_self e.symm
    cases a with
    | «open» p => exact if_neg hq
    | put p b => exact if_neg hq

theorem acts_append (fs : Fs) (a b : List Act) : acts fs (a ++ b) = acts (acts fs a) b := List.foldl_append

theorem acts_puts (p : Path) : ∀ (l : List Bytes) (fs : Fs) (c : Bytes), fs p = some c → acts fs (l.map (.put p)) p = some (c ++ l.flatten)
  | [], fs, c, h => by simpa [acts] using h
  | b :: l, fs, c, h => by
    have h1 : act fs (.put p b) p = some (c ++ b) := by simp [act, h]
    have := acts_puts p l _ _ h1
    rw [List.map_cons, acts, List.foldl_cons, ← acts, this]
    simp

theorem puts_path {p : Path} {l : List Bytes} : ∀ a ∈ l.map (Act.put p), a.path = p := by
  intro a ha
  obtain ⟨b, _, rfl⟩ := List.mem_map.1 ha
  rfl

theorem emit_path {v : Env} {p : Path} {b : Bytes} : ∀ a ∈ (emit v p b).1, a.path = p := by
  intro a ha
  rw [emit] at ha
  split at ha
  · rcases List.mem_cons.1 ha with rfl | h
    · rfl
    · exact puts_path a h
  · cases ha

theorem back_path {j : Job} {v : Env} {t : Bytes} : ∀ a ∈ (back j v t).1, a.path = if j.e then j.pre else j.out := by
  intro a ha
  rw [back] at ha
  split at ha
  · rename_i h; rw [if_pos h]; exact emit_path a ha
  · rename_i h
    rw [if_neg h]
    split at ha
    · cases ha
    · exact emit_path a ha

/-- What a file holds while it is written. -/
def During (fs fs' : Fs) (p : Path) (b : Bytes) : Prop := fs' p = fs p ∨ ∃ c, fs' p = some c ∧ c <+: b

theorem written (v : Env) (p : Path) (b : Bytes) (fs : Fs) (k : Nat) : During fs (acts fs ((Act.open p :: (pieces (v.wr p) b).map (.put p)).take k)) p b := by
  cases k with
  | zero => exact .inl rfl
  | succ k =>
    rw [List.take_succ_cons, ← List.map_take]
    refine .inr ⟨_, ?_, pieces_prefix (v.wr p) b k⟩
    have h1 : act fs (.open p) p = some [] := by simp [act]
    exact acts_puts p _ (act fs (.open p)) [] h1

theorem written_all (v : Env) (p : Path) (b : Bytes) (fs : Fs) (h : ∀ w ∈ v.wr p, w ≠ .fail) : acts fs (Act.open p :: (pieces (v.wr p) b).map (.put p)) p = some b := by
  have h1 : act fs (.open p) p = some [] := by simp [act]
  have := acts_puts p (pieces (v.wr p) b) (act fs (.open p)) [] h1
  rw [pieces_all h] at this
  exact this

/-- The effects on one file, whatever happens to others in between. -/
theorem acts_filter (q : Path) : ∀ (l : List Act) (fs : Fs), acts fs l q = acts fs (l.filter fun a => a.path = q) q := by
  intro l
  have key : ∀ (l : List Act) (fs gs : Fs), fs q = gs q → acts fs l q = acts gs (l.filter fun a => a.path = q) q := by
    intro l
    induction l with
    | nil => intro fs gs h; exact h
    | cons a l ih =>
      intro fs gs h
      by_cases hq : a.path = q
      · rw [List.filter_cons_of_pos (by simpa using hq)]
        refine ih _ _ ?_
        cases a with
        | «open» p => simp [act, h]
        | put p b => simp [act, h]
      · rw [List.filter_cons_of_neg (by simpa using hq)]
        refine ih _ _ ?_
        rw [← h]
        have hq' : q ≠ a.path := fun e => hq e.symm
        cases a with
        | «open» p => exact if_neg hq'
        | put p b => exact if_neg hq'
  exact fun fs => key l fs fs rfl

theorem filter_self {q : Path} {l : List Act} (h : ∀ a ∈ l, a.path = q) : (l.filter fun a => a.path = q) = l := List.filter_eq_self.2 fun a ha => by simpa using h a ha
theorem filter_none {q : Path} {l : List Act} (h : ∀ a ∈ l, a.path ≠ q) : (l.filter fun a => a.path = q) = [] := List.filter_eq_nil_iff.2 fun a ha => by simpa using h a ha

/-- The effects of cc1 on a file that should hold `b`: none, or opening it and writing `b`. -/
theorem effects {j : Job} {v : Env} (ha : Apart j) {p : Path} {b : Bytes} (hw : Wanted j v p b) :
    ((cc1 j v).1.filter fun a => a.path = p) = Act.open p :: (pieces (v.wr p) b).map (.put p) ∨ (((cc1 j v).1.filter fun a => a.path = p) = [] ∧ (cc1 j v).2 = 1) := by
  have hfull : ∀ (q : Path) (c : Bytes), ∀ a ∈ (Act.open q :: (pieces (v.wr q) c).map (.put q)), a.path = q := by
    intro q c a h
    rcases List.mem_cons.1 h with rfl | h
    · rfl
    · exact puts_path a h
  have hemit : ∀ (q : Path) (c : Bytes), ((emit v q c).1.filter fun a => a.path = q) = Act.open q :: (pieces (v.wr q) c).map (.put q) ∨ (((emit v q c).1.filter fun a => a.path = q) = [] ∧ (emit v q c).2 = 1) := by
    intro q c
    rw [emit]
    split
    · exact .inl (filter_self (hfull q c))
    · exact .inr ⟨rfl, rfl⟩
  cases hf : v.front with
  | none => exact .inr (by simp [cc1, hf])
  | some x =>
    obtain ⟨d0, t0⟩ := x
    -- the part after the dependencies
    have hback : j.m = false → ∀ q c, Wanted j v q c → q = (if j.e then j.pre else j.out) → ((j.m || j.md) = true → q ≠ j.dep) →
        ((back j v t0).1.filter fun a => a.path = q) = Act.open q :: (pieces (v.wr q) c).map (.put q) ∨ (((back j v t0).1.filter fun a => a.path = q) = [] ∧ (back j v t0).2 = 1) := by
      intro hm q c hw hq hd
      cases hw with
      | dep h1 h2 => exact absurd rfl (hd h1)
      | pre h1 h2 h3 =>
        rw [hf] at h3; cases h3
        rw [back, if_pos h2]; exact hemit _ _
      | asm h1 h2 h3 =>
        rw [back, h2, h3]
        exact hemit _ _
    rw [cc1, hf]
    simp only
    by_cases hmd : (j.m || j.md) = true
    · rw [if_pos hmd]
      by_cases hc : v.can j.dep = true
      · rw [if_pos hc]
        by_cases hm : j.m = true
        · rw [if_pos hm]
          cases hw with
          | dep h1 h2 =>
            rw [hf] at h2; cases h2
            exact .inl (filter_self (hfull _ _))
          | pre h1 => rw [hm] at h1; cases h1
          | asm h1 => rw [hm] at h1; cases h1
        · rw [if_neg hm]
          have hm' : j.m = false := by simpa using hm
          have hmd' : j.md = true := by simpa [hm'] using hmd
          have hap := ha hmd' hm'
          have hbp : ∀ a ∈ (back j v t0).1, a.path ≠ j.dep := fun a h e => hap (by rw [← e]; exact back_path a h)
          have main : ∀ q c, Wanted j v q c → q = (if j.e then j.pre else j.out) →
              ((Act.open j.dep :: ((back j v t0).1 ++ (pieces (v.wr j.dep) d0).map (.put j.dep))).filter fun a => a.path = q) = Act.open q :: (pieces (v.wr q) c).map (.put q) ∨
              (((Act.open j.dep :: ((back j v t0).1 ++ (pieces (v.wr j.dep) d0).map (.put j.dep))).filter fun a => a.path = q) = [] ∧ (back j v t0).2 = 1) := by
            intro q c hw hq
            have hne : j.dep ≠ q := by rw [hq]; exact hap
            rw [List.filter_cons_of_neg (by intro h; exact hne (of_decide_eq_true h)), List.filter_append,
              filter_none (l := (pieces (v.wr j.dep) d0).map (.put j.dep)) (fun a h e => hne (by rw [← e]; exact (puts_path a h).symm)), List.append_nil]
            exact hback hm' q c hw hq fun _ e => hne e.symm
          cases hw with
          | dep h1 h2 =>
            rw [hf] at h2; cases h2
            left
            rw [List.filter_cons_of_pos (by simp [Act.path]), List.filter_append, filter_none hbp, List.nil_append, filter_self puts_path]
          | pre h1 h2 h3 => exact main _ _ (.pre h1 h2 h3) (by rw [if_pos h2])
          | asm h1 h2 h3 => exact main _ _ (.asm h1 h2 h3) (by rw [h2]; rfl)
      · rw [if_neg hc]; exact .inr ⟨rfl, rfl⟩
    · rw [if_neg hmd]
      have hm' : j.m = false := by
        cases hj : j.m with
        | false => rfl
        | true => exact absurd (by rw [hj]; rfl) hmd
      cases hw with
      | dep h1 h2 => exact absurd h1 hmd
      | pre h1 h2 h3 => exact hback hm' _ _ (.pre h1 h2 h3) (by rw [if_pos h2]) (fun h => absurd h hmd)
      | asm h1 h2 h3 => exact hback hm' _ _ (.asm h1 h2 h3) (by rw [h2]; rfl) (fun h => absurd h hmd)

/-- **C98** If cc1 ends with status 0, every file that should hold a text holds exactly that text, provided no write fails. Partial: with errors this is false (`C98_error_silent`). -/
theorem C98_success_partial (j : Job) (v : Env) (ha : Apart j) (fs : Fs) (h0 : (cc1 j v).2 = 0) {p : Path} {b : Bytes} (hw : Wanted j v p b) (hf : ∀ w ∈ v.wr p, w ≠ .fail) :
    acts fs (cc1 j v).1 p = some b := by
  rw [acts_filter]
  rcases effects ha hw with h | h
  · rw [h]; exact written_all v p b fs hf
  · rw [h0] at h; cases h.2

/-- **C98** If cc1 reports an error, the output is what it was. (The file of dependencies may have been written.) -/
theorem C98_failure (j : Job) (v : Env) (fs : Fs) (h1 : (cc1 j v).2 ≠ 0) (p : Path) (hp : (j.m || j.md) = true → p ≠ j.dep) : acts fs (cc1 j v).1 p = fs p := by
  have hb : ∀ t, (back j v t).2 ≠ 0 → (back j v t).1 = [] := by
    intro t h
    have he : ∀ q c, (emit v q c).2 ≠ 0 → (emit v q c).1 = [] := by
      intro q c h
      rw [emit] at h ⊢
      split
      · rename_i hc; rw [if_pos hc] at h; exact absurd rfl h
      · rfl
    rw [back] at h ⊢
    split
    · rename_i hj; rw [if_pos hj] at h; exact he _ _ h
    · rename_i hj
      rw [if_neg hj] at h
      split
      · rfl
      · rename_i a hx; rw [hx] at h; exact he _ _ h
  refine acts_other _ fs p ?_
  rw [cc1] at h1 ⊢
  cases hf : v.front with
  | none => intro a h; cases h
  | some x =>
    rw [hf] at h1
    simp only at h1 ⊢
    by_cases hmd : (j.m || j.md) = true
    · rw [if_pos hmd] at h1 ⊢
      have hp := hp hmd
      split
      · rename_i hc
        rw [if_pos hc] at h1
        split
        · rename_i hm; rw [if_pos hm] at h1; exact absurd rfl h1
        · rename_i hm
          rw [if_neg hm] at h1
          rw [hb _ h1]
          intro a h e
          rcases List.mem_cons.1 h with rfl | h
          · exact hp e.symm
          · exact hp (by rw [← e]; exact puts_path a h)
      · intro a h; cases h
    · rw [if_neg hmd] at h1 ⊢
      rw [hb _ h1]
      intro a h; cases h

theorem filter_take (q : Path) : ∀ (l : List Act) (k : Nat), ∃ k', ((l.take k).filter fun a => a.path = q) = (l.filter fun a => a.path = q).take k'
  | _, 0 => ⟨0, by simp⟩
  | [], k + 1 => ⟨0, by simp⟩
  | a :: l, k + 1 => by
    obtain ⟨k', h⟩ := filter_take q l k
    rw [List.take_succ_cons]
    by_cases hq : a.path = q
    · exact ⟨k' + 1, by rw [List.filter_cons_of_pos (by simpa using hq), List.filter_cons_of_pos (by simpa using hq), List.take_succ_cons, h]⟩
    · exact ⟨k', by rw [List.filter_cons_of_neg (by simpa using hq), List.filter_cons_of_neg (by simpa using hq), h]⟩

/-- **C98** Wherever cc1 is ended from outside, a file holds what it held before, or a beginning of what it should hold. -/
theorem C98_interrupted (j : Job) (v : Env) (ha : Apart j) (fs : Fs) (k : Nat) {p : Path} {b : Bytes} (hw : Wanted j v p b) : During fs (acts fs ((cc1 j v).1.take k)) p b := by
  obtain ⟨k', hk⟩ := filter_take p (cc1 j v).1 k
  have e : acts fs ((cc1 j v).1.take k) p = acts fs (((cc1 j v).1.filter fun a => a.path = p).take k') p := by rw [acts_filter, hk]
  unfold During
  rw [e]
  rcases effects ha hw with h | h
  · rw [h]; exact written v p b fs k'
  · rw [h.1]; exact .inl (by simp [acts])

/-- Files that should hold nothing stay as they are. -/
theorem C98_others (j : Job) (v : Env) (fs : Fs) (p : Path) (hp : ∀ b, ¬ Wanted j v p b) : acts fs (cc1 j v).1 p = fs p := by
  refine acts_other _ fs p ?_
  have hb : ∀ d t, v.front = some (d, t) → j.m = false → ∀ a ∈ (back j v t).1, a.path ≠ p := by
    intro d t hf hm a h e
    rw [back] at h
    split at h
    · rename_i hj
      have := emit_path a h
      exact hp t (by rw [← e, this]; exact .pre hm hj hf)
    · rename_i hj
      split at h
      · cases h
      · rename_i x hx
        have := emit_path a h
        exact hp x (by rw [← e, this]; exact .asm hm (by simpa using hj) hx)
  rw [cc1]
  cases hf : v.front with
  | none => intro a h; cases h
  | some x =>
    obtain ⟨d, t⟩ := x
    simp only
    split
    · rename_i hmd
      have hd : j.dep ≠ p := fun e => hp d (by rw [← e]; exact .dep hmd hf)
      split
      · split
        · intro a h e
          rcases List.mem_cons.1 h with rfl | h
          · exact hd e
          · exact hd (by rw [← e]; exact (puts_path a h).symm)
        · rename_i hm
          intro a h e
          rcases List.mem_cons.1 h with rfl | h
          · exact hd e
          · rcases List.mem_append.1 h with h | h
            · exact hb d t hf (by simpa using hm) a h e
            · exact hd (by rw [← e]; exact (puts_path a h).symm)
      · intro a h; cases h
    · rename_i hmd
      refine hb d t hf ?_
      cases hj : j.m with
      | false => rfl
      | true => exact absurd (by rw [hj]; rfl) hmd

/-! ### Example: -MD, the assembly text is written in two pieces -/

def exJob : Job := { md := true, dep := [100], pre := [45], out := [115] }
def exEnv : Env := { front := some ([1, 2], [3]), asm := some [5, 6, 7], can := fun _ => true, wr := fun p => if p = [115] then [.took 2] else [] }

example : acts (fun _ => some [9, 9]) (cc1 exJob exEnv).1 [115] = some [5, 6, 7] :=
  C98_success_partial exJob exEnv (by intro _ _; decide) _ rfl (.asm rfl rfl rfl) (by intro w hw; simp [exEnv] at hw; subst hw; exact fun h => nomatch h)

example : acts (fun _ => some [9, 9]) (cc1 exJob exEnv).1 [100] = some [1, 2] :=
  C98_success_partial exJob exEnv (by intro _ _; decide) _ rfl (.dep rfl rfl) (by intro w hw; simp [exEnv] at hw)

/-- After the first piece. -/
example : acts (fun _ => some [9, 9]) ((cc1 exJob exEnv).1.take 3) [115] = some [5, 6] := by decide

/-- An error in the source: the old output stays. -/
example : acts (fun _ => some [9, 9]) (cc1 exJob { exEnv with asm := none }).1 [115] = some [9, 9] :=
  C98_failure exJob { exEnv with asm := none } _ (by decide) _ (by intro _; decide)

/-- A full disk is not reported: whatever the text, with an error at the first write the status is 0 and the output is empty. -/
theorem C98_error_silent (j : Job) (v : Env) (hm : j.m = false) (hd : j.md = false) (he : j.e = false) {x : Bytes × Bytes} (hf : v.front = some x) {a : Bytes} (ha : v.asm = some a) (hc : v.can j.out = true)
    {ws : List Wr} (hw : v.wr j.out = .fail :: ws) (fs : Fs) : (cc1 j v).2 = 0 ∧ acts fs (cc1 j v).1 j.out = some [] := by
  obtain ⟨d, t⟩ := x
  simp [cc1, hf, hm, hd, back, he, ha, emit, hc, hw, pieces, acts, act]

example : (cc1 { exJob with md := false } { exEnv with wr := fun _ => [.fail] }).2 = 0 ∧ acts (fun _ => some [9, 9]) (cc1 { exJob with md := false } { exEnv with wr := fun _ => [.fail] }).1 [115] = some [] :=
  C98_error_silent _ _ rfl rfl rfl rfl rfl rfl rfl _

end Toycc.Driver.Out
