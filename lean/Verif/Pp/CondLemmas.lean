import Verif.Pp.CondSpec
import Verif.Pp.Mono
/-! Lemmas for C21: skipping, and one directive at a time. -/
namespace Toycc.Pp
open Toycc.Lex (asc)

/-- The first token, if any, is not the name of a conditional directive. -/
def quiet (l : List PTok) : Prop := l.head?.any condName = false

theorem asc_inj_ne (t : PTok) (a b : String) (h : t.is a = true) (hab : asc a ≠ asc b) : t.is b = false := by
  unfold PTok.is at *
  have := eq_of_beq h
  rw [this]
  exact beq_false_of_ne hab

theorem hash_not_cond (t : PTok) (h : t.is "#" = true) : condName t = false := by
  unfold condName opensIf
  rw [asc_inj_ne t _ "if" h (by decide +kernel), asc_inj_ne t _ "ifdef" h (by decide +kernel),
    asc_inj_ne t _ "ifndef" h (by decide +kernel), asc_inj_ne t _ "elif" h (by decide +kernel),
    asc_inj_ne t _ "else" h (by decide +kernel), asc_inj_ne t _ "endif" h (by decide +kernel)]
  rfl

theorem hash_is (t : PTok) (h : isHash t = true) : t.is "#" = true := by
  unfold isHash at h; simp only [Bool.and_eq_true] at h; exact h.2

theorem eof_not_cond (t : PTok) (h : t.text = []) : condName t = false := by
  unfold condName opensIf PTok.is; rw [h]; decide +kernel

theorem hash_not_eof (d : PTok) (h : d.kind = .punct) : d.isEof = false := by
  unfold PTok.isEof; rw [h]; rfl

theorem ident_not_eof (d : PTok) (h : d.kind = .ident) : d.isEof = false := by
  unfold PTok.isEof; rw [h]; rfl

/-! ### Skipping -/

theorem skip2_tok (k : Nat) (t : PTok) (r : List PTok) (h1 : t.isEof = false) (h2 : isHash t = false) :
    skipCond2 k (t :: r) = skipCond2 k r := by
  rw [skipCond2.eq_def]
  simp [h1, h2]

/-- `plain l`, and `l` does not end in a `#` that makes a directive with the beginning of `rest`. -/
def Plain (l rest : List PTok) : Prop :=
  plain l = true ∧ ∀ t, l.getLast? = some t → isHash t = true → quiet rest

theorem Plain.tail {t : PTok} {r rest : List PTok} (h : Plain (t :: r) rest) :
    t.isEof = false ∧ (isHash t = true → quiet (r ++ rest)) ∧ Plain r rest := by
  obtain ⟨hp, hq⟩ := h
  simp only [plain, Bool.and_eq_true, Bool.not_eq_true', Bool.and_eq_false_imp] at hp
  obtain ⟨⟨h1, h2⟩, h3⟩ := hp
  refine ⟨h1, ?_, h3, ?_⟩
  · intro hh
    cases r with
    | nil => exact hq t rfl hh
    | cons u r => exact h2 hh
  · intro u hu
    cases r with
    | nil => cases hu
    | cons v r => exact hq u (by rw [List.getLast?_cons_cons]; exact hu)

theorem skip2_plain (k : Nat) (l rest : List PTok) (hp : Plain l rest) (hne : rest ≠ []) : skipCond2 k (l ++ rest) = skipCond2 k rest := by
  induction l with
  | nil => rfl
  | cons t r ih =>
    obtain ⟨h1, h2, h3⟩ := hp.tail
    have ih := ih h3
    by_cases hh : isHash t = true
    · have h2 := h2 hh
      cases hr : r ++ rest with
      | nil => exact absurd (List.append_eq_nil_iff.mp hr).2 hne
      | cons u r2 =>
        rw [hr] at h2 ih
        simp only [quiet, List.head?_cons, Option.any_some, condName, Bool.or_eq_false_iff] at h2
        rw [List.cons_append, hr, skipCond2.eq_def]
        simp only [h1, hh, Bool.false_eq_true, if_false, if_true]
        simp only [h2.1, h2.2.2, Bool.false_eq_true, if_false]
        exact ih
    · simp only [Bool.not_eq_true] at hh
      rw [List.cons_append, skip2_tok _ _ _ h1 hh, ih]

theorem skip2_line (k : Nat) (l rest : List PTok) (hl : ∀ t ∈ l, t.bol = false ∧ t.isEof = false) :
    skipCond2 k (l ++ rest) = skipCond2 k rest := by
  induction l with
  | nil => rfl
  | cons t r ih =>
    have h := hl t (by simp)
    rw [List.cons_append, skip2_tok _ _ _ h.2 (by simp [isHash, h.1]), ih (fun u hu => hl u (by simp [hu]))]

theorem opens_of {d : Dir} (hd : d.Wf openers) : opensIf d.name = true := by
  obtain ⟨s, hs, hn⟩ := hd.2.2.2.2.1
  simp only [openers, List.mem_cons, List.not_mem_nil, or_false] at hs
  unfold opensIf
  rcases hs with rfl | rfl | rfl <;> simp [hn]

theorem skip2_open (k : Nat) (d : Dir) (rest : List PTok) (hd : d.Wf openers) :
    skipCond2 k (d.flat ++ rest) = skipCond2 (k + 1) rest := by
  have ho := opens_of hd
  obtain ⟨h1, h2, h3, h4, h5, h6⟩ := hd
  unfold Dir.flat
  rw [List.cons_append, List.cons_append, skipCond2.eq_def]
  simp only [hash_not_eof _ h2, h1, ho, Bool.false_eq_true, if_false, if_true]
  exact skip2_line _ _ _ h6

theorem name_is {d : Dir} {s : String} (hd : d.Wf [s]) : d.name.is s = true := by
  obtain ⟨s', hs, hn⟩ := hd.2.2.2.2.1
  simp only [List.mem_singleton] at hs
  subst hs; exact hn

theorem not_opens {u : PTok} (s : String) (hu : u.is s = true) (h : asc s ≠ asc "if" ∧ asc s ≠ asc "ifdef" ∧ asc s ≠ asc "ifndef") :
    opensIf u = false := by
  unfold opensIf
  rw [asc_inj_ne u s _ hu h.1, asc_inj_ne u s _ hu h.2.1, asc_inj_ne u s _ hu h.2.2]; rfl

theorem skip2_endif (k : Nat) (d : Dir) (rest : List PTok) (hd : d.Wf ["endif"]) :
    skipCond2 (k + 1) (d.flat ++ rest) = skipCond2 k rest := by
  have hn := name_is hd
  obtain ⟨h1, h2, h3, h4, h5, h6⟩ := hd
  unfold Dir.flat
  rw [List.cons_append, List.cons_append, skipCond2.eq_def]
  simp only [hash_not_eof _ h2, h1, Bool.false_eq_true, if_false, if_true,
    not_opens "endif" hn (by decide +kernel), hn]
  exact skip2_line _ _ _ h6

theorem skip2_endif0 (d : Dir) (rest : List PTok) (hd : d.Wf ["endif"]) :
    skipCond2 0 (d.flat ++ rest) = .ok (d.line ++ rest) := by
  have hn := name_is hd
  obtain ⟨h1, h2, h3, h4, h5, h6⟩ := hd
  unfold Dir.flat
  rw [List.cons_append, List.cons_append, skipCond2.eq_def]
  simp only [hash_not_eof _ h2, h1, Bool.false_eq_true, if_false, if_true,
    not_opens "endif" hn (by decide +kernel), hn]

theorem skip2_else (k : Nat) (s : String) (hs : s = "else" ∨ s = "elif") (d : Dir) (rest : List PTok) (hd : d.Wf [s]) :
    skipCond2 k (d.flat ++ rest) = skipCond2 k rest := by
  have hn := name_is hd
  obtain ⟨h1, h2, h3, h4, h5, h6⟩ := hd
  unfold Dir.flat
  have ho : opensIf d.name = false := by
    rcases hs with rfl | rfl
    · exact not_opens "else" hn (by decide +kernel)
    · exact not_opens "elif" hn (by decide +kernel)
  have he : d.name.is "endif" = false := by
    rcases hs with rfl | rfl <;> exact asc_inj_ne _ _ _ hn (by decide +kernel)
  rw [List.cons_append, List.cons_append, skipCond2.eq_def]
  simp only [hash_not_eof _ h2, h1, Bool.false_eq_true, if_false, if_true, ho, he]
  rw [skip2_tok _ _ _ (ident_not_eof _ h3) (by simp [isHash, h4])]
  exact skip2_line _ _ _ h6

theorem dir_quiet (d : Dir) (ns : List String) (hd : d.Wf ns) (rest : List PTok) : quiet (d.flat ++ rest) ∧ d.flat ++ rest ≠ [] := by
  refine ⟨?_, by simp [Dir.flat]⟩
  simp only [quiet, Dir.flat, List.cons_append, List.head?_cons, Option.any_some]
  exact hash_not_cond _ (hash_is _ hd.1)

theorem tail_quiet (t : Tail) (ht : t.Wf) (rest : List PTok) : quiet (t.flat ++ rest) ∧ t.flat ++ rest ≠ [] := by
  cases t with
  | endif d => exact dir_quiet d _ ht rest
  | els d g e => simp only [Tail.flat, List.append_assoc]; exact dir_quiet d _ ht.1 _
  | elif d g t => simp only [Tail.flat, List.append_assoc]; exact dir_quiet d _ ht.1 _

theorem group_quiet (l : List PTok) (g : Group) (rest : List PTok) (hl : plain l = true)
    (h0 : ∀ l' g', g ≠ .text l' g') (hg : g.Wf) (hr : quiet rest) : Plain l (g.flat ++ rest) := by
  refine ⟨hl, fun _ _ _ => ?_⟩
  match g with
  | .nil => exact hr
  | .text l g => exact absurd rfl (h0 l g)
  | .sect o b t g =>
    simp only [Group.flat, List.append_assoc]
    exact (dir_quiet o _ hg.1 _).1

mutual
theorem skip2_group (g : Group) (k : Nat) (rest : List PTok) (hg : g.Wf) (hr : quiet rest) (hne : rest ≠ []) :
    skipCond2 k (g.flat ++ rest) = skipCond2 k rest := by
  match g with
  | .nil => rfl
  | .text l g =>
    obtain ⟨h1, _, h0, h2⟩ := hg
    rw [Group.flat, List.append_assoc, skip2_plain k l (g.flat ++ rest) (group_quiet l g rest h1 h0 h2 hr) (by simp [hne])]
    exact skip2_group g k rest h2 hr hne
  | .sect o b t g =>
    obtain ⟨h1, h2, h3, h4⟩ := hg
    have hq := tail_quiet t h3 (g.flat ++ rest)
    simp only [Group.flat, List.append_assoc]
    rw [skip2_open k o _ h1, skip2_group b (k + 1) _ h2 hq.1 hq.2, skip2_tail t k _ h3]
    exact skip2_group g k rest h4 hr hne
theorem skip2_tail (t : Tail) (k : Nat) (rest : List PTok) (ht : t.Wf) :
    skipCond2 (k + 1) (t.flat ++ rest) = skipCond2 k rest := by
  match t with
  | .endif d => exact skip2_endif k d rest ht
  | .els d g e =>
    obtain ⟨h1, h2, h3⟩ := ht
    have hq := dir_quiet e _ h3 rest
    simp only [Tail.flat, List.append_assoc]
    rw [skip2_else _ "else" (Or.inl rfl) d _ h1, skip2_group g _ _ h2 hq.1 hq.2]
    exact skip2_endif k e rest h3
  | .elif d g t =>
    obtain ⟨h1, h2, h3⟩ := ht
    have hq := tail_quiet t h3 rest
    simp only [Tail.flat, List.append_assoc]
    rw [skip2_else _ "elif" (Or.inr rfl) d _ h1, skip2_group g _ _ h2 hq.1 hq.2]
    exact skip2_tail t k rest h3
end

/-- The line of the `#endif` of a section. -/
def Tail.last : Tail → List PTok
  | .endif d => d.line
  | .els _ _ e => e.line
  | .elif _ _ t => t.last

theorem last_line (t : Tail) (ht : t.Wf) : ∀ u ∈ t.last, u.bol = false ∧ u.isEof = false := by
  match t with
  | .endif d => exact ht.2.2.2.2.2
  | .els d g e => exact ht.2.2.2.2.2.2.2
  | .elif d g t => exact last_line t ht.2.2

theorem skip2_tail0 (t : Tail) (rest : List PTok) (ht : t.Wf) :
    skipCond2 0 (t.flat ++ rest) = .ok (t.last ++ rest) := by
  match t with
  | .endif d => exact skip2_endif0 d rest ht
  | .els d g e =>
    obtain ⟨h1, h2, h3⟩ := ht
    have hq := dir_quiet e _ h3 rest
    simp only [Tail.flat, List.append_assoc]
    rw [skip2_else _ "else" (Or.inl rfl) d _ h1, skip2_group g _ _ h2 hq.1 hq.2]
    exact skip2_endif0 e rest h3
  | .elif d g t =>
    obtain ⟨h1, h2, h3⟩ := ht
    have hq := tail_quiet t h3 rest
    simp only [Tail.flat, List.append_assoc]
    rw [skip2_else _ "elif" (Or.inr rfl) d _ h1, skip2_group g _ _ h2 hq.1 hq.2]
    exact skip2_tail0 t rest h3

theorem skip_tok (t : PTok) (r : List PTok) (h1 : t.isEof = false) (h2 : isHash t = false) :
    skipCond (t :: r) = skipCond r := by
  rw [skipCond.eq_def]
  simp [h1, h2]

theorem skip_line (l rest : List PTok) (hl : ∀ t ∈ l, t.bol = false ∧ t.isEof = false) :
    skipCond (l ++ rest) = skipCond rest := by
  induction l with
  | nil => rfl
  | cons t r ih =>
    have h := hl t (by simp)
    rw [List.cons_append, skip_tok _ _ h.2 (by simp [isHash, h.1]), ih (fun u hu => hl u (by simp [hu]))]

theorem skip_plain (l rest : List PTok) (hp : Plain l rest) (hne : rest ≠ []) :
    skipCond (l ++ rest) = skipCond rest := by
  induction l with
  | nil => rfl
  | cons t r ih =>
    obtain ⟨h1, h2, h3⟩ := hp.tail
    have ih := ih h3
    by_cases hh : isHash t = true
    · have h2 := h2 hh
      cases hr : r ++ rest with
      | nil => exact absurd (List.append_eq_nil_iff.mp hr).2 hne
      | cons u r2 =>
        rw [hr] at h2 ih
        simp only [quiet, List.head?_cons, Option.any_some, condName, Bool.or_eq_false_iff] at h2
        rw [List.cons_append, hr, skipCond.eq_def]
        simp only [h1, hh, Bool.false_eq_true, if_false, if_true]
        simp only [h2.1, h2.2.2, h2.2.1, Bool.or_self, Bool.false_eq_true, if_false]
        exact ih
    · simp only [Bool.not_eq_true] at hh
      rw [List.cons_append, skip_tok _ _ h1 hh, ih]

/-- A whole section is skipped. -/
theorem skip_section (o : Dir) (b : Group) (t : Tail) (rest : List PTok) (ho : o.Wf openers) (hb : b.Wf) (ht : t.Wf) :
    skipCond (o.flat ++ (b.flat ++ (t.flat ++ rest))) = skipCond rest := by
  have hop := opens_of ho
  obtain ⟨h1, h2, h3, h4, h5, h6⟩ := ho
  have hq := tail_quiet t ht rest
  have h2' : skipCond2 0 (o.line ++ (b.flat ++ (t.flat ++ rest))) = .ok (t.last ++ rest) := by
    rw [skip2_line _ _ _ h6, skip2_group b _ _ hb hq.1 hq.2, skip2_tail0 t rest ht]
  unfold Dir.flat
  rw [List.cons_append, List.cons_append, skipCond.eq_def]
  simp only [hash_not_eof _ h2, h1, hop, Bool.false_eq_true, if_false, if_true]
  split
  · rename_i e he; rw [h2'] at he; cases he
  · rename_i l he
    rw [h2'] at he; cases he
    exact skip_line _ _ (last_line t ht)

theorem skip_group (g : Group) (rest : List PTok) (hg : g.Wf) (hr : quiet rest) (hne : rest ≠ []) :
    skipCond (g.flat ++ rest) = skipCond rest := by
  match g with
  | .nil => rfl
  | .text l g =>
    obtain ⟨h1, _, h0, h2⟩ := hg
    rw [Group.flat, List.append_assoc, skip_plain l (g.flat ++ rest) (group_quiet l g rest h1 h0 h2 hr) (by simp [hne])]
    exact skip_group g rest h2 hr hne
  | .sect o b t g =>
    obtain ⟨h1, h2, h3, h4⟩ := hg
    simp only [Group.flat, List.append_assoc]
    rw [skip_section o b t _ h1 h2 h3]
    exact skip_group g rest h4 hr hne

theorem skip_stop (s : String) (hs : s = "else" ∨ s = "elif" ∨ s = "endif") (d : Dir) (rest : List PTok)
    (hd : d.Wf [s]) : skipCond (d.flat ++ rest) = .ok (d.flat ++ rest) := by
  have hn := name_is hd
  obtain ⟨h1, h2, h3, h4, h5, h6⟩ := hd
  have ho : opensIf d.name = false := by
    rcases hs with rfl | rfl | rfl
    · exact not_opens "else" hn (by decide +kernel)
    · exact not_opens "elif" hn (by decide +kernel)
    · exact not_opens "endif" hn (by decide +kernel)
  have hc : (d.name.is "elif" || d.name.is "else" || d.name.is "endif") = true := by
    rcases hs with rfl | rfl | rfl <;> simp [hn]
  unfold Dir.flat
  rw [List.cons_append, List.cons_append, skipCond.eq_def]
  simp only [hash_not_eof _ h2, h1, ho, hc, Bool.false_eq_true, if_false, if_true]

theorem skip_tail (t : Tail) (rest : List PTok) (ht : t.Wf) : skipCond (t.flat ++ rest) = .ok (t.flat ++ rest) := by
  cases t with
  | endif d => exact skip_stop "endif" (by simp) d rest ht
  | els d g e => simp only [Tail.flat, List.append_assoc]; exact skip_stop "else" (by simp) d _ ht.1
  | elif d g t => simp only [Tail.flat, List.append_assoc]; exact skip_stop "elif" (by simp) d _ ht.1

/-- A skipped group ends at the next directive of its section. -/
theorem skip_to_tail (g : Group) (t : Tail) (rest : List PTok) (hg : g.Wf) (ht : t.Wf) :
    skipCond (g.flat ++ (t.flat ++ rest)) = .ok (t.flat ++ rest) := by
  have hq := tail_quiet t ht rest
  rw [skip_group g _ hg hq.1 hq.2, skip_tail t rest ht]

end Toycc.Pp
