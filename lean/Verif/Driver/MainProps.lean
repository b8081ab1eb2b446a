import Verif.Driver.MainSpec
import Verif.Driver.ArgsProps
/-! C57 and C58: the driver. -/
namespace Toycc.Driver

/-- The assertion in main cannot fail. -/
theorem getFileType_ne_none (x : FileType) (f : Str) : getFileType x f ≠ some .none := by
  unfold getFileType
  by_cases h : x = .none
  · rw [if_neg (by simp [h])]
    repeat' split
    all_goals simp
  · rw [if_pos h]
    simpa using h

theorem strtok_eq (s : Str) : ∀ cur : Str, strtok s cur = (s.splitOnPPrepend (· == 44) cur.reverse).filter (· ≠ []) := by
  induction s with
  | nil =>
    intro cur
    by_cases h : cur = [] <;> simp [strtok, h]
  | cons c r ih =>
    intro cur
    rw [strtok, List.splitOnPPrepend_cons_eq_if]
    by_cases hc : c = 44
    · subst hc
      rw [if_pos rfl, if_pos (beq_self_eq_true _), ih []]
      by_cases h : cur = [] <;> simp [h]
    · rw [if_neg hc, if_neg (by simp [hc]), ih]
      simp

theorem endswith_eq (p q : Str) : endswith p q = q.isSuffixOf p := by
  unfold endswith
  by_cases h : q.isSuffixOf p = true
  · rw [h]
    obtain ⟨t, rfl⟩ := List.isSuffixOf_iff_suffix.mp h
    simp
  · rw [Bool.not_eq_true] at h
    rw [h]
    by_cases hl : q.length ≤ p.length
    · have : (p.drop (p.length - q.length) == q) = false := by
        rw [beq_eq_false_iff_ne]
        intro e
        have : q.isSuffixOf p = true := List.isSuffixOf_iff_suffix.mpr ⟨p.take (p.length - q.length), by
          have h5 := List.take_append_drop (p.length - q.length) p
          rw [e] at h5
          exact h5⟩
        rw [h] at this
        cases this
      simp [this]
    · simp [hl]

/-- File types and kinds of inputs agree. -/
theorem type_kind (x : FileType) (f : Str) (h1 : ([45, 108] /- -l -/).isPrefixOf f = false) (h2 : ([45, 87, 108, 44] /- -Wl, -/).isPrefixOf f = false) :
    kindOf x f = (getFileType x f).map fun
      | .c => .c
      | .asm => .asm
      | _ => .link [f] := by
  unfold kindOf getFileType
  rw [h1, h2]
  simp only [Bool.false_eq_true, if_false, endswith_eq]
  cases x <;> try rfl
  have suf : ∀ a b c : UInt8, List.isSuffixOf [a, b] f = true → List.isSuffixOf [c, a, b] f = true → ∃ t, f = t ++ [c, a, b] := by
    intro a b c _ h
    obtain ⟨t, e⟩ := List.isSuffixOf_iff_suffix.mp h
    exact ⟨t, e.symm⟩
  have last : ∀ (p : Str) (a b : UInt8), a ≠ b → List.isSuffixOf (p ++ [a]) f = true → ∀ q, List.isSuffixOf (q ++ [b]) f = false := by
    intro p a b hab h q
    cases h3 : List.isSuffixOf (q ++ [b]) f with
    | false => rfl
    | true =>
      obtain ⟨t, rfl⟩ := List.isSuffixOf_iff_suffix.mp h
      obtain ⟨u, e⟩ := List.isSuffixOf_iff_suffix.mp h3
      rw [← List.append_assoc, ← List.append_assoc] at e
      have := (List.append_inj' e rfl).2
      simp at this
      exact absurd this.symm hab
  simp only [ne_eq, not_true_eq_false, if_false]
  by_cases hc : List.isSuffixOf [46, 99] f = true
  · have a := last [46] 99 97 (by decide) hc [46]
    have b := last [46] 99 111 (by decide) hc [46]
    have c := last [46] 99 111 (by decide) hc [46, 115]
    simp only [List.cons_append, List.nil_append] at a b c
    simp [hc, a, b, c]
  · rw [Bool.not_eq_true] at hc
    by_cases hs : List.isSuffixOf [46, 115] f = true
    · have a := last [46] 115 97 (by decide) hs [46]
      have b := last [46] 115 111 (by decide) hs [46]
      have c := last [46] 115 111 (by decide) hs [46, 115]
      simp only [List.cons_append, List.nil_append] at a b c
      simp [hc, hs, a, b, c]
    · rw [Bool.not_eq_true] at hs
      cases ha : List.isSuffixOf [46, 97] f <;> cases ho : List.isSuffixOf [46, 111] f <;> cases hso : List.isSuffixOf [46, 115, 111] f <;> simp [hc, hs]

/-- `x` runs the commands `cs` and makes `n` temporary files, and returns `a` when all commands succeed; after the first that fails it stops. -/
def Does {α : Type} (w : World) (x : M α) (a : α) (cs : List Cmd) (n : Nat) (s : St) : Prop :=
  ((∀ j, j < cs.length → w.ok (s.runs + j) = true) →
    ∃ s', x s = (some a, s') ∧ commands s'.evs = commands s.evs ++ cs ∧ s'.runs = s.runs + cs.length ∧ s'.tmps.length = s.tmps.length + n) ∧
  (∀ i, i < cs.length → (∀ j, j < i → w.ok (s.runs + j) = true) → w.ok (s.runs + i) = false →
    ∃ s', x s = (none, s') ∧ commands s'.evs = commands s.evs ++ cs.take (i + 1))

theorem Does.pure {α : Type} (w : World) (a : α) (s : St) : Does w (Pure.pure a) a [] 0 s :=
  ⟨fun _ => ⟨s, rfl, by simp, rfl, rfl⟩, fun i hi => absurd hi (Nat.not_lt_zero i)⟩

theorem Does.bind {α β : Type} {w : World} {x : M α} {f : α → M β} {a : α} {b : β} {cs cs' : List Cmd} {n n' : Nat} {s : St}
    (h1 : Does w x a cs n s) (h2 : ∀ s' : St, s'.runs = s.runs + cs.length → s'.tmps.length = s.tmps.length + n → Does w (f a) b cs' n' s') :
    Does w (x >>= f) b (cs ++ cs') (n + n') s := by
  constructor
  · intro h
    rw [List.length_append] at h
    obtain ⟨s1, e1, c1, r1, t1⟩ := h1.1 (fun j hj => h j (by omega))
    obtain ⟨s2, e2, c2, r2, t2⟩ := (h2 s1 r1 t1).1 (fun j hj => by rw [r1, Nat.add_assoc]; exact h _ (by omega))
    refine ⟨s2, ?_, ?_, ?_, ?_⟩
    · show M.bind x f s = _
      rw [M.bind, e1]; exact e2
    · rw [c2, c1, List.append_assoc]
    · rw [r2, r1, List.length_append, Nat.add_assoc]
    · omega
  · intro i hi hj hf
    rw [List.length_append] at hi
    by_cases hc : i < cs.length
    · obtain ⟨s1, e1, c1⟩ := h1.2 i hc hj hf
      refine ⟨s1, ?_, ?_⟩
      · show M.bind x f s = _
        rw [M.bind, e1]
      · rw [c1, List.take_append_of_le_length (by omega)]
    · obtain ⟨s1, e1, c1, r1, t1⟩ := h1.1 (fun j hj' => hj j (by omega))
      obtain ⟨s2, e2, c2⟩ := (h2 s1 r1 t1).2 (i - cs.length) (by omega) (fun j hj' => by rw [r1, Nat.add_assoc]; exact hj _ (by omega))
        (by rw [r1, Nat.add_assoc, show cs.length + (i - cs.length) = i from by omega]; exact hf)
      refine ⟨s2, ?_, ?_⟩
      · show M.bind x f s = _
        rw [M.bind, e1]; exact e2
      · rw [c2, c1, List.append_assoc, show i + 1 = cs.length + (i - cs.length + 1) from by omega, List.take_length_add_append]

theorem Does.run (w : World) (c : Cmd) (s : St) : Does w (runSub w c) () [c] 0 s := by
  constructor
  · intro h
    have h := h 0 (by simp)
    refine ⟨{ s with evs := s.evs ++ [.run c], runs := s.runs + 1 }, ?_, ?_, ?_, ?_⟩
    · simp only [runSub]; rw [show w.ok s.runs = true from h, if_pos rfl]
    · simp [commands, Event.cmd]
    · rfl
    · rfl
  · intro i hi _ hf
    simp only [List.length_cons, List.length_nil, Nat.lt_one_iff, Nat.zero_add] at hi
    subst hi
    refine ⟨{ s with evs := s.evs ++ [.run c], runs := s.runs + 1 }, ?_, ?_⟩
    · simp only [runSub]; rw [show w.ok s.runs = false from hf, if_neg (by simp)]
    · simp [commands, Event.cmd]

theorem Does.tmp (w : World) (t : Nat → Str) (ht : ∀ n, w.mkstemp n = some (t n)) (s : St) : Does w (createTmp w) (t s.tmps.length) [] 1 s := by
  constructor
  · intro _
    refine ⟨{ s with evs := s.evs ++ [.tmp (t s.tmps.length)], tmps := s.tmps ++ [t s.tmps.length] }, ?_, ?_, ?_, ?_⟩
    · simp only [createTmp, ht]
    · simp [commands, Event.cmd]
    · rfl
    · simp
  · intro i hi
    exact absurd hi (Nat.not_lt_zero i)

theorem Does.cast {α : Type} {w : World} {x : M α} {a b : α} {cs ds : List Cmd} {n m : Nat} {s : St} (h : Does w x a cs n s) (e1 : a = b) (e2 : cs = ds) (e3 : n = m) :
    Does w x b ds m s := by
  subst e1; subst e2; subst e3; exact h

/-- One input: the phases asked for. -/
theorem does_one (w : World) (o : Opts) (t : Nat → Str) (ht : ∀ n, w.mkstemp n = some (t n)) (f : Str) (k : Kind) (hk : kindOf o.x f = some k) (hh : Handled (modeOf o) k)
    (ld : List Str) (s : St) :
    let p := phases (modeOf o) k f (destOf o f) (fun n => t (s.tmps.length + n))
    Does w (oneInput w o ld f) (ld ++ p.2) p.1 (temps (modeOf o) k) s := by
  intro p
  unfold oneInput
  cases h1 : ([45, 108] /- -l -/).isPrefixOf f with
  | true =>
    have : k = .link [f] := by simp [kindOf, h1] at hk; exact hk.symm
    subst this
    rw [if_pos rfl]
    cases hm : modeOf o <;> rw [hm] at hh <;> try exact hh.elim
    simp only [p, hm, phases, temps]
    exact Does.pure _ _ _
  | false =>
  rw [if_neg (by simp)]
  cases h2 : ([45, 87, 108, 44] /- -Wl, -/).isPrefixOf f with
  | true =>
    have : k = .link (((f.drop 4).splitOnP (· == 44)).filter (· ≠ [])) := by simp [kindOf, h1, h2] at hk; simpa using hk.symm
    subst this
    rw [if_pos rfl]
    cases hm : modeOf o <;> rw [hm] at hh <;> try exact hh.elim
    simp only [p, hm, phases, temps]
    rw [strtok_eq]
    exact Does.pure _ _ _
  | false =>
  rw [if_neg (by simp)]
  rw [type_kind o.x f h1 h2] at hk
  cases hg : getFileType o.x f with
  | none => rw [hg] at hk; cases hk
  | some ty =>
  rw [hg] at hk
  have hk := Option.some.inj hk
  simp only
  have lnk : k = .link [f] → Does w (Pure.pure (ld ++ [f])) (ld ++ p.2) p.1 (temps (modeOf o) k) s := by
    rintro rfl
    cases hm : modeOf o <;> rw [hm] at hh <;> try exact hh.elim
    simp only [p, hm, phases, temps]
    exact Does.pure _ _ _
  cases ty with
  | none => exact absurd hg (getFileType_ne_none _ _)
  | obj => exact lnk hk.symm
  | ar => exact lnk hk.symm
  | dso => exact lnk hk.symm
  | asm =>
    have hk : Kind.asm = k := hk
    subst hk
    cases hm : modeOf o <;> rw [hm] at hh <;> try exact hh.elim
    · -- -S
      have hS : o.S = true := by
        unfold modeOf at hm
        cases hS : o.S <;> simp [hS] at hm ⊢
        split at hm <;> try cases hm
        split at hm <;> cases hm
      simp only [p, hm, phases, temps, hS]
      exact (Does.pure _ _ _).cast (by simp) rfl rfl
    · -- -c
      have hS : o.S = false := by
        unfold modeOf at hm
        cases hS : o.S <;> simp [hS] at hm ⊢
        split at hm <;> cases hm
      simp only [p, hm, phases, temps, hS]
      refine ((Does.run w _ s).bind (fun s' _ _ => Does.pure w ld s')).cast (by simp) ?_ rfl
      cases ho : o.o <;> simp [destOf, outputOf, ho, hS]
  | c =>
    have hk : Kind.c = k := hk
    subst hk
    by_cases hp : (o.E || o.M) = true
    · have hm : modeOf o = .pre := by simp [modeOf, hp]
      simp only [p, hm, phases, temps]
      rw [if_pos hp]
      exact ((Does.run w _ s).bind (fun s' _ _ => Does.pure w ld s')).cast (by simp) rfl rfl
    · rw [if_neg hp]
      by_cases hS : o.S = true
      · have hm : modeOf o = .asm := by simp [modeOf, hp, hS]
        simp only [p, hm, phases, temps]
        rw [if_pos hS]
        refine ((Does.run w _ s).bind (fun s' _ _ => Does.pure w ld s')).cast (by simp) ?_ rfl
        cases ho : o.o <;> simp [destOf, outputOf, ho, hS]
      · rw [if_neg hS]
        by_cases hc : o.c = true
        · have hm : modeOf o = .obj := by simp [modeOf, hp, hS, hc]
          simp only [p, hm, phases, temps]
          rw [if_pos hc]
          refine ((Does.tmp w t ht s).bind fun s1 _ _ => (Does.run w _ s1).bind fun s2 _ _ => (Does.run w _ s2).bind fun s3 _ _ => Does.pure w ld s3).cast (by simp) ?_ rfl
          cases ho : o.o <;> simp [destOf, outputOf, ho, hS]
        · have hm : modeOf o = .link := by simp [modeOf, hp, hS, hc]
          simp only [p, hm, phases, temps]
          rw [if_neg hc]
          refine ((Does.tmp w t ht s).bind fun s0 r0 t0 => ((Does.tmp w t ht s0).cast (b := t (s.tmps.length + 1)) (by rw [t0]) rfl rfl).bind fun s1 _ _ =>
            (Does.run w _ s1).bind fun s2 _ _ => (Does.run w _ s2).bind fun s3 _ _ => Does.pure w (ld ++ [t (s.tmps.length + 1)]) s3).cast rfl ?_ rfl
          simp [commands, Event.cmd]

theorem does_all (w : World) (o : Opts) (t : Nat → Str) (ht : ∀ n, w.mkstemp n = some (t n)) : ∀ (ks : List (Str × Kind)) (ld : List Str) (s : St),
    (∀ x ∈ ks, kindOf o.x x.1 = some x.2 ∧ Handled (modeOf o) x.2) →
    let p := plan (modeOf o) (destOf o) (fun n => t (s.tmps.length + n)) ks
    Does w (allInputs w o ld (ks.map (·.1))) (ld ++ p.2) p.1 (ks.map fun x => temps (modeOf o) x.2).sum s := by
  intro ks
  induction ks with
  | nil => intro ld s _; exact (Does.pure w ld s).cast (by simp [plan]) rfl rfl
  | cons x ks ih =>
    intro ld s h
    obtain ⟨f, k⟩ := x
    have h0 := h _ (List.mem_cons_self ..)
    have d := does_one w o t ht f k h0.1 h0.2 ld s
    have key : ∀ s' : St, s'.tmps.length = s.tmps.length + temps (modeOf o) k → (fun n => t (s'.tmps.length + n)) = fun n => t (s.tmps.length + (n + temps (modeOf o) k)) := by
      intro s' e; funext n; rw [e]; congr 1; omega
    refine Does.cast (a := ld ++ (phases (modeOf o) k f (destOf o f) fun n => t (s.tmps.length + n)).2 ++
      (plan (modeOf o) (destOf o) (fun n => t (s.tmps.length + (n + temps (modeOf o) k))) ks).2) (Does.bind d fun s' r' t' => ?_) (by simp only [plan]; rw [List.append_assoc]) rfl rfl
    have dn := ih (ld ++ (phases (modeOf o) k f (destOf o f) fun n => t (s.tmps.length + n)).2) s' (fun x hx => h x (List.mem_cons_of_mem _ hx))
    rw [key s' t'] at dn
    exact dn

/-- Without linker arguments outside link mode. -/
theorem plan_no_link (m : Mode) (hm : m ≠ .link) (dest : Str → Str → Str) : ∀ (ks : List (Str × Kind)) (t : Nat → Str), (∀ x ∈ ks, Handled m x.2) → (plan m dest t ks).2 = [] := by
  intro ks
  induction ks with
  | nil => intro t _; rfl
  | cons x ks ih =>
    intro t h
    obtain ⟨f, k⟩ := x
    simp only [plan]
    rw [ih _ (fun x hx => h x (List.mem_cons_of_mem _ hx)), List.append_nil]
    have := h _ (List.mem_cons_self ..)
    cases m <;> cases k <;> first | rfl | exact absurd rfl hm | exact this.elim

theorem does_driver (w : World) (o : Opts) (t : Nat → Str) (ht : ∀ n, w.mkstemp n = some (t n)) (hl : w.lib.isSome = true) (hg : w.gcc.isSome = true) (ks : List (Str × Kind))
    (hi : o.inputs = ks.map (·.1)) (hk : ∀ x ∈ ks, kindOf o.x x.1 = some x.2 ∧ Handled (modeOf o) x.2) (ho : (1 < o.inputs.length && o.o.isSome && (o.c || o.S || o.E)) = false) :
    Does w (driver w o) () (job o t ks) (ks.map fun x => temps (modeOf o) x.2).sum {} := by
  unfold driver job
  rw [ho, if_neg (by simp), hi]
  have d := does_all w o t ht ks [] {} hk
  simp only [List.nil_append, List.length_nil, Nat.zero_add] at d
  refine (Does.bind d fun s' r' t' => (?_ : Does w _ () _ 0 s')).cast rfl rfl rfl
  by_cases hm : modeOf o = .link
  · rw [hm] at *
    by_cases he : (plan .link (destOf o) t ks).2 = []
    · rw [if_neg (by simp [he]), if_neg (by simp [he])]
      exact Does.pure w () s'
    · rw [if_pos he, if_pos ⟨rfl, he⟩]
      obtain ⟨l, hl⟩ := Option.isSome_iff_exists.mp hl
      obtain ⟨g, hg⟩ := Option.isSome_iff_exists.mp hg
      unfold runLinker
      rw [hl, hg]
      exact Does.run w _ s'
  · have he := plan_no_link (modeOf o) hm (destOf o) ks t (fun x hx => (hk x hx).2)
    rw [if_neg (by simp [he]), if_neg (by simp [hm])]
    exact Does.pure w () s'

theorem commands_cleanup (s : St) : commands (s.evs ++ cleanup s) = commands s.evs := by
  unfold commands cleanup
  rw [List.filterMap_append]
  have : ∀ l : List Str, List.filterMap Event.cmd (l.map Event.unlink) = ([] : List Cmd) := by
    intro l
    induction l with
    | nil => rfl
    | cons a l ih => rw [List.map_cons, List.filterMap_cons]; exact ih
  rw [this, List.append_nil]

/-- C57. When the inputs are C files - or assembly files with -c or -S, or objects, archives, libraries and linker arguments when linking - the driver runs exactly the commands of
the job, in order, and exits with 0 if all of them succeed; otherwise it stops with exit code 1 after the first one that fails. `t` are the names mkstemp gives.
Missing: assembly files when linking or with -M, linker inputs with -E, -M, -S or -c (see `C57_violated_asm`, `C57_violated_link`, `C57_violated_M`). -/
theorem C57_phases_partial (w : World) (o : Opts) (t : Nat → Str) (ht : ∀ n, w.mkstemp n = some (t n)) (hl : w.lib.isSome = true) (hg : w.gcc.isSome = true)
    (ks : List (Str × Kind)) (hi : o.inputs = ks.map (·.1)) (hk : ∀ x ∈ ks, kindOf o.x x.1 = some x.2 ∧ Handled (modeOf o) x.2)
    (ho : (1 < o.inputs.length && o.o.isSome && (o.c || o.S || o.E)) = false) :
    ((∀ j, j < (job o t ks).length → w.ok j = true) → (runDriver w o).1 = 0 ∧ commands (runDriver w o).2 = job o t ks) ∧
    (∀ i, i < (job o t ks).length → (∀ j, j < i → w.ok j = true) → w.ok i = false → (runDriver w o).1 = 1 ∧ commands (runDriver w o).2 = (job o t ks).take (i + 1)) := by
  have d := does_driver w o t ht hl hg ks hi hk ho
  constructor
  · intro h
    obtain ⟨s', e, c, _⟩ := d.1 (fun j hj => by rw [Nat.zero_add]; exact h j hj)
    unfold runDriver
    rw [e]
    exact ⟨rfl, by rw [commands_cleanup, c]; rfl⟩
  · intro i hi hj hf
    obtain ⟨s', e, c⟩ := d.2 i hi (fun j h => by rw [Nat.zero_add]; exact hj j h) (by rw [Nat.zero_add]; exact hf)
    unfold runDriver
    rw [e]
    exact ⟨rfl, by rw [commands_cleanup, c]; rfl⟩

/-- C57: `-o` with -c, -S or -E and several inputs is refused before anything is run. -/
theorem C57_several (w : World) (o : Opts) (h1 : 1 < o.inputs.length) (h2 : o.o.isSome = true) (h3 : (o.c || o.S || o.E) = true) : runDriver w o = (1, []) := by
  unfold runDriver driver
  rw [h2, h3, if_pos (by simp [h1])]
  rfl

/-- C57: the output is named after the input: directory and extension dropped, the new extension added. -/
theorem C57_output_name (dir base e ext : Str) (hd : dir = [] ∨ ∃ d, dir = d ++ [47]) (hb : 47 ∉ base) (he : 47 ∉ e) (he2 : 46 ∉ e) :
    replaceExtn (dir ++ (base ++ 46 :: e)) ext = base ++ ext := by
  have hn : 47 ∉ base ++ 46 :: e := by simp [hb, he]
  have h1 : basename (dir ++ (base ++ 46 :: e)) = base ++ 46 :: e := by
    unfold basename
    rw [if_neg (by simp)]
    have h2 : (dir ++ (base ++ 46 :: e)).reverse.dropWhile (· == 47) = (dir ++ (base ++ 46 :: e)).reverse := by
      rw [List.reverse_append]
      have : ∃ c r, (base ++ 46 :: e).reverse = c :: r ∧ c ≠ 47 := by
        cases hr : (base ++ 46 :: e).reverse with
        | nil => simp at hr
        | cons c r =>
          refine ⟨c, r, rfl, ?_⟩
          rintro rfl
          have : (47 : UInt8) ∈ (base ++ 46 :: e).reverse := by rw [hr]; exact List.mem_cons_self ..
          exact hn (List.mem_reverse.mp this)
      obtain ⟨c, r, e1, e2⟩ := this
      rw [e1, List.cons_append, List.dropWhile_cons_of_neg (by simp [e2])]
    simp only [h2, List.reverse_reverse]
    rw [if_neg (by simp)]
    have h3 : (dir ++ (base ++ 46 :: e)).reverse.takeWhile (· != 47) = (base ++ 46 :: e).reverse := by
      rw [List.reverse_append]
      have all : ∀ x ∈ (base ++ 46 :: e).reverse, (x != 47) = true := by
        intro x hx
        rw [bne_iff_ne]
        rintro rfl
        exact hn (List.mem_reverse.mp hx)
      rw [List.takeWhile_append_of_pos all]
      rcases hd with rfl | ⟨d, rfl⟩ <;> simp
    rw [h3, List.reverse_reverse]
  unfold replaceExtn
  rw [h1]
  unfold beforeDot
  rw [if_pos (by simp), List.reverse_append, List.reverse_cons, List.append_assoc, List.dropWhile_append_of_pos (by
    intro x hx
    rw [bne_iff_ne]
    rintro rfl
    exact he2 (List.mem_reverse.mp hx))]
  simp

/-- The options of the compiler process. -/
def Opts.child (i : Str) (p : Option Str) (q : Opts) : Opts := { q with cc1 := true, baseFile := some i, outputFile := p.or q.outputFile }

theorem child_implyC (i : Str) (p : Option Str) (q : Opts) : (q.child i p).implyC = q.implyC.child i p := by
  unfold Opts.implyC
  cases h : q.E
  · rw [if_neg (by simp [Opts.child, h]), if_neg (by simp)]
  · rw [if_pos (by simp [Opts.child, h]), if_pos rfl, ← h]
    rfl

/-- C57: what a compile command asks of the compiler process: its command line is parsed to the same options, with the input and output given. -/
theorem C57_child (dir : Str) (os : List Opt) (h : ∀ o ∈ os, o.Ok) (r : Opts) (e : parseArgs dir (os.flatMap Opt.render) = .ok r) (i : Str) (p : Option Str) (hi : takeArg i = false)
    (hp : ∀ q, p = some q → takeArg q = false) (o : Opts) (lib gcc : Str) :
    parseArgs dir ((Cmd.cc1 i p).argv (os.flatMap Opt.render) o lib gcc) = .ok { r with cc1 := true, baseFile := some i, outputFile := p.or r.outputFile } := by
  have one : ∀ (a : Str) (r : List Str), takeArg a = false → checkArgs (a :: r) = checkArgs r := by
    intro a r ha
    rw [checkArgs.eq_def]; simp only; rw [if_neg (by simp [ha])]
  rw [C59_options_partial dir os h] at e
  have hq := foldl_idirafter os { includePaths := stdPaths dir } h
  generalize hr : os.foldl Opt.apply { includePaths := stdPaths dir } = q at e hq
  have hne : q.inputs ≠ [] := by
    intro h5
    rw [if_pos h5] at e
    cases e
  rw [if_neg hne] at e
  have e := Except.ok.inj e
  have last : finish (q.child i p).addAfter = .ok (r.child i p) := by
    rw [addAfter_eq (q.child i p) hq]
    unfold finish
    rw [if_neg (show ¬(q.child i p).inputs = [] from hne), child_implyC, e]
  cases p with
  | none =>
    show parseArgs dir (os.flatMap Opt.render ++ [[45, 99, 99, 49] /- -cc1 -/, [45, 99, 99, 49, 45, 105, 110, 112, 117, 116] /- -cc1-input -/, i]) = .ok (r.child i none)
    rw [← last]
    unfold parseArgs
    rw [check_all os _ h, loop_all os _ _ h, hr, one _ _ (by decide), one _ _ (by decide), one _ _ hi]
    rfl
  | some p =>
    show parseArgs dir (os.flatMap Opt.render ++ [[45, 99, 99, 49] /- -cc1 -/, [45, 99, 99, 49, 45, 105, 110, 112, 117, 116] /- -cc1-input -/, i, [45, 99, 99, 49, 45, 111, 117, 116, 112, 117, 116] /- -cc1-output -/, p]) = .ok (r.child i (some p))
    rw [← last]
    unfold parseArgs
    rw [check_all os _ h, loop_all os _ _ h, hr, one _ _ (by decide), one _ _ (by decide), one _ _ hi, one _ _ (by decide), one _ _ (hp p rfl)]
    rfl

/-- C57: the linker gets the output file, and the objects and linker arguments in the order of the inputs, after the -L, -s, -static, -shared and -Xlinker arguments. -/
theorem C57_linker_words (argv : List Str) (o : Opts) (lib gcc : Str) (objs : List Str) (out : Str) :
    ∃ a b, (Cmd.ld objs out).argv argv o lib gcc = [[114, 105, 115, 99, 118, 54, 52, 45, 108, 105, 110, 117, 120, 45, 103, 110, 117, 45, 108, 100] /- riscv64-linux-gnu-ld -/, [45, 111] /- -o -/, out] ++ a ++ (o.ldExtra ++ objs) ++ b :=
  ⟨ldBefore o lib gcc, ldAfter o lib gcc, by simp only [Cmd.argv, List.append_assoc]⟩

/-- A system where everything succeeds. -/
def fine : World := ⟨fun n => some [116, 48 + n.toUInt8], fun _ => true, some [47, 108, 105, 98] /- /lib -/, some [47, 103, 99, 99] /- /gcc -/⟩

/-- C57 fails: `toycc x.s` assembles into x.o and never links. -/
theorem C57_violated_asm : runDriver fine { inputs := [[120, 46, 115] /- x.s -/] } = (0, [.run (.as [120, 46, 115] /- x.s -/ [120, 46, 111] /- x.o -/)]) := by
  decide +kernel

/-- C57 fails: `toycc x.s y.c` links without the object of x.s. -/
theorem C57_violated_asm_among : commands (runDriver fine { inputs := [[120, 46, 115] /- x.s -/, [121, 46, 99] /- y.c -/] }).2 = [.as [120, 46, 115] /- x.s -/ [120, 46, 111] /- x.o -/, .cc1 [121, 46, 99] /- y.c -/ (some [116, 48] /- t0 -/), .as [116, 48] /- t0 -/ [116, 49] /- t1 -/, .ld [[116, 49] /- t1 -/] [97, 46, 111, 117, 116] /- a.out -/] := by
  decide +kernel

/-- C57 fails: `toycc -c x.c -lm` compiles and assembles x.c, and then runs the linker without any object. -/
theorem C57_violated_link : commands (runDriver fine { inputs := [[120, 46, 99] /- x.c -/, [45, 108, 109] /- -lm -/], c := true }).2 = [.cc1 [120, 46, 99] /- x.c -/ (some [116, 48] /- t0 -/), .as [116, 48] /- t0 -/ [120, 46, 111] /- x.o -/, .ld [[45, 108, 109] /- -lm -/] [97, 46, 111, 117, 116] /- a.out -/] := by
  decide +kernel

/-- C57 fails: with -M, `x.s` is assembled although only dependencies were asked for. -/
theorem C57_violated_M : runDriver fine { inputs := [[120, 46, 115] /- x.s -/], M := true } = (0, [.run (.as [120, 46, 115] /- x.s -/ [120, 46, 111] /- x.o -/)]) := by
  decide +kernel

/-- Three C files, an object and a library, linked: the hypotheses of `C57_phases_partial` hold and this is the job. -/
def exKs : List (Str × Kind) := [([115, 114, 99, 47, 97, 46, 99] /- src/a.c -/, .c), ([98, 46, 111] /- b.o -/, .link [[98, 46, 111] /- b.o -/]), ([99, 46, 99] /- c.c -/, .c), ([45, 87, 108, 44, 45, 120, 44, 44, 121] /- -Wl,-x,,y -/, .link [[45, 120] /- -x -/, [121] /- y -/]), ([45, 108, 109] /- -lm -/, .link [[45, 108, 109] /- -lm -/])]

example : ∀ x ∈ exKs, kindOf .none x.1 = some x.2 ∧ Handled (modeOf {}) x.2 := by
  intro x hx
  simp only [exKs, List.mem_cons, List.not_mem_nil, or_false] at hx
  rcases hx with rfl | rfl | rfl | rfl | rfl <;> exact ⟨by decide +kernel, trivial⟩

example : job {} (fun n => [n.toUInt8]) exKs = [.cc1 [115, 114, 99, 47, 97, 46, 99] /- src/a.c -/ (some [0]), .as [0] [1], .cc1 [99, 46, 99] /- c.c -/ (some [2]), .as [2] [3], .ld [[1], [98, 46, 111] /- b.o -/, [3], [45, 120] /- -x -/, [121] /- y -/, [45, 108, 109] /- -lm -/] [97, 46, 111, 117, 116] /- a.out -/] := by
  decide +kernel

example : job { c := true } (fun n => [n.toUInt8]) [([115, 114, 99, 47, 97, 46, 99] /- src/a.c -/, .c), ([98, 46, 115] /- b.s -/, .asm)] = [.cc1 [115, 114, 99, 47, 97, 46, 99] /- src/a.c -/ (some [0]), .as [0] [97, 46, 111] /- a.o -/, .as [98, 46, 115] /- b.s -/ [98, 46, 111] /- b.o -/] := by
  decide +kernel

/-! C58 -/

def Event.isUnlink : Event → Bool
  | .unlink _ => true
  | _ => false

def Event.tmp? : Event → Option Str
  | .tmp p => some p
  | _ => none

/-- The list of temporary files is the list of those made, and none was removed. -/
def Inv (s : St) : Prop := s.evs.filterMap Event.tmp? = s.tmps ∧ ∀ e ∈ s.evs, e.isUnlink = false

/-- `x` keeps the invariant, whether it returns or exits. -/
def Keeps {α : Type} (x : M α) : Prop := ∀ s, Inv s → Inv (x s).2

theorem Keeps.pure {α : Type} (a : α) : Keeps (Pure.pure a : M α) := fun _ h => h

theorem Keeps.fail {α : Type} : Keeps (fail : M α) := fun _ h => h

theorem Keeps.bind {α β : Type} {x : M α} {f : α → M β} (h1 : Keeps x) (h2 : ∀ a, Keeps (f a)) : Keeps (x >>= f) := by
  intro s h
  show Inv (M.bind x f s).2
  have := h1 s h
  unfold M.bind
  cases hx : x s with
  | mk a s' =>
    rw [hx] at this
    cases a with
    | none => exact this
    | some a => exact h2 a s' this

theorem Keeps.run (w : World) (c : Cmd) : Keeps (runSub w c) := by
  intro s h
  refine ⟨?_, ?_⟩
  · simp only [runSub, List.filterMap_append]
    rw [h.1]
    simp [Event.tmp?]
  · intro e he
    simp only [runSub, List.mem_append, List.mem_singleton] at he
    rcases he with he | rfl
    · exact h.2 e he
    · rfl

theorem Keeps.tmp (w : World) : Keeps (createTmp w) := by
  intro s h
  unfold createTmp
  split
  · exact h
  · refine ⟨?_, ?_⟩
    · simp only [List.filterMap_append]
      rw [h.1]
      simp [Event.tmp?]
    · intro e he
      simp only [List.mem_append, List.mem_singleton] at he
      rcases he with he | rfl
      · exact h.2 e he
      · rfl

theorem keeps_one (w : World) (o : Opts) (ld : List Str) (i : Str) : Keeps (oneInput w o ld i) := by
  unfold oneInput
  split
  · exact .pure _
  split
  · exact .pure _
  simp only
  split
  · exact .fail
  · exact .pure _
  · exact .pure _
  · exact .pure _
  · split
    · exact .bind (.run _ _) fun _ => .pure _
    · exact .pure _
  · exact .fail
  · split
    · exact .bind (.run _ _) fun _ => .pure _
    split
    · exact .bind (.run _ _) fun _ => .pure _
    split
    · exact .bind (.tmp _) fun _ => .bind (.run _ _) fun _ => .bind (.run _ _) fun _ => .pure _
    · exact .bind (.tmp _) fun _ => .bind (.tmp _) fun _ => .bind (.run _ _) fun _ => .bind (.run _ _) fun _ => .pure _

theorem keeps_all (w : World) (o : Opts) : ∀ (l ld : List Str), Keeps (allInputs w o ld l) := by
  intro l
  induction l with
  | nil => intro ld; exact .pure _
  | cons i l ih => intro ld; exact .bind (keeps_one _ _ _ _) fun ld' => ih ld'

theorem keeps_driver (w : World) (o : Opts) : Keeps (driver w o) := by
  unfold driver
  split
  · exact .fail
  · refine .bind (keeps_all _ _ _ _) fun ld => ?_
    split
    · unfold runLinker
      split
      · exact .run _ _
      · exact .fail
    · exact .pure _

theorem left_tmps : ∀ (evs r : List Event) (l : List Str), (∀ e ∈ evs, e.isUnlink = false) → ∃ l', left (evs ++ r) l = left r l' ∧ ∀ p, p ∈ l' → p ∈ l ∨ p ∈ evs.filterMap Event.tmp? := by
  intro evs r
  induction evs with
  | nil => intro l _; exact ⟨l, rfl, fun p hp => .inl hp⟩
  | cons e evs ih =>
    intro l h
    have h' := fun x hx => h x (List.mem_cons_of_mem _ hx)
    cases e with
    | tmp p =>
      obtain ⟨l', e1, e2⟩ := ih (p :: l) h'
      refine ⟨l', e1, fun q hq => ?_⟩
      simp only [List.filterMap_cons, Event.tmp?, List.mem_cons]
      rcases e2 q hq with h3 | h3
      · rcases List.mem_cons.mp h3 with h4 | h4
        · exact .inr (.inl h4)
        · exact .inl h4
      · exact .inr (.inr h3)
    | run c =>
      obtain ⟨l', e1, e2⟩ := ih l h'
      exact ⟨l', e1, e2⟩
    | unlink p => exact absurd (h _ (List.mem_cons_self ..)) (by simp [Event.isUnlink])

theorem left_unlinks : ∀ (ts l : List Str), (∀ p ∈ l, p ∈ ts) → left (ts.map .unlink) l = [] := by
  intro ts
  induction ts with
  | nil =>
    intro l h
    cases l with
    | nil => rfl
    | cons a l => exact absurd (h a (List.mem_cons_self ..)) (by simp)
  | cons t ts ih =>
    intro l h
    rw [List.map_cons, left]
    refine ih _ fun p hp => ?_
    rw [List.mem_filter] at hp
    rcases List.mem_cons.mp (h p hp.1) with h1 | h1
    · simp [h1] at hp
    · exact h1

/-- C58. Whatever the command line, the answers of the system and the outcome of the sub-processes: when the driver has exited - after success, an error or a failing sub-process -
none of the temporary files it made exists any more; it removes nothing else, and only after the last command. -/
theorem C58_temporaries_removed (w : World) (o : Opts) :
    left (runDriver w o).2 [] = [] ∧
    (∀ p, Event.unlink p ∈ (runDriver w o).2 → Event.tmp p ∈ (runDriver w o).2) ∧
    ∃ (a : List Event) (b : List Str), (runDriver w o).2 = a ++ b.map Event.unlink ∧ ∀ p, Event.unlink p ∉ a := by
  have inv : Inv (driver w o {}).2 := keeps_driver w o {} ⟨rfl, by simp⟩
  have e : (runDriver w o).2 = (driver w o {}).2.evs ++ (driver w o {}).2.tmps.map .unlink := by
    unfold runDriver cleanup
    split <;> rename_i s h <;> rw [h]
  generalize (driver w o {}).2 = s at e inv
  rw [e]
  obtain ⟨i1, i2⟩ := inv
  have nu : ∀ p, Event.unlink p ∉ s.evs := fun p hp => absurd (i2 _ hp) (by simp [Event.isUnlink])
  refine ⟨?_, ?_, s.evs, s.tmps, rfl, nu⟩
  · obtain ⟨l', e1, e2⟩ := left_tmps s.evs (s.tmps.map .unlink) [] i2
    rw [e1]
    refine left_unlinks _ _ fun p hp => ?_
    rcases e2 p hp with h | h
    · cases h
    · rwa [i1] at h
  · intro p hp
    rw [List.mem_append] at hp ⊢
    rcases hp with hp | hp
    · exact absurd hp (nu p)
    · left
      obtain ⟨q, hq, e3⟩ := List.mem_map.mp hp
      cases e3
      rw [← i1, List.mem_filterMap] at hq
      obtain ⟨x, hx, hx2⟩ := hq
      cases x with
      | tmp q => cases hx2; exact hx
      | run _ => cases hx2
      | unlink _ => cases hx2

/-- A run that makes two files and fails in the assembler. -/
example : runDriver ⟨fun n => some [n.toUInt8], fun n => n != 1, none, none⟩ { inputs := [[120, 46, 99] /- x.c -/] } =
    (1, [.tmp [0], .tmp [1], .run (.cc1 [120, 46, 99] /- x.c -/ (some [0])), .run (.as [0] [1]), .unlink [0], .unlink [1]]) := by
  decide +kernel

end Toycc.Driver
