import Verif.Pp.TermStep
import Verif.Pp.Mono
/-! Termination of macro expansion (C22): arguments, substitution and the main induction. -/
namespace Toycc.Pp
open Toycc.Lex (Kind asc)

/-- A run on an argument or on the line of a directive leaves the macros alone. -/
theorem pp_macros (env : Env) (hs : env.strict = true) (ms : List (Bytes × Macro)) (hn : Named ms) (n : Nat) :
    Keep (fun st => st.macros = ms) (pp env n false) := by
  induction n with
  | zero => intro st l st' o p h; cases h
  | succ n ih =>
    intro st l st' o p h hst
    cases l with
    | nil => cases h
    | cons t r =>
      rw [pp] at h
      split at h
      · cases h; exact hst
      · split at h
        · cases h
        · rename_i st1 l1 hx
          obtain ⟨h1, _⟩ := expand_some env hs _ ms hn ih st hst t r st1 l1 hx
          split at h
          · cases h
          · rename_i st2 out pre hp
            cases h
            exact ih _ _ _ _ _ hp h1
        · split at h
          · split at h
            · cases h
            · rename_i st2 out pre hp
              cases h
              exact ih _ _ _ _ _ hp hst
          · rw [hs] at h
            simp at h

/-- The nodes consumed before the first one passed through are some of those that have not been expanded before. -/
theorem pp_pre (env : Env) (hs : env.strict = true) (ms : List (Bytes × Macro)) (hn : Named ms) (n : Nat) :
    ∀ (st : St) (L I : List PTok) (st' : St) (out pre : List PTok), st.macros = ms → Quiet ms (I.map core) →
      (∀ t ∈ I, t.tail = true) → pp env n false st (L ++ I) = .ok (st', out, pre) →
      (pre.map core).Sublist ((L.filter (·.own)).map core) := by
  induction n with
  | zero => intro st L I st' out pre _ _ _ h; cases h
  | succ n ih =>
    intro st L I st' out pre hst hq hI h
    cases L with
    | nil =>
      rw [List.nil_append] at h
      cases I with
      | nil => cases h
      | cons t r =>
        have ht : ∀ t ∈ r, t.tail = true := fun u hu => hI u (by simp [hu])
        rw [pp] at h
        split at h
        · cases h; exact List.Sublist.refl _
        · have hqe := quiet_expand env (pp env n false) st t r (by rw [hst]; exact hq)
          rcases hqe with he | he
          · rw [he] at h
            dsimp only at h
            split at h
            · split at h
              · cases h
              · rename_i st2 out' pre' hp
                cases h
                have := ih st [] r st' out' pre' hst hq.2 ht hp
                split
                · exact List.nil_sublist _
                · exact this
            · rw [hs] at h
              simp at h
          · rw [he] at h; cases h
    | cons t L =>
      rw [List.cons_append, pp] at h
      split at h
      · cases h; exact List.nil_sublist _
      · split at h
        · cases h
        · rename_i st1 l1 hx
          obtain ⟨h1, c, L1, L2, I2, e1, _, e2, e3, e4, e5, _⟩ := step_some env hs _ ms hn (pp_macros env hs ms hn n) st hst t L I st1 l1 hx hI
          split at h
          · cases h
          · rename_i st2 out' pre' hp
            cases h
            rw [e2] at hp
            have := ih st1 L2 I2 st' out pre' h1 (by rw [view_core e3]; exact hq) (view_tail e3 hI) hp
            rw [e4, e1, List.filter_append, List.map_append, List.map_append]
            rw [e5] at this
            exact List.Sublist.append (List.Sublist.refl _) this
        · split at h
          · split at h
            · cases h
            · rename_i st2 out' pre' hp
              cases h
              have := ih st L I st' out' pre' hst hq hI hp
              split
              · exact List.nil_sublist _
              · rename_i ho
                rw [List.filter_cons_of_neg ho]
                exact this
          · rw [hs] at h
            simp at h

/-! ### Arguments -/

/-- The list is smaller than `μ`. -/
def Good (ms : List (Bytes × Macro)) (μ : Nat → Nat) (l : List PTok) : Prop :=
  ∃ L I zs, l = L ++ I ∧ L.map core = zs.map (·.1) ∧ Levels (ms.map (·.1)) zs ∧ Quiet ms (I.map core) ∧
    (∀ t ∈ I, t.tail = true) ∧ Lt (ms.length + 1) (cnt zs) μ

/-- The argument's tokens are taken from the list in order, and a TK_EOF stands for the token that ends it. -/
theorem readArg_toks (b : Bool) (lvl : Nat) (l a r : List PTok) (h : readArg b lvl l = .ok (a, r)) :
    ∃ seg u r', l = seg ++ u :: r' ∧ r = u :: r' ∧ a = seg.map ownTok ++ [ownTok (newEof u)] := by
  induction l generalizing lvl a r with
  | nil => simp [readArg] at h
  | cons t l ih =>
    rw [readArg] at h
    split at h
    · cases h; exact ⟨[], t, l, rfl, rfl, rfl⟩
    · split at h
      · cases h; exact ⟨[], t, l, rfl, rfl, rfl⟩
      · split at h
        · cases h
        · split at h
          · cases h
          · rename_i h2
            cases h
            obtain ⟨seg, u, r', e1, e2, e3⟩ := ih _ _ _ h2
            exact ⟨t :: seg, u, r', by rw [e1]; rfl, e2, by rw [e3]; rfl⟩

/-- `a` is made of tokens of `x`, in order, the last one replaced by TK_EOF. -/
def FromArg (x : List PTok) (a : List PTok) : Prop :=
  ∃ seg u, (seg ++ [u]).Sublist x ∧ a = seg.map ownTok ++ [ownTok (newEof u)]

theorem readArg_from (b : Bool) (lvl : Nat) (l a r : List PTok) (t : PTok) (r0 pre : List PTok) (h : readArg b lvl l = .ok (a, r))
    (w : List PTok) (hw : w = pre ++ l) (x : List PTok) (hx : w = x ++ t :: r0) (hr : ∃ y, r = y ++ t :: r0) : FromArg (x ++ [t]) a := by
  obtain ⟨seg, u, r', e1, e2, e3⟩ := readArg_toks _ _ _ _ _ h
  obtain ⟨y, hy⟩ := hr
  refine ⟨seg, u, ?_, e3⟩
  have hlen : (x ++ [t]) ++ r0 = (pre ++ (seg ++ y ++ [t])) ++ r0 := by
    have : l = seg ++ r := by rw [e1, e2]
    have h2 : x ++ t :: r0 = pre ++ (seg ++ (y ++ t :: r0)) := by rw [← hx, hw, this, hy]
    simpa using h2
  have := List.append_cancel_right hlen
  rw [this]
  have hu : ∃ ys, y ++ [t] = u :: ys := by
    cases y with
    | nil =>
      rw [e2] at hy
      exact ⟨[], by simp only [List.nil_append, List.cons.injEq] at hy; rw [hy.1]; rfl⟩
    | cons v y =>
      rw [e2] at hy
      simp only [List.cons_append, List.cons.injEq] at hy
      exact ⟨y ++ [t], by rw [hy.1]; rfl⟩
  obtain ⟨ys, hys⟩ := hu
  have e : pre ++ (seg ++ y ++ [t]) = pre ++ ((seg ++ [u]) ++ ys) := by
    rw [List.append_assoc seg, hys]; simp
  rw [e]
  exact (List.sublist_append_left _ _).trans (List.sublist_append_right _ _)

theorem readParams_from (first : Bool) (ps : List Bytes) (l : List PTok) (as : List Arg) (r : List PTok)
    (h : readParams first ps l = .ok (as, r)) (w pre : List PTok) (hw : w = pre ++ l) (x : List PTok) (t : PTok) (r0 : List PTok)
    (hx : w = x ++ t :: r0) (hr : ∃ y, r = y ++ t :: r0) : ∀ a ∈ as, FromArg (x ++ [t]) a.toks := by
  induction ps generalizing first l as r pre with
  | nil => cases h; intro a ha; cases ha
  | cons p ps ih =>
    rw [readParams] at h
    split at h
    · cases h
    · rename_i l1 h1
      have hl1 : ∃ z, l = z ++ l1 := by
        cases first with
        | true => cases h1; exact ⟨[], rfl⟩
        | false => exact skip_len _ _ _ h1
      obtain ⟨z, hz⟩ := hl1
      split at h
      · cases h
      · rename_i a l2 h2
        split at h
        · cases h
        · rename_i as' l3 h3
          cases h
          obtain ⟨y2, hy2⟩ := readParams_suffix _ _ _ _ _ h3
          obtain ⟨y1, hy1⟩ := readArg_suffix _ _ _ _ _ h2
          obtain ⟨y, hy⟩ := hr
          intro b hb
          rcases List.mem_cons.mp hb with rfl | hb
          · exact readArg_from _ _ _ _ _ t r0 (pre ++ z) h2 w (by rw [hw, hz]; simp) x hx ⟨y2 ++ y, by rw [hy2, hy]; simp⟩
          · exact ih _ _ _ _ h3 (pre ++ z ++ y1) (by rw [hw, hz, hy1]; simp) ⟨y, hy⟩ b hb

theorem readArgs_from (ps : List Bytes) (va : Option Bytes) (l : List PTok) (as : List Arg) (rp : PTok) (r : List PTok)
    (h : readArgs ps va l = .ok (as, rp, r)) : ∃ x, l = x ++ rp :: r ∧ ∀ a ∈ as, FromArg (x ++ [rp]) a.toks := by
  obtain ⟨x, hx⟩ := readArgs_suffix _ _ _ _ _ _ h
  refine ⟨x, hx, ?_⟩
  unfold readArgs at h
  split at h
  · cases h
  · rename_i as1 l1 h1
    obtain ⟨w, hw⟩ := readParams_suffix _ _ _ _ _ h1
    split at h
    · cases h
    · rename_i as2 l2 h2
      split at h
      · cases h
      · rename_i t r'
        split at h
        · cases h
          have hva : (∃ y, l1 = y ++ rp :: r) ∧ ∀ a ∈ as2, FromArg (x ++ [rp]) a.toks := by
            unfold readVa at h2
            split at h2
            · cases h2; exact ⟨⟨[], rfl⟩, by simp⟩
            · split at h2
              · cases h2
              · rename_i t0 r0
                split at h2
                · cases h2
                  refine ⟨⟨[], rfl⟩, fun a ha => ?_⟩
                  rw [List.mem_singleton.mp ha]
                  exact ⟨[], rp, List.sublist_append_right _ _, rfl⟩
                · split at h2
                  · cases h2
                  · rename_i l3 h3
                    have hz : ∃ z, t0 :: r0 = z ++ l3 := by
                      split at h3
                      · cases h3; exact ⟨[], rfl⟩
                      · exact skip_len _ _ _ h3
                    obtain ⟨z, hz⟩ := hz
                    split at h2
                    · cases h2
                    · rename_i a l4 h4
                      cases h2
                      obtain ⟨v, hv⟩ := readArg_suffix _ _ _ _ _ h4
                      refine ⟨⟨z ++ v, by rw [hz, hv]; simp⟩, fun b hb => ?_⟩
                      rw [List.mem_singleton.mp hb]
                      exact readArg_from _ _ _ _ _ rp r (w ++ z) h4 l (by rw [hw, hz]; simp) x hx ⟨[], rfl⟩
          intro a ha
          rcases List.mem_append.mp ha with ha | ha
          · exact readParams_from _ _ _ _ _ h1 l [] rfl x rp r hx hva.1 a ha
          · exact hva.2 a ha
        · cases h

/-- An argument is smaller than the list it is taken from. -/
theorem FromArg.good {ms : List (Bytes × Macro)} {x a L : List PTok} {t : PTok} (hf : FromArg x a) (hx : x.Sublist L)
    (zs : List (Core × List Bytes)) (hz : Levels (ms.map (·.1)) zs) (hzs : (t :: L).map core = zs.map (·.1)) :
    Good ms (cnt zs) a := by
  obtain ⟨seg, u, hs, rfl⟩ := hf
  cases zs with
  | nil => cases hzs
  | cons z zs =>
    simp only [List.map_cons, List.cons.injEq] at hzs
    have h1 : ((seg ++ [u]).map core).Sublist (zs.map (·.1)) := by
      rw [← hzs.2]; exact (hs.trans hx).map core
    obtain ⟨ws, hw1, hw2⟩ := List.sublist_map_iff.mp h1
    rw [List.map_append] at hw2
    obtain ⟨w1, w2, rfl, g1, g2⟩ := List.map_eq_append_iff.mp hw2.symm
    obtain ⟨y, rfl⟩ : ∃ y, w2 = [y] := by
      have := congrArg List.length g2
      rw [List.length_map] at this
      exact List.length_eq_one_iff.mp this
    · have hlw := hz.sublist (hw1.trans (List.sublist_cons_self z zs))
      refine ⟨seg.map ownTok ++ [ownTok (newEof u)], [], w1 ++ [((.eof, [], []), y.2)], by simp, ?_, ?_, trivial, by simp, ?_⟩
      · rw [List.map_append, List.map_append, List.map_map, g1]
        rfl
      · constructor
        · intro w hw
          rcases List.mem_append.mp hw with hw | hw
          · exact hlw.lv w (List.mem_append_left _ hw)
          · rw [List.mem_singleton.mp hw]
            exact Or.inr ⟨(by decide : (Kind.eof : Kind) ≠ .ident), (by decide +kernel : ([] : Bytes) ≠ asc ")")⟩
        · intro w hw
          rcases List.mem_append.mp hw with hw | hw
          · exact hlw.nodup w (List.mem_append_left _ hw)
          · rw [List.mem_singleton.mp hw]
            exact hlw.nodup y (by simp)
        · intro w hw
          rcases List.mem_append.mp hw with hw | hw
          · exact hlw.sub w (List.mem_append_left _ hw)
          · rw [List.mem_singleton.mp hw]
            exact hlw.sub y (by simp)
        · have hm := List.pairwise_append.mp hlw.mono
          rw [List.pairwise_append]
          refine ⟨hm.1, by simp, fun p hp q hq => ?_⟩
          rw [List.mem_singleton.mp hq]
          exact hm.2.2 p hp y (by simp)
      · have := lt_part hz (a := w1 ++ [((.eof, [], []), y.2)]) (fun c => by
          have := cnt_sublist hw1 c
          rw [cnt_append, cnt_cons] at this ⊢
          exact this)
        rwa [List.length_map] at this

theorem Good.residue {ms : List (Bytes × Macro)} {env : Env} (hs : env.strict = true) (hn : Named ms) {μ : Nat → Nat}
    {l : List PTok} (hg : Good ms μ l) (n : Nat) (st st' : St) (out pre : List PTok) (hst : st.macros = ms)
    (h : pp env n false st l = .ok (st', out, pre)) (out' : List PTok)
    (hi : inert st' (out'.dropWhile fun t => !t.own) = true) : Good ms μ (residue pre out') := by
  obtain ⟨L, I, zs, rfl, h1, h2, h3, h4, h5⟩ := hg
  have hpre := pp_pre env hs ms hn n st L I st' out pre hst h3 h4 h
  have hm := pp_macros env hs ms hn n st _ st' out pre h hst
  have h6 : (pre.map core).Sublist (zs.map (·.1)) := by
    rw [← h1]
    exact hpre.trans ((List.filter_sublist).map core)
  obtain ⟨ws, hw1, hw2⟩ := List.sublist_map_iff.mp h6
  refine ⟨pre, _, ws, rfl, hw2, h2.sublist hw1, ?_, ?_, h5.of_le (cnt_sublist hw1)⟩
  · have := quiet_of_inert st' _ hi
    rw [hm] at this
    rw [List.map_map]
    exact this
  · intro t ht
    obtain ⟨u, _, rfl⟩ := List.mem_map.mp ht
    rfl

/-! ### Substitution -/

/-- A step that does not look at the arguments' expansions. -/
def Plainly (s : Sub) (r : List PTok) (x : Except PErr Sub) : Prop :=
  x ≠ .error .fuel ∧ ∀ s', x = .ok s' → s'.st = s.st ∧ s'.args = s.args ∧ ∀ u ∈ s'.rest, u ∈ r

theorem tokens_fuel (env : Env) (f : FileRef) (x : Bytes) : tokens env f x ≠ .error .fuel := by
  unfold tokens; split <;> intro h <;> cases h

theorem firstTok_fuel (env : Env) (f : FileRef) (x : Bytes) : firstTok env f x ≠ .error .fuel := by
  unfold firstTok
  have := tokens_fuel env f x
  split
  · rename_i e he; intro h; cases h; exact this he
  · intro h; cases h
  · intro h; cases h

theorem paste_fuel (env : Env) (a b : PTok) : paste env a b ≠ .error .fuel := by
  unfold paste
  have := tokens_fuel env ⟨none, a.file.name⟩ (a.text ++ b.text)
  split
  · rename_i e he; intro h; cases h; exact this he
  · split <;> intro h <;> cases h
  · intro h; cases h

theorem skip_fuel (s : String) (l : List PTok) : skip s l ≠ .error .fuel := by
  unfold skip
  split
  · intro h; cases h
  · split <;> intro h <;> cases h

theorem readArg_fuel (b : Bool) (lvl : Nat) (l : List PTok) : readArg b lvl l ≠ .error .fuel := by
  induction l generalizing lvl with
  | nil => intro h; simp [readArg] at h
  | cons t l ih =>
    rw [readArg]
    split
    · intro h; cases h
    · split
      · intro h; cases h
      · split
        · intro h; cases h
        · split
          · rename_i e he; intro h; cases h; exact ih _ he
          · intro h; cases h

theorem readParams_fuel (first : Bool) (ps : List Bytes) (l : List PTok) : readParams first ps l ≠ .error .fuel := by
  induction ps generalizing first l with
  | nil => intro h; simp [readParams] at h
  | cons p ps ih =>
    rw [readParams]
    split
    · rename_i e he
      intro h; cases h
      cases first with
      | true => cases he
      | false => exact skip_fuel _ _ he
    · split
      · rename_i e he; intro h; cases h; exact readArg_fuel _ _ _ he
      · split
        · rename_i e he; intro h; cases h; exact ih _ _ he
        · intro h; cases h

theorem readArgs_fuel (ps : List Bytes) (va : Option Bytes) (l : List PTok) : readArgs ps va l ≠ .error .fuel := by
  unfold readArgs
  split
  · rename_i e he; intro h; cases h; exact readParams_fuel _ _ _ he
  · split
    · rename_i e he
      intro h; cases h
      unfold readVa at he
      split at he
      · cases he
      · split at he
        · cases he
        · split at he
          · cases he
          · split at he
            · rename_i e' h3
              cases he
              split at h3
              · cases h3
              · exact skip_fuel _ _ h3
            · split at he
              · rename_i e' h4; cases he; exact readArg_fuel _ _ _ h4
              · cases he
    · split
      · intro h; cases h
      · split <;> intro h <;> cases h

theorem plainly_ok {s s' : Sub} {r : List PTok} (h1 : s'.st = s.st) (h2 : s'.args = s.args) (h3 : ∀ u ∈ s'.rest, u ∈ r) :
    Plainly s r (.ok s') :=
  ⟨(by intro h; cases h), fun x hx => by cases hx; exact ⟨h1, h2, h3⟩⟩

theorem plainly_error {s : Sub} {r : List PTok} {e : PErr} (h : e ≠ .fuel) : Plainly s r (.error e) :=
  ⟨(by intro h'; cases h'; exact h rfl), fun x hx => by cases hx⟩

theorem substPaste_plainly (env : Env) (s : Sub) (r : List PTok) : Plainly s r (substPaste env s r) := by
  unfold substPaste
  split
  · exact plainly_error (by decide)
  · split
    · exact plainly_error (by decide)
    · rename_i u r2
      have hr : ∀ v ∈ r2, v ∈ u :: r2 := fun v hv => List.mem_cons_of_mem _ hv
      split
      · exact plainly_error (by decide)
      · split
        · split
          · exact plainly_error (by decide)
          · split
            · exact plainly_ok rfl rfl hr
            · split
              · rename_i e he; exact plainly_error (by intro h; subst h; exact paste_fuel _ _ _ he)
              · exact plainly_ok rfl rfl hr
        · split
          · rename_i e he; exact plainly_error (by intro h; subst h; exact paste_fuel _ _ _ he)
          · exact plainly_ok rfl rfl hr

theorem substLeft_plainly (s : Sub) (a : Arg) (r : List PTok) : Plainly s r (substLeft s a r) := by
  unfold substLeft
  split
  · split
    · rename_i x rhs r2
      have hr : ∀ v ∈ r2, v ∈ x :: rhs :: r2 := fun v hv => List.mem_cons_of_mem _ (List.mem_cons_of_mem _ hv)
      split
      · exact plainly_ok rfl rfl hr
      · exact plainly_ok rfl rfl hr
    · exact plainly_error (by decide)
  · exact plainly_ok rfl rfl fun _ h => h

theorem substVaOpt_plainly (s : Sub) (r : List PTok) : Plainly s r (substVaOpt s (r.drop 1)) := by
  unfold substVaOpt
  split
  · rename_i e he; exact plainly_error (by intro h; subst h; exact readArg_fuel _ _ _ he)
  · rename_i x r2 h2
    split
    · rename_i e he; exact plainly_error (by intro h; subst h; exact skip_fuel _ _ he)
    · rename_i r3 h3
      refine plainly_ok rfl rfl fun u hu => ?_
      have hu : u ∈ r3 := hu
      obtain ⟨p, hp⟩ := skip_len _ _ _ h3
      obtain ⟨q, hq⟩ := readArg_suffix _ _ _ _ _ h2
      have : u ∈ r.drop 1 := by rw [hq, hp]; simp [hu]
      exact List.mem_of_mem_drop this

theorem substStep_cases (env : Env) (s : Sub) (t : PTok) (r : List PTok) :
    (∃ a, findArg s.args t = some a ∧ ∀ rec, substStep env rec s t r = substArg env rec s a t r) ∨
    ∀ rec, Plainly s r (substStep env rec s t r) := by
  unfold substStep
  split
  · right
    intro rec
    split
    · exact plainly_error (by decide)
    · rename_i u r2
      split
      · exact plainly_error (by decide)
      · split
        · rename_i e he; exact plainly_error (by intro h; subst h; exact firstTok_fuel _ _ _ he)
        · exact plainly_ok rfl rfl fun v hv => List.mem_cons_of_mem _ hv
  · dsimp only
    split
    · right
      intro rec
      split
      · exact plainly_ok rfl rfl fun v hv => List.mem_of_mem_drop hv
      · exact plainly_ok rfl rfl fun v hv => List.mem_of_mem_drop hv
    · split
      · exact Or.inr fun _ => substPaste_plainly env s r
      · split
        · rename_i a ha
          split
          · exact Or.inr fun _ => substLeft_plainly s a r
          · split
            · exact Or.inr fun _ => substVaOpt_plainly s r
            · exact Or.inl ⟨a, ha, fun _ => rfl⟩
        · split
          · exact Or.inr fun _ => substVaOpt_plainly s r
          · exact Or.inr fun _ => plainly_ok rfl rfl fun _ h => h

/-- The arguments still to be expanded are smaller than `μ`. -/
def ArgsGood (ms : List (Bytes × Macro)) (μ : Nat → Nat) (s : Sub) : Prop :=
  s.st.macros = ms ∧ ∀ a ∈ s.args, (∃ u ∈ s.rest, u.text = a.name) → Good ms μ a.toks

theorem substArg_good {ms : List (Bytes × Macro)} {env : Env} (hs : env.strict = true) (hn : Named ms) {μ : Nat → Nat} (n : Nat)
    (s : Sub) (a : Arg) (t : PTok) (r : List PTok) (hr : s.rest = t :: r) (hg : ArgsGood ms μ s) (hf : findArg s.args t = some a)
    (s' : Sub) (h : substArg env (pp env n false) s a t r = .ok s') : ArgsGood ms μ s' := by
  have ha := List.mem_of_find?_eq_some hf
  have hna : a.name = t.text := by have := List.find?_some hf; simpa using this
  have hga : Good ms μ a.toks := hg.2 a ha ⟨t, by rw [hr]; simp, hna.symm⟩
  unfold substArg at h
  split at h
  · cases h
  · rename_i st' out pre hp
    split at h
    · cases h
    · dsimp only at h
      split at h
      · cases h
      · rename_i hi
        cases h
        refine ⟨pp_macros env hs ms hn n _ _ _ _ _ hp hg.1, ?_⟩
        intro b hb hu
        obtain ⟨b0, hb0, hbe⟩ := List.mem_map.mp hb
        obtain ⟨u, hu1, hu2⟩ := hu
        have hu1 : u ∈ r := hu1
        by_cases hname : b0.name = a.name
        · rw [if_pos (by simp [hname])] at hbe
          subst hbe
          have hu2 : u.text = a.name := by rw [hu2]; exact hname
          have hany : r.any (fun u => u.text == a.name) = true := List.any_eq_true.mpr ⟨u, hu1, by simp [hu2]⟩
          rw [hs, hany] at hi
          exact hga.residue hs hn n s.st st' out pre hg.1 hp _ (by simpa using hi)
        · rw [if_neg (by simp [hname])] at hbe
          subst hbe
          exact hg.2 b0 hb0 ⟨u, by rw [hr]; simp [hu1], hu2⟩

theorem subst_term {ms : List (Bytes × Macro)} {env : Env} (hs : env.strict = true) (hn : Named ms) {μ : Nat → Nat}
    (ih : ∀ l st, Good ms μ l → st.macros = ms → ∃ N, pp env N false st l ≠ .error .fuel) (s : Sub) (hg : ArgsGood ms μ s) :
    ∃ N, subst env (pp env N false) s ≠ .error .fuel := by
  have key : ∀ k, ∀ s : Sub, s.rest.length ≤ k → ArgsGood ms μ s → ∃ N, subst env (pp env N false) s ≠ .error .fuel := by
    intro k
    induction k with
    | zero =>
      intro s hk _
      have : s.rest = [] := List.length_eq_zero_iff.mp (by omega)
      refine ⟨0, ?_⟩
      rw [subst.eq_def]
      split
      · intro h; cases h
      · rename_i h; rw [this] at h; cases h
    | succ k ihk =>
      intro s hk hg
      cases hr : s.rest with
      | nil =>
        refine ⟨0, ?_⟩
        rw [subst.eq_def]
        split
        · intro h; cases h
        · rename_i h; rw [hr] at h; cases h
      | cons t r =>
        -- one step, with enough fuel
        have hstep : ∃ N, substStep env (pp env N false) s t r ≠ .error .fuel := by
          rcases substStep_cases env s t r with ⟨a, hf, he⟩ | hp
          · have ha := List.mem_of_find?_eq_some hf
            have hna : a.name = t.text := by have := List.find?_some hf; simpa using this
            obtain ⟨N, hN⟩ := ih a.toks s.st (hg.2 a ha ⟨t, by rw [hr]; simp, hna.symm⟩) hg.1
            refine ⟨N, ?_⟩
            rw [he]
            unfold substArg
            split
            · rename_i e h1; intro h; cases h; exact hN h1
            · split
              · intro h; cases h
              · dsimp only
                split <;> intro h <;> cases h
          · exact ⟨0, (hp _).1⟩
        obtain ⟨N, hN⟩ := hstep
        have hgood : ∀ s', substStep env (pp env N false) s t r = .ok s' → ArgsGood ms μ s' := by
          intro s' h
          rcases substStep_cases env s t r with ⟨a, hf, he⟩ | hp
          · rw [he] at h
            exact substArg_good hs hn N s a t r hr hg hf s' h
          · obtain ⟨h1, h2, h3⟩ := (hp _).2 s' h
            refine ⟨by rw [h1]; exact hg.1, fun a ha hu => ?_⟩
            rw [h2] at ha
            obtain ⟨u, hu1, hu2⟩ := hu
            exact hg.2 a ha ⟨u, by rw [hr]; simp [h3 u hu1], hu2⟩
        cases hst : substStep env (pp env N false) s t r with
        | error e =>
          refine ⟨N, ?_⟩
          rw [subst.eq_def]
          split
          · intro h; cases h
          · rename_i t' r' h
            rw [hr] at h
            cases h
            split
            · intro h; cases h
            · split
              · rename_i e' h1
                rw [hst] at h1
                cases h1
                intro h; cases h
                exact hN hst
              · rename_i h1; rw [hst] at h1; cases h1
        | ok s' =>
          have hlen := substStep_len _ _ _ _ _ _ hst
          rw [hr] at hk
          simp only [List.length_cons] at hk
          obtain ⟨M, hM⟩ := ihk s' (by omega) (hgood s' hst)
          refine ⟨max N M, ?_⟩
          have hst2 : substStep env (pp env (max N M) false) s t r = .ok s' := by
            rcases substStep_mono env (le_pp env N (max N M) (Nat.le_max_left _ _) false) s t r with h | h
            · exact absurd h hN
            · rw [h, hst]
          have hM2 : subst env (pp env (max N M) false) s' ≠ .error .fuel := by
            rcases subst_mono env (le_pp env M (max N M) (Nat.le_max_right _ _) false) s' with h | h
            · exact absurd h hM
            · rw [h]; exact hM
          rw [subst.eq_def]
          split
          · intro h; cases h
          · rename_i t' r' h
            rw [hr] at h
            cases h
            split
            · intro h; cases h
            · split
              · rename_i e' h1; rw [hst2] at h1; cases h1
              · rename_i s2 h1
                rw [hst2] at h1
                cases h1
                exact hM2
  exact key _ s (Nat.le_refl _) hg

theorem map_fuel {α β : Type} {x : Except PErr α} {f : α → β} (h : x ≠ .error .fuel) : x.map f ≠ .error .fuel := by
  cases x with
  | error e => intro h'; cases h'; exact h rfl
  | ok a => intro h'; cases h'

theorem runHandler_fuel (env : Env) (st : St) (h : Handler) (t : PTok) : runHandler env st h t ≠ .error .fuel := by
  unfold runHandler newStr newNum
  cases h <;> exact map_fuel (firstTok_fuel env _ _)

theorem place_fuel (t : PTok) (hs : List Bytes) (b r : List PTok) : place t hs b r ≠ .error .fuel := by
  unfold place
  split <;> intro h <;> cases h

theorem expand_term {ms : List (Bytes × Macro)} {env : Env} (hs : env.strict = true) (hn : Named ms)
    (zs : List (Core × List Bytes)) (hz : Levels (ms.map (·.1)) zs) (t : PTok) (L I : List PTok)
    (hzs : (t :: L).map core = zs.map (·.1)) (hI : ∀ t ∈ I, t.tail = true)
    (ih : ∀ l st, Good ms (cnt zs) l → st.macros = ms → ∃ N, pp env N false st l ≠ .error .fuel)
    (st : St) (hst : st.macros = ms) : ∃ N, expandMacro env (pp env N false) st t (L ++ I) ≠ .error .fuel := by
  have main : ∃ N, ∀ m u r1 args rp r2, findMacro st t = some m → L ++ I = u :: r1 → readArgs m.params m.va r1 = .ok (args, rp, r2) →
      rp.tail = false → subst env (pp env N false) { st := st, args := args, acc := [], rest := m.body } ≠ .error .fuel := by
    by_cases hx : ∃ m u r1 args rp r2, findMacro st t = some m ∧ L ++ I = u :: r1 ∧ readArgs m.params m.va r1 = .ok (args, rp, r2) ∧
      rp.tail = false
    · obtain ⟨m, u, r1, args, rp, r2, h1, h2, h3, h4⟩ := hx
      obtain ⟨x, e1, e2⟩ := readArgs_from _ _ _ _ _ _ h3
      obtain ⟨L2, e3, _⟩ := split_before (mid := u :: x) (rest := r2) (rp := rp) (by rw [h2, e1]; simp) hI h4
      obtain ⟨N, hN⟩ := subst_term hs hn ih { st := st, args := args, acc := [], rest := m.body } ⟨hst, fun a ha _ =>
        (e2 a ha).good (L := L) (t := t) (by
          rw [e3]
          have : (x ++ [rp]).Sublist (u :: x ++ [rp]) := by
            rw [List.cons_append]; exact List.sublist_cons_self _ _
          exact this.trans (List.sublist_append_left _ _)) zs hz hzs⟩
      refine ⟨N, fun m' u' r1' args' rp' r2' g1 g2 g3 g4 => ?_⟩
      rw [h1] at g1
      cases g1
      rw [h2] at g2
      cases g2
      rw [h3] at g3
      cases g3
      exact hN
    · exact ⟨0, fun m u r1 args rp r2 g1 g2 g3 g4 => absurd ⟨m, u, r1, args, rp, r2, g1, g2, g3, g4⟩ hx⟩
  obtain ⟨N, hN⟩ := main
  refine ⟨N, ?_⟩
  unfold expandMacro
  split
  · intro h; cases h
  · split
    · intro h; cases h
    · rename_i m hm
      split
      · split
        · rename_i e he; intro h; cases h; exact runHandler_fuel _ _ _ _ he
        · intro h; cases h
      · split
        · split
          · rename_i e he; intro h; cases h; exact place_fuel _ _ _ _ he
          · intro h; cases h
        · split
          · intro h; cases h
          · rename_i u r1 heq
            split
            · intro h; cases h
            · split
              · rename_i e he; intro h; cases h; exact readArgs_fuel _ _ _ he
              · rename_i args rp r2 hra
                split
                · intro h; cases h
                · rename_i htl
                  rw [hs] at htl
                  have := hN m u r1 args rp r2 hm heq hra (by simpa using htl)
                  split
                  · rename_i e he; intro h; cases h; exact this he
                  · split
                    · rename_i e he; intro h; cases h; exact place_fuel _ _ _ _ he
                    · intro h; cases h

/-- A run terminates if its first step and the run on the resulting list do. -/
theorem pp_step (env : Env) (top : Bool) (st : St) (t : PTok) (r : List PTok)
    (h1 : ∃ N, expandMacro env (pp env N false) st t r ≠ .error .fuel)
    (h2 : ∀ N st' l', expandMacro env (pp env N false) st t r = .ok (some (st', l')) → ∃ M, pp env M top st' l' ≠ .error .fuel)
    (h3 : isHash t = false → ∃ M, pp env M top st r ≠ .error .fuel)
    (h4 : isHash t = true → (env.strict && !(top && t.own)) = false →
      ∃ N, directive env (pp env N false) N st t r ≠ .error .fuel ∧
        ∀ st' l', directive env (pp env N false) N st t r = .ok (st', l') → ∃ M, pp env M top st' l' ≠ .error .fuel) :
    ∃ N, pp env N top st (t :: r) ≠ .error .fuel := by
  obtain ⟨N, hN⟩ := h1
  have up : ∀ K, N ≤ K → expandMacro env (pp env K false) st t r = expandMacro env (pp env N false) st t r := by
    intro K hK
    rcases expandMacro_mono env (le_pp env N K hK false) st t r with h | h
    · exact absurd h hN
    · exact h
  have upp : ∀ M K st l, M ≤ K → pp env M top st l ≠ .error .fuel → pp env K top st l ≠ .error .fuel := by
    intro M K st l hK h
    rcases pp_mono env M K hK top st l with h' | h'
    · exact absurd h' h
    · rw [h']; exact h
  by_cases he : t.isEof = true
  · refine ⟨1, ?_⟩
    rw [pp, if_pos he]; intro h; cases h
  cases hx : expandMacro env (pp env N false) st t r with
  | error e =>
    refine ⟨N + 1, ?_⟩
    rw [pp, if_neg he, hx]
    intro h; cases h; exact hN hx
  | ok o =>
    cases o with
    | some p =>
      obtain ⟨st', l'⟩ := p
      obtain ⟨M, hM⟩ := h2 N st' l' hx
      refine ⟨max N M + 1, ?_⟩
      rw [pp, if_neg he, up _ (Nat.le_max_left _ _), hx]
      dsimp only
      have := upp M (max N M) st' l' (Nat.le_max_right _ _) hM
      split
      · rename_i e h; intro h'; cases h'; exact this h
      · intro h; cases h
    | none =>
      by_cases hh : isHash t = true
      · by_cases hg : (env.strict && !(top && t.own)) = true
        · refine ⟨N + 1, ?_⟩
          rw [pp, if_neg he, hx]
          simp only [hh, Bool.not_true, Bool.false_eq_true, if_false, if_pos hg]
          intro h; cases h
        · obtain ⟨D, hD, hD2⟩ := h4 hh (by simpa using hg)
          cases hd : directive env (pp env D false) D st t r with
          | error e =>
            refine ⟨max N D + 1, ?_⟩
            rw [pp, if_neg he, up _ (Nat.le_max_left _ _), hx]
            have hd2 : directive env (pp env (max N D) false) (max N D) st t r = .error e := by
              rcases directive_mono env (le_pp env D (max N D) (Nat.le_max_right _ _) false) D (max N D) (Nat.le_max_right _ _) st t r with h | h
              · exact absurd h hD
              · rw [h, hd]
            simp only [hh, Bool.not_true, Bool.false_eq_true, if_false, if_neg hg, hd2]
            intro h; cases h; exact hD hd
          | ok p =>
            obtain ⟨st', l'⟩ := p
            obtain ⟨M, hM⟩ := hD2 st' l' hd
            refine ⟨max N (max D M) + 1, ?_⟩
            rw [pp, if_neg he, up _ (Nat.le_max_left _ _), hx]
            have hle : D ≤ max N (max D M) := Nat.le_trans (Nat.le_max_left _ _) (Nat.le_max_right _ _)
            have hd2 : directive env (pp env (max N (max D M)) false) (max N (max D M)) st t r = .ok (st', l') := by
              rcases directive_mono env (le_pp env D _ hle false) D _ hle st t r with h | h
              · exact absurd h hD
              · rw [h, hd]
            simp only [hh, Bool.not_true, Bool.false_eq_true, if_false, if_neg hg, hd2]
            have := upp M (max N (max D M)) st' l' (Nat.le_trans (Nat.le_max_right _ _) (Nat.le_max_right _ _)) hM
            split
            · rename_i e h; intro h'; cases h'; exact this h
            · intro h; cases h
      · have hh : isHash t = false := by simpa using hh
        obtain ⟨M, hM⟩ := h3 hh
        refine ⟨max N M + 1, ?_⟩
        rw [pp, if_neg he, up _ (Nat.le_max_left _ _), hx]
        simp only [hh, Bool.not_false, if_true]
        have := upp M (max N M) st r (Nat.le_max_right _ _) hM
        split
        · rename_i e h; intro h'; cases h'; exact this h
        · intro h; cases h

theorem quiet_term {ms : List (Bytes × Macro)} {env : Env} (hs : env.strict = true) (I : List PTok) (hq : Quiet ms (I.map core))
    (st : St) (hst : st.macros = ms) : ∃ N, pp env N false st I ≠ .error .fuel := by
  induction I with
  | nil => exact ⟨1, by intro h; cases h⟩
  | cons t r ih =>
    have he := fun rec => quiet_expand env rec st t r (by rw [hst]; exact hq)
    refine pp_step env false st t r ⟨0, ?_⟩ ?_ ?_ ?_
    · rcases he (pp env 0 false) with h | h <;> rw [h] <;> intro h' <;> cases h'
    · intro N st' l' h
      rcases he (pp env N false) with h' | h' <;> rw [h'] at h <;> cases h
    · intro _; exact ih hq.2
    · intro _ h; rw [hs] at h; simp at h

/-- **Runs on arguments and directive lines terminate.** -/
theorem nested_term {ms : List (Bytes × Macro)} {env : Env} (hs : env.strict = true) (hn : Named ms) :
    ∀ (μ : Nat → Nat) (zs : List (Core × List Bytes)) (L I : List PTok) (st : St), cnt zs = μ → Levels (ms.map (·.1)) zs →
      L.map core = zs.map (·.1) → Quiet ms (I.map core) → (∀ t ∈ I, t.tail = true) → st.macros = ms →
      ∃ N, pp env N false st (L ++ I) ≠ .error .fuel := by
  intro μ
  induction lt_acc (ms.length + 1) μ with
  | intro μ _ ih =>
    intro zs L I st hμ hz hzs hq hI hst
    cases L with
    | nil => exact quiet_term hs I hq st hst
    | cons t L =>
      have ihg : ∀ l st, Good ms (cnt zs) l → st.macros = ms → ∃ N, pp env N false st l ≠ .error .fuel := by
        intro l st hg hst
        obtain ⟨L', I', zs', rfl, g1, g2, g3, g4, g5⟩ := hg
        exact ih (cnt zs') (by rw [← hμ]; exact g5) zs' L' I' st rfl g2 g1 g3 g4 hst
      rw [List.cons_append]
      refine pp_step env false st t (L ++ I) (expand_term hs hn zs hz t L I hzs hI ihg st hst) ?_ ?_ ?_
      · intro N st' l' h
        obtain ⟨h1, c, L1, L2, I2, e1, _, e2, e3, e4, e5, e6⟩ :=
          step_some env hs _ ms hn (pp_macros env hs ms hn N) st hst t L I st' l' h hI
        obtain ⟨zs2, g1, g2, g3⟩ := e6 zs hz hzs
        rw [e2]
        exact ih (cnt zs2) (by rw [← hμ]; exact g3) zs2 L2 I2 st' rfl g2 g1 (by rw [view_core e3]; exact hq) (view_tail e3 hI) h1
      · intro _
        cases zs with
        | nil => cases hzs
        | cons z zs =>
          simp only [List.map_cons, List.cons.injEq] at hzs
          have := lt_tail hz
          rw [List.length_map] at this
          exact ih (cnt zs) (by rw [← hμ]; exact this) zs L I st rfl (hz.sublist (List.sublist_cons_self _ _)) hzs.2 hq hI hst
      · intro _ h; rw [hs] at h; simp at h

/-- Any list has levels: the empty one for every token. -/
theorem base_levels (U : List Bytes) (l : List PTok) :
    Levels U (l.map fun t => (core t, [])) ∧ l.map core = (l.map fun t => (core t, ([] : List Bytes))).map (·.1) := by
  constructor
  · constructor
    · intro z hz; obtain ⟨t, _, rfl⟩ := List.mem_map.mp hz; exact Or.inl (by simp)
    · intro z hz; obtain ⟨t, _, rfl⟩ := List.mem_map.mp hz; simp
    · intro z hz; obtain ⟨t, _, rfl⟩ := List.mem_map.mp hz; simp
    · rw [List.pairwise_map]
      exact List.pairwise_of_forall_mem_list fun _ _ _ _ n hn => hn
  · rw [List.map_map]; rfl

theorem line_term {ms : List (Bytes × Macro)} {env : Env} (hs : env.strict = true) (hn : Named ms) (l : List PTok) (st : St)
    (hst : st.macros = ms) : ∃ N, pp env N false st l ≠ .error .fuel := by
  obtain ⟨h1, h2⟩ := base_levels (ms.map (·.1)) l
  have := nested_term hs hn _ _ l [] st rfl h1 h2 trivial (by simp) hst
  simpa using this

end Toycc.Pp
