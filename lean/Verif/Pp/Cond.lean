import Verif.Pp.CondLemmas
/-! C21: conditional inclusion. -/
namespace Toycc.Pp
open Toycc.Lex (asc)

theorem map_map_ok {α : Type} (x : Except PErr (α × List PTok)) (a b : List PTok) :
    (x.map fun r => (r.1, b ++ r.2)).map (fun r => (r.1, a ++ r.2)) = x.map fun r => (r.1, (a ++ b) ++ r.2) := by
  cases x with
  | error e => rfl
  | ok r => simp [Except.map]

theorem Steps.refl (env : Env) (st : St) (l : List PTok) : Steps env st l [] st l := by
  refine ⟨0, 0, fun n _ => ?_⟩
  show ppO env n st l = _
  cases ppO env n st l <;> rfl

theorem Steps.trans {env : Env} {st st1 st2 : St} {l l1 l2 o1 o2 : List PTok} (h1 : Steps env st l o1 st1 l1)
    (h2 : Steps env st1 l1 o2 st2 l2) : Steps env st l (o1 ++ o2) st2 l2 := by
  obtain ⟨k1, n1, h1⟩ := h1
  obtain ⟨k2, n2, h2⟩ := h2
  refine ⟨k1 + k2, max n1 n2, fun n hn => ?_⟩
  have e : n + (k1 + k2) = n + k2 + k1 := by omega
  rw [e, h1 (n + k2) (by omega), h2 n (by omega), map_map_ok]

/-- A directive is one step. -/
theorem Steps.dir {env : Env} (hs : env.strict = false) {st st' : St} {h : PTok} {r l' : List PTok}
    (hh : isHash h = true) (hk : h.kind = .punct)
    (hd : ∃ N, ∀ n, N ≤ n → directive env (pp env n false) n st h r = .ok (st', l')) :
    Steps env st (h :: r) [] st' l' := by
  obtain ⟨N, hd⟩ := hd
  refine ⟨1, N, fun n hn => ?_⟩
  have he : expandMacro env (pp env n false) st h r = .ok none := by
    unfold expandMacro
    split
    · rfl
    · have : findMacro st h = none := by unfold findMacro; rw [hk]; rfl
      rw [this]
  unfold ppO
  rw [pp, he]
  simp only [hash_not_eof _ hk, hh, hs, hd n hn, Bool.not_true, Bool.false_and, Bool.false_eq_true, if_false]
  cases pp env n true st' l' with
  | error e => rfl
  | ok r => rfl

theorem Steps.dirD {env : Env} (hs : env.strict = false) {st st' : St} {d : Dir} {ns : List String} {r l' : List PTok}
    (hd : d.Wf ns)
    (h : ∃ N, ∀ n, N ≤ n → directive env (pp env n false) n st d.hash (d.name :: (d.line ++ r)) = .ok (st', l')) :
    Steps env st (d.flat ++ r) [] st' l' := Steps.dir hs hd.1 hd.2.1 h

/-- The list starts a line. -/
def Bol (l : List PTok) : Prop := ∃ t r, l = t :: r ∧ t.bol = true

theorem Bol.ne {l : List PTok} (h : Bol l) : l ≠ [] := by
  obtain ⟨t, r, rfl, _⟩ := h; simp

theorem dir_bol (d : Dir) (ns : List String) (hd : d.Wf ns) (rest : List PTok) : Bol (d.flat ++ rest) := by
  have := hd.1
  unfold isHash at this
  simp only [Bool.and_eq_true] at this
  exact ⟨d.hash, d.name :: (d.line ++ rest), rfl, this.1⟩

theorem tail_bol (t : Tail) (ht : t.Wf) (rest : List PTok) : Bol (t.flat ++ rest) := by
  cases t with
  | endif d => exact dir_bol d _ ht rest
  | els d g e => simp only [Tail.flat, List.append_assoc]; exact dir_bol d _ ht.1 _
  | elif d g t => simp only [Tail.flat, List.append_assoc]; exact dir_bol d _ ht.1 _

theorem group_bol (g : Group) (hg : g.Wf) (rest : List PTok) (hr : Bol rest) : Bol (g.flat ++ rest) := by
  match g with
  | .nil => exact hr
  | .text l g =>
    obtain ⟨_, h1, _, h2⟩ := hg
    rw [Group.flat, List.append_assoc]
    cases l with
    | nil => exact group_bol g h2 rest hr
    | cons t l => exact ⟨t, l ++ (g.flat ++ rest), rfl, h1 t rfl⟩
  | .sect o b t g =>
    simp only [Group.flat, List.append_assoc]
    exact dir_bol o _ hg.1 _

theorem skipLine_ne (l : List PTok) (h : l ≠ []) : skipLine l = .ok l := by
  cases l with
  | nil => exact absurd rfl h
  | cons t r => rfl

/-- `directive` on one of the names of conditional inclusion. -/
theorem directive_if (env : Env) (rec : Rec) (n : Nat) (st : St) (h t : PTok) (r : List PTok) (ht : t.is "if" = true) :
    directive env rec n st h (t :: r) = dirIf env rec st r := by
  unfold directive
  dsimp only
  rw [asc_inj_ne t _ "include" ht (by decide +kernel), asc_inj_ne t _ "include_next" ht (by decide +kernel),
    asc_inj_ne t _ "define" ht (by decide +kernel), asc_inj_ne t _ "undef" ht (by decide +kernel), ht]
  simp only [Bool.false_eq_true, if_false, if_true]

theorem directive_ifdef (env : Env) (rec : Rec) (n : Nat) (st : St) (h t : PTok) (r : List PTok) (ht : t.is "ifdef" = true) :
    directive env rec n st h (t :: r) = dirIfdef st true r := by
  unfold directive
  dsimp only
  rw [asc_inj_ne t _ "include" ht (by decide +kernel), asc_inj_ne t _ "include_next" ht (by decide +kernel),
    asc_inj_ne t _ "define" ht (by decide +kernel), asc_inj_ne t _ "undef" ht (by decide +kernel),
    asc_inj_ne t _ "if" ht (by decide +kernel), ht]
  simp only [Bool.false_eq_true, if_false, if_true]

theorem directive_ifndef (env : Env) (rec : Rec) (n : Nat) (st : St) (h t : PTok) (r : List PTok) (ht : t.is "ifndef" = true) :
    directive env rec n st h (t :: r) = dirIfdef st false r := by
  unfold directive
  dsimp only
  rw [asc_inj_ne t _ "include" ht (by decide +kernel), asc_inj_ne t _ "include_next" ht (by decide +kernel),
    asc_inj_ne t _ "define" ht (by decide +kernel), asc_inj_ne t _ "undef" ht (by decide +kernel),
    asc_inj_ne t _ "if" ht (by decide +kernel), asc_inj_ne t _ "ifdef" ht (by decide +kernel), ht]
  simp only [Bool.false_eq_true, if_false, if_true]

theorem directive_elif (env : Env) (rec : Rec) (n : Nat) (st : St) (h t : PTok) (r : List PTok) (ht : t.is "elif" = true) :
    directive env rec n st h (t :: r) = dirElif env rec st (t :: r) r := by
  unfold directive
  dsimp only
  rw [asc_inj_ne t _ "include" ht (by decide +kernel), asc_inj_ne t _ "include_next" ht (by decide +kernel),
    asc_inj_ne t _ "define" ht (by decide +kernel), asc_inj_ne t _ "undef" ht (by decide +kernel),
    asc_inj_ne t _ "if" ht (by decide +kernel), asc_inj_ne t _ "ifdef" ht (by decide +kernel),
    asc_inj_ne t _ "ifndef" ht (by decide +kernel), ht]
  simp only [Bool.false_eq_true, if_false, if_true]

theorem directive_else (env : Env) (rec : Rec) (n : Nat) (st : St) (h t : PTok) (r : List PTok) (ht : t.is "else" = true) :
    directive env rec n st h (t :: r) = dirElse st r := by
  unfold directive
  dsimp only
  rw [asc_inj_ne t _ "include" ht (by decide +kernel), asc_inj_ne t _ "include_next" ht (by decide +kernel),
    asc_inj_ne t _ "define" ht (by decide +kernel), asc_inj_ne t _ "undef" ht (by decide +kernel),
    asc_inj_ne t _ "if" ht (by decide +kernel), asc_inj_ne t _ "ifdef" ht (by decide +kernel),
    asc_inj_ne t _ "ifndef" ht (by decide +kernel), asc_inj_ne t _ "elif" ht (by decide +kernel), ht]
  simp only [Bool.false_eq_true, if_false, if_true]

theorem directive_endif (env : Env) (rec : Rec) (n : Nat) (st : St) (h t : PTok) (r : List PTok) (ht : t.is "endif" = true) :
    directive env rec n st h (t :: r) = match st.conds with
      | [] => .error (.diag .strayEndif)
      | _ :: cs => (skipLine r).map fun l => ({ st with conds := cs }, l) := by
  unfold directive
  dsimp only
  rw [asc_inj_ne t _ "include" ht (by decide +kernel), asc_inj_ne t _ "include_next" ht (by decide +kernel),
    asc_inj_ne t _ "define" ht (by decide +kernel), asc_inj_ne t _ "undef" ht (by decide +kernel),
    asc_inj_ne t _ "if" ht (by decide +kernel), asc_inj_ne t _ "ifdef" ht (by decide +kernel),
    asc_inj_ne t _ "ifndef" ht (by decide +kernel), asc_inj_ne t _ "elif" ht (by decide +kernel),
    asc_inj_ne t _ "else" ht (by decide +kernel), ht]
  simp only [Bool.false_eq_true, if_false, if_true]
  cases st.conds <;> rfl

/-! ### Steps of sections -/

theorem step_endif {env : Env} (hs : env.strict = false) (st : St) (d : Dir) (rest : List PTok) (c : Cond) (cs : List Cond)
    (hd : d.Wf ["endif"]) (hc : d.line = []) (hr : rest ≠ []) :
    Steps env (withConds st (c :: cs)) (d.flat ++ rest) [] (withConds st cs) rest := by
  refine Steps.dirD hs hd ⟨0, fun n _ => ?_⟩
  rw [directive_endif _ _ _ _ _ _ _ (name_is hd), hc, List.nil_append]
  simp only [withConds, skipLine_ne _ hr, Except.map]

/-- The rest of a section of which a group has been selected: everything up to `#endif` is skipped. -/
theorem step_rest {env : Env} (hs : env.strict = false) (st : St) (t : Tail) (rest : List PTok) (ctx : Ctx)
    (cs : List Cond) (ht : t.Wf) (hcl : t.clean) (hctx : ctx ≠ .inElse) (hr : Bol rest) :
    Steps env (withConds st (⟨ctx, true⟩ :: cs)) (t.flat ++ rest) [] (withConds st cs) rest := by
  have hce : (ctx == Ctx.inElse) = false := by simp [hctx]
  match t with
  | .endif d => exact step_endif hs st d rest _ cs ht hcl hr.ne
  | .els d g e =>
    obtain ⟨h1, h2, h3⟩ := ht
    have hq := dir_quiet e _ h3 rest
    simp only [Tail.flat, List.append_assoc]
    refine Steps.trans (o1 := []) (o2 := []) (Steps.dirD hs h1 ⟨0, fun n _ => ?_⟩)
      (step_endif hs st e rest ⟨.inElse, true⟩ cs h3 hcl hr.ne)
    rw [directive_else _ _ _ _ _ _ _ (name_is h1)]
    have hne : d.line ++ (g.flat ++ (e.flat ++ rest)) ≠ [] := by simp [Dir.flat]
    simp only [dirElse, withConds, hce, skipLine_ne _ hne, Bool.false_eq_true, if_false, if_true]
    rw [skip_line _ _ h1.2.2.2.2.2, skip_group g _ h2 hq.1 hq.2, skip_stop "endif" (by simp) e rest h3]
    rfl
  | .elif d g t =>
    obtain ⟨h1, h2, h3⟩ := ht
    simp only [Tail.flat, List.append_assoc]
    refine Steps.trans (o1 := []) (o2 := []) (Steps.dirD hs h1 ⟨0, fun n _ => ?_⟩)
      (step_rest hs st t rest .inElif cs h3 hcl (by decide) hr)
    rw [directive_elif _ _ _ _ _ _ _ (name_is h1)]
    simp only [dirElif, withConds, hce, Bool.false_eq_true, if_false, if_true]
    rw [skip_tok _ _ (ident_not_eof _ h1.2.2.1) (by simp [isHash, h1.2.2.2.1]), skip_line _ _ h1.2.2.2.2.2,
      skip_to_tail g t rest h2 h3]
    rfl

/-- The opening line: the state of the section, and where preprocessing goes on. -/
theorem step_open {env : Env} (hs : env.strict = false) (st st1 : St) (o : Dir) (v : Bool) (cs : List Cond)
    (rest l' : List PTok) (ho : o.Wf openers) (hv : Holds env st o v st1) (hr : Bol rest)
    (hl : if v then l' = rest else skipCond rest = .ok l') :
    Steps env (withConds st cs) (o.flat ++ rest) [] (withConds st1 (⟨.inThen, v⟩ :: cs)) l' := by
  cases hv with
  | ifE v st' hn hv =>
    obtain ⟨N, hv⟩ := hv cs rest hr
    refine Steps.dirD hs ho ⟨N, fun n hn' => ?_⟩
    rw [directive_if _ _ _ _ _ _ _ hn, dirIf, hv n hn']
    dsimp only
    by_cases hz : v = 0
    · subst hz
      simp only [bne_self_eq_false, Bool.false_eq_true, if_false] at hl ⊢
      rw [hl]; rfl
    · have : (v != 0) = true := by simp [hz]
      rw [this] at hl ⊢
      simp only [if_true] at hl ⊢
      rw [hl]; rfl
  | ifdef m hn hm =>
    refine Steps.dirD hs ho ⟨0, fun n hn' => ?_⟩
    rw [directive_ifdef _ _ _ _ _ _ _ hn, hm]
    simp only [dirIfdef, List.cons_append, List.nil_append, skipLine_ne _ hr.ne]
    have : (findMacro (withConds st cs) m) = findMacro st m := rfl
    rw [this]
    cases hv : (findMacro st m).isSome
    · rw [hv] at hl
      simp only [Bool.false_eq_true, if_false] at hl
      rw [hl]; rfl
    · rw [hv] at hl
      simp only [if_true] at hl
      rw [hl]; rfl
  | ifndef m hn hm =>
    refine Steps.dirD hs ho ⟨0, fun n hn' => ?_⟩
    rw [directive_ifndef _ _ _ _ _ _ _ hn, hm]
    simp only [dirIfdef, List.cons_append, List.nil_append, skipLine_ne _ hr.ne]
    have : (findMacro (withConds st cs) m) = findMacro st m := rfl
    rw [this]
    cases hv : (findMacro st m).isSome
    · rw [hv] at hl
      simp only [Bool.not_false, if_true] at hl
      rw [hl]; rfl
    · rw [hv] at hl
      simp only [Bool.not_true, Bool.false_eq_true, if_false] at hl
      rw [hl]; rfl

theorem at_bol {l : List PTok} (h : AtDirective l) : Bol l := by
  obtain ⟨t, r, rfl, hb, _⟩ := h; exact ⟨t, r, rfl, hb⟩

theorem dir_at (d : Dir) (ns : List String) (hd : d.Wf ns) (rest : List PTok) : AtDirective (d.flat ++ rest) := by
  have := hd.1
  unfold isHash at this
  simp only [Bool.and_eq_true] at this
  exact ⟨d.hash, d.name :: (d.line ++ rest), rfl, this.1, Or.inl ⟨this.2, hd.2.1⟩⟩

theorem tail_at (t : Tail) (ht : t.Wf) (rest : List PTok) : AtDirective (t.flat ++ rest) := by
  cases t with
  | endif d => exact dir_at d _ ht rest
  | els d g e => simp only [Tail.flat, List.append_assoc]; exact dir_at d _ ht.1 _
  | elif d g t => simp only [Tail.flat, List.append_assoc]; exact dir_at d _ ht.1 _

theorem group_at (g : Group) (hg : g.Wf) (h0 : ∀ l' g', g ≠ .text l' g') (rest : List PTok) (hr : AtDirective rest) :
    AtDirective (g.flat ++ rest) := by
  match g with
  | .nil => exact hr
  | .text l g => exact absurd rfl (h0 l g)
  | .sect o b t g =>
    simp only [Group.flat, List.append_assoc]
    exact dir_at o _ hg.1 _

mutual
/-- **C21.** The preprocessor outputs, for every well-formed group, what the specification selects. -/
theorem group_steps {env : Env} (hs : env.strict = false) (g : Group) (st st' : St) (out rest : List PTok)
    (cs : List Cond) (hg : g.Wf) (h : Sel env st g st' out) (hr : AtDirective rest) :
    Steps env (withConds st cs) (g.flat ++ rest) out (withConds st' cs) rest := by
  match g with
  | .nil => cases h; exact Steps.refl _ _ _
  | .text l g =>
    obtain ⟨_, _, h0, h2⟩ := hg
    cases h with
    | text st st1 st2 l g o1 o2 h3 h4 =>
      rw [Group.flat, List.append_assoc]
      exact (h3 cs _ (group_at g h2 h0 rest hr)).trans (group_steps hs g st1 st' o2 rest cs h2 h4 hr)
  | .sect o b t g =>
    obtain ⟨h1, h2, h3, h4⟩ := hg
    have hb := group_bol g h4 rest (at_bol hr)
    have htb := tail_bol t h3 (g.flat ++ rest)
    simp only [Group.flat, List.append_assoc]
    cases h with
    | taken _ st1 st2 _ _ _ _ _ o1 o2 hv hb2 hcl hg2 =>
      have e : [] ++ (o1 ++ ([] ++ o2)) = o1 ++ o2 := by simp
      rw [← e]
      refine (step_open hs st st1 o true cs _ _ h1 hv (group_bol b h2 _ htb) (by rw [if_pos rfl])).trans ?_
      refine (group_steps hs b st1 st2 o1 _ _ h2 hb2 (tail_at t h3 _)).trans ?_
      refine (step_rest hs st2 t _ .inThen cs h3 hcl (by decide) hb).trans ?_
      exact group_steps hs g st2 st' o2 rest cs h4 hg2 hr
    | other _ st1 st2 _ _ _ _ _ o1 o2 hv ht2 hg2 =>
      have e : [] ++ (o1 ++ o2) = o1 ++ o2 := by simp
      rw [← e]
      refine (step_open hs st st1 o false cs _ (t.flat ++ (g.flat ++ rest)) h1 hv (group_bol b h2 _ htb)
        (by rw [if_neg (by decide)]; exact skip_to_tail b t _ h2 h3)).trans ?_
      refine (tail_steps hs t st1 st2 o1 _ .inThen cs h3 ht2 (by decide) hb).trans ?_
      exact group_steps hs g st2 st' o2 rest cs h4 hg2 hr
theorem tail_steps {env : Env} (hs : env.strict = false) (t : Tail) (st st' : St) (out rest : List PTok)
    (ctx : Ctx) (cs : List Cond) (ht : t.Wf) (h : SelTail env st t st' out) (hctx : ctx ≠ .inElse) (hr : Bol rest) :
    Steps env (withConds st (⟨ctx, false⟩ :: cs)) (t.flat ++ rest) out (withConds st' cs) rest := by
  have hce : (ctx == Ctx.inElse) = false := by simp [hctx]
  match t with
  | .endif d =>
    cases h with
    | endif _ _ hl => exact step_endif hs st d rest _ cs ht hl hr.ne
  | .els d g e =>
    obtain ⟨h1, h2, h3⟩ := ht
    cases h with
    | els _ _ _ _ _ _ hl he hg =>
      have eo : [] ++ (out ++ []) = out := by simp
      rw [← eo]
      simp only [Tail.flat, List.append_assoc]
      refine Steps.trans (l1 := g.flat ++ (e.flat ++ rest)) (st1 := withConds st (⟨.inElse, false⟩ :: cs))
        (Steps.dirD hs h1 ⟨0, fun n _ => ?_⟩) ?_
      · have hne : g.flat ++ (e.flat ++ rest) ≠ [] := by simp [Dir.flat]
        rw [directive_else _ _ _ _ _ _ _ (name_is h1), hl]
        simp only [dirElse, withConds, hce, List.nil_append, skipLine_ne _ hne, Bool.false_eq_true, if_false]
      · exact (group_steps hs g st st' out _ _ h2 hg (dir_at e _ h3 _)).trans
          (step_endif hs st' e rest _ cs h3 he hr.ne)
  | .elif d g t =>
    obtain ⟨h1, h2, h3⟩ := ht
    have htb := tail_bol t h3 rest
    simp only [Tail.flat, List.append_assoc]
    cases h with
    | elifT _ st1 _ _ _ _ v _ hv hz hg hcl =>
      have eo : [] ++ (out ++ []) = out := by simp
      rw [← eo]
      obtain ⟨N, hv⟩ := hv (⟨.inElif, false⟩ :: cs) (g.flat ++ (t.flat ++ rest)) (group_bol g h2 _ htb)
      refine Steps.trans (l1 := g.flat ++ (t.flat ++ rest)) (st1 := withConds st1 (⟨.inElif, true⟩ :: cs))
        (Steps.dirD hs h1 ⟨N, fun n hn => ?_⟩) ?_
      · have hv := hv n hn
        have hvz : (v != 0) = true := by simp [hz]
        rw [directive_elif _ _ _ _ _ _ _ (name_is h1)]
        simp only [dirElif, withConds, hce, Bool.false_eq_true, if_false] at hv ⊢
        rw [hv]
        simp only [hvz, if_true]
      · exact (group_steps hs g st1 st' out _ _ h2 hg (tail_at t h3 _)).trans
          (step_rest hs st' t rest .inElif cs h3 hcl (by decide) hr)
    | elifF _ st1 _ _ _ _ _ hv ht2 =>
      have eo : [] ++ out = out := by simp
      rw [← eo]
      obtain ⟨N, hv⟩ := hv (⟨.inElif, false⟩ :: cs) (g.flat ++ (t.flat ++ rest)) (group_bol g h2 _ htb)
      refine Steps.trans (l1 := t.flat ++ rest) (st1 := withConds st1 (⟨.inElif, false⟩ :: cs))
        (Steps.dirD hs h1 ⟨N, fun n hn => ?_⟩) ?_
      · have hv := hv n hn
        rw [directive_elif _ _ _ _ _ _ _ (name_is h1)]
        simp only [dirElif, withConds, hce, Bool.false_eq_true, if_false] at hv ⊢
        rw [hv]
        simp only [bne_self_eq_false, Bool.false_eq_true, if_false]
        rw [skip_to_tail g t rest h2 h3]
        rfl
      · exact tail_steps hs t st1 st' out rest .inElif cs h3 ht2 (by decide) hr
end

end Toycc.Pp
