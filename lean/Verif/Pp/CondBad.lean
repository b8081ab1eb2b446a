import Verif.Pp.Cond
/-! C21: unbalanced directives. -/
namespace Toycc.Pp
open Toycc.Lex (asc)

mutual
/-- A file in which the sections still open at its end are closed nowhere. -/
inductive UGroup where
  | here (g : Group)
  | sect (pre : Group) (o : Dir) (t : UTail)
/-- The part of an unterminated section after its opening line: the last group, or a group, `#elif` or `#else`, and
the rest. -/
inductive UTail where
  | grp (u : UGroup)
  | next (g : Group) (d : Dir) (t : UTail)
end

mutual
def UGroup.flat : UGroup → List PTok
  | .here g => g.flat
  | .sect pre o t => pre.flat ++ (o.flat ++ t.flat)
def UTail.flat : UTail → List PTok
  | .grp u => u.flat
  | .next g d t => g.flat ++ (d.flat ++ t.flat)
end

/-- The tail consists of its last group. -/
def UTail.isLast : UTail → Bool
  | .grp _ => true
  | .next .. => false

mutual
def UGroup.Wf : UGroup → Prop
  | .here g => g.Wf
  | .sect pre o t => pre.Wf ∧ o.Wf openers ∧ t.Wf
def UTail.Wf : UTail → Prop
  | .grp u => u.Wf
  | .next g d t => g.Wf ∧ (d.Wf ["elif"] ∨ d.Wf ["else"] ∧ t.isLast = true) ∧ t.Wf
end

mutual
/-- Nothing in the groups that are selected stops preprocessing before the end of the file. -/
inductive UOk (env : Env) : St → UGroup → Prop
  | here (st st' g o) : Sel env st g st' o → UOk env st (.here g)
  | taken (st st1 st2 pre o t o1) : Sel env st pre st1 o1 → Holds env st1 o true st2 → UTaken env st2 t →
      UOk env st (.sect pre o t)
  | other (st st1 st2 pre o t o1) : Sel env st pre st1 o1 → Holds env st1 o false st2 → UOther env st2 t →
      UOk env st (.sect pre o t)
inductive UTaken (env : Env) : St → UTail → Prop
  | grp (st u) : UOk env st u → UTaken env st (.grp u)
  | next (st st' g d t o) : Sel env st g st' o → UTaken env st (.next g d t)
inductive UOther (env : Env) : St → UTail → Prop
  | grp (st u) : UOther env st (.grp u)
  | elifT (st st1 g d t v) : d.name.is "elif" = true → Val env st d.line v st1 → v ≠ 0 → UTaken env st1 t →
      UOther env st (.next g d t)
  | elifF (st st1 g d t) : d.name.is "elif" = true → Val env st d.line 0 st1 → UOther env st1 t →
      UOther env st (.next g d t)
  | els (st g d t) : d.name.is "else" = true → d.line = [] → UTaken env st t → UOther env st (.next g d t)
end

theorem skip2_eof (k : Nat) (e : PTok) (he : e.isEof = true) : skipCond2 k [e] = .ok [e] := by
  rw [skipCond2.eq_def]; simp [he]

theorem skip_eof (e : PTok) (he : e.isEof = true) : skipCond [e] = .ok [e] := by
  rw [skipCond.eq_def]; simp [he]

theorem eof_quiet (e : PTok) (ht : e.text = []) : quiet [e] ∧ [e] ≠ [] := by
  refine ⟨?_, by simp⟩
  simp only [quiet, List.head?_cons, Option.any_some]
  exact eof_not_cond e ht

theorem next_dir {d : Dir} {t : UTail} (h : d.Wf ["elif"] ∨ d.Wf ["else"] ∧ t.isLast = true) :
    ∃ s, (s = "else" ∨ s = "elif") ∧ d.Wf [s] := by
  rcases h with h | ⟨h, _⟩
  · exact ⟨_, Or.inr rfl, h⟩
  · exact ⟨_, Or.inl rfl, h⟩

mutual
theorem skip2_ugroup (u : UGroup) (k : Nat) (e : PTok) (hu : u.Wf) (he : e.isEof = true) (ht : e.text = []) :
    skipCond2 k (u.flat ++ [e]) = .ok [e] := by
  match u with
  | .here g =>
    have hq := eof_quiet e ht
    rw [UGroup.flat, skip2_group g k [e] hu hq.1 hq.2, skip2_eof k e he]
  | .sect pre o t =>
    obtain ⟨h1, h2, h3⟩ := hu
    have hq := dir_quiet o _ h2 (t.flat ++ [e])
    simp only [UGroup.flat, List.append_assoc]
    rw [skip2_group pre k _ h1 hq.1 hq.2, skip2_open k o _ h2, skip2_utail t (k + 1) e h3 he ht]
theorem skip2_utail (t : UTail) (k : Nat) (e : PTok) (ht : t.Wf) (he : e.isEof = true) (hx : e.text = []) :
    skipCond2 k (t.flat ++ [e]) = .ok [e] := by
  match t with
  | .grp u => exact skip2_ugroup u k e ht he hx
  | .next g d t =>
    obtain ⟨h1, h2, h3⟩ := ht
    obtain ⟨s, hs, hd⟩ := next_dir h2
    have hq := dir_quiet d _ hd (t.flat ++ [e])
    simp only [UTail.flat, List.append_assoc]
    rw [skip2_group g k _ h1 hq.1 hq.2, skip2_else k s hs d _ hd, skip2_utail t k e h3 he hx]
end

theorem skip_ugroup (u : UGroup) (e : PTok) (hu : u.Wf) (he : e.isEof = true) (ht : e.text = []) :
    skipCond (u.flat ++ [e]) = .ok [e] := by
  match u with
  | .here g =>
    have hq := eof_quiet e ht
    rw [UGroup.flat, skip_group g [e] hu hq.1 hq.2, skip_eof e he]
  | .sect pre o t =>
    obtain ⟨h1, h2, h3⟩ := hu
    have hq := dir_quiet o _ h2 (t.flat ++ [e])
    have hop := opens_of h2
    simp only [UGroup.flat, List.append_assoc]
    rw [skip_group pre _ h1 hq.1 hq.2]
    have h2' : skipCond2 0 (o.line ++ (t.flat ++ [e])) = .ok [e] := by
      rw [skip2_line _ _ _ h2.2.2.2.2.2, skip2_utail t 0 e h3 he ht]
    unfold Dir.flat
    rw [List.cons_append, List.cons_append, skipCond.eq_def]
    simp only [hash_not_eof _ h2.2.1, h2.1, hop, Bool.false_eq_true, if_false, if_true]
    split
    · rename_i e he; rw [h2'] at he; cases he
    · rename_i l hl
      rw [h2'] at hl; cases hl
      exact skip_eof e he

/-- Where skipping in an unterminated section stops. -/
def UTail.rest : UTail → List PTok
  | .grp _ => []
  | .next _ d t => d.flat ++ t.flat

theorem skip_utail (t : UTail) (e : PTok) (ht : t.Wf) (he : e.isEof = true) (hx : e.text = []) :
    skipCond (t.flat ++ [e]) = .ok (t.rest ++ [e]) := by
  match t with
  | .grp u => exact skip_ugroup u e ht he hx
  | .next g d t =>
    obtain ⟨h1, h2, h3⟩ := ht
    obtain ⟨s, hs, hd⟩ := next_dir h2
    have hq := dir_quiet d _ hd (t.flat ++ [e])
    simp only [UTail.flat, UTail.rest, List.append_assoc]
    rw [skip_group g _ h1 hq.1 hq.2, skip_stop s (by rcases hs with h | h <;> simp [h]) d _ hd]

/-- What the runs below have in common: the end of the file is reached with `cs` and more sections open. -/
def Stuck (env : Env) (st : St) (l : List PTok) (e : PTok) (cs : List Cond) : Prop :=
  ∃ out st' xs, Steps env st l out (withConds st' (xs ++ cs)) [e]

theorem Stuck.step {env : Env} {st st1 : St} {l l1 o : List PTok} {e : PTok} {cs : List Cond}
    (h : Steps env st l o st1 l1) (h2 : Stuck env st1 l1 e cs) : Stuck env st l e cs := by
  obtain ⟨out, st', xs, h2⟩ := h2
  exact ⟨o ++ out, st', xs, h.trans h2⟩

theorem Stuck.eof (env : Env) (st : St) (c : Cond) (cs : List Cond) (e : PTok) :
    Stuck env (withConds st (c :: cs)) [e] e (c :: cs) := ⟨[], st, [], Steps.refl _ _ _⟩

/-- The rest of an unterminated section of which a group has been selected. -/
theorem urest_stuck {env : Env} (hs : env.strict = false) (t : UTail) (st : St) (ctx : Ctx) (cs : List Cond) (e : PTok)
    (ht : t.Wf) (hctx : ctx ≠ .inElse ∨ t.isLast = true) (he : e.isEof = true) (hx : e.text = []) :
    ∃ c, Steps env (withConds st (⟨ctx, true⟩ :: cs)) (t.rest ++ [e]) [] (withConds st (c :: cs)) [e] := by
  match t with
  | .grp u => exact ⟨⟨ctx, true⟩, Steps.refl _ _ _⟩
  | .next g d t =>
    have hctx : ctx ≠ .inElse := by
      rcases hctx with h | h
      · exact h
      · cases h
    have hce : (ctx == Ctx.inElse) = false := by simp [hctx]
    obtain ⟨h1, h2, h3⟩ := ht
    simp only [UTail.rest, List.append_assoc]
    rcases h2 with h2 | ⟨h2, hl⟩
    · obtain ⟨c, ih⟩ := urest_stuck hs t st .inElif cs e h3 (Or.inl (by decide)) he hx
      refine ⟨c, Steps.trans (o1 := []) (o2 := []) (Steps.dirD hs h2 ⟨0, fun n _ => ?_⟩) ih⟩
      rw [directive_elif _ _ _ _ _ _ _ (name_is h2)]
      simp only [dirElif, withConds, hce, Bool.false_eq_true, if_false, if_true]
      rw [skip_tok _ _ (ident_not_eof _ h2.2.2.1) (by simp [isHash, h2.2.2.2.1]), skip_line _ _ h2.2.2.2.2.2,
        skip_utail t e h3 he hx]
      rfl
    · obtain ⟨c, ih⟩ := urest_stuck hs t st .inElse cs e h3 (Or.inr hl) he hx
      refine ⟨c, Steps.trans (o1 := []) (o2 := []) (Steps.dirD hs h2 ⟨0, fun n _ => ?_⟩) ih⟩
      rw [directive_else _ _ _ _ _ _ _ (name_is h2)]
      have hne : d.line ++ (t.flat ++ [e]) ≠ [] := by simp
      simp only [dirElse, withConds, hce, skipLine_ne _ hne, Bool.false_eq_true, if_false, if_true]
      rw [skip_line _ _ h2.2.2.2.2.2, skip_utail t e h3 he hx]
      rfl

theorem eof_at (e : PTok) (he : e.isEof = true) (hb : e.bol = true) : AtDirective [e] := ⟨e, [], rfl, hb, Or.inr he⟩

mutual
theorem ugroup_bol (u : UGroup) (hu : u.Wf) (rest : List PTok) (hr : Bol rest) : Bol (u.flat ++ rest) := by
  match u with
  | .here g => exact group_bol g hu rest hr
  | .sect pre o t =>
    simp only [UGroup.flat, List.append_assoc]
    exact group_bol pre hu.1 _ (dir_bol o _ hu.2.1 _)
theorem utail_bol (t : UTail) (ht : t.Wf) (rest : List PTok) (hr : Bol rest) : Bol (t.flat ++ rest) := by
  match t with
  | .grp u => exact ugroup_bol u ht rest hr
  | .next g d t =>
    simp only [UTail.flat, List.append_assoc]
    obtain ⟨s, hs, hd⟩ := next_dir ht.2.1
    exact group_bol g ht.1 _ (dir_bol d _ hd _)
end

mutual
theorem ugroup_stuck {env : Env} (hs : env.strict = false) (u : UGroup) (st : St) (cs : List Cond) (e : PTok)
    (hu : u.Wf) (h : UOk env st u) (he : e.isEof = true) (hx : e.text = []) (hb : e.bol = true) :
    ∃ out st' xs, Steps env (withConds st cs) (u.flat ++ [e]) out (withConds st' (xs ++ cs)) [e] ∧
      ((∃ pre o t, u = .sect pre o t) → xs ≠ []) := by
  match u with
  | .here g =>
    cases h with
    | here _ st' _ o hg =>
      refine ⟨o, st', [], group_steps hs g st st' o [e] cs hu hg (eof_at e he hb), ?_⟩
      rintro ⟨_, _, _, h⟩; cases h
  | .sect pre o t =>
    obtain ⟨h1, h2, h3⟩ := hu
    simp only [UGroup.flat, List.append_assoc]
    have hbt := utail_bol t h3 [e] ⟨e, [], rfl, hb⟩
    cases h with
    | taken _ st1 st2 _ _ _ o1 hp hv ht =>
      obtain ⟨out, st', c, xs, ih⟩ := utaken_stuck hs t st2 .inThen true cs e h3 ht (Or.inl (by decide)) he hx hb
      refine ⟨_, st', xs ++ [c], ((group_steps hs pre st st1 o1 _ cs h1 hp (dir_at o _ h2 _)).trans
        ((step_open hs st1 st2 o true cs _ _ h2 hv hbt (by rw [if_pos rfl])).trans
          (by rw [List.append_assoc]; exact ih))), by simp⟩
    | other _ st1 st2 _ _ _ o1 hp hv ht =>
      obtain ⟨out, st', c, xs, ih⟩ := uother_stuck hs t st2 .inThen cs e h3 ht (Or.inl (by decide)) he hx hb
      refine ⟨_, st', xs ++ [c], ((group_steps hs pre st st1 o1 _ cs h1 hp (dir_at o _ h2 _)).trans
        ((step_open hs st1 st2 o false cs _ (t.rest ++ [e]) h2 hv hbt (by rw [if_neg (by decide)]; exact skip_utail t e h3 he hx)).trans
          (by rw [List.append_assoc]; exact ih))), by simp⟩
theorem utaken_stuck {env : Env} (hs : env.strict = false) (t : UTail) (st : St) (ctx : Ctx) (inc : Bool)
    (cs : List Cond) (e : PTok) (ht : t.Wf) (h : UTaken env st t) (hctx : (inc = true ∧ ctx ≠ .inElse) ∨ t.isLast = true) (he : e.isEof = true) (hx : e.text = []) (hb : e.bol = true) :
    ∃ out st' c xs, Steps env (withConds st (⟨ctx, inc⟩ :: cs)) (t.flat ++ [e]) out (withConds st' (xs ++ c :: cs)) [e] := by
  match t with
  | .grp u =>
    cases h with
    | grp _ _ hu =>
      obtain ⟨out, st', xs, ih, _⟩ := ugroup_stuck hs u st (⟨ctx, inc⟩ :: cs) e ht hu he hx hb
      exact ⟨out, st', _, xs, ih⟩
  | .next g d t =>
    cases h with
    | next _ st' _ _ _ o hg =>
      obtain ⟨s, hs', hd⟩ := next_dir ht.2.1
      have hctx2 : inc = true ∧ ctx ≠ .inElse := by
        rcases hctx with h | h
        · exact h
        · cases h
      obtain ⟨rfl, hctx3⟩ := hctx2
      obtain ⟨c, hr⟩ := urest_stuck hs (.next g d t) st' ctx cs e ht (Or.inl hctx3) he hx
      simp only [UTail.flat, List.append_assoc]
      simp only [UTail.rest, List.append_assoc] at hr
      exact ⟨_, st', c, [], (group_steps hs g st st' o _ _ ht.1 hg (dir_at d _ hd _)).trans hr⟩
theorem uother_stuck {env : Env} (hs : env.strict = false) (t : UTail) (st : St) (ctx : Ctx) (cs : List Cond) (e : PTok)
    (ht : t.Wf) (h : UOther env st t) (hctx : ctx ≠ .inElse ∨ t.isLast = true) (he : e.isEof = true) (hx : e.text = []) (hb : e.bol = true) :
    ∃ out st' c xs, Steps env (withConds st (⟨ctx, false⟩ :: cs)) (t.rest ++ [e]) out (withConds st' (xs ++ c :: cs)) [e] := by
  match t with
  | .grp u => exact ⟨[], st, _, [], Steps.refl _ _ _⟩
  | .next g d t =>
    have hctx : ctx ≠ .inElse := by
      rcases hctx with h | h
      · exact h
      · cases h
    have hce : (ctx == Ctx.inElse) = false := by simp [hctx]
    obtain ⟨h1, h2, h3⟩ := ht
    have hbt := utail_bol t h3 [e] ⟨e, [], rfl, hb⟩
    simp only [UTail.rest, List.append_assoc]
    cases h with
    | elifT _ st1 _ _ _ v hn hv hz ht2 =>
      have hd : d.Wf ["elif"] := by
        rcases h2 with h | ⟨h, _⟩
        · exact h
        · have := name_is h
          rw [asc_inj_ne _ _ "elif" this (by decide +kernel)] at hn; cases hn
      obtain ⟨out, st', c, xs, ih⟩ := utaken_stuck hs t st1 .inElif true cs e h3 ht2 (Or.inl (by decide)) he hx hb
      obtain ⟨N, hv⟩ := hv (⟨.inElif, false⟩ :: cs) (t.flat ++ [e]) hbt
      refine ⟨_, st', c, xs, Steps.trans (o1 := []) (Steps.dirD hs hd ⟨N, fun n hn' => ?_⟩) ih⟩
      have hv := hv n hn'
      have hvz : (v != 0) = true := by simp [hz]
      rw [directive_elif _ _ _ _ _ _ _ hn]
      simp only [dirElif, withConds, hce, Bool.false_eq_true, if_false] at hv ⊢
      rw [hv]
      simp only [hvz, if_true]
    | elifF _ st1 _ _ _ hn hv ht2 =>
      have hd : d.Wf ["elif"] := by
        rcases h2 with h | ⟨h, _⟩
        · exact h
        · have := name_is h
          rw [asc_inj_ne _ _ "elif" this (by decide +kernel)] at hn; cases hn
      obtain ⟨out, st', c, xs, ih⟩ := uother_stuck hs t st1 .inElif cs e h3 ht2 (Or.inl (by decide)) he hx hb
      obtain ⟨N, hv⟩ := hv (⟨.inElif, false⟩ :: cs) (t.flat ++ [e]) hbt
      refine ⟨_, st', c, xs, Steps.trans (o1 := []) (Steps.dirD hs hd ⟨N, fun n hn' => ?_⟩) ih⟩
      have hv := hv n hn'
      rw [directive_elif _ _ _ _ _ _ _ hn]
      simp only [dirElif, withConds, hce, Bool.false_eq_true, if_false] at hv ⊢
      rw [hv]
      simp only [bne_self_eq_false, Bool.false_eq_true, if_false]
      rw [skip_utail t e h3 he hx]
      rfl
    | els _ _ _ _ hn hl ht2 =>
      have hd : d.Wf ["else"] ∧ t.isLast = true := by
        rcases h2 with h | h
        · have := name_is h
          rw [asc_inj_ne _ _ "else" this (by decide +kernel)] at hn; cases hn
        · exact h
      obtain ⟨out, st', c, xs, ih⟩ := utaken_stuck hs t st .inElse false cs e h3 ht2 (Or.inr hd.2) he hx hb
      refine ⟨_, st', c, xs, Steps.trans (o1 := []) (Steps.dirD hs hd.1 ⟨0, fun n _ => ?_⟩) ih⟩
      rw [directive_else _ _ _ _ _ _ _ hn, hl]
      simp only [dirElse, withConds, hce, List.nil_append, skipLine_ne _ hbt.ne, Bool.false_eq_true, if_false]
end

end Toycc.Pp
