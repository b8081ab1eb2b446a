import Verif.Decl.Spec
/-! Every declarator is read, with its type (lemmas for C67). -/
namespace Toycc.Decl
open Toycc.Parse (Tok P)
variable {B L : Type}

/-- With enough fuel `f` gives `v`. -/
def Ev {α : Type} (f : Nat → Except DErr α) (v : α) : Prop := ∃ N, ∀ n, N ≤ n → f n = .ok v

theorem Ev.of_succ {α : Type} {f : Nat → Except DErr α} {v : α} (h : Ev (fun n => f (n + 1)) v) : Ev f v := by
  obtain ⟨N, h⟩ := h
  refine ⟨N + 1, fun n hn => ?_⟩
  obtain ⟨m, rfl⟩ : ∃ m, n = m + 1 := ⟨n - 1, by omega⟩
  exact h m (by omega)

/-- Not a continuation of pointers. -/
def NoPtr : List Tok → Prop
  | [] => True
  | t :: _ => t ≠ .p .star ∧ isQual t = false

theorem Stop.noPtr {r : List Tok} (h : Stop r) : NoPtr r := by
  cases r with
  | nil => trivial
  | cons t r => exact ⟨h.1, h.2.2.2.2⟩

theorem pointers_noPtr (b : Bool) {r : List Tok} (h : NoPtr r) (T : DTy B L) : pointers b r T = (T, r) := by
  cases r with
  | nil => rfl
  | cons t r => simp [pointers, h.1, h.2]

theorem pointers_quals (q r : List Tok) (hq : q.all isQual = true) (T : DTy B L) : pointers true (q ++ r) T = pointers true r T := by
  induction q with
  | nil => rfl
  | cons t q ih =>
    simp only [List.all_cons, Bool.and_eq_true] at hq
    have : t ≠ .p .star := by rintro rfl; simp [isQual] at hq
    simp [pointers, this, hq.1, ih hq.2]

/-- The direct declarator after the pointers, and the type they make. -/
def Dcl.core : Dcl B L → Dir B L
  | .ptr _ d => d.core
  | .dir d => d

def Dcl.ptrs : Dcl B L → DTy B L → DTy B L
  | .ptr _ d, T => d.ptrs (.ptr T)
  | .dir _, T => T

theorem Dir.noPtr (d : Dir B L) {r : List Tok} (h : NoPtr r) : NoPtr (d.text ++ r) := by
  cases d with
  | name x => simp [Dir.text, NoPtr, isQual]
  | empty => simpa [Dir.text] using h
  | paren d => simp [Dir.text, NoPtr, isQual]
  | arr d q len => 
    rw [Dir.text, List.append_assoc]; exact d.noPtr (by simp [NoPtr, isQual])
  | fn d ps => 
    rw [Dir.text, List.append_assoc]; exact d.noPtr (by simp [NoPtr, isQual])
termination_by structural d

theorem pointers_text (W : Words B L) (abs : Bool) (r : List Tok) (hr : NoPtr r) : ∀ (d : Dcl B L) (b : Bool) (T : DTy B L), d.Syn W abs →
    pointers b (d.text ++ r) T = (d.ptrs T, d.core.text ++ r)
  | .ptr q d, b, T, h => by
    rw [Dcl.Syn] at h
    rw [Dcl.text, List.cons_append, List.append_assoc]
    rw [pointers, if_pos rfl, pointers_quals q _ h.1, pointers_text W abs r hr d true _ h.2]
    rfl
  | .dir d, b, T, h => by
    rw [Dcl.text]; exact pointers_noPtr b (d.noPtr hr) T

theorem Dcl.den_core (const : L → Option Int) : ∀ (d : Dcl B L) (T : DTy B L), d.den const T = d.core.den const (d.ptrs T)
  | .ptr q d, T => by rw [Dcl.den]; exact d.den_core const _
  | .dir d, T => by rw [Dcl.den]; rfl

theorem arrTy_foa (const : L → Option Int) (T : DTy B L) (l : Option L) : (arrTy const T l).funcOrArray = true := by
  cases l with
  | none => rfl
  | some e => cases T <;> simp only [arrTy] <;> (try split) <;> rfl

theorem mkArr_eq (O : Oracle B L) (T : DTy B L) (l : Option L) : mkArr O T l = arrTy O.const T l := by
  cases l with
  | none => rfl
  | some e => cases T <;> cases h : O.const e <;> simp [mkArr, arrTy, DTy.isVla, h]

mutual
theorem Dcl.Fits.anti (const : L → Option Int) : ∀ (d : Dcl B L) (T T' : DTy B L), (T.funcOrArray = false → T'.funcOrArray = false) →
    d.Fits const T → d.Fits const T'
  | .ptr q d, T, T', _, h => by
    rw [Dcl.Fits] at h ⊢; exact Dcl.Fits.anti const d _ _ (fun _ => rfl) h
  | .dir d, T, T', hf, h => by
    rw [Dcl.Fits] at h ⊢; exact Dir.Fits.anti const d _ _ hf h
theorem Dir.Fits.anti (const : L → Option Int) : ∀ (d : Dir B L) (T T' : DTy B L), (T.funcOrArray = false → T'.funcOrArray = false) →
    d.Fits const T → d.Fits const T'
  | .name _, _, _, _, _ => by rw [Dir.Fits]; trivial
  | .empty, _, _, _, _ => by rw [Dir.Fits]; trivial
  | .paren d, T, T', hf, h => by
    rw [Dir.Fits] at h ⊢; exact ⟨h.1, Dcl.Fits.anti const d _ _ hf h.2⟩
  | .arr d q len, T, T', hf, h => by
    rw [Dir.Fits] at h ⊢
    exact Dir.Fits.anti const d _ _ (fun h => by rw [arrTy_foa] at h; cases h) h
  | .fn d ps, T, T', hf, h => by
    rw [Dir.Fits] at h ⊢
    exact ⟨hf h.1, h.2.1, h.2.2.1, h.2.2.2.1, Dir.Fits.anti const d _ _ (fun h => by cases h) h.2.2.2.2⟩
end

theorem Dcl.Fits.core (const : L → Option Int) : ∀ (d : Dcl B L) (T : DTy B L), d.Fits const T → d.core.Fits const (d.ptrs T)
  | .ptr q d, T, h => by rw [Dcl.Fits] at h; exact Dcl.Fits.core const d _ h
  | .dir d, T, h => by rw [Dcl.Fits] at h; exact h

theorem typeSuffix_stop (O : Oracle B L) (n : Nat) (r : List Tok) (T : DTy B L) (h1 : ∀ r', r ≠ .p .lpar :: r') (h2 : ∀ r', r ≠ .p .lbrk :: r') :
    typeSuffix O (n + 1) r T = .ok (T, r) := by
  rw [typeSuffix.eq_def]
  dsimp only
  split
  · exact absurd rfl (h1 _)
  · exact absurd rfl (h2 _)
  · rfl

/-- After a type that is no function and no array there was no suffix. -/
theorem typeSuffix_plain (O : Oracle B L) (n : Nat) (s : List Tok) (T0 T : DTy B L) (rest : List Tok) (h : typeSuffix O n s T0 = .ok (T, rest))
    (hT : T.funcOrArray = false) : T = T0 ∧ rest = s := by
  cases n with
  | zero => rw [typeSuffix] at h; cases h
  | succ n =>
    rw [typeSuffix.eq_def] at h
    dsimp only at h
    split at h
    · split at h
      · cases h; cases hT
      · cases hp : params O n true _ with
        | error e => rw [hp] at h; cases h
        | ok v => rw [hp] at h; cases h; cases hT
    · split at h
      · cases hp : typeSuffix O n _ T0 with
        | error e => rw [hp] at h; cases h
        | ok v => rw [hp] at h; cases h; rw [mkArr_eq, arrTy_foa] at hT; cases hT
      · cases hc : O.cond _ with
        | error e => rw [hc] at h; cases h
        | ok v =>
          rw [hc] at h
          simp only [bind, Except.bind] at h
          cases hs : skip v.2 .rbrk with
          | error e => rw [hs] at h; cases h
          | ok r =>
            rw [hs] at h
            dsimp only at h
            cases hp : typeSuffix O n r T0 with
            | error e => rw [hp] at h; cases h
            | ok v => rw [hp] at h; cases h; rw [mkArr_eq, arrTy_foa] at hT; cases hT
    · cases h; exact ⟨rfl, rfl⟩

theorem dropQ (q r : List Tok) (hq : q.all isDimQual = true) : (q ++ r).dropWhile isDimQual = r.dropWhile isDimQual := by
  induction q with
  | nil => rfl
  | cons t q ih =>
    simp only [List.all_cons, Bool.and_eq_true] at hq
    simp [hq.1, ih hq.2]

/-- One array suffix. -/
theorem typeSuffix_arr (O : Oracle B L) (q s : List Tok) (len : Option (List Tok × L)) (hq : q.all isDimQual = true)
    (hl : ∀ p, len = some p → (reads O).len p.1 p.2) (T0 T : DTy B L) (rest : List Tok)
    (h : Ev (fun n => typeSuffix O n s T0) (T, rest)) :
    Ev (fun n => typeSuffix O n (.p .lbrk :: (q ++ lenText len ++ [.p .rbrk]) ++ s) T0) (arrTy O.const T (len.map (·.2)), rest) := by
  apply Ev.of_succ
  obtain ⟨N, h⟩ := h
  refine ⟨N, fun n hn => ?_⟩
  dsimp only at h ⊢
  rw [List.cons_append, typeSuffix]
  simp only [List.append_assoc, dropQ q _ hq]
  cases len with
  | none =>
    simp only [lenText, List.nil_append, List.cons_append]
    simp only [List.dropWhile_cons, isDimQual, Bool.false_eq_true, if_false]
    rw [h n hn]
    simp only [bind, Except.bind, mkArr_eq]
    rfl
  | some p =>
    obtain ⟨h1, t, r, ht, h2, h3⟩ := hl p rfl
    have h1 := h1 s
    simp only [lenText, ht, List.cons_append, List.nil_append] at h1 ⊢
    simp only [List.dropWhile_cons, h2, Bool.false_eq_true, if_false]
    split
    · rename_i heq; cases heq; exact absurd rfl h3
    · rename_i hne
      rw [h1]
      simp only [bind, Except.bind, skip, if_pos, h n hn, mkArr_eq]
      rfl

theorem adjust_eq (T : DTy B L) (h : T.isVla = false) : adjust T = paramTy T := by
  cases T <;> first | rfl | cases h

theorem isVoid_none (ts s : List Tok) (h : ∀ r, ts ++ [.p .rpar] ≠ .kw "void" :: .p .rpar :: r) : isVoid (ts ++ .p .rpar :: s) = none := by
  unfold isVoid
  split
  · rename_i x r heq
    split
    · rename_i hx; subst hx
      exfalso
      match ts, heq with
      | [], heq => cases heq
      | [t], heq => cases heq; exact h [] rfl
      | t :: t' :: ts, heq => 
        simp only [List.cons_append, List.cons.injEq] at heq
        obtain ⟨rfl, rfl, _⟩ := heq
        exact h _ rfl
    · rfl
  · rfl

theorem Ps.text_stop (ps : Ps B L) (v : Bool) (s : List Tok) : Stop (ps.text v false ++ .p .rpar :: s) := by
  cases ps with
  | nil => cases v <;> simp [Ps.text, Stop, isQual]
  | cons t b d r => simp [Ps.text, Stop, isQual]

mutual
theorem decl_ev (O : Oracle B L) (abs : Bool) : ∀ (d : Dcl B L) (T : DTy B L) (r : List Tok), d.Syn (reads O) abs → d.Fits O.const T → Stop r →
    Ev (fun n => declarator O abs n (d.text ++ r) T) ((d.den O.const T).1, (d.den O.const T).2, r)
  | .ptr q d, T, r, hs, hf, hr => by
    rw [Dcl.Syn] at hs
    rw [Dcl.Fits] at hf
    have h := decl_ev O abs d (.ptr T) r hs.2 hf hr
    obtain ⟨N, h⟩ := h
    refine ⟨N + 1, fun n hn => ?_⟩
    obtain ⟨m, rfl⟩ : ∃ m, n = m + 1 := ⟨n - 1, by omega⟩
    have h := h (m + 1) (by omega)
    rw [Dcl.den]
    rw [← h]
    dsimp only
    rw [declarator, declarator, pointers_text (reads O) abs r hr.noPtr d false _ hs.2,
      pointers_text (reads O) abs r hr.noPtr (.ptr q d) false _ (by rw [Dcl.Syn]; exact hs)]
    rfl
  | .dir d, T, r, hs, hf, hr => by
    rw [Dcl.Syn] at hs
    rw [Dcl.Fits] at hf
    have h0 : Ev (fun n => typeSuffix O n r T) (T, r) := by
      apply Ev.of_succ
      refine ⟨0, fun n _ => typeSuffix_stop O n r T ?_ ?_⟩
      · rintro r' rfl; exact hr.2.1 rfl
      · rintro r' rfl; exact hr.2.2.1 rfl
    have h := dir_ev O abs d T T r r hs hf h0 (fun _ => ⟨by rintro r' rfl; exact hr.2.1 rfl, by rintro x r' rfl; exact hr.2.2.2.1 x rfl⟩)
    apply Ev.of_succ
    obtain ⟨N, h⟩ := h
    refine ⟨N, fun n hn => ?_⟩
    have h := h n hn
    dsimp only at h ⊢
    rw [declarator, Dcl.text, pointers_noPtr false (d.noPtr hr.noPtr), Dcl.den]
    exact h
theorem dir_ev (O : Oracle B L) (abs : Bool) : ∀ (d : Dir B L) (T T0 : DTy B L) (s rest : List Tok), d.Syn (reads O) abs → d.Fits O.const T →
    Ev (fun n => typeSuffix O n s T0) (T, rest) → (d.text = [] → (∀ r, s ≠ .p .lpar :: r) ∧ ∀ x r, s ≠ .ident x :: r) →
    Ev (fun n => declBody O abs n (d.text ++ s) T0) ((d.den O.const T).1, (d.den O.const T).2, rest)
  | .name x, T, T0, s, rest, hs, hf, h, _ => by
    rw [Dir.Syn] at hs
    obtain ⟨N, h⟩ := h
    refine ⟨N, fun n hn => ?_⟩
    have h := h n hn
    dsimp only at h ⊢
    subst hs
    rw [Dir.text, List.cons_append, List.nil_append, declBody]
    simp only [Bool.false_eq_true, if_false, h, Dir.den]
    rfl
  | .empty, T, T0, s, rest, hs, hf, h, hst => by
    obtain ⟨N, h⟩ := h
    refine ⟨N, fun n hn => ?_⟩
    have h := h n hn
    obtain ⟨h1, h2⟩ := hst (by rw [Dir.text])
    dsimp only at h ⊢
    rw [Dir.text, List.nil_append, declBody.eq_def]
    split
    · exact absurd rfl (h1 _)
    · exact absurd rfl (h2 _ _)
    · simp only [h, Dir.den]; rfl
  | .paren d, T, T0, s, rest, hs, hf, h, _ => by
    rw [Dir.Syn] at hs
    rw [Dir.Fits] at hf
    have hst : Stop (.p .rpar :: s) := by simp [Stop, isQual]
    have h1 := decl_ev O abs d .dummy (.p .rpar :: s) hs (Dcl.Fits.anti _ d _ _ (fun _ => rfl) hf.2) hst
    have h2 := decl_ev O abs d T (.p .rpar :: s) hs hf.2 hst
    obtain ⟨N, h⟩ := h
    obtain ⟨N1, h1⟩ := h1
    obtain ⟨N2, h2⟩ := h2
    refine ⟨N + N1 + N2, fun n hn => ?_⟩
    have h := h n (by omega)
    have h1 := h1 n (by omega)
    have h2 := h2 n (by omega)
    dsimp only at h h1 h2 ⊢
    rw [Dir.text, List.cons_append, List.append_assoc, List.singleton_append, declBody]
    simp only [h1, bind, Except.bind, skip, if_pos, h, h2, Dir.den]
  | .arr d q len, T, T0, s, rest, hs, hf, h, _ => by
    rw [Dir.Syn] at hs
    rw [Dir.Fits] at hf
    have := dir_ev O abs d _ T0 _ rest hs.1 hf (typeSuffix_arr O q s len hs.2.1 hs.2.2 T0 T rest h)
      (fun _ => ⟨by simp, by simp⟩)
    rw [Dir.text, List.append_assoc, Dir.den]
    exact this
  | .fn d ps, T, T0, s, rest, hs, hf, h, _ => by
    rw [Dir.Syn] at hs
    rw [Dir.Fits] at hf
    obtain ⟨N, h⟩ := h
    obtain ⟨rfl, rfl⟩ := typeSuffix_plain O N s T0 T rest (h N (Nat.le_refl _)) hf.1
    have := dir_ev O abs d _ T (.p .lpar :: (ps.text ++ [.p .rpar]) ++ rest) rest hs.1 hf.2.2.2.2 (plist_ev O ps T rest hs.2 hf.2.2.2.1 hf.2.2.1)
      (fun h => absurd h hf.2.1)
    rw [Dir.text, List.append_assoc, Dir.den]
    exact this
theorem plist_ev (O : Oracle B L) : ∀ (ps : Plist B L) (T : DTy B L) (s : List Tok), ps.Syn (reads O) → ps.Fits O.const → ps.NotVoid →
    Ev (fun n => typeSuffix O n (.p .lpar :: (ps.text ++ [.p .rpar]) ++ s) T) (.func T (ps.den O.const) ps.variadic, s)
  | .void, T, s, _, _, _ => by
    apply Ev.of_succ
    refine ⟨0, fun n _ => ?_⟩
    dsimp only
    rw [Plist.text, Plist.den, Plist.variadic]
    simp only [List.cons_append, List.nil_append]
    rw [typeSuffix]
    simp only [isVoid, if_pos]
  | .list ps v, T, s, hs, hf, hv => by
    rw [Plist.Syn] at hs
    rw [Plist.Fits] at hf
    apply Ev.of_succ
    obtain ⟨N, h⟩ := ps_ev O v ps true s hs hf
    refine ⟨N, fun n hn => ?_⟩
    have h := h n hn
    dsimp only at h ⊢
    rw [Plist.text, Plist.den, Plist.variadic]
    simp only [List.cons_append, List.append_assoc, List.nil_append]
    rw [typeSuffix]
    simp only [isVoid_none _ s hv, h, bind, Except.bind]
theorem ps_ev (O : Oracle B L) (v : Bool) : ∀ (ps : Ps B L) (first : Bool) (s : List Tok), ps.Syn (reads O) → ps.Fits O.const →
    Ev (fun n => params O n first (ps.text v first ++ .p .rpar :: s)) (ps.den O.const, v, s)
  | .nil, first, s, _, _ => by
    apply Ev.of_succ
    refine ⟨0, fun n _ => ?_⟩
    dsimp only
    cases v <;> cases first <;> simp [Ps.text, Ps.den, params, sep, skip, bind, Except.bind]
  | .cons t b d r, first, s, hs, hf => by
    rw [Ps.Syn] at hs
    rw [Ps.Fits] at hf
    obtain ⟨⟨h1, t0, tr, rfl, ht1, ht2⟩, hs2, hs3⟩ := hs
    have hst := r.text_stop v s
    have h1 := h1 _ hst
    apply Ev.of_succ
    obtain ⟨N1, hd⟩ := decl_ev O false d (.base b) _ hs2 hf.1 hst
    obtain ⟨N2, hp⟩ := ps_ev O v r false s hs3 hf.2.2
    refine ⟨N1 + N2, fun n hn => ?_⟩
    have hd := hd n (by omega)
    have hp := hp n (by omega)
    dsimp only at hd hp ⊢
    rw [Ps.text, Ps.den]
    simp only [List.cons_append, List.append_assoc] at h1 ⊢
    rw [params.eq_def]
    dsimp only
    cases first with
    | true =>
      simp only [if_true, List.nil_append]
      split
      · rename_i heq; cases heq; exact absurd rfl ht1
      · simp only [sep, if_true, bind, Except.bind]
        split
        · rename_i heq; cases heq; exact absurd rfl ht2
        · simp only [h1, hd, hp, adjust_eq _ hf.2.1]
    | false =>
      simp only [Bool.false_eq_true, if_false, List.cons_append, List.nil_append, bind, Except.bind, sep, skip, if_true]
      split
      · rename_i heq; cases heq; exact absurd rfl ht2
      · simp only [h1, hd, hp, adjust_eq _ hf.2.1]
end

end Toycc.Decl
