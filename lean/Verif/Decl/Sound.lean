import Verif.Decl.Complete
/-! What is accepted is a declarator, and its type is that of the specification (lemmas for C67). -/
namespace Toycc.Decl
open Toycc.Parse (Tok P)
variable {B L : Type}

/-- The oracles read a prefix. -/
structure Oracle.Prefix (O : Oracle B L) : Prop where
  cond : ∀ ts e r, O.cond ts = .ok (e, r) → ∃ p, ts = p ++ r
  declspec : ∀ ts b r, O.declspec ts = .ok (b, r) → ∃ p, ts = p ++ r

theorem bind_ok {α β : Type} {x : Except DErr α} {f : α → Except DErr β} {b : β} (h : (x >>= f) = .ok b) : ∃ a, x = .ok a ∧ f a = .ok b := by
  cases x with
  | error e => cases h
  | ok a => exact ⟨a, rfl, h⟩

theorem skip_ok {ts r : List Tok} {q : P} (h : skip ts q = .ok r) : ts = .p q :: r := by
  cases ts with
  | nil => cases h
  | cons t ts =>
    unfold skip at h
    dsimp only at h
    by_cases heq : t = .p q
    · rw [if_pos heq] at h; cases h; rw [heq]
    · rw [if_neg heq] at h; cases h

theorem pointers_syn (W : Words B L) (abs : Bool) : ∀ (ts : List Tok) (b : Bool) (T : DTy B L), ∃ q : List Tok, (b = false → q = []) ∧ q.all isQual = true ∧
    ∃ (K : Dir B L → Dcl B L) (u r : List Tok), ts = q ++ (u ++ r) ∧ (∀ dd, (K dd).text = u ++ dd.text) ∧
    (∀ T, (pointers b ts T).2 = r ∧ ∀ const dd, (K dd).den const T = dd.den const (pointers b ts T).1) ∧
    ∀ dd, dd.Syn W abs → (K dd).Syn W abs
  | [], b, T => ⟨[], fun _ => rfl, rfl, .dir, [], [], rfl, fun _ => by rw [Dcl.text]; rfl,
      fun T => ⟨rfl, fun c dd => by rw [Dcl.den]; rfl⟩, fun dd h => by rw [Dcl.Syn]; exact h⟩
  | t :: ts, b, T => by
    by_cases hs : t = .p .star
    · obtain ⟨q, _, hq, K, u, r, h1, h2, h3, h4⟩ := pointers_syn W abs ts true T
      refine ⟨[], fun _ => rfl, rfl, fun dd => .ptr q (K dd), t :: (q ++ u), r, ?_, ?_, ?_, ?_⟩
      · simp [h1]
      · intro dd; rw [Dcl.text, h2, hs]; simp
      · intro T'
        rw [pointers, if_pos hs]
        obtain ⟨h5, h6⟩ := h3 (.ptr T')
        exact ⟨h5, fun c dd => by rw [Dcl.den, h6]⟩
      · intro dd hd; rw [Dcl.Syn]; exact ⟨hq, h4 dd hd⟩
    · by_cases hq : (b && isQual t) = true
      · obtain ⟨q, _, hqs, K, u, r, h1, h2, h3, h4⟩ := pointers_syn W abs ts true T
        refine ⟨t :: q, ?_, ?_, K, u, r, ?_, h2, ?_, h4⟩
        · rintro rfl; simp at hq
        · simp only [Bool.and_eq_true] at hq; simp only [List.all_cons, hq.2, hqs, Bool.and_self]
        · simp [h1]
        · intro T'; rw [pointers, if_neg hs, if_pos hq]; exact h3 T'
      · exact ⟨[], fun _ => rfl, rfl, .dir, [], t :: ts, rfl, fun _ => by rw [Dcl.text]; rfl,
          fun T => ⟨by rw [pointers, if_neg hs, if_neg hq], fun c dd => by rw [Dcl.den, pointers, if_neg hs, if_neg hq]⟩,
          fun dd h => by rw [Dcl.Syn]; exact h⟩

theorem isVoid_some {r s : List Tok} (h : isVoid r = some s) : r = .kw "void" :: .p .rpar :: s := by
  unfold isVoid at h
  split at h
  · split at h
    · rename_i hx; cases h; rw [hx]
    · cases h
  · cases h

theorem isVla_false (const : L → Option Int) (hv : ∀ e, const e ≠ none) (T : DTy B L) (l : Option L) (hT : T.isVla = false) :
    (arrTy const T l).isVla = false := by
  cases l with
  | none => rfl
  | some e =>
    cases hc : const e with
    | none => exact absurd hc (hv e)
    | some n => cases T <;> simp_all [arrTy, DTy.isVla]

mutual
theorem Dcl.den_vla (const : L → Option Int) (hv : ∀ e, const e ≠ none) : ∀ (d : Dcl B L) (T : DTy B L), T.isVla = false →
    (d.den const T).1.isVla = false
  | .ptr _ d, T, _ => by rw [Dcl.den]; exact Dcl.den_vla const hv d _ rfl
  | .dir d, T, h => by rw [Dcl.den]; exact Dir.den_vla const hv d _ h
theorem Dir.den_vla (const : L → Option Int) (hv : ∀ e, const e ≠ none) : ∀ (d : Dir B L) (T : DTy B L), T.isVla = false →
    (d.den const T).1.isVla = false
  | .name _, T, h => by rw [Dir.den]; exact h
  | .empty, T, h => by rw [Dir.den]; exact h
  | .paren d, T, h => by rw [Dir.den]; exact Dcl.den_vla const hv d _ h
  | .arr d _ len, T, h => by rw [Dir.den]; exact Dir.den_vla const hv d _ (isVla_false const hv T _ h)
  | .fn d ps, T, h => by rw [Dir.den]; exact Dir.den_vla const hv d _ rfl
end

def DeclS (O : Oracle B L) (abs : Bool) (n : Nat) : Prop := ∀ ts T v, declarator O abs n ts T = .ok v →
  ∃ d : Dcl B L, d.Syn (read O) abs ∧ ts = d.text ++ v.2.2 ∧
    ∀ T, declarator O abs n ts T = .ok ((d.den O.const T).1, (d.den O.const T).2, v.2.2)
def SufS (O : Oracle B L) (n : Nat) : Prop := ∀ ts T v, typeSuffix O n ts T = .ok v →
  ∃ (K : Dir B L → Dir B L) (u : List Tok), ts = u ++ v.2 ∧ (∀ dd, (K dd).text = dd.text ++ u) ∧
    (∀ abs dd, dd.Syn (read O) abs → (K dd).Syn (read O) abs) ∧
    ∀ T, ∃ T', typeSuffix O n ts T = .ok (T', v.2) ∧ ∀ dd, (K dd).den O.const T = dd.den O.const T'
def BodyS (O : Oracle B L) (abs : Bool) (n : Nat) : Prop := ∀ ts T v, declBody O abs n ts T = .ok v →
  ∃ d : Dir B L, d.Syn (read O) abs ∧ ts = d.text ++ v.2.2 ∧
    ∀ T, declBody O abs n ts T = .ok ((d.den O.const T).1, (d.den O.const T).2, v.2.2)
def ParS (O : Oracle B L) (n : Nat) : Prop := ∀ first ts v, params O n first ts = .ok v →
  ∃ ps : Ps B L, ps.Syn (read O) ∧ ts = ps.text v.2.1 first ++ .p .rpar :: v.2.2 ∧ ps.den O.const = v.1

theorem body_sound (O : Oracle B L) (abs : Bool) (n : Nat) (hd : DeclS O abs n) (hs : SufS O n) : BodyS O abs n := by
  intro ts T v h
  have plain : ∀ ts T v, (do
      let (ty, rest) ← typeSuffix O n ts T
      .ok (ty, none, rest) : Except DErr (DTy B L × Option String × List Tok)) = .ok v →
      ∃ d : Dir B L, d.Syn (read O) abs ∧ ts = d.text ++ v.2.2 ∧ ∀ T, (do
      let (ty, rest) ← typeSuffix O n ts T
      .ok (ty, none, rest) : Except DErr (DTy B L × Option String × List Tok)) = .ok ((d.den O.const T).1, (d.den O.const T).2, v.2.2) := by
    intro ts T v h
    obtain ⟨a, ha, h⟩ := bind_ok h
    obtain ⟨K, u, h1, h2, h3, h4⟩ := hs _ _ _ ha
    cases h
    refine ⟨K .empty, h3 _ _ (by rw [Dir.Syn]; trivial), ?_, ?_⟩
    · rw [h2, Dir.text]; exact h1
    · intro T
      obtain ⟨T', h5, h6⟩ := h4 T
      rw [h5, h6, Dir.den]; rfl
  rw [declBody.eq_def] at h
  split at h
  · rename_i start
    obtain ⟨a, ha, h⟩ := bind_ok h
    obtain ⟨ts1, hk, h⟩ := bind_ok h
    obtain ⟨b, hb, h⟩ := bind_ok h
    obtain ⟨c, hc, h⟩ := bind_ok h
    cases h
    obtain ⟨d, hd1, hd2, hd3⟩ := hd _ _ _ ha
    obtain ⟨K, u, h1, h2, h3, h4⟩ := hs _ _ _ hb
    have hk' := skip_ok hk
    refine ⟨K (.paren d), h3 _ _ (by rw [Dir.Syn]; exact hd1), ?_, ?_⟩
    · rw [h2, Dir.text]
      rw [hk', h1] at hd2
      rw [hd2]; simp
    · intro T
      obtain ⟨T', h5, h6⟩ := h4 T
      rw [declBody]
      simp only [ha, hk, h5, hd3, bind, Except.bind]
      rw [h6, Dir.den]
  · rename_i x r
    split at h
    · rename_i habs
      obtain ⟨d, h1, h2, h3⟩ := plain _ _ _ h
      refine ⟨d, h1, h2, fun T => ?_⟩
      rw [declBody, if_pos habs]; exact h3 T
    · rename_i habs
      obtain ⟨a, ha, h⟩ := bind_ok h
      cases h
      obtain ⟨K, u, h1, h2, h3, h4⟩ := hs _ _ _ ha
      refine ⟨K (.name x), h3 _ _ (by rw [Dir.Syn]; simpa using habs), ?_, ?_⟩
      · rw [h2, Dir.text, h1]; rfl
      · intro T
        obtain ⟨T', h5, h6⟩ := h4 T
        rw [declBody, if_neg habs, h5, h6, Dir.den]; rfl
  · rename_i h1 h2
    obtain ⟨d, h3, h4, h5⟩ := plain _ _ _ h
    refine ⟨d, h3, h4, fun T => ?_⟩
    rw [declBody.eq_def]
    split
    · exact absurd rfl (h1 _)
    · exact absurd rfl (h2 _ _)
    · exact h5 T

theorem decl_sound (O : Oracle B L) (abs : Bool) (n : Nat) (hb : BodyS O abs n) : DeclS O abs (n + 1) := by
  intro ts T v h
  rw [declarator] at h
  obtain ⟨q, hq0, _, K, u, r, h1, h2, h3, h4⟩ := pointers_syn (read O) abs ts false T
  rw [hq0 rfl, List.nil_append] at h1
  obtain ⟨h5, h6⟩ := h3 T
  rw [h5] at h
  obtain ⟨d, hd1, hd2, hd3⟩ := hb _ _ _ h
  refine ⟨K d, h4 d hd1, ?_, ?_⟩
  · rw [h2, h1, hd2, List.append_assoc]
  · intro T
    rw [declarator]
    obtain ⟨h5, h6⟩ := h3 T
    rw [h5, hd3, h6]

theorem dimQ (r : List Tok) : ∃ q, q.all isDimQual = true ∧ r = q ++ r.dropWhile isDimQual :=
  ⟨r.takeWhile isDimQual, List.all_takeWhile, (List.takeWhile_append_dropWhile).symm⟩

theorem suf_sound (O : Oracle B L) (hO : O.Prefix) (n : Nat) (hs : SufS O n) (hp : ParS O n) : SufS O (n + 1) := by
  intro ts T v h
  rw [typeSuffix.eq_def] at h
  dsimp only at h
  split at h
  · rename_i r
    split at h
    · rename_i s hv
      cases h
      refine ⟨fun dd => .fn dd .void, [.p .lpar, .kw "void", .p .rpar], ?_, ?_, ?_, ?_⟩
      · rw [isVoid_some hv]; rfl
      · intro dd; rw [Dir.text, Plist.text]; rfl
      · intro abs dd hd; rw [Dir.Syn, Plist.Syn]; exact ⟨hd, trivial⟩
      · intro T
        refine ⟨.func T .nil false, ?_, fun dd => by rw [Dir.den, Plist.den, Plist.variadic]⟩
        rw [typeSuffix]; simp only [hv]
    · rename_i hv
      obtain ⟨a, ha, h⟩ := bind_ok h
      cases h
      obtain ⟨ps, h1, h2, h3⟩ := hp _ _ _ ha
      refine ⟨fun dd => .fn dd (.list ps a.2.1), .p .lpar :: (ps.text a.2.1 true ++ [.p .rpar]), ?_, ?_, ?_, ?_⟩
      · rw [h2]; simp
      · intro dd; rw [Dir.text, Plist.text]
      · intro abs dd hd; rw [Dir.Syn, Plist.Syn]; exact ⟨hd, h1⟩
      · intro T
        refine ⟨.func T a.1 a.2.1, ?_, fun dd => by rw [Dir.den, Plist.den, Plist.variadic, h3]⟩
        rw [typeSuffix]; simp only [hv, ha, bind, Except.bind]
  · rename_i r
    obtain ⟨q, hq, hr⟩ := dimQ r
    split at h
    · rename_i s hd
      obtain ⟨a, ha, h⟩ := bind_ok h
      cases h
      rw [hd] at hr
      obtain ⟨K, u, h1, h2, h3, h4⟩ := hs _ _ _ ha
      refine ⟨fun dd => K (.arr dd q none), .p .lbrk :: (q ++ [.p .rbrk]) ++ u, ?_, ?_, ?_, ?_⟩
      · rw [hr, h1]; simp
      · intro dd; rw [h2, Dir.text, lenText]; simp
      · intro abs dd hd; apply h3; rw [Dir.Syn]; exact ⟨hd, hq, fun p hp => by cases hp⟩
      · intro T
        obtain ⟨T', h5, h6⟩ := h4 T
        refine ⟨_, ?_, fun dd => by rw [h6, Dir.den]⟩
        rw [typeSuffix]; simp only [hd, h5, bind, Except.bind, mkArr_eq]; rfl
    · rename_i hne
      obtain ⟨e, he, h⟩ := bind_ok h
      obtain ⟨s, hk, h⟩ := bind_ok h
      obtain ⟨a, ha, h⟩ := bind_ok h
      cases h
      obtain ⟨p, hpre⟩ := hO.cond _ _ _ he
      have hk' := skip_ok hk
      obtain ⟨K, u, h1, h2, h3, h4⟩ := hs _ _ _ ha
      refine ⟨fun dd => K (.arr dd q (some (p, e.1))), .p .lbrk :: (q ++ p ++ [.p .rbrk]) ++ u, ?_, ?_, ?_, ?_⟩
      · rw [hpre, hk', h1] at hr
        rw [hr]; simp
      · intro dd; rw [h2, Dir.text, lenText]; simp
      · intro abs dd hd; apply h3; rw [Dir.Syn]
        refine ⟨hd, hq, fun p' hp' => ?_⟩
        cases hp'
        refine ⟨e.2, ?_⟩
        dsimp only
        rw [← hpre]; exact he
      · intro T
        obtain ⟨T', h5, h6⟩ := h4 T
        refine ⟨_, ?_, fun dd => by rw [h6, Dir.den]⟩
        rw [typeSuffix]
        split
        · rename_i heq; exact absurd heq (hne _)
        · simp only [he, hk, h5, bind, Except.bind, mkArr_eq]; rfl
  · rename_i h1 h2
    cases h
    refine ⟨id, [], rfl, fun dd => (List.append_nil _).symm, fun _ _ h => h, fun T => ⟨T, ?_, fun dd => rfl⟩⟩
    exact typeSuffix_stop O n ts T (fun r hr => h1 r hr) (fun r hr => h2 r hr)

theorem par_sound (O : Oracle B L) (hO : O.Prefix) (hv : ∀ e, O.const e ≠ none) (n : Nat) (hd : DeclS O false n) (hp : ParS O n) : ParS O (n + 1) := by
  intro first ts v h
  rw [params.eq_def] at h
  dsimp only at h
  split at h
  · cases h
    exact ⟨.nil, by rw [Ps.Syn]; trivial, by rw [Ps.text]; rfl, by rw [Ps.den]⟩
  · rename_i hne
    obtain ⟨ts1, h1, h⟩ := bind_ok h
    have hts : ts = (if first then [] else [.p .comma]) ++ ts1 := by
      cases first with
      | true => cases h1; rfl
      | false => exact skip_ok h1
    split at h
    · obtain ⟨r, hk, h⟩ := bind_ok h
      cases h
      refine ⟨.nil, by rw [Ps.Syn]; trivial, ?_, by rw [Ps.den]⟩
      rw [hts, skip_ok hk, Ps.text]
      cases first <;> rfl
    · obtain ⟨b, hb, h⟩ := bind_ok h
      obtain ⟨a, ha, h⟩ := bind_ok h
      obtain ⟨c, hc, h⟩ := bind_ok h
      cases h
      obtain ⟨p, hpre⟩ := hO.declspec _ _ _ hb
      obtain ⟨d, hd1, hd2, hd3⟩ := hd _ _ _ ha
      obtain ⟨ps, h2, h3, h4⟩ := hp _ _ _ hc
      have hd4 := hd3 (.base b.1)
      rw [ha] at hd4
      have hd5 := Except.ok.inj hd4
      refine ⟨.cons p b.1 d ps, ?_, ?_, ?_⟩
      · rw [Ps.Syn]; refine ⟨⟨b.2, ?_⟩, hd1, h2⟩
        rw [← hpre]; exact hb
      · rw [hts, hpre, hd2, h3, Ps.text]; simp
      · rw [Ps.den, h4, hd5]
        dsimp only
        rw [adjust_eq _ (Dcl.den_vla O.const hv d (.base b.1) rfl)]

theorem all_sound (O : Oracle B L) (hO : O.Prefix) (hv : ∀ e, O.const e ≠ none) : ∀ n,
    (∀ abs, DeclS O abs n) ∧ SufS O n ∧ ParS O n
  | 0 => by
    refine ⟨fun abs ts T v h => ?_, fun ts T v h => ?_, fun f ts v h => ?_⟩
    · rw [declarator] at h; cases h
    · rw [typeSuffix] at h; cases h
    · rw [params] at h; cases h
  | n + 1 => by
    obtain ⟨h1, h2, h3⟩ := all_sound O hO hv n
    exact ⟨fun abs => decl_sound O abs n (body_sound O abs n (h1 abs) h2), suf_sound O hO n h2 h3, par_sound O hO hv n (h1 false) h3⟩

end Toycc.Decl
