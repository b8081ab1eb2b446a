import Verif.Ip.Cover
/-! Lemmas about paths, trees and texts (for C68). -/
namespace Toycc.Ip
open Toycc.Parse (Tok P)
open Toycc.Init (Ini Inis)
variable {α : Type}

/-! ### Fuel -/

def Ev {β : Type} (f : Nat → Except IErr β) (v : β) : Prop := ∃ N, ∀ n, N ≤ n → f n = .ok v

theorem Ev.of_succ {β : Type} {f : Nat → Except IErr β} {v : β} (h : Ev (fun n => f (n + 1)) v) : Ev f v := by
  obtain ⟨N, h⟩ := h
  refine ⟨N + 1, fun n hn => ?_⟩
  obtain ⟨m, rfl⟩ : ∃ m, n = m + 1 := ⟨n - 1, by omega⟩
  exact h m (by omega)

theorem Ev.pure {β : Type} (v : β) : Ev (fun _ => .ok v) v := ⟨0, fun _ _ => rfl⟩

theorem Ev.bind {β γ : Type} {f : Nat → Except IErr β} {g : Nat → β → Except IErr γ} {a : β} {b : γ} (h1 : Ev f a) (h2 : Ev (fun n => g n a) b) :
    Ev (fun n => f n >>= g n) b := by
  obtain ⟨N, h1⟩ := h1
  obtain ⟨M, h2⟩ := h2
  refine ⟨N + M, fun n hn => ?_⟩
  have := h2 n (by omega)
  simp only [h1 n (by omega)]
  exact this

theorem Ev.congr {β : Type} {f g : Nat → Except IErr β} {v : β} (h : Ev f v) (hfg : ∀ n, g n = f n) : Ev g v := by
  obtain ⟨N, h⟩ := h
  exact ⟨N, fun n hn => by rw [hfg]; exact h n hn⟩

/-! ### Children -/

theorem get?_setI : ∀ (cs : Inis α) (i : Nat) (c c' : Ini α), cs.get? i = some c → (setI cs i c').get? i = some c'
  | .nil, _, _, _, h => by cases h
  | .cons _ _, 0, _, _, _ => rfl
  | .cons _ r, i + 1, c, c', h => get?_setI r i c c' h

theorem setI_setI : ∀ (cs : Inis α) (i : Nat) (a b : Ini α), setI (setI cs i a) i b = setI cs i b
  | .nil, _, _, _ => rfl
  | .cons _ _, 0, _, _ => rfl
  | .cons _ r, i + 1, a, b => by simp only [setI, setI_setI r i a b]

theorem setI_self : ∀ (cs : Inis α) (i : Nat) (c : Ini α), cs.get? i = some c → setI cs i c = cs
  | .nil, _, _, h => by cases h
  | .cons _ _, 0, _, h => by cases h; rfl
  | .cons _ r, i + 1, c, h => by simp only [setI, setI_self r i c h]

/-! ### Paths -/

theorem sub_append : ∀ (p q : Path) (T : ITy), T.sub (p ++ q) = (T.sub p).bind (·.sub q)
  | [], q, T => by simp [ITy.sub]
  | i :: p, q, T => by
    simp only [List.cons_append, ITy.sub]
    cases T.child? i with
    | none => rfl
    | some U => exact sub_append p q U

theorem next_append : ∀ (p q : Path) (T U : ITy), T.sub p = some U →
    next T (p ++ q) = match next U q with
      | some q' => some (p ++ q')
      | none => next T p
  | [], q, T, U, h => by
    cases h
    simp only [List.nil_append, next]
    cases next T q <;> rfl
  | i :: p, q, T, U, h => by
    simp only [ITy.sub] at h
    simp only [List.cons_append, next]
    cases hc : T.child? i with
    | none => rw [hc] at h; cases h
    | some V =>
      rw [hc] at h
      dsimp only at h ⊢
      rw [next_append p q V U h]
      cases next U q with
      | none => rfl
      | some q' => rfl

/-- `put` through a child. -/
theorem put_cons (T : ITy) (i : Nat) (p : Path) (f : Ini α → Option (Ini α)) (x : Ini α) :
    put T (i :: p) f x = (T.child? i).bind fun U => put T [i] (fun c => put U p f c) x := by
  cases x with
  | mk e m cs =>
    cases T with
    | sc t => rfl
    | arr b n =>
      simp only [put, ITy.child?]
      by_cases h : i < n
      · simp only [if_pos h, Option.bind_some]
      · simp only [if_neg h, Option.bind_none]
    | struc n ms =>
      simp only [put, ITy.child?]
      cases ms.get? i with
      | none => simp
      | some t => simp only [Option.bind_some]; rfl
    | union n ms =>
      simp only [put, ITy.child?]
      cases ms.get? i with
      | none => simp
      | some t => simp only [Option.bind_some]; rfl

theorem put_append : ∀ (p q : Path) (T U : ITy) (f : Ini α → Option (Ini α)) (x : Ini α), T.sub p = some U →
    put T (p ++ q) f x = put T p (put U q f) x
  | [], q, T, U, f, x, h => by
    cases h
    simp only [List.nil_append]
    rw [put.eq_def T []]
  | i :: p, q, T, U, f, x, h => by
    simp only [ITy.sub] at h
    rw [List.cons_append, put_cons, put_cons T i p]
    cases hc : T.child? i with
    | none => rfl
    | some V =>
      rw [hc] at h
      simp only [Option.bind_some]
      congr 1
      funext c
      exact put_append p q V U f c h

theorem put_nil (T : ITy) (f : Ini α → Option (Ini α)) (x : Ini α) : put T [] f x = f x := by
  cases x; cases T <;> rfl

/-- `put` at a child. -/
theorem put_one {T : ITy} {i : Nat} {f : Ini α → Option (Ini α)} {x y : Ini α} (h : put T [i] f x = some y) :
    ∃ U c c', T.child? i = some U ∧ get x [i] = some c ∧ f c = some c' ∧ put T [i] (fun _ => some c') x = some y := by
  cases x with
  | mk e m cs =>
    cases T with
    | sc t => cases h
    | arr b n =>
      simp only [put] at h ⊢
      by_cases hi : i < n
      · rw [if_pos hi] at h
        simp only [if_pos hi]
        cases hg : cs.get? i with
        | none => rw [hg] at h; cases h
        | some c =>
          rw [hg] at h
          simp only [Option.bind_eq_bind, Option.bind_some, put_nil] at h ⊢
          cases hf : f c with
          | none => rw [hf] at h; cases h
          | some c' =>
            rw [hf] at h
            exact ⟨b, c, c', by simp [ITy.child?, hi], by simp [get, hg], hf, h⟩
      · rw [if_neg hi] at h; cases h
    | struc n ms =>
      simp only [put] at h ⊢
      by_cases he : e.isNone = true
      · rw [if_pos he] at h
        simp only [if_pos he]
        cases hm : ms.get? i with
        | none => rw [hm] at h; cases h
        | some t =>
          cases hg : cs.get? i with
          | none => rw [hm, hg] at h; cases h
          | some c =>
            rw [hm, hg] at h
            simp only [Option.bind_eq_bind, Option.bind_some, put_nil] at h ⊢
            cases hf : f c with
            | none => rw [hf] at h; cases h
            | some c' =>
              rw [hf] at h
              exact ⟨t, c, c', by simp [ITy.child?, hm], by simp [get, hg], hf, h⟩
      · rw [if_neg he] at h; cases h
    | union n ms =>
      simp only [put] at h ⊢
      by_cases he : m = none ∨ m = some i
      · rw [if_pos he] at h
        simp only [if_pos he]
        cases hm : ms.get? i with
        | none => rw [hm] at h; cases h
        | some t =>
          cases hg : cs.get? i with
          | none => rw [hm, hg] at h; cases h
          | some c =>
            rw [hm, hg] at h
            simp only [Option.bind_eq_bind, Option.bind_some, put_nil] at h ⊢
            cases hf : f c with
            | none => rw [hf] at h; cases h
            | some c' =>
              rw [hf] at h
              exact ⟨t, c, c', by simp [ITy.child?, hm], by simp [get, hg], hf, h⟩
      · rw [if_neg he] at h; cases h

theorem get_cons (x : Ini α) (i : Nat) (p : Path) : get x (i :: p) = (get x [i]).bind (get · p) := by
  cases x with
  | mk e m cs =>
    simp only [get]
    cases cs.get? i <;> rfl

theorem get_append : ∀ (p q : Path) (x : Ini α), get x (p ++ q) = (get x p).bind (get · q)
  | [], q, x => by cases x; rfl
  | i :: p, q, x => by
    rw [List.cons_append, get_cons, get_cons x i p]
    cases get x [i] with
    | none => rfl
    | some c => exact get_append p q c

/-- After `put` at a child. -/
theorem put_put_one {T : ITy} {i : Nat} {a x y : Ini α} (h : put T [i] (fun _ => some a) x = some y) :
    get y [i] = some a ∧ ∀ G, put T [i] G y = put T [i] (fun _ => G a) x := by
  cases x with
  | mk e m cs =>
    cases T with
    | sc t => cases h
    | arr b n =>
      simp only [put] at h
      by_cases hi : i < n
      · rw [if_pos hi] at h
        cases hg : cs.get? i with
        | none => rw [hg] at h; cases h
        | some c =>
          rw [hg] at h; cases h
          refine ⟨by simp [get, get?_setI cs i c a hg], fun G => ?_⟩
          simp only [put, if_pos hi, get?_setI cs i c a hg, hg, Option.bind_eq_bind, Option.bind_some, put_nil, setI_setI]
      · rw [if_neg hi] at h; cases h
    | struc n ms =>
      simp only [put] at h
      by_cases he : e.isNone = true
      · rw [if_pos he] at h
        cases hm : ms.get? i with
        | none => rw [hm] at h; cases h
        | some t =>
          cases hg : cs.get? i with
          | none => rw [hm, hg] at h; cases h
          | some c =>
            rw [hm, hg] at h; cases h
            refine ⟨by simp [get, get?_setI cs i c a hg], fun G => ?_⟩
            simp only [put, if_pos he, hm, get?_setI cs i c a hg, hg, Option.bind_eq_bind, Option.bind_some, put_nil, setI_setI]
      · rw [if_neg he] at h; cases h
    | union n ms =>
      simp only [put] at h
      by_cases he : m = none ∨ m = some i
      · rw [if_pos he] at h
        cases hm : ms.get? i with
        | none => rw [hm] at h; cases h
        | some t =>
          cases hg : cs.get? i with
          | none => rw [hm, hg] at h; cases h
          | some c =>
            rw [hm, hg] at h; cases h
            refine ⟨by simp [get, get?_setI cs i c a hg], fun G => ?_⟩
            simp only [put, if_pos he, hm, get?_setI cs i c a hg, hg, Option.bind_eq_bind, Option.bind_some, put_nil, setI_setI, or_true, if_true]
      · rw [if_neg he] at h; cases h

theorem put_some : ∀ (p : Path) (T : ITy) (f : Ini α → Option (Ini α)) (t t1 : Ini α), put T p f t = some t1 →
    ∃ x x1, get t p = some x ∧ f x = some x1 ∧ put T p (fun _ => some x1) t = some t1
  | [], T, f, t, t1, h => by
    rw [put_nil] at h
    exact ⟨t, t1, by cases t; rfl, h, by rw [put_nil]⟩
  | i :: p, T, f, t, t1, h => by
    rw [put_cons] at h
    cases hc : T.child? i with
    | none => rw [hc] at h; cases h
    | some U =>
      rw [hc] at h
      simp only [Option.bind_some] at h
      obtain ⟨U', c, c', hU, hg, hf, hp⟩ := put_one h
      obtain ⟨x, x1, h1, h2, h3⟩ := put_some p U f c c' hf
      refine ⟨x, x1, by rw [get_cons, hg]; exact h1, h2, ?_⟩
      rw [put_cons, hc]
      simp only [Option.bind_some]
      have := put_put_one hp
      -- same child, same result
      cases t with
      | mk e m cs =>
        simp only [get] at hg
        cases hg' : cs.get? i with
        | none => rw [hg'] at hg; cases hg
        | some c0 =>
          rw [hg'] at hg; cases hg
          cases T with
          | sc t => cases hc
          | arr b n => simp only [put, hg', Option.bind_eq_bind, Option.bind_some, put_nil, h3] at hp ⊢; exact hp
          | struc n ms => simp only [put, hg', Option.bind_eq_bind, Option.bind_some, put_nil, h3] at hp ⊢; exact hp
          | union n ms => simp only [put, hg', Option.bind_eq_bind, Option.bind_some, put_nil, h3] at hp ⊢; exact hp

/-- `put` only looks at the part it changes. -/
theorem put_one_eq {T : ITy} {i : Nat} {x c : Ini α} (hg : get x [i] = some c) (f g : Ini α → Option (Ini α)) (h : f c = g c) : put T [i] f x = put T [i] g x := by
  cases x with
  | mk e m cs =>
    simp only [get] at hg
    cases hg' : cs.get? i with
    | none => rw [hg'] at hg; cases hg
    | some c0 =>
      rw [hg'] at hg; cases hg
      cases T with
      | sc t => rfl
      | arr b n => simp only [put, hg', Option.bind_eq_bind, Option.bind_some, put_nil, h]
      | struc n ms => simp only [put, hg', Option.bind_eq_bind, Option.bind_some, put_nil, h]
      | union n ms => simp only [put, hg', Option.bind_eq_bind, Option.bind_some, put_nil, h]

theorem put_eq : ∀ (p : Path) (T : ITy) (x c : Ini α) (f g : Ini α → Option (Ini α)), get x p = some c → f c = g c → put T p f x = put T p g x
  | [], T, x, c, f, g, hg, h => by
    rw [put_nil, put_nil]
    have : x = c := by cases x; exact Option.some.inj hg
    rw [this, h]
  | i :: p, T, x, c, f, g, hg, h => by
    rw [put_cons, put_cons T i p g]
    cases hc : T.child? i with
    | none => rfl
    | some U =>
      simp only [Option.bind_some]
      rw [get_cons] at hg
      cases hg1 : get x [i] with
      | none => rw [hg1] at hg; cases hg
      | some d =>
        rw [hg1] at hg
        exact put_one_eq hg1 _ _ (put_eq p U d c f g hg h)

theorem put_put : ∀ (p : Path) (T : ITy) (a t t1 : Ini α), put T p (fun _ => some a) t = some t1 →
    get t1 p = some a ∧ ∀ G, put T p G t1 = put T p (fun _ => G a) t
  | [], T, a, t, t1, h => by
    rw [put_nil] at h; cases h
    exact ⟨by cases a; rfl, fun G => by rw [put_nil, put_nil]⟩
  | i :: p, T, a, t, t1, h => by
    rw [put_cons] at h
    cases hc : T.child? i with
    | none => rw [hc] at h; cases h
    | some U =>
      rw [hc] at h
      simp only [Option.bind_some] at h
      obtain ⟨U', c, c', hU, hg, hf, hp⟩ := put_one h
      obtain ⟨h1, h2⟩ := put_put p U a c c' hf
      obtain ⟨h3, h4⟩ := put_put_one hp
      refine ⟨by rw [get_cons, h3]; exact h1, fun G => ?_⟩
      rw [put_cons, put_cons T i p, hc]
      simp only [Option.bind_some]
      rw [h4]
      exact put_one_eq hg _ _ (h2 G)

end Toycc.Ip
