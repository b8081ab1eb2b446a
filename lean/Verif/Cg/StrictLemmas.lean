import Verif.Cg.Strict
/-! Strict evaluation returns C's value. -/
namespace Toycc.Cg
open Toycc.Rv

theorem guard_eq {b : Bool} {u : Unit} : guard b = some u ↔ b = true := by
  cases b <;> simp [guard]

theorem bindSome {α β : Type} {o : Option α} {f : α → Option β} {b : β} :
    (o >>= f) = some b ↔ ∃ a, o = some a ∧ f a = some b := by
  cases o <;> simp

theorem binS_binC {op ty lt x fx y fy v f} (h : binS op ty lt x fx y fy = some (v, f)) : binC op ty x y = some v := by
  simp only [binS, bindSome] at h
  obtain ⟨w, h1, h2⟩ := h
  suffices w = v by rw [h1, this]
  cases op <;> simp only at h2 <;> (repeat' split at h2) <;>
    (simp only [bindSome, Option.some.injEq, Prod.mk.injEq, reduceCtorEq, false_and, and_false, exists_false, exists_const] at h2) <;>
    grind

theorem castS_convC {a t v f w g} (h : castS a t v f = some (w, g)) : (if t = .void then 0 else convC t v) = w := by
  unfold castS at h
  split at h
  · simp at h; simp [h]
  · simp only [bindSome] at h; grind
  · rename_i h1 h2
    simp only [bindSome] at h
    obtain ⟨_, _, h⟩ := h
    rw [if_neg h1]
    split at h
    · grind
    · split at h <;> simp only [bindSome] at h <;> grind

theorem assignS_assignC {E bf t a v f m v' g m'} (h : assignS E bf t a v f m = some (v', g, m')) :
    assignC E bf t a v m = some (v', m') := by
  simp only [assignS, bindSome] at h
  obtain ⟨⟨w, m1⟩, h1, h2⟩ := h
  simp only at h2
  split at h2 <;> (try split at h2) <;> simp only [bindSome] at h2 <;> grind

theorem loadBitsS_loadBitsC {E t o w m a v f} (h : loadBitsS E t o w m a = some (v, f)) :
    loadBitsC E t o w m a = some v := by
  simp only [loadBitsS, bindSome] at h
  grind

theorem fieldS_fieldC {E f m a v g} (h : fieldS E f m a = some (v, g)) : fieldC E f m a = some v := by
  unfold fieldS at h
  unfold fieldC
  split at h
  · rename_i hb
    simp only [hb]
    simp only [Option.map_eq_some_iff] at h
    obtain ⟨w, h1, h2⟩ := h
    grind
  · rename_i hb; simp only [hb]; exact loadBitsS_loadBitsC h

mutual
theorem evalS_evalC (E : CEnv) : ∀ (e : Expr) (ad : Bool) (d : Nat) (m : Mem) (v : Int) (f : Ext) (m' : Mem),
    evalS E ad d e m = some (v, f, m') → evalC E ad d e m = some (v, m')
  | .null, ad, d, m, v, f, m', h => by simp only [evalS, evalC] at h ⊢; split at h <;> simp_all
  | .num _ _, ad, d, m, v, f, m', h => by
    simp only [evalS, evalC] at h ⊢
    split at h
    · simp at h
    · simp only [bindSome] at h; grind
  | .neg ty e, ad, d, m, v, f, m', h => by
    simp only [evalS, evalC] at h ⊢
    split at h
    · simp at h
    · simp only [bindSome] at h
      obtain ⟨⟨x, fx, m1⟩, h1, r, h2, u, -, h3⟩ := h
      rw [if_neg (by assumption), evalS_evalC E e _ _ _ _ _ _ h1]
      simp only [Option.bind_eq_bind, Option.bind_some, h2]
      split at h3 <;> (simp only [bindSome] at h3; grind)
  | .var ty x, ad, d, m, v, f, m', h => by
    simp only [evalS, evalC, bindSome] at h ⊢
    obtain ⟨a, h1, h2⟩ := h
    refine ⟨a, h1, ?_⟩
    split at h2
    · simp_all
    · rename_i hn
      simp only [bindSome, if_neg hn] at h2 ⊢
      grind
  | .member fl e, ad, d, m, v, f, m', h => by
    simp only [evalS, evalC, bindSome] at h ⊢
    obtain ⟨⟨a, x, m1⟩, h1, u, -, h2⟩ := h
    refine ⟨(a, m1), evalS_evalC E e _ _ _ _ _ _ h1, ?_⟩
    simp only at h2 ⊢
    split at h2
    · rename_i ha; rw [if_pos ha]; grind
    · rename_i ha; rw [if_neg ha]
      simp only [bindSome] at h2 ⊢
      obtain ⟨⟨w, g⟩, h3, h4⟩ := h2
      exact ⟨w, fieldS_fieldC h3, by grind⟩
  | .deref ty e, ad, d, m, v, f, m', h => by
    simp only [evalS, evalC, bindSome] at h ⊢
    obtain ⟨⟨a, x, m1⟩, h1, u, -, h2⟩ := h
    refine ⟨(a, m1), evalS_evalC E e _ _ _ _ _ _ h1, ?_⟩
    simp only at h2 ⊢
    split at h2
    · rename_i ha; rw [if_pos ha]; grind
    · rename_i ha; rw [if_neg ha]
      simp only [bindSome] at h2 ⊢
      grind
  | .addr e, ad, d, m, v, f, m', h => by
    simp only [evalS, evalC] at h ⊢
    split at h
    · simp at h
    · rw [if_neg (by assumption)]; exact evalS_evalC E e _ _ _ _ _ _ h
  | .assign ty l r, ad, d, m, v, f, m', h => by
    simp only [evalS, evalC] at h ⊢
    split at h
    · simp at h
    · rw [if_neg (by assumption)]
      simp only [bindSome] at h ⊢
      obtain ⟨⟨a, x, m1⟩, h1, u, -, ⟨w, g, m2⟩, h2, h3⟩ := h
      exact ⟨(a, m1), evalS_evalC E l _ _ _ _ _ _ h1, (w, m2), evalS_evalC E r _ _ _ _ _ _ h2, assignS_assignC h3⟩
  | .comma l r, ad, d, m, v, f, m', h => by
    simp only [evalS, evalC, bindSome] at h ⊢
    obtain ⟨⟨a, x, m1⟩, h1, h2⟩ := h
    exact ⟨(a, m1), evalS_evalC E l _ _ _ _ _ _ h1, evalS_evalC E r _ _ _ _ _ _ h2⟩
  | .cast ty e, ad, d, m, v, f, m', h => by
    simp only [evalS, evalC] at h ⊢
    split at h
    · simp at h
    · rw [if_neg (by assumption)]
      simp only [bindSome] at h ⊢
      obtain ⟨⟨a, x, m1⟩, h1, ⟨w, g⟩, h2, h3⟩ := h
      refine ⟨(a, m1), evalS_evalC E e _ _ _ _ _ _ h1, ?_⟩
      have := castS_convC h2
      grind
  | .memzero off n, ad, d, m, v, f, m', h => by
    simp only [evalS, evalC] at h ⊢
    split at h
    · simp at h
    · rw [if_neg (by assumption)]
      split at h
      · rename_i hh; simp only [Bool.and_eq_true] at hh; rw [if_pos hh.1]; simp_all
      · simp at h
  | .cond ty c t e, ad, d, m, v, f, m', h => by
    simp only [evalS, evalC] at h ⊢
    split at h
    · simp at h
    · rw [if_neg (by assumption)]
      simp only [bindSome] at h ⊢
      obtain ⟨⟨a, x, m1⟩, h1, u, -, h2⟩ := h
      refine ⟨(a, m1), evalS_evalC E c _ _ _ _ _ _ h1, ?_⟩
      simp only at h2 ⊢
      split at h2
      · rw [if_pos (by assumption)]; exact evalS_evalC E t _ _ _ _ _ _ h2
      · rw [if_neg (by assumption)]; exact evalS_evalC E e _ _ _ _ _ _ h2
  | .not e, ad, d, m, v, f, m', h => by
    simp only [evalS, evalC] at h ⊢
    split at h
    · simp at h
    · rw [if_neg (by assumption)]
      simp only [bindSome] at h ⊢
      obtain ⟨⟨a, x, m1⟩, h1, u, -, h2⟩ := h
      exact ⟨(a, m1), evalS_evalC E e _ _ _ _ _ _ h1, by grind⟩
  | .bitnot e, ad, d, m, v, f, m', h => by
    simp only [evalS, evalC] at h ⊢
    split at h
    · simp at h
    · rw [if_neg (by assumption)]
      simp only [bindSome] at h ⊢
      obtain ⟨⟨a, x, m1⟩, h1, u, -, h2⟩ := h
      refine ⟨(a, m1), evalS_evalC E e _ _ _ _ _ _ h1, ?_⟩
      simp only at h2 ⊢
      split at h2
      · grind
      · simp only [bindSome] at h2; grind
  | .logand l r, ad, d, m, v, f, m', h => by
    simp only [evalS, evalC] at h ⊢
    split at h
    · simp at h
    · rw [if_neg (by assumption)]
      simp only [bindSome] at h ⊢
      obtain ⟨⟨a, x, m1⟩, h1, u, -, h2⟩ := h
      refine ⟨(a, m1), evalS_evalC E l _ _ _ _ _ _ h1, ?_⟩
      simp only at h2 ⊢
      split at h2
      · rename_i ha; rw [if_pos ha]; grind
      · rename_i ha; rw [if_neg ha]
        simp only [bindSome] at h2 ⊢
        obtain ⟨⟨b, y, m2⟩, h3, u, -, h4⟩ := h2
        exact ⟨(b, m2), evalS_evalC E r _ _ _ _ _ _ h3, by grind⟩
  | .logor l r, ad, d, m, v, f, m', h => by
    simp only [evalS, evalC] at h ⊢
    split at h
    · simp at h
    · rw [if_neg (by assumption)]
      simp only [bindSome] at h ⊢
      obtain ⟨⟨a, x, m1⟩, h1, u, -, h2⟩ := h
      refine ⟨(a, m1), evalS_evalC E l _ _ _ _ _ _ h1, ?_⟩
      simp only at h2 ⊢
      split at h2
      · rename_i ha; rw [if_pos ha]; grind
      · rename_i ha; rw [if_neg ha]
        simp only [bindSome] at h2 ⊢
        obtain ⟨⟨b, y, m2⟩, h3, u, -, h4⟩ := h2
        exact ⟨(b, m2), evalS_evalC E r _ _ _ _ _ _ h3, by grind⟩
  | .bin op ty l r, ad, d, m, v, f, m', h => by
    simp only [evalS, evalC] at h ⊢
    split at h
    · simp at h
    · rw [if_neg (by assumption)]
      simp only [bindSome] at h ⊢
      obtain ⟨⟨a, x, m1⟩, h1, u, -, ⟨b, y, m2⟩, h2, ⟨w, g⟩, h3, h4⟩ := h
      refine ⟨(a, m1), evalS_evalC E r _ _ _ _ _ _ h1, (b, m2), evalS_evalC E l _ _ _ _ _ _ h2, w, binS_binC h3, by grind⟩
  | .vlaPtr off, ad, d, m, v, f, m', h => by simp only [evalS, evalC] at h ⊢; split at h <;> simp_all
  | .call ty f args, ad, d, m, v, g, m', h => by
    simp only [evalS, evalC] at h ⊢
    split at h
    · simp at h
    · rename_i hn
      simp only [Bool.or_eq_true, not_or] at hn
      rw [if_neg hn.1]
      simp only [bindSome] at h ⊢
      obtain ⟨u, -, ⟨vs, m1⟩, h1, ⟨a, x, m2⟩, h2, u', -, ⟨w, m3⟩, h3, h4⟩ := h
      refine ⟨(vs, m1), evalArgsS_evalArgsC E args _ _ _ _ h1, (a, m2), evalS_evalC E f _ _ _ _ _ _ h2, by grind⟩
theorem evalArgsS_evalArgsC (E : CEnv) : ∀ (e : Exprs) (d : Nat) (m : Mem) (vs : List (Ty × Int)) (m' : Mem),
    evalArgsS E d e m = some (vs, m') → evalArgsC E d e m = some (vs, m')
  | .nil, d, m, vs, m', h => by simp only [evalArgsS, evalArgsC] at h ⊢; simp_all
  | .cons e r, d, m, vs, m', h => by
    simp only [evalArgsS, evalArgsC, bindSome] at h ⊢
    obtain ⟨⟨ws, m1⟩, h1, ⟨a, x, m2⟩, h2, u, -, h3⟩ := h
    exact ⟨(ws, m1), evalArgsS_evalArgsC E r _ _ _ _ h1, (a, m2), evalS_evalC E e _ _ _ _ _ _ h2, by grind⟩
end

end Toycc.Cg
