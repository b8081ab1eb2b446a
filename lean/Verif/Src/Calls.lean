import Verif.Stm.Body
import Verif.Stm.Props
/-! An expression makes its calls with no more stack slots in use than it needs. -/
namespace Toycc.Src
open Toycc.Rv Toycc.Cg
open Toycc.Stm (SStmt Use Ev Res Out End evC run)

variable {E : CEnv} {c : W → Nat → Ty → List (Ty × Int) → Mem → Option (Int × Mem)} {D : Nat}

mutual
theorem evalC_calls (hc : ∀ a k ty vs m, k ≤ D → c a k ty vs m = E.call a k ty vs m) :
    ∀ (e : Expr) (ad : Bool) (d : Nat), d + need e ≤ D → evalC { E with call := c } ad d e = evalC E ad d e
  | .null, ad, d, h => by funext m; simp only [evalC]
  | .num _ _, ad, d, h => by funext m; simp only [evalC]
  | .neg _ e, ad, d, h => by
    simp only [need] at h
    funext m
    simp only [evalC, evalC_calls hc e false d h]
  | .var _ _, ad, d, h => by funext m; simp only [evalC]; rfl
  | .member _ e, ad, d, h => by
    simp only [need] at h
    funext m
    simp only [evalC, evalC_calls hc e true d h]; rfl
  | .deref _ e, ad, d, h => by
    simp only [need] at h
    funext m
    simp only [evalC, evalC_calls hc e false d h]; rfl
  | .addr e, ad, d, h => by
    simp only [need] at h
    funext m
    simp only [evalC, evalC_calls hc e true d h]
  | .assign _ l r, ad, d, h => by
    simp only [need] at h
    funext m
    simp only [evalC, evalC_calls hc l true d (by omega), evalC_calls hc r false (d + 1) (by omega)]; rfl
  | .comma l r, ad, d, h => by
    simp only [need] at h
    funext m
    simp only [evalC, evalC_calls hc l false d (by omega), evalC_calls hc r ad d (by omega)]
  | .cast _ e, ad, d, h => by
    simp only [need] at h
    funext m
    simp only [evalC, evalC_calls hc e false d h]
  | .memzero _ _, ad, d, h => by funext m; simp only [evalC]; rfl
  | .cond _ x y z, ad, d, h => by
    simp only [need] at h
    funext m
    simp only [evalC, evalC_calls hc x false d (by omega), evalC_calls hc y false d (by omega), evalC_calls hc z false d (by omega)]
  | .not e, ad, d, h => by
    simp only [need] at h
    funext m
    simp only [evalC, evalC_calls hc e false d h]
  | .bitnot e, ad, d, h => by
    simp only [need] at h
    funext m
    simp only [evalC, evalC_calls hc e false d h]
  | .logand l r, ad, d, h => by
    simp only [need] at h
    funext m
    simp only [evalC, evalC_calls hc l false d (by omega), evalC_calls hc r false d (by omega)]
  | .logor l r, ad, d, h => by
    simp only [need] at h
    funext m
    simp only [evalC, evalC_calls hc l false d (by omega), evalC_calls hc r false d (by omega)]
  | .bin _ _ l r, ad, d, h => by
    simp only [need] at h
    funext m
    simp only [evalC, evalC_calls hc l false (d + 1) (by omega), evalC_calls hc r false d (by omega)]
  | .vlaPtr _, ad, d, h => by funext m; simp only [evalC]
  | .call _ f args, ad, d, h => by
    simp only [need] at h
    have h1 := evalArgsC_calls hc args (d + (d + (args.length - 8)) % 2) (by omega)
    have h2 := evalC_calls hc f false (d + (d + (args.length - 8)) % 2 + args.length) (by omega)
    funext m
    simp only [evalC, h1, h2, hc _ _ _ _ _ (show callSlots d args.length ≤ D by unfold callSlots; omega)]
theorem evalArgsC_calls (hc : ∀ a k ty vs m, k ≤ D → c a k ty vs m = E.call a k ty vs m) :
    ∀ (l : Exprs) (d : Nat), d + needs l ≤ D → evalArgsC { E with call := c } d l = evalArgsC E d l
  | .nil, d, h => by funext m; simp only [evalArgsC]
  | .cons e r, d, h => by
    simp only [needs] at h
    funext m
    simp only [evalArgsC, evalArgsC_calls hc r d (by omega), evalC_calls hc e false (d + r.length) (by omega)]
end

/-- The same for bodies of functions. -/
theorem run_calls (hc : ∀ a k ty vs m, k ≤ D → c a k ty vs m = E.call a k ty vs m) {s : SStmt} (hs : ∀ p ∈ s.uses, need p.2 ≤ D) {n : Nat} {m m' : Mem} {e : End}
    (h : run (evC { E with call := c } 0) n none s m = .done e m') : run (evC E 0) n none s m = .done e m' := by
  have := Stm.run_agree (ev := evC { E with call := c } 0) (ev' := evC E 0) s (by
    intro p hp m r hr
    unfold evC at hr ⊢
    rw [← evalC_calls hc p.2 false 0 (by have := hs p hp; omega)]
    exact hr) n none m
  rw [h] at this
  rcases this with h | h
  · cases h
  · exact h

end Toycc.Src
