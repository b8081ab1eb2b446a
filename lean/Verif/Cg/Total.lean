import Verif.Cg.Simple
/-! Expressions of the simple class are accepted by the code generator. -/
namespace Toycc.Cg
open Toycc.Rv

mutual
theorem gen_total : ∀ (e : Expr) (ad : Bool) (gs : GS), simple ad e = true → ∃ c gs', gen ad e gs = some (c, gs')
  | .null, ad, gs, h => by cases ad <;> simp_all [simple, gen]
  | .num _ _, ad, gs, h => by cases ad <;> simp_all [simple, gen]
  | .neg t e, ad, gs, h => by
    simp only [simple, Bool.and_eq_true, Bool.not_eq_true'] at h
    obtain ⟨c, s, e1⟩ := gen_total e false gs h.1.2
    exact ⟨_, _, by simp only [gen, h.1.1.1, e1]; rfl⟩
  | .var t x, ad, gs, h => ⟨_, _, rfl⟩
  | .member f e, ad, gs, h => by
    simp only [simple, Bool.and_eq_true] at h
    obtain ⟨c, s, e1⟩ := gen_total e true gs h.1.2
    simp only [gen, e1, Option.bind_eq_bind, Option.bind_some]
    split
    · exact ⟨_, _, rfl⟩
    · split <;> exact ⟨_, _, rfl⟩
  | .deref t e, ad, gs, h => by
    simp only [simple, Bool.and_eq_true] at h
    obtain ⟨c, s, e1⟩ := gen_total e false gs h.1.1
    exact ⟨_, _, by simp only [gen, e1]; rfl⟩
  | .addr e, ad, gs, h => by
    simp only [simple, Bool.and_eq_true, Bool.not_eq_true'] at h
    obtain ⟨c, s, e1⟩ := gen_total e true gs h.1.2
    exact ⟨_, _, by simp only [gen, h.1.1, e1]; rfl⟩
  | .assign t l r, ad, gs, h => by
    simp only [simple, Bool.and_eq_true] at h
    obtain ⟨⟨⟨⟨⟨⟨h0, h1⟩, h2⟩, h3⟩, h4⟩, h5⟩, h6⟩ := h
    have hc : (ad && !t.isStruct) = false := by revert h0; cases ad <;> cases t.isStruct <;> simp
    obtain ⟨c, s, e1⟩ := gen_total l true gs h1
    obtain ⟨c2, s2, e2⟩ := gen_total r false s.push h3
    simp only [gen, hc, Bool.false_eq_true, if_false, e1, Option.bind_eq_bind, Option.bind_some, e2]
    split <;> exact ⟨_, _, rfl⟩
  | .comma l r, ad, gs, h => by
    simp only [simple, Bool.and_eq_true] at h
    obtain ⟨c, s, e1⟩ := gen_total l false gs h.1
    obtain ⟨c2, s2, e2⟩ := gen_total r ad s h.2
    exact ⟨_, _, by simp only [gen, e1, Option.bind_eq_bind, Option.bind_some, e2]; rfl⟩
  | .cast t e, ad, gs, h => by
    simp only [simple, Bool.or_eq_true, Bool.and_eq_true, Bool.not_eq_true'] at h
    have h' : ad = false ∧ simple false e = true := by
      rcases h with h | h
      · exact ⟨h.1.1.1, h.1.1.2⟩
      · exact ⟨h.1.1, h.1.2⟩
    obtain ⟨c, s, e1⟩ := gen_total e false gs h'.2
    exact ⟨_, _, by simp only [gen, h'.1, e1]; rfl⟩
  | .memzero _ _, ad, gs, h => by cases ad <;> simp_all [simple, gen]
  | .cond t a b e, ad, gs, h => by
    simp only [simple, Bool.and_eq_true] at h
    obtain ⟨⟨⟨⟨⟨h0, h1⟩, h2⟩, h3⟩, h4⟩, h5⟩ := h
    have hc : (ad && !t.isStruct) = false := by revert h0; cases ad <;> cases t.isStruct <;> simp
    obtain ⟨c, s, e1⟩ := gen_total a false gs.next h1
    obtain ⟨c2, s2, e2⟩ := gen_total b false s h3
    obtain ⟨c3, s3, e3⟩ := gen_total e false s2 h4
    exact ⟨_, _, by simp only [gen, hc, Bool.false_eq_true, if_false, e1, Option.bind_eq_bind, Option.bind_some, e2, e3]; rfl⟩
  | .not e, ad, gs, h => by
    simp only [simple, Bool.and_eq_true, Bool.not_eq_true'] at h
    obtain ⟨c, s, e1⟩ := gen_total e false gs h.1.2
    exact ⟨_, _, by simp only [gen, h.1.1, e1]; rfl⟩
  | .bitnot e, ad, gs, h => by
    simp only [simple, Bool.and_eq_true, Bool.not_eq_true'] at h
    obtain ⟨c, s, e1⟩ := gen_total e false gs h.1.1.2
    exact ⟨_, _, by simp only [gen, h.1.1.1, e1]; rfl⟩
  | .logand l r, ad, gs, h => by
    simp only [simple, Bool.and_eq_true, Bool.not_eq_true'] at h
    obtain ⟨c, s, e1⟩ := gen_total l false gs.next h.1.1.1.2
    obtain ⟨c2, s2, e2⟩ := gen_total r false s h.1.2
    exact ⟨_, _, by simp only [gen, h.1.1.1.1, Bool.false_eq_true, if_false, e1, Option.bind_eq_bind, Option.bind_some, e2]; rfl⟩
  | .logor l r, ad, gs, h => by
    simp only [simple, Bool.and_eq_true, Bool.not_eq_true'] at h
    obtain ⟨c, s, e1⟩ := gen_total l false gs.next h.1.1.1.2
    obtain ⟨c2, s2, e2⟩ := gen_total r false s h.1.2
    exact ⟨_, _, by simp only [gen, h.1.1.1.1, Bool.false_eq_true, if_false, e1, Option.bind_eq_bind, Option.bind_some, e2]; rfl⟩
  | .bin op t l r, ad, gs, h => by
    simp only [simple, Bool.and_eq_true, Bool.not_eq_true'] at h
    obtain ⟨⟨⟨⟨⟨rfl, h1⟩, h2⟩, h3⟩, h4⟩, h5⟩ := h
    obtain ⟨c, s, e1⟩ := gen_total r false gs h3
    obtain ⟨c2, s2, e2⟩ := gen_total l false s.push h1
    exact ⟨_, _, by simp only [gen, Bool.false_eq_true, if_false, e1, Option.bind_eq_bind, Option.bind_some, e2]; rfl⟩
  | .vlaPtr _, ad, gs, h => by cases ad <;> simp_all [simple, gen]
  | .call t f args, ad, gs, h => by
    simp only [simple, Bool.and_eq_true, Bool.not_eq_true'] at h
    obtain ⟨⟨⟨⟨⟨rfl, h0⟩, h1⟩, h2⟩, h3⟩, h4⟩ := h
    simp only [gen, h0, Bool.false_eq_true, if_false, Option.bind_eq_bind]
    obtain ⟨c1, s1, e1⟩ := genArgs_total args true 0 { gs with depth := gs.depth + (gs.depth + (args.length - 8)) % 2 } h4
    obtain ⟨c2, s2, e2⟩ := genArgs_total args false 0 s1 h4
    obtain ⟨c3, s3, e3⟩ := gen_total f false s2 h2
    exact ⟨_, _, by simp only [e1, e2, e3, Option.bind_some]; rfl⟩
theorem genArgs_total : ∀ (a : Exprs) (first : Bool) (i : Nat) (gs : GS), simples a = true → ∃ c gs', genArgs first i a gs = some (c, gs')
  | .nil, first, i, gs, h => ⟨_, _, rfl⟩
  | .cons e r, first, i, gs, h => by
    simp only [simples, Bool.and_eq_true] at h
    obtain ⟨c1, s1, e1⟩ := genArgs_total r first (i + 1) gs h.2
    obtain ⟨c2, s2, e2⟩ := gen_total e false s1 h.1.1
    simp only [genArgs, e1, Option.bind_eq_bind, Option.bind_some]
    split
    · exact ⟨_, _, rfl⟩
    · exact ⟨_, _, by simp only [e2, Option.bind_some]; rfl⟩
end

end Toycc.Cg
