import Verif.Whole.Model
import Verif.Cg.ExprProof
import Verif.Stm.Machine
/-!
The code of a body does not depend on the two pushes of the prologue that `depth` counts: only its parity matters.
-/
namespace Toycc.Whole
open Toycc.Rv Toycc.Cg Toycc.Stm

/-- Two more slots. -/
def up (s : GS) : GS := ⟨s.cnt, s.depth + 2⟩

theorem up_push (s : GS) : (up s).push = up s.push := rfl
theorem up_next (s : GS) : (up s).next = up s.next := rfl
theorem up_pop {s : GS} (h : 0 < s.depth) : (up s).pop = up s.pop := by
  simp only [up, GS.pop, GS.mk.injEq, true_and]; omega

theorem up_varAddr (v : Var) (s : GS) : varAddr v (up s) = ((varAddr v s).1, up (varAddr v s).2) := by cases v <;> rfl

mutual
theorem gen_up : ∀ (e : Expr) (ad : Bool) (s : GS) (c : List Instr) (s' : GS), gen ad e s = some (c, s') → gen ad e (up s) = some (c, up s')
  | .null, ad, s, c, s', h => by
    simp only [gen] at h ⊢
    split at h
    · cases h
    · rename_i ha; rw [if_neg ha]; cases h; rfl
  | .num _ _, ad, s, c, s', h => by
    simp only [gen] at h ⊢
    split at h
    · cases h
    · rename_i ha; rw [if_neg ha]; cases h; rfl
  | .neg ty e, ad, s, c, s', h => by
    simp only [gen] at h ⊢
    split at h
    · cases h
    rename_i ha; rw [if_neg ha]
    simp only [bindSome, Option.some.injEq, Prod.mk.injEq] at h
    obtain ⟨⟨c1, s1⟩, h1, rfl, rfl⟩ := h
    rw [gen_up _ _ _ _ _ h1]; rfl
  | .var ty v, ad, s, c, s', h => by
    simp only [gen, Option.some.injEq, Prod.mk.injEq] at h ⊢
    rw [up_varAddr]
    exact ⟨h.1, by rw [← h.2]⟩
  | .member f e, ad, s, c, s', h => by
    simp only [gen] at h ⊢
    simp only [bindSome] at h
    obtain ⟨⟨c1, s1⟩, h1, h2⟩ := h
    rw [gen_up _ _ _ _ _ h1]
    dsimp only [Option.bind_eq_bind, Option.bind_some] at h2 ⊢
    split at h2
    · rename_i ha; rw [if_pos ha]; cases h2; rfl
    · rename_i ha; rw [if_neg ha]
      cases hb : f.bits with
      | none => rw [hb] at h2; cases h2; rfl
      | some p => rw [hb] at h2; cases h2; rfl
  | .deref ty e, ad, s, c, s', h => by
    simp only [gen] at h ⊢
    simp only [bindSome, Option.some.injEq, Prod.mk.injEq] at h
    obtain ⟨⟨c1, s1⟩, h1, rfl, rfl⟩ := h
    rw [gen_up _ _ _ _ _ h1]; rfl
  | .addr e, ad, s, c, s', h => by
    simp only [gen] at h ⊢
    split at h
    · cases h
    rename_i ha; rw [if_neg ha]
    exact gen_up _ _ _ _ _ h
  | .assign ty l r, ad, s, c, s', h => by
    simp only [gen] at h ⊢
    split at h
    · rename_i ha; rw [if_pos ha]; cases h; rfl
    rename_i ha; rw [if_neg ha]
    simp only [bindSome] at h
    obtain ⟨⟨c1, s1⟩, h1, ⟨c2, s2⟩, h2, h3⟩ := h
    have hd : 0 < s2.depth := by have := (gen_depth _ _ _ _ _ h2).1; simp only [GS.push] at this; omega
    rw [gen_up _ _ _ _ _ h1]
    dsimp only [Option.bind_eq_bind, Option.bind_some] at h3 ⊢
    rw [up_push, gen_up _ _ _ _ _ h2]
    dsimp only [Option.bind_eq_bind, Option.bind_some] at h3 ⊢
    rw [up_pop hd]
    cases hb : l.bitfield with
    | none => rw [hb] at h3; cases h3; rfl
    | some p => rw [hb] at h3; cases h3; rfl
  | .comma l r, ad, s, c, s', h => by
    simp only [gen] at h ⊢
    simp only [bindSome, Option.some.injEq, Prod.mk.injEq] at h
    obtain ⟨⟨c1, s1⟩, h1, ⟨c2, s2⟩, h2, rfl, rfl⟩ := h
    rw [gen_up _ _ _ _ _ h1]
    dsimp only [Option.bind_eq_bind, Option.bind_some]
    rw [gen_up _ _ _ _ _ h2]; rfl
  | .cast ty e, ad, s, c, s', h => by
    simp only [gen] at h ⊢
    split at h
    · cases h
    rename_i ha; rw [if_neg ha]
    simp only [bindSome, Option.some.injEq, Prod.mk.injEq] at h
    obtain ⟨⟨c1, s1⟩, h1, rfl, rfl⟩ := h
    rw [gen_up _ _ _ _ _ h1]; rfl
  | .memzero off n, ad, s, c, s', h => by
    simp only [gen] at h ⊢
    split at h
    · cases h
    · rename_i ha; rw [if_neg ha]; cases h; rfl
  | .cond ty x t e, ad, s, c, s', h => by
    simp only [gen] at h ⊢
    split at h
    · rename_i ha; rw [if_pos ha]; cases h; rfl
    rename_i ha; rw [if_neg ha]
    simp only [bindSome, Option.some.injEq, Prod.mk.injEq] at h
    obtain ⟨⟨c1, s1⟩, h1, ⟨c2, s2⟩, h2, ⟨c3, s3⟩, h3, rfl, rfl⟩ := h
    rw [up_next, gen_up _ _ _ _ _ h1]
    dsimp only [Option.bind_eq_bind, Option.bind_some]
    rw [gen_up _ _ _ _ _ h2]
    dsimp only [Option.bind_eq_bind, Option.bind_some]
    rw [gen_up _ _ _ _ _ h3]; rfl
  | .not e, ad, s, c, s', h => by
    simp only [gen] at h ⊢
    split at h
    · cases h
    rename_i ha; rw [if_neg ha]
    simp only [bindSome, Option.some.injEq, Prod.mk.injEq] at h
    obtain ⟨⟨c1, s1⟩, h1, rfl, rfl⟩ := h
    rw [gen_up _ _ _ _ _ h1]; rfl
  | .bitnot e, ad, s, c, s', h => by
    simp only [gen] at h ⊢
    split at h
    · cases h
    rename_i ha; rw [if_neg ha]
    simp only [bindSome, Option.some.injEq, Prod.mk.injEq] at h
    obtain ⟨⟨c1, s1⟩, h1, rfl, rfl⟩ := h
    rw [gen_up _ _ _ _ _ h1]; rfl
  | .logand l r, ad, s, c, s', h => by
    simp only [gen] at h ⊢
    split at h
    · cases h
    rename_i ha; rw [if_neg ha]
    simp only [bindSome, Option.some.injEq, Prod.mk.injEq] at h
    obtain ⟨⟨c1, s1⟩, h1, ⟨c2, s2⟩, h2, rfl, rfl⟩ := h
    rw [up_next, gen_up _ _ _ _ _ h1]
    dsimp only [Option.bind_eq_bind, Option.bind_some]
    rw [gen_up _ _ _ _ _ h2]; rfl
  | .logor l r, ad, s, c, s', h => by
    simp only [gen] at h ⊢
    split at h
    · cases h
    rename_i ha; rw [if_neg ha]
    simp only [bindSome, Option.some.injEq, Prod.mk.injEq] at h
    obtain ⟨⟨c1, s1⟩, h1, ⟨c2, s2⟩, h2, rfl, rfl⟩ := h
    rw [up_next, gen_up _ _ _ _ _ h1]
    dsimp only [Option.bind_eq_bind, Option.bind_some]
    rw [gen_up _ _ _ _ _ h2]; rfl
  | .bin op ty l r, ad, s, c, s', h => by
    simp only [gen] at h ⊢
    split at h
    · cases h
    rename_i ha; rw [if_neg ha]
    simp only [bindSome, Option.some.injEq, Prod.mk.injEq] at h
    obtain ⟨⟨c1, s1⟩, h1, ⟨c2, s2⟩, h2, rfl, rfl⟩ := h
    have hd : 0 < s2.depth := by have := (gen_depth _ _ _ _ _ h2).1; simp only [GS.push] at this; omega
    rw [gen_up _ _ _ _ _ h1]
    dsimp only [Option.bind_eq_bind, Option.bind_some]
    rw [up_push, gen_up _ _ _ _ _ h2]
    dsimp only [Option.bind_eq_bind, Option.bind_some]
    rw [up_pop hd]
  | .vlaPtr off, ad, s, c, s', h => by
    simp only [gen] at h ⊢
    split at h
    · rename_i ha; rw [if_pos ha]; cases h; rfl
    · cases h
  | .call ty f args, ad, s, c, s', h => by
    simp only [gen] at h ⊢
    split at h
    · rename_i ha; rw [if_pos ha]; cases h; rfl
    rename_i ha; rw [if_neg ha]
    split at h
    · cases h
    rename_i hb; rw [if_neg hb]
    simp only [bindSome, Option.some.injEq, Prod.mk.injEq] at h
    obtain ⟨⟨c1, s1⟩, h1, ⟨c2, s2⟩, h2, ⟨c3, s3⟩, h3, rfl, rfl⟩ := h
    have hp : ((up s).depth + (args.length - 8)) % 2 = (s.depth + (args.length - 8)) % 2 := by simp only [up]; omega
    have hu : ({ up s with depth := (up s).depth + (s.depth + (args.length - 8)) % 2 } : GS) = up { s with depth := s.depth + (s.depth + (args.length - 8)) % 2 } := by
      simp only [up, GS.mk.injEq, true_and]; omega
    rw [hp]
    dsimp only
    rw [hu, genArgs_up _ _ _ _ _ _ h1]
    dsimp only [Option.bind_eq_bind, Option.bind_some]
    rw [genArgs_up _ _ _ _ _ _ h2]
    dsimp only [Option.bind_eq_bind, Option.bind_some]
    rw [gen_up _ _ _ _ _ h3]
    have d1 := (genArgs_depth _ _ _ _ _ _ h1).1
    have d2 := (genArgs_depth _ _ _ _ _ _ h2).1
    have d3 := (gen_depth _ _ _ _ _ h3).1
    simp only [if_true, Bool.false_eq_true, if_false, Nat.zero_add, Nat.zero_sub, Nat.zero_min, Nat.sub_zero] at d1 d2
    dsimp only [Option.bind_eq_bind, Option.bind_some]
    congr 2
    simp only [up, GS.mk.injEq, true_and]
    dsimp only at d1 d2 d3 ⊢
    omega
theorem genArgs_up : ∀ (a : Exprs) (first : Bool) (i : Nat) (s : GS) (c : List Instr) (s' : GS), genArgs first i a s = some (c, s') →
    genArgs first i a (up s) = some (c, up s')
  | .nil, first, i, s, c, s', h => by
    simp only [genArgs, Option.some.injEq, Prod.mk.injEq] at h ⊢
    exact ⟨h.1, by rw [h.2]⟩
  | .cons e r, first, i, s, c, s', h => by
    simp only [genArgs] at h ⊢
    simp only [bindSome] at h
    obtain ⟨⟨c1, s1⟩, h1, h2⟩ := h
    rw [genArgs_up _ _ _ _ _ _ h1]
    dsimp only [Option.bind_eq_bind, Option.bind_some] at h2 ⊢
    split at h2
    · rename_i ha; rw [if_pos ha]; cases h2; rfl
    rename_i ha; rw [if_neg ha]
    simp only [Option.bind_eq_some_iff] at h2
    obtain ⟨⟨c2, s2⟩, h3, h4⟩ := h2
    cases h4
    rw [gen_up _ _ _ _ _ h3]; rfl
end

theorem genList_up : ∀ (l : List Expr) (s : GS) (c : List Instr) (s' : GS), genList l s = some (c, s') → genList l (up s) = some (c, up s')
  | [], s, c, s', h => by simp only [genList, Option.some.injEq, Prod.mk.injEq] at h ⊢; exact ⟨h.1, by rw [h.2]⟩
  | e :: r, s, c, s', h => by
    simp only [genList] at h ⊢
    simp only [bindSome, Option.some.injEq, Prod.mk.injEq] at h
    obtain ⟨⟨c1, s1⟩, h1, ⟨c2, s2⟩, h2, rfl, rfl⟩ := h
    rw [gen_up _ _ _ _ _ h1]
    dsimp only [Option.bind_eq_bind, Option.bind_some]
    rw [genList_up _ _ _ _ h2]; rfl

theorem genCond_up {b : Label} {e : Option Expr} {s : GS} {c : List Instr} {s' : GS} (h : genCond b e s = some (c, s')) :
    genCond b e (up s) = some (c, up s') := by
  cases e with
  | none => simp only [genCond, Option.some.injEq, Prod.mk.injEq] at h ⊢; exact ⟨h.1, by rw [h.2]⟩
  | some e =>
    simp only [genCond] at h ⊢
    simp only [bindSome, Option.some.injEq, Prod.mk.injEq] at h
    obtain ⟨⟨c1, s1⟩, h1, rfl, rfl⟩ := h
    rw [gen_up _ _ _ _ _ h1]; rfl

theorem genStmt_up {fn : String} : ∀ (st : Stmt) (s : GS) (c : List Instr) (s' : GS), genStmt fn st s = some (c, s') →
    genStmt fn st (up s) = some (c, up s') := by
  intro st
  induction st with
  | skip => intro s c s' h; simp only [genStmt, Option.some.injEq, Prod.mk.injEq] at h ⊢; exact ⟨h.1, by rw [h.2]⟩
  | seq a b ia ib =>
    intro s c s' h
    simp only [genStmt] at h ⊢
    simp only [bindSome, Option.some.injEq, Prod.mk.injEq] at h
    obtain ⟨⟨c1, s1⟩, h1, ⟨c2, s2⟩, h2, rfl, rfl⟩ := h
    rw [ia _ _ _ h1]
    dsimp only [Option.bind_eq_bind, Option.bind_some]
    rw [ib _ _ _ h2]; rfl
  | expr e => intro s c s' h; simp only [genStmt] at h ⊢; exact gen_up _ _ _ _ _ h
  | ifs x a b ia ib =>
    intro s c s' h
    simp only [genStmt] at h ⊢
    simp only [bindSome, Option.some.injEq, Prod.mk.injEq] at h
    obtain ⟨⟨c1, s1⟩, h1, ⟨c2, s2⟩, h2, ⟨c3, s3⟩, h3, rfl, rfl⟩ := h
    rw [up_next, gen_up _ _ _ _ _ h1]
    dsimp only [Option.bind_eq_bind, Option.bind_some]
    rw [ia _ _ _ h2]
    dsimp only [Option.bind_eq_bind, Option.bind_some]
    rw [ib _ _ _ h3]; rfl
  | loop i x inc b lb lk ib =>
    intro s c s' h
    simp only [genStmt] at h ⊢
    simp only [bindSome, Option.some.injEq, Prod.mk.injEq] at h
    obtain ⟨⟨c1, s1⟩, h1, ⟨c2, s2⟩, h2, ⟨c3, s3⟩, h3, ⟨c4, s4⟩, h4, rfl, rfl⟩ := h
    rw [up_next, genList_up _ _ _ _ h1]
    dsimp only [Option.bind_eq_bind, Option.bind_some]
    rw [genCond_up h2]
    dsimp only [Option.bind_eq_bind, Option.bind_some]
    rw [ib _ _ _ h3]
    dsimp only [Option.bind_eq_bind, Option.bind_some]
    rw [genList_up _ _ _ _ h4]; rfl
  | doW b x lb lk ib =>
    intro s c s' h
    simp only [genStmt] at h ⊢
    simp only [bindSome, Option.some.injEq, Prod.mk.injEq] at h
    obtain ⟨⟨c1, s1⟩, h1, ⟨c2, s2⟩, h2, rfl, rfl⟩ := h
    rw [up_next, ib _ _ _ h1]
    dsimp only [Option.bind_eq_bind, Option.bind_some]
    rw [gen_up _ _ _ _ _ h2]; rfl
  | switch x cs d b lb ib =>
    intro s c s' h
    simp only [genStmt] at h ⊢
    simp only [bindSome, Option.some.injEq, Prod.mk.injEq] at h
    obtain ⟨⟨c1, s1⟩, h1, ⟨c2, s2⟩, h2, rfl, rfl⟩ := h
    rw [gen_up _ _ _ _ _ h1]
    dsimp only [Option.bind_eq_bind, Option.bind_some]
    rw [ib _ _ _ h2]; rfl
  | label l b ib =>
    intro s c s' h
    simp only [genStmt] at h ⊢
    simp only [bindSome, Option.some.injEq, Prod.mk.injEq] at h
    obtain ⟨⟨c1, s1⟩, h1, rfl, rfl⟩ := h
    rw [ib _ _ _ h1]; rfl
  | goto t =>
    intro s c s' h
    cases t with
    | lab l => simp only [genStmt, Option.some.injEq, Prod.mk.injEq] at h ⊢; exact ⟨h.1, by rw [h.2]⟩
    | name n => simp only [genStmt, reduceCtorEq] at h
  | ret e =>
    intro s c s' h
    cases e with
    | none => simp only [genStmt, Option.some.injEq, Prod.mk.injEq] at h ⊢; exact ⟨h.1, by rw [h.2]⟩
    | some e =>
      simp only [genStmt] at h ⊢
      simp only [bindSome, Option.some.injEq, Prod.mk.injEq] at h
      obtain ⟨⟨c1, s1⟩, h1, rfl, rfl⟩ := h
      rw [gen_up _ _ _ _ _ h1]; rfl

theorem genBody_up {fn : String} {st : Stmt} {s : GS} {c : List Instr} {s' : GS} (h : genBody fn st s = some (c, s')) :
    genBody fn st (up s) = some (c, up s') := by
  simp only [genBody] at h ⊢
  simp only [bindSome, Option.some.injEq, Prod.mk.injEq] at h
  obtain ⟨⟨c1, s1⟩, h1, rfl, rfl⟩ := h
  rw [genStmt_up _ _ _ _ h1]; rfl

end Toycc.Whole
