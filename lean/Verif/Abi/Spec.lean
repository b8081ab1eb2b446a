import Verif.Abi.Model
/-!
Specification: the RISC-V calling convention for sp, s0 (fp), ra and fs0-fs11, and what is assumed of the code between prologue and epilogue.
-/
namespace Toycc.Abi

mutual
/-- The assumptions on an activation that starts in `s`. `P`: the doublewords of the stack in which the functions that are active keep fp and ra. -/
def Good (P : Int → Prop) : Fn → St → Prop
  | .mk va b, s => GoodBody (fun a => P a ∨ a = s.sp - va - 16 ∨ a = s.sp - va - 8) b (exec s (prologue va))
/-- Code writes neither fp nor ft0-ft11 (no other place in codegen.c does) nor the doublewords in `P`, and the stack does not shrink into them. A function from elsewhere keeps the
calling convention: sp, fp, fs0-fs11, its return address and the frames of others. -/
def GoodBody (P : Int → Prop) : Body → St → Prop
  | .nil, _ => True
  | .code g r, s => (g s).fp = s.fp ∧ (g s).ft = s.ft ∧ (g s).sp ≤ s.fp ∧ (∀ a, P a → (g s).mem a = s.mem a) ∧ GoodBody P r (g s)
  | .call site f r, s => Good P f { s with ra := site } ∧ ∀ s1, run f { s with ra := site } = some s1 → GoodBody P r s1
  | .lib site g r, s => (g { s with ra := site }).sp = s.sp ∧ (g { s with ra := site }).fp = s.fp ∧ (g { s with ra := site }).ra = site ∧
      (∀ i, (g { s with ra := site }).fs i = s.fs i) ∧ (∀ a, P a → (g { s with ra := site }).mem a = s.mem a) ∧ GoodBody P r (g { s with ra := site })
end

mutual
/-- Whenever something is called, fs0-fs11 have the values they had when the caller began; functions from elsewhere leave ft0-ft11 as they were. -/
def Calm : Fn → St → Prop
  | .mk va b, s => CalmBody s.fs b (exec s (prologue va))
def CalmBody (fs : Nat → Int) : Body → St → Prop
  | .nil, _ => True
  | .code g r, s => CalmBody fs r (g s)
  | .call site f r, s => (∀ i, i < 12 → s.fs i = fs i) ∧ Calm f { s with ra := site } ∧ ∀ s1, run f { s with ra := site } = some s1 → CalmBody fs r s1
  | .lib site g r, s => (∀ i, i < 12 → (g { s with ra := site }).ft i = s.ft i) ∧ CalmBody fs r (g { s with ra := site })
end

end Toycc.Abi
