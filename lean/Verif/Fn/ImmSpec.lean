import Verif.Fn.Model
/-!
Specification for C63: what the assembler accepts. An I- or S-type instruction has a 12-bit signed immediate; a shift by a constant has 6 bits (RISC-V
unprivileged specification, RV64I). `li` is a macro for any 64-bit constant; addresses of symbols are relocated by the linker.
-/
namespace Toycc.Fn
open Toycc.Rv

def Imm12 (v : Int) : Prop := -2048 ≤ v ∧ v ≤ 2047

def Encodable : Instr → Prop
  | .addi _ _ v => Imm12 v
  | .andi _ _ v => Imm12 v
  | .load _ _ _ off _ => Imm12 off
  | .store _ _ off _ => Imm12 off
  | .slli _ _ n => n < 64
  | .srli _ _ n => n < 64
  | .srai _ _ n => n < 64
  | _ => True

def EncodablePI : PI → Prop
  | .i x => Encodable x
  | .fstore _ _ off => Imm12 off
  | .fmove _ _ => True

instance (v : Int) : Decidable (Imm12 v) := inferInstanceAs (Decidable (_ ∧ _))
instance : DecidablePred Encodable := fun i => by unfold Encodable; split <;> infer_instance
instance : DecidablePred EncodablePI := fun i => by unfold EncodablePI; split <;> infer_instance

end Toycc.Fn
