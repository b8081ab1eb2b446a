import Verif.Init.Model
import Verif.Low.Spec
/-!
Specification of initialisation (C11 6.7.9): which bits of an object an initialiser determines, and to what. A bit of an object is counted from the lowest bit of its first byte; the data model
is little-endian, so that a scalar of `s` bytes at byte `o` occupies the bits `8*o .. 8*(o+s)-1`, least significant first.
-/
namespace Toycc.Init
open Toycc.Cg Toycc.Low Toycc.Rv

/-- What `α` stands for: the representation of an expression's value after conversion to a type, or to a bit-field of some width. -/
structure Meaning (α : Type) where
  scalar : Ty → α → W
  field : CTy → Nat → α → W

def Ty.isScalar : Ty → Bool
  | .scalar _ | .flt | .dbl | .ldbl => true
  | _ => false

/-- The nth member. -/
def Mems.get? : Mems → Nat → Option (Nat × Option (Nat × Nat) × Ty)
  | .nil, _ => none
  | .cons off b t _, 0 => some (off, b, t)
  | .cons _ _ _ r, k + 1 => r.get? k

def Inis.get? {α : Type} : Inis α → Nat → Option (Ini α)
  | .nil, _ => none
  | .cons i _, 0 => some i
  | .cons _ r, k + 1 => r.get? k

/-- The initialiser `i` for an object of type `t` at byte `o` gives the `w` bits from bit `p` on the value `v`: they are a scalar element or member, or a bit-field, for which there is an
initialising expression. -/
inductive Sets {α : Type} (M : Meaning α) : Ty → Ini α → Nat → Nat → Nat → W → Prop
  | scalar {t : Ty} {e : α} {m : Option Nat} {cs : Inis α} {o : Nat} (h : t.isScalar = true) :
      Sets M t (.mk (some e) m cs) o (8 * o) (8 * t.size) (M.scalar t e)
  | elem {b : Ty} {n k : Nat} {x : Option α} {m : Option Nat} {cs : Inis α} {c : Ini α} {o p w : Nat} {v : W}
      (hk : k < n) (hc : cs.get? k = some c) (h : Sets M b c (o + b.size * k) p w v) : Sets M (.arr b n) (.mk x m cs) o p w v
  | member {sz : Nat} {ms : Mems} {k off : Nat} {t : Ty} {x : Option α} {m : Option Nat} {cs : Inis α} {c : Ini α} {o p w : Nat} {v : W}
      (hm : ms.get? k = some (off, none, t)) (hc : cs.get? k = some c) (h : Sets M t c (o + off) p w v) : Sets M (.struc sz ms) (.mk x m cs) o p w v
  | bits {sz : Nat} {ms : Mems} {k off bo bw : Nat} {t : CTy} {x : Option α} {m : Option Nat} {cs : Inis α} {c : Ini α} {e : α} {o : Nat}
      (hm : ms.get? k = some (off, some (bo, bw), .scalar t)) (hc : cs.get? k = some c) (he : c.expr = some e) :
      Sets M (.struc sz ms) (.mk x m cs) o (8 * (o + off) + bo) bw (M.field t bw e)
  | umember {sz : Nat} {ms : Mems} {k off : Nat} {t : Ty} {x : Option α} {cs : Inis α} {c : Ini α} {o p w : Nat} {v : W}
      (hm : ms.get? k = some (off, none, t)) (hc : cs.get? k = some c) (h : Sets M t c (o + off) p w v) : Sets M (.union sz ms) (.mk x (some k) cs) o p w v
  | ubits {sz : Nat} {ms : Mems} {k off bo bw : Nat} {t : CTy} {x : Option α} {cs : Inis α} {c : Ini α} {e : α} {o : Nat}
      (hm : ms.get? k = some (off, some (bo, bw), .scalar t)) (hc : cs.get? k = some c) (he : c.expr = some e) :
      Sets M (.union sz ms) (.mk x (some k) cs) o (8 * (o + off) + bo) bw (M.field t bw e)

/-- The bits of an object (`bit i`) after initialisation: every initialised scalar or bit-field has its value, all other bits are zero. -/
def Initialised {α : Type} (M : Meaning α) (ty : Ty) (ini : Ini α) (bit : Nat → Bool) : Prop :=
  (∀ p w v, Sets M ty ini 0 p w v → ∀ k, k < w → bit (p + k) = v.getLsbD k) ∧
  (∀ i, (∀ p w v, Sets M ty ini 0 p w v → ¬ (p ≤ i ∧ i < p + w)) → bit i = false)

/-- The value of a constant, given the addresses of the symbols. -/
def IVal.value (ρ : String → W) : IVal → W
  | .num v => v
  | .sym l a => ρ l + a

/-- Constants: converted to the type of the object (C11 6.7.9p11, 6.5.16.1p2). -/
def constMeaning (ρ : String → W) : Meaning CVal where
  scalar t e := match t with
    | .flt => e.f32.setWidth 64
    | .dbl => e.f64
    | .scalar t => BitVec.ofInt 64 (convC t.low (e.int.value ρ).toInt)
    | _ => (e.int.value ρ)
  field t w e := BitVec.ofInt 64 (wrapBits t.low w (e.int.value ρ).toInt)

/-- What the assembler and the linker make of a data directive, given the addresses of the symbols. -/
def Item.bytes (ρ : String → W) : Item → List (BitVec 8)
  | .byte b => [b]
  | .quad l a => (List.range 8).map (byteOf (ρ l + a))

/-- The bytes of the object in the linked program. -/
def linked (ρ : String → W) (is : List Item) : List (BitVec 8) := is.flatMap (Item.bytes ρ)

/-- A bit of a sequence of bytes. -/
def bitOf (bs : List (BitVec 8)) (i : Nat) : Bool := match bs[i / 8]? with
  | some b => b.getLsbD (i % 8)
  | none => false

mutual
/-- Layout, as established by C33-C35 for structs that are not packed: members in order, apart and inside; bit-fields inside their storage unit, the unit inside the struct. -/
def Ty.Wf : Ty → Prop
  | .scalar t => t.scalar = true
  | .flt | .dbl | .ldbl => True
  | .arr b _ => b.Wf
  | .struc n ms => ms.Wf n 0
  | .union n ms => ms.WfU n
/-- From bit `cur` on. -/
def Mems.Wf (n : Nat) : Mems → Nat → Prop
  | .nil, cur => cur ≤ 8 * n
  | .cons off none t r, cur => cur ≤ 8 * off ∧ t.Wf ∧ off + t.size ≤ n ∧ r.Wf n (8 * (off + t.size))
  | .cons off (some (bo, bw)) t r, cur => cur ≤ 8 * off + bo ∧ t.Wf ∧ (∃ c, t = .scalar c ∧ c.isInt = true) ∧ off + t.size ≤ n ∧ 0 < bw ∧ bo + bw ≤ 8 * t.size ∧
      r.Wf n (8 * off + bo + bw)
/-- All members of a union are at its beginning. -/
def Mems.WfU (n : Nat) : Mems → Prop
  | .nil => True
  | .cons off b t r => off = 0 ∧ t.Wf ∧ t.size ≤ n ∧ (∀ bo bw, b = some (bo, bw) → bo = 0 ∧ 0 < bw ∧ bw ≤ 8 * t.size ∧ ∃ c, t = .scalar c ∧ c.isInt = true) ∧ r.WfU n
end

mutual
/-- There is no expression in an initialiser. -/
def Ini.blank {α : Type} : Ini α → Bool
  | .mk e _ cs => e.isNone && cs.blank
def Inis.blank {α : Type} : Inis α → Bool
  | .nil => true
  | .cons i r => i.blank && r.blank
end

mutual
/-- The initialiser has the shape of the type (new_initializer, initializer.c:5-46). -/
def Fits {α : Type} : Ty → Ini α → Prop
  | .arr b n, .mk _ _ cs => FitsArr b n cs
  | .struc _ ms, .mk _ _ cs => FitsMems ms cs
  | .union _ ms, .mk _ m cs => FitsMems ms cs ∧ ∀ k, m = some k → (ms.get? k).isSome = true
  | _, _ => True
def FitsArr {α : Type} : Ty → Nat → Inis α → Prop
  | _, n, .nil => n = 0
  | b, n, .cons c r => 0 < n ∧ Fits b c ∧ FitsArr b (n - 1) r
def FitsMems {α : Type} : Mems → Inis α → Prop
  | .nil, .nil => True
  | .cons _ _ t r, .cons c cs => Fits t c ∧ FitsMems r cs
  | _, _ => False
end

/-- Constants the image is right for: a `_Bool` is initialised with 0 or 1, an address goes into an object of 8 bytes. -/
def CVal.okFor (e : CVal) (t : CTy) : Prop :=
  (t = .bool → e.int = .num 0 ∨ e.int = .num 1) ∧ (∀ l a, e.int = .sym l a → t.size = 8)

mutual
/-- Static initialisers the image is right for: no long double; when a bit-field is left out, no member after it has an initialiser; the initialised member of a union is not a bit-field; bit-fields have
less than 64 bits and are not initialised with addresses. -/
def Handled : Ty → Ini CVal → Prop
  | .arr b _, .mk _ _ cs => HandledArr b cs
  | .struc _ ms, .mk _ _ cs => HandledMems ms cs
  | .union _ _, .mk _ none _ => True
  | .union _ ms, .mk _ (some k) cs => HandledNth k ms cs
  | .ldbl, .mk e _ _ => e = none
  | .scalar t, .mk (some e) _ _ => e.okFor t
  | _, _ => True
def HandledArr : Ty → Inis CVal → Prop
  | _, .nil => True
  | b, .cons c r => Handled b c ∧ HandledArr b r
def HandledMems : Mems → Inis CVal → Prop
  | .cons _ none t r, .cons c cs => Handled t c ∧ HandledMems r cs
  | .cons _ (some (_, bw)) (.scalar t) r, .cons c cs =>
    (∀ e, c.expr = some e → e.okFor t ∧ bw < 64 ∧ (∀ l a, e.int ≠ .sym l a)) ∧ (c.expr = none → cs.blank = true) ∧ HandledMems r cs
  | _, _ => True
def HandledNth : Nat → Mems → Inis CVal → Prop
  | 0, .cons _ b t _, .cons c _ => b = none ∧ Handled t c
  | k + 1, .cons _ _ _ r, .cons _ cs => HandledNth k r cs
  | _, _, _ => True
end

end Toycc.Init
