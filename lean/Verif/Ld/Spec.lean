import Verif.Ld.Model
/-!
What C and the ABI ask for: every operator applied once, operands first, each call with the first operand in a0:a1 and
the second one in a2:a3 (a conversion from an integer has it in a0).
-/
namespace Toycc.Ld

/-- The operations of the soft-float library, as functions of values. -/
structure Ops where
  arith : Arith → LD → LD → LD
  rel : Rel → LD → LD → W
  ofInt : IntTy → W → LD
  toInt : IntTy → LD → W
  neg : LD → LD

/-- A call, in terms of values. -/
inductive VCall where
  | arith (o : Arith) (x y : LD)
  | rel (o : Rel) (x y : LD)
  | ofInt (t : IntTy) (n : W)
  | toInt (t : IntTy) (x : LD)
  deriving DecidableEq, Repr

/-- The result of a comparison routine, tested as the routine's contract says. -/
def Rel.holds (o : Rel) (w : W) : W :=
  match o with
  | .eq => if w = 0 then 1 else 0
  | .ne => if w = 0 then 0 else 1
  | .lt => if w.toInt < 0 then 1 else 0
  | .le => if w.toInt ≤ 0 then 1 else 0

/-- An integer result of 32 bits is kept sign-extended (int) or zero-extended (unsigned). -/
def IntTy.norm (t : IntTy) (w : W) : W :=
  match t with
  | .i32 => (w.truncate 32).signExtend 64
  | .u32 => (w.truncate 32).zeroExtend 64
  | _ => w

mutual
/-- Value of an expression. -/
def LE.val (O : Ops) (m : W → W) : LE → LD
  | .lit v => v
  | .var a => ⟨m a, m (a + 8)⟩
  | .ofInt t i => O.ofInt t (i.val O m)
  | .neg e => O.neg (e.val O m)
  | .bin o l r => O.arith o (l.val O m) (r.val O m)
def IE.val (O : Ops) (m : W → W) : IE → W
  | .num v => v
  | .rel o l r => o.holds (O.rel o (l.val O m) (r.val O m))
  | .toInt t e => t.norm (O.toInt t (e.val O m))
  | .isZero e => if O.rel .ne (e.val O m) ⟨0, 0⟩ = 0 then 1 else 0
end

mutual
/-- The calls, in order. -/
def LE.calls (O : Ops) (m : W → W) : LE → List VCall
  | .lit _ => []
  | .var _ => []
  | .ofInt t i => i.calls O m ++ [.ofInt t (i.val O m)]
  | .neg e => e.calls O m
  | .bin o l r => l.calls O m ++ r.calls O m ++ [.arith o (l.val O m) (r.val O m)]
def IE.calls (O : Ops) (m : W → W) : IE → List VCall
  | .num _ => []
  | .rel o l r => l.calls O m ++ r.calls O m ++ [.rel o (l.val O m) (r.val O m)]
  | .toInt t e => e.calls O m ++ [.toInt t (e.val O m)]
  | .isZero e => e.calls O m ++ [.rel .ne (e.val O m) ⟨0, 0⟩]
end

/-- The routine of libgcc that converts an integer of the given type (int, long, unsigned int, unsigned long) to a long double. -/
def fromRoutine : IntTy → Routine
  | .i32 => .floatsi
  | .i64 => .floatdi
  | .u32 => .floatunsi
  | .u64 => .floatundi

/-- The routine of libgcc that converts a long double to an integer of the given type. -/
def toRoutine : IntTy → Routine
  | .i32 => .fixsi
  | .i64 => .fixdi
  | .u32 => .fixunssi
  | .u64 => .fixunsdi

/-- The registers of a call hold the operands the ABI way. -/
def Passes (c : Call) (v : VCall) : Prop :=
  match v with
  | .arith o x y => c.routine = .arith o ∧ x = ⟨c.a0, c.a1⟩ ∧ y = ⟨c.a2, c.a3⟩
  | .rel o x y => c.routine = .rel o ∧ x = ⟨c.a0, c.a1⟩ ∧ y = ⟨c.a2, c.a3⟩
  | .ofInt t n => c.routine = fromRoutine t ∧ n = c.a0
  | .toInt t x => c.routine = toRoutine t ∧ x = ⟨c.a0, c.a1⟩

instance (c : Call) (v : VCall) : Decidable (Passes c v) := by unfold Passes; cases v <;> infer_instance

/-- The calls made are the calls asked for, one by one. -/
def Same : List Call → List VCall → Prop
  | [], [] => True
  | c :: cs, v :: vs => Passes c v ∧ Same cs vs
  | _, _ => False

/-- The library does what its contract says with the registers of the ABI; nothing is said about other registers. -/
def Lib.Implements (L : Lib) (O : Ops) : Prop :=
  ∀ c v, Passes c v → match v with
    | .arith o x y => L.ret c = ((O.arith o x y).lo, (O.arith o x y).hi)
    | .rel o x y => (L.ret c).1 = O.rel o x y
    | .ofInt t n => L.ret c = ((O.ofInt t n).lo, (O.ofInt t n).hi)
    | .toInt t x => (L.ret c).1 = O.toInt t x

mutual
/-- The class that is compiled right: no negation; an operation that takes its operands from the register stack only
while the stack holds nothing else (`top`). So right operands are constants, variables or converted integers; chains
to the left are unbounded. -/
def LE.Chain (top : Bool) : LE → Bool
  | .lit _ => true
  | .var _ => true
  | .ofInt _ i => i.Chain top
  | .neg _ => false
  | .bin _ l r => top && l.Chain true && r.Chain false
def IE.Chain (top : Bool) : IE → Bool
  | .num _ => true
  | .rel _ l r => top && l.Chain true && r.Chain false
  | .toInt _ e => top && e.Chain true
  | .isZero e => top && e.Chain true
end

end Toycc.Ld
