import Verif.Vla.Model
import Verif.Low.Plain
import Verif.Cg.AllocaSpec
/-!
Specification: the sizes of variably modified types by C11 6.7.6.2 and 6.5.3.4. When a declaration is reached, each length is evaluated once (in what order C leaves open; here
those of the elements first), and must be positive. The lengths make the type that the declared thing has from then on (`RTy`).
-/
namespace Toycc.Vla
open Toycc.Cg Toycc.Rv Toycc.Low

/-- A type with the lengths it has when the program runs. -/
inductive RTy
  | obj (t : CTy)
  | ptr (b : RTy)
  | arr (b : RTy) (n : Nat)

/-- sizeof. -/
def RTy.size : RTy → Nat
  | .obj t => t.size
  | .ptr _ => 8
  | .arr b n => n * b.size

/-- Evaluating the lengths of a declared type in the memory `m` gives the type and the memory after it. -/
inductive Elab (S : CEnv) : STy → Mem → RTy → Mem → Prop
  | obj {t m} : Elab S (.obj t) m (.obj t) m
  | ptr {b m r m'} : Elab S b m r m' → Elab S (.ptr b) m (.ptr r) m'
  | arr {b len m r m' n m''} : Elab S b m r m' → evalX S false len m' = some (Int.ofNat n, m'') → 0 < n → Elab S (.arr b len) m (.arr r n) m''

/-- The lengths are integer expressions of the kind C53 and C54 are about. -/
def STy.ok : STy → Prop
  | .obj _ => True
  | .ptr b => b.ok
  | .arr b len => b.ok ∧ plain true len = true ∧ ∃ t, typeC len = some t ∧ (len.vty t).isInt = true

/-- Where toycc computes the size right. The size of an array whose elements are of constant size is computed as a product of the type the length and an int have
after the usual conversions, so it must be a value of that type (C only requires that the array can be allocated). No object has 2^64 bytes. -/
def STy.Fits : STy → RTy → Prop
  | .arr (.arr b l) _, .arr r n => (STy.arr b l).Fits r ∧ n * r.size < 2 ^ 64
  | .arr b len, .arr r n => b.Fits r ∧ ∀ t c, typeC len = some t → usual (len.vty t) (.int false) = some c → inRange c.low (n * r.size : Nat) = true
  | .ptr b, .ptr r => b.Fits r
  | _, _ => True

/-- Each variable that holds the size of an array does hold it. -/
def Stored (S : CEnv) (m : Mem) : ATy → RTy → Prop
  | .obj t, .obj t' => t = t'
  | .ptr b, .ptr r => Stored S m b r
  | .vla b o, .arr r n => readN m (S.fp + BitVec.ofInt 64 o) 8 = n * r.size ∧ Stored S m b r
  | _, _ => False

end Toycc.Vla
