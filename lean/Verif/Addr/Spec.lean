import Verif.Addr.Model
/-! What the address of a global object or function is, and what the loader has done before a module runs. -/
namespace Toycc.Addr
open Toycc.Rv

/-- A process: where its functions and objects are, thread-local ones depending on the thread (given by its thread pointer). -/
structure Process where
  glob : String → W
  tls : (tp : W) → String → W

/-- The address of what `v` refers to, in the thread `tp`. -/
def Process.addr (p : Process) (tp : W) (v : Ref) : W := if v.isTls then p.tls tp v.name else p.glob v.name

/-- The module is loaded with displacement `bias`. -/
structure Loaded (L : Layout) (p : Process) (bias : W) (defined : String → Prop) (m : Mem) : Prop where
  /-- symbols defined in the module move with it -/
  sym : ∀ n, defined n → p.glob n = L.sym n + bias
  /-- slots of the global offset table hold the addresses of their symbols, in whatever module these are -/
  got : ∀ n, readN m (L.got n + bias) 8 = (p.glob n).toNat

/-- __tls_get_addr, called with the address of a descriptor: the result is the address of the object in the calling thread; memory, sp and fp are as before. -/
def TlsGetAddr (L : Layout) (p : Process) (bias : W) (call : (tp : W) → St → Option St) : Prop :=
  ∀ tp s n, s.r .a0 = L.gd n + bias → ∃ s', call tp s = some s' ∧ s'.r .a0 = p.tls tp n ∧ s'.mem = s.mem ∧ s'.r .sp = s.r .sp ∧ s'.r .fp = s.r .fp

/-- Thread-local objects of the executable are at fixed distances from the thread pointer. -/
def LocalExec (L : Layout) (p : Process) : Prop := ∀ tp n, p.tls tp n = tp + BitVec.ofInt 64 (L.tpoff n)

/-- `x` is within the reach of `auipc` and a 12-bit offset from `a`: 2 GiB to either side, shifted by 2 KiB. -/
def Near (a x : W) : Prop := -(2 ^ 31) - 2 ^ 11 ≤ (x - a).toInt ∧ (x - a).toInt < 2 ^ 31 - 2 ^ 11

/-- What is addressed relative to the pc: the function itself, or a slot of the global offset table. -/
def Layout.target (L : Layout) (fpic : Bool) (v : Ref) : W :=
  if v.isTls then L.gd v.name else if !fpic && v.isFunc && v.isDef then L.sym v.name else L.got v.name

end Toycc.Addr
