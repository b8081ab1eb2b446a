import Verif.Asm.Model
import Verif.Init.Spec
/-!
Specification: what an assembler makes of the lines (the manual of GNU as), what a linker and a loader make of the result, and what C says about a
declaration of file scope (C11 6.2.2, 6.7.9, 6.9.2).
-/
namespace Toycc.Asm
open Toycc.Init (Item linked byteOf)
open Toycc.Cg Toycc.Low Toycc.Rv

/-- The number of bytes of data directives. -/
def bytes : List Item → Nat
  | [] => 0
  | .byte _ :: r => 1 + bytes r
  | .quad _ _ :: r => 8 + bytes r

/-- An object file: the section being written, contents and alignments of the sections, the places of labels, the global symbols, and the common symbols with
size and alignment. -/
structure File where
  cur : Sec := .text
  cont : Sec → List Item := fun _ => []
  al : Sec → Nat := fun _ => 1
  labels : List (String × Sec × Nat) := []
  globals : List String := []
  commons : List (String × Nat × Nat) := []

/-- The place of a label. -/
def File.place (a : File) (s : String) : Option (Sec × Nat) := (a.labels.find? fun p => p.1 == s).map (·.2)

/-- Size and alignment of a common symbol. -/
def File.common (a : File) (s : String) : Option (Nat × Nat) := (a.commons.find? fun p => p.1 == s).map (·.2)

def File.defines (a : File) (s : String) : Prop := a.place s ≠ none ∨ a.common s ≠ none

instance (a : File) (s : String) : Decidable (a.defines s) := inferInstanceAs (Decidable (_ ∨ _))

/-- Bytes are added to the current section. -/
def File.put (a : File) (l : List Item) : File := { a with cont := fun s => if s = a.cur then a.cont s ++ l else a.cont s }

/-- One line. `none`: the assembler reports an error, or ignores the line with a warning (a symbol defined twice, a
negative size, a common symbol whose alignment is not a power of two, data in a section without contents). `.align` is to a power
of two on RISC-V; `.local` is the default. -/
def step (a : File) : Line → Option File
  | .loc _ => some a
  | .glob s => some { a with globals := s :: a.globals }
  | .comm s n k => if a.defines s ∨ n < 0 ∨ ¬ (∃ j, j < k.toNat ∧ k.toNat = 2 ^ j) then none else some { a with commons := (s, n.toNat, k.toNat) :: a.commons }
  | .sect s => some { a with cur := s }
  | .typ _ _ => some a
  | .size _ _ => some a
  | .align k =>
    let n := bytes (a.cont a.cur)
    some { a.put (List.replicate ((2 ^ k - n % 2 ^ k) % 2 ^ k) (.byte 0)) with al := fun s => if s = a.cur then max (a.al s) (2 ^ k) else a.al s }
  | .label s => if a.defines s then none else some { a with labels := (s, a.cur, bytes (a.cont a.cur)) :: a.labels }
  | .item i => if a.cur = .bss ∨ a.cur = .tbss then none else some (a.put [i])
  | .zero n => if n < 0 then none else some (a.put (List.replicate n.toNat (.byte 0)))
  | .code bs => if a.cur = .bss ∨ a.cur = .tbss then none else some (a.put (bs.map .byte))

/-- A text. -/
def assemble : File → List Line → Option File
  | a, [] => some a
  | a, l :: r => match step a l with
    | none => none
    | some a => assemble a r

/-- The object file in memory: every section at an address that has the alignment of the section, common symbols each at an aligned address and zero, `ρ` the addresses
of symbols, `mem` the initial contents. (For thread-local sections: the block of a thread.) -/
structure Loaded (a : File) (base : Sec → Nat) (ρ : String → W) (mem : Nat → BitVec 8) : Prop where
  aligned : ∀ s, a.al s ∣ base s
  labels : ∀ x s n, a.place x = some (s, n) → (ρ x).toNat = base s + n
  contents : ∀ s i b, (linked ρ (a.cont s))[i]? = some b → mem (base s + i) = b
  commons : ∀ x n k, a.common x = some (n, k) → k ∣ (ρ x).toNat ∧ ∀ i, i < n → mem ((ρ x).toNat + i) = 0

/-! ### What the objects should become -/

/-- The objects and functions of which something is printed. -/
def Obj.out (o : Obj) : Bool := o.isDef && (!o.isFn || o.live)

/-- The section where an object or function belongs: initialised objects, those that are zero, each also for threads, and functions. -/
def Obj.sec (o : Obj) : Sec :=
  if o.isFn then .text else if o.init.isSome then (if o.tls then .tdata else .data) else (if o.tls then .tbss else .bss)

/-- Alignment and size of an object; of a function, the size of the code. -/
def Obj.al (o : Obj) : Nat := if o.isFn then 1 else o.align.toNat
def Obj.len (o : Obj) : Nat := if o.isFn then o.code.length else o.size.toNat

/-- It becomes a common symbol. -/
def Obj.isCommon (fc : Bool) (o : Obj) : Bool := !o.isFn && (fc && o.tentative)

/-- An object as the parser makes them: its size is not negative, its alignment is a power of two, relocations are inside and in order. -/
structure Obj.Ok (o : Obj) : Prop where
  size : 0 ≤ o.size
  align : ∃ k : Nat, o.align = 2 ^ k
  rels : ∀ buf rels, o.init = some (buf, rels) → (∀ r ∈ rels, r.offset + 8 ≤ o.size.toNat) ∧ rels.Pairwise fun r s => r.offset + 8 ≤ s.offset

/-- The initial value of an object at an address: the bytes of the buffer, addresses where relocations are; zero without an initialiser; the code of functions. -/
def Obj.Value (o : Obj) (ρ : String → W) (mem : Nat → BitVec 8) (addr : Nat) : Prop :=
  if o.isFn then ∀ i b, o.code[i]? = some b → mem (addr + i) = b
  else match o.init with
    | none => ∀ i : Nat, i < o.size.toNat → mem (addr + i) = 0
    | some (buf, rels) => (∀ r ∈ rels, ∀ i, i < 8 → mem (addr + (r.offset + i)) = byteOf (ρ r.label + r.addend) i) ∧
      ∀ i, i < o.size.toNat → (∀ r ∈ rels, ¬ (r.offset ≤ i ∧ i < r.offset + 8)) → mem (addr + i) = buf i

/-! ### What C says about declarations of file scope -/

/-- C11 6.2.2p3-5: the linkage of an identifier declared once. -/
inductive Linkage where
  | internal | external
  deriving DecidableEq

def linkage (attr : Attr) : Linkage := if attr.isStatic then .internal else .external

/-- C11 6.9.2, 6.7p5: a declaration with an initialiser is a definition; one with `extern` and without initialiser is not; one without initialiser and without
storage class or with `static` only is a tentative definition; one with `_Thread_local` reserves storage. -/
inductive Status where
  | definition | tentative | declaration
  deriving DecidableEq

def status (attr : Attr) (hasInit : Bool) : Status :=
  if hasInit then .definition else if attr.isExtern then .declaration else if attr.tls then .definition else .tentative

end Toycc.Asm
