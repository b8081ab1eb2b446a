import Verif.Source.Model
/-!
read_file (tokenize.c:730-768): how the contents of a file get into the buffer. The operating system hands out a file in pieces of any size, and reading may fail.
Simplified: memory does not run out, so that writing to the memory stream always succeeds; once the end of a file has been reported it stays the end.
-/
namespace Toycc.Source

/-- The result of one read(2): at least one byte, or an error. After the last one read(2) reports the end of the file. -/
inductive Rd where
  | data (b : UInt8) (bs : List UInt8)
  | fail

/-- fread(buf, 1, k, fp), C11 7.21.8.1, as tokenize.c:750 calls it: `pend` is what the library has read ahead, `rs` what read(2) will return. It returns less than `k` bytes only at the end of the file
or after an error. -/
def fread (k : Nat) : List UInt8 → List Rd → List UInt8 × List UInt8 × List Rd
  | pend, [] => (pend.take k, pend.drop k, [])
  | pend, .fail :: rs => if k ≤ pend.length then (pend.take k, pend.drop k, .fail :: rs) else (pend, [], rs)
  | pend, .data b bs :: rs => if k ≤ pend.length then (pend.take k, pend.drop k, .data b bs :: rs) else fread k (pend ++ b :: bs) rs

/-- Every byte of the file. -/
def bytes : List Rd → List UInt8
  | [] => []
  | .data b bs :: rs => b :: bs ++ bytes rs
  | .fail :: rs => bytes rs

theorem fread_bytes (k : Nat) : ∀ (rs : List Rd) (pend : List UInt8), (fread k pend rs).1 ++ ((fread k pend rs).2.1 ++ bytes (fread k pend rs).2.2) = pend ++ bytes rs
  | [], pend => by simp [fread, bytes, List.take_append_drop]
  | .fail :: rs, pend => by
    rw [fread]; split
    · simp [← List.append_assoc, List.take_append_drop]
    · simp [bytes]
  | .data b bs :: rs, pend => by
    rw [fread]; split
    · simp [← List.append_assoc, List.take_append_drop]
    · rw [fread_bytes k rs]; simp [bytes]

/-- The loop of read_file, tokenize.c:748-754. -/
def readLoop (pend : List UInt8) (rs : List Rd) : List UInt8 :=
  match h : fread 4096 pend rs with
  | ([], _, _) => []
  | (b :: bs, pend', rs') => b :: bs ++ readLoop pend' rs'
termination_by (pend ++ bytes rs).length
decreasing_by
  have := fread_bytes 4096 rs pend
  rw [h] at this
  rw [← this]
  simp only [List.length_append, List.length_cons]
  omega

/-- read_file, tokenize.c:730-768; `none` if fopen fails. -/
def readFileFrom (f : Option (List Rd)) : Option Buf := f.map fun rs => readFile (readLoop [] rs)

end Toycc.Source
