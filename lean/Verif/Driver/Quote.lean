import Verif.Lex.Model
/-!
quote_makefile, main.c:119-151, on bytes. A write outside the buffer is `none`.
-/
namespace Toycc.Driver

/-- `buf[j++] = c` for each of `cs`, in a buffer of `cap` bytes. -/
def puts (cap : Nat) (buf : List UInt8) : List UInt8 → Option (List UInt8)
  | [] => some buf
  | c :: r => if buf.length < cap then puts cap (buf ++ [c]) r else none

/-- The number of rounds of the loop `for (k = i - 1; k >= 0 && s[k] == '\\'; k--)`, main.c:138: the backslashes just before position `i`; `done` is `s[0..i)`. -/
def run (done : List UInt8) : Nat := (done.reverse.takeWhile (· == 92)).length

/-- What the switch writes for `c`, main.c:126-147. -/
def quoteOne (done : List UInt8) (c : UInt8) : List UInt8 :=
  if c = 36 then [36, 36]
  else if c = 35 then [92, 35]
  else if c = 32 ∨ c = 9 then List.replicate (run done) 92 ++ [92, c]
  else [c]

/-- The loop, main.c:125-149. -/
def quoteGo (cap : Nat) (done : List UInt8) : List UInt8 → List UInt8 → Option (List UInt8)
  | [], buf => some buf
  | c :: r, buf =>
    match puts cap buf (quoteOne done c) with
    | none => none
    | some buf => quoteGo cap (done ++ [c]) r buf

/-- quote_makefile, main.c:121-151. The buffer is cleared by calloc, so the result ends at the first byte not written, which must be inside. -/
def quoteMakefile (s : List UInt8) : Option (List UInt8) :=
  match quoteGo (2 * s.length + 1) [] s [] with
  | none => none
  | some buf => if buf.length < 2 * s.length + 1 then some buf else none

end Toycc.Driver
