import Verif.Unicode.Model
/-
Model of the source-text phases of tokenize.c: read_file, ignore_bom_marker, canonicalize_newline,
remove_backslash_newline, convert_universal_chars. The C code rewrites one buffer in place; the model does
the same on a list of bytes `buf` (the whole allocation, including the NUL and whatever follows it), with a
read index `i` and a write index `j`. A read or write outside the allocation is the outcome `overrun`.
-/
namespace Toycc.Source
open Toycc.Unicode

abbrev Buf := List UInt8

inductive Err where
  | overrun
  deriving DecidableEq, Repr

def LF : UInt8 := 10
def CR : UInt8 := 13
def BSL : UInt8 := 92

/-- Store the bytes `w` at `j`, `j+1`, ... -/
def write (buf : Buf) (j : Nat) : List UInt8 → Except Err Buf
  | [] => .ok buf
  | b :: w => if j < buf.length then write (buf.set j b) (j + 1) w else .error .overrun

theorem write_length (buf : Buf) (j : Nat) (w : List UInt8) (b' : Buf) (h : write buf j w = .ok b') :
    b'.length = buf.length := by
  induction w generalizing buf j with
  | nil => simp [write] at h; subst h; rfl
  | cons b w ih =>
    simp only [write] at h
    split at h
    · rw [ih _ _ h]; simp
    · cases h

/-- canonicalize_newline, tokenize.c:787-804. -/
def canonLoop (buf : Buf) (i j : Nat) : Except Err Buf :=
  match hi : buf[i]? with
  | none => .error .overrun
  | some c =>
    if c = 0 then write buf j [0]
    else if c = CR then
      match buf[i+1]? with
      | none => .error .overrun
      | some d =>
        match hw : write buf j [LF] with
        | .error e => .error e
        | .ok buf' => if d = LF then canonLoop buf' (i + 2) (j + 1) else canonLoop buf' (i + 1) (j + 1)
    else
      match hw : write buf j [c] with
      | .error e => .error e
      | .ok buf' => canonLoop buf' (i + 1) (j + 1)
termination_by buf.length - i
decreasing_by
  all_goals
    have := write_length _ _ _ _ hw
    have hlt : i < buf.length := by
      rcases Nat.lt_or_ge i buf.length with h | h
      · exact h
      · rw [List.getElem?_eq_none h] at hi; cases hi
    omega

def canonicalizeNewline (buf : Buf) : Except Err Buf := canonLoop buf 0 0

/-- remove_backslash_newline, tokenize.c:807-833; `n` counts the removed newlines. -/
def spliceLoop (buf : Buf) (i j n : Nat) : Except Err Buf :=
  match hi : buf[i]? with
  | none => .error .overrun
  | some c =>
    if c = 0 then write buf j (List.replicate n LF ++ [0])
    else if c = BSL ∧ buf[i+1]? = some LF then spliceLoop buf (i + 2) j (n + 1)
    else if c = LF then
      match hw : write buf j (LF :: List.replicate n LF) with
      | .error e => .error e
      | .ok buf' => spliceLoop buf' (i + 1) (j + 1 + n) 0
    else
      match hw : write buf j [c] with
      | .error e => .error e
      | .ok buf' => spliceLoop buf' (i + 1) (j + 1) n
termination_by buf.length - i
decreasing_by
  all_goals
    have hlt : i < buf.length := by
      rcases Nat.lt_or_ge i buf.length with h | h
      · exact h
      · rw [List.getElem?_eq_none h] at hi; cases hi
    try have := write_length _ _ _ _ hw
    omega

def removeBackslashNewline (buf : Buf) : Except Err Buf := spliceLoop buf 0 0 0

/-- `isxdigit` in the C locale. -/
def isXDigit (b : UInt8) : Bool :=
  (0x30 ≤ b && b ≤ 0x39) || (0x61 ≤ b && b ≤ 0x66) || (0x41 ≤ b && b ≤ 0x46)

/-- from_hex, tokenize.c:192-199. -/
def fromHex (b : UInt8) : Nat :=
  if 0x30 ≤ b ∧ b ≤ 0x39 then b.toNat - 0x30
  else if 0x61 ≤ b ∧ b ≤ 0x66 then b.toNat - 0x61 + 10
  else b.toNat - 0x41 + 10

/-- read_universal_char, tokenize.c:835-847, reading `len` bytes at `i`; the result 0 also means
"not a universal character name". -/
def readUniversal (buf : Buf) (i : Nat) : Nat → Nat → Except Err Nat
  | 0, c => .ok c
  | len + 1, c =>
    match buf[i]? with
    | none => .error .overrun
    | some b => if isXDigit b then readUniversal buf (i + 1) len ((c <<< 4) ||| fromHex b) else .ok 0

/-- convert_universal_chars, tokenize.c:850-884. -/
def ucnLoop (buf : Buf) (i j : Nat) : Except Err Buf :=
  match hi : buf[i]? with
  | none => .error .overrun
  | some c =>
    if c = 0 then write buf j [0]
    else if c = BSL then
      match buf[i+1]? with
      | none => .error .overrun
      | some d =>
        if d = 0x75 ∨ d = 0x55 then
          match readUniversal buf (i + 2) (if d = 0x75 then 4 else 8) 0 with
          | .error e => .error e
          | .ok u =>
            if u ≠ 0 then
              match hw : write buf j (encode u) with
              | .error e => .error e
              | .ok buf' => ucnLoop buf' (i + 2 + (if d = 0x75 then 4 else 8)) (j + (encode u).length)
            else
              match hw : write buf j [c] with
              | .error e => .error e
              | .ok buf' => ucnLoop buf' (i + 1) (j + 1)
        else
          match hw : write buf j [c] with
          | .error e => .error e
          | .ok buf' =>
            match buf'[i+1]? with
            | none => .error .overrun
            | some d' =>
              match hw2 : write buf' (j + 1) [d'] with
              | .error e => .error e
              | .ok buf'' => ucnLoop buf'' (i + 2) (j + 2)
    else
      match hw : write buf j [c] with
      | .error e => .error e
      | .ok buf' => ucnLoop buf' (i + 1) (j + 1)
termination_by buf.length - i
decreasing_by
  all_goals
    have hlt : i < buf.length := by
      rcases Nat.lt_or_ge i buf.length with h | h
      · exact h
      · rw [List.getElem?_eq_none h] at hi; cases hi
    have := write_length _ _ _ _ hw
    try have := write_length _ _ _ _ hw2
    try split
    all_goals omega

def convertUniversalChars (buf : Buf) : Except Err Buf := ucnLoop buf 0 0

/-- read_file, tokenize.c:757-768: the buffer for a file with the given contents. -/
def readFile (contents : List UInt8) : Buf :=
  if contents = [] ∨ contents.getLast? ≠ some LF then contents ++ [LF, 0] else contents ++ [0]

/-- ignore_bom_marker, tokenize.c:886-896 (memcmp stops at the first difference). -/
def ignoreBom : Buf → Buf
  | 0xEF :: 0xBB :: 0xBF :: r => r
  | b => b

/-- The phases of tokenize_file before `tokenize`, tokenize.c:900-907. -/
def loadFile (contents : List UInt8) : Except Err Buf :=
  match canonicalizeNewline (ignoreBom (readFile contents)) with
  | .error e => .error e
  | .ok b1 =>
    match removeBackslashNewline b1 with
    | .error e => .error e
    | .ok b2 => convertUniversalChars b2

/-- The C string in a buffer: the bytes before the first NUL. -/
def cstr (buf : Buf) : List UInt8 := buf.takeWhile (· ≠ 0)

end Toycc.Source
