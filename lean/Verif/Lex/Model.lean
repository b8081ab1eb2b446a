import Verif.Unicode.Props
import Verif.Source.Model
/-
Model of tokenize.c: `tokenize` and the functions it calls. The contents of a file are the bytes before the
terminating NUL; a read position is a suffix of that list, and the empty suffix is the position of the NUL.
Going past the NUL is the outcome `overrun`. The ctype functions are those of the C locale.
-/
namespace Toycc.Lex
open Toycc.Unicode
open Toycc.Source (isXDigit fromHex)

/-- The machine the compiler itself runs on: it decides whether plain `char` is signed and whether
`__riscv` is defined (tokenize.c:669). -/
inductive Host where
  | x86 | riscv
  deriving DecidableEq, Repr

/-- Outcomes other than success: the diagnostics of tokenize.c and unicode.c, an access past the NUL, and
signed overflow in a hexadecimal escape. -/
inductive TErr where
  | overrun
  | unclosedComment | unclosedString | unclosedChar | badHexEscape | badUtf8 | invalidToken
  | intOverflow
  | nullToken
  deriving DecidableEq, Repr

/-- enum TokenKind, toycc.h:31-39 (TK_KEYWORD is assigned later, by convert_pp_tokens). -/
inductive Kind where
  | ident | punct | str | num | ppNum | eof
  deriving DecidableEq, Repr

/-- Element type of a string literal, or type of a character constant. -/
inductive Elem where
  | char | ushort | uint | int
  deriving DecidableEq, Repr

/-- `str`/`ty` of a string literal (element type and stored elements, with the final 0), or `val`/`ty` of a
character constant. -/
inductive Payload where
  | none
  | str (elem : Elem) (units : List Nat)
  | chr (val : Int) (ty : Elem)
  deriving DecidableEq, Repr

/-- struct Token, toycc.h:46-63: the fields the tokenizer sets. `loc` is the offset in the contents. -/
structure Tok where
  kind : Kind
  loc : Nat
  len : Nat
  atBol : Bool
  hasSpace : Bool
  payload : Payload
  line : Nat := 0
  deriving DecidableEq, Repr

/-- `isspace`. -/
def isSpace (b : UInt8) : Bool := b == 32 || (9 ≤ b && b ≤ 13)
/-- `isdigit`. -/
def isDig (b : UInt8) : Bool := 0x30 ≤ b && b ≤ 0x39
/-- `isalnum`. -/
def isAlnum (b : UInt8) : Bool := isDig b || (0x61 ≤ b && b ≤ 0x7A) || (0x41 ≤ b && b ≤ 0x5A)
/-- `ispunct`: the printable ASCII characters that are neither alphanumeric nor the space. -/
def isPunct (b : UInt8) : Bool := 33 ≤ b && b ≤ 126 && !isAlnum b

/-- ASCII text as bytes. -/
def asc (s : String) : List UInt8 := s.toList.map fun c => UInt8.ofNat c.toNat

/-- startwith, tokenize.c:64-67. -/
def startsWith (p q : List UInt8) : Bool := q.isPrefixOf p

/-- kw of read_punct, tokenize.c:72-96, in the order of the source. -/
def punctTable : List (List UInt8) :=
  ["<<=", ">>=", "...", "==", "!=", "<=", ">=", "->", "+=", "-=", "*=", "/=", "++", "--", "%=", "&=", "|=",
   "^=", "&&", "||", "<<", ">>", "##"].map asc

/-- The search loop of read_punct, tokenize.c:98-100. -/
def punctLoop (p : List UInt8) : List (List UInt8) → Nat
  | [] => match p with
    | [] => 0
    | b :: _ => if isPunct b then 1 else 0
  | q :: qs => if startsWith p q then q.length else punctLoop p qs

/-- read_punct, tokenize.c:70-103. -/
def readPunct (p : List UInt8) : Nat := punctLoop p punctTable

/-- isodigit, tokenize.c:182-185. -/
def isOct (b : UInt8) : Bool := 0x30 ≤ b && b ≤ 0x37

/-- The octal loop of read_escaped_char, tokenize.c:207-208: at most `k` digits. -/
def octLoop : Nat → Nat → List UInt8 → Nat × Nat
  | 0, c, _ => (c, 0)
  | k + 1, c, p =>
    match p with
    | [] => (c, 0)
    | b :: r => if isOct b then
        let (c', n) := octLoop k (c * 8 + (b.toNat - 0x30)) r
        (c', n + 1)
      else (c, 0)

/-- The hexadecimal loop of read_escaped_char, tokenize.c:220-221. `c` is an `int`: a shift or sum above
INT_MAX is undefined (`none`). -/
def hexLoop (c : Nat) : List UInt8 → Option (Nat × Nat)
  | [] => some (c, 0)
  | b :: r =>
    if isXDigit b then
      if c * 16 + fromHex b < 2 ^ 31 then
        match hexLoop (c * 16 + fromHex b) r with
        | none => none
        | some (c', n) => some (c', n + 1)
      else none
    else some (c, 0)

/-- A plain `char` converted to `int`. -/
def charVal (h : Host) (b : UInt8) : Int :=
  match h with
  | .riscv => b.toNat
  | .x86 => if b < 128 then b.toNat else (b.toNat : Int) - 256

/-- read_escaped_char, tokenize.c:201-248, on the text after the backslash: the value and the number of bytes
consumed. With nothing left before the NUL, the C code steps past the NUL. -/
def readEscaped (h : Host) : List UInt8 → Except TErr (Int × Nat)
  | [] => .error .overrun
  | b :: r =>
    if isOct b then
      let (c, n) := octLoop 3 0 (b :: r)
      .ok (c, n)
    else if b = 0x78 then
      match r with
      | [] => .error .badHexEscape
      | x :: _ =>
        if isXDigit x then
          match hexLoop 0 r with
          | none => .error .intOverflow
          | some (c, n) => .ok (c, n + 1)
        else .error .badHexEscape
    else if b = 0x61 then .ok (7, 1)
    else if b = 0x62 then .ok (8, 1)
    else if b = 0x74 then .ok (9, 1)
    else if b = 0x6E then .ok (10, 1)
    else if b = 0x76 then .ok (11, 1)
    else if b = 0x66 then .ok (12, 1)
    else if b = 0x72 then .ok (13, 1)
    else if b = 0x65 then .ok (27, 1)
    else .ok (charVal h b, 1)

/-- string_literal_end, tokenize.c:251-265: the offset of the closing quote from `start`. -/
def stringEnd : List UInt8 → Except TErr Nat
  | [] => .error .unclosedString
  | c :: r =>
    if c = 0x22 then .ok 0
    else if c = 10 then .error .unclosedString
    else if c = 92 then
      match r with
      | [] => .error .overrun
      | _ :: r' =>
        match stringEnd r' with
        | .error e => .error e
        | .ok n => .ok (n + 2)
    else
      match stringEnd r with
      | .error e => .error e
      | .ok n => .ok (n + 1)

/-- `(T)x` for an unsigned type of `w` bits. -/
def wrapU (w : Nat) (x : Int) : Nat := (x % (2 ^ w : Int)).toNat

/-- The loop of read_string_literal, tokenize.c:276-281; `k` is `end - p`. -/
def narrowLoop (h : Host) (k : Nat) (p : List UInt8) : Except TErr (List Nat) :=
  if k = 0 then .ok []
  else
    match p with
    | [] => .error .overrun
    | c :: r =>
      if c = 92 then
        match readEscaped h r with
        | .error e => .error e
        | .ok (v, n) =>
          match narrowLoop h (k - (n + 1)) (r.drop n) with
          | .error e => .error e
          | .ok us => .ok (wrapU 8 v :: us)
      else
        match narrowLoop h (k - 1) r with
        | .error e => .error e
        | .ok us => .ok (c.toNat :: us)
termination_by k

/-- The code units written for one decoded character, tokenize.c:314-325. -/
def utf16Units (c : Nat) : List Nat :=
  if c < 0x10000 then [c]
  else [(0xd800 + (((c - 0x10000) >>> 10) &&& 0x3ff)) % 65536, (0xdc00 + ((c - 0x10000) &&& 0x3ff)) % 65536]

/-- The loop of read_utf16_string_literal, tokenize.c:308-326. -/
def utf16Loop (h : Host) (k : Nat) (p : List UInt8) : Except TErr (List Nat) :=
  if k = 0 then .ok []
  else
    match p with
    | [] => .error .overrun
    | c :: r =>
      if c = 92 then
        match readEscaped h r with
        | .error e => .error e
        | .ok (v, n) =>
          match utf16Loop h (k - (n + 1)) (r.drop n) with
          | .error e => .error e
          | .ok us => .ok (wrapU 16 v :: us)
      else
        match _hd : decode (c :: r) with
        | none => .error .badUtf8
        | some (v, n) =>
          match utf16Loop h (k - n) ((c :: r).drop n) with
          | .error e => .error e
          | .ok us => .ok (utf16Units v ++ us)
termination_by k
decreasing_by
  · omega
  · have := (decode_pos _ _ _ _hd).1; omega

/-- The loop of read_utf32_string_literal, tokenize.c:349-354. -/
def utf32Loop (h : Host) (k : Nat) (p : List UInt8) : Except TErr (List Nat) :=
  if k = 0 then .ok []
  else
    match p with
    | [] => .error .overrun
    | c :: r =>
      if c = 92 then
        match readEscaped h r with
        | .error e => .error e
        | .ok (v, n) =>
          match utf32Loop h (k - (n + 1)) (r.drop n) with
          | .error e => .error e
          | .ok us => .ok (wrapU 32 v :: us)
      else
        match _hd : decode (c :: r) with
        | none => .error .badUtf8
        | some (v, n) =>
          match utf32Loop h (k - n) ((c :: r).drop n) with
          | .error e => .error e
          | .ok us => .ok (v :: us)
termination_by k
decreasing_by
  · omega
  · have := (decode_pos _ _ _ _hd).1; omega

/-- One step of the main loop: skipped text, or a token of `n` bytes. -/
inductive Piece where
  | line (n : Nat)      -- a `//` comment, up to the newline
  | block (n : Nat)     -- a block comment
  | newline
  | space
  | tok (kind : Kind) (n : Nat) (pl : Payload)
  deriving DecidableEq, Repr

def Piece.len : Piece → Nat
  | .line n => n
  | .block n => n
  | .newline => 1
  | .space => 1
  | .tok _ n _ => n

/-- read_string_literal / read_utf16_string_literal / read_utf32_string_literal (tokenize.c:268-361) on the text
after a prefix of `skip` bytes and the quote. -/
def readString (h : Host) (skip : Nat) (el : Elem) (p : List UInt8) : Except TErr Piece :=
  match stringEnd p with
  | .error e => .error e
  | .ok k =>
    match (match el with
      | .char => narrowLoop h k p
      | .ushort => utf16Loop h k p
      | _ => utf32Loop h k p) with
    | .error e => .error e
    | .ok us => .ok (.tok .str (skip + 1 + k + 1) (.str el (us ++ [0])))

/-- read_char_literal, tokenize.c:393-416, on the text after a prefix of `skip` bytes and the quote: value before
the caller's conversion, and token length. -/
def readChar (h : Host) (skip : Nat) (p : List UInt8) : Except TErr (Int × Nat) :=
  match p with
  | [] => .error .unclosedChar
  | c :: r =>
    if c = 92 then
      match readEscaped h r with
      | .error e => .error e
      | .ok (v, n) =>
        match (r.drop n).findIdx? (· = 0x27) with
        | none => .error .unclosedChar
        | some i => .ok (v, skip + 1 + 1 + n + i + 1)
    else
      match decode (c :: r) with
      | none => .error .badUtf8
      | some (v, n) =>
        match ((c :: r).drop n).findIdx? (· = 0x27) with
        | none => .error .unclosedChar
        | some i => .ok (v, skip + 1 + n + i + 1)

/-- `(int)` of a 32-bit value. -/
def toInt32 (v : Int) : Int := if v % 2 ^ 32 < 2 ^ 31 then v % 2 ^ 32 else v % 2 ^ 32 - 2 ^ 32

/-- The value stored for a plain character constant, tokenize.c:668-675: `(char)` conversion, and on a RISC-V
host the sign "fix". -/
def plainCharVal (h : Host) (v : Int) : Int :=
  match h with
  | .x86 => if v % 256 < 128 then v % 256 else v % 256 - 256
  | .riscv => if v % 256 > 127 then -(v % 256) else v % 256

/-- Character constant token, tokenize.c:664-702 (`int c` in read_char_literal). -/
def charTok (h : Host) (skip : Nat) (ty : Elem) (plain : Bool) (p : List UInt8) : Except TErr Piece :=
  match readChar h skip p with
  | .error e => .error e
  | .ok (v, n) =>
    .ok (.tok .num n (.chr
      (if plain then plainCharVal h (toInt32 v)
       else if ty = .ushort then (toInt32 v) % 65536
       else toInt32 v) ty))

/-- The pp-number loop, tokenize.c:613-622: bytes consumed. -/
def ppLoop : List UInt8 → Nat
  | [] => 0
  | [a] => if isAlnum a || a == 0x2E then 1 else 0
  | a :: b :: r =>
    if (a == 0x65 || a == 0x45 || a == 0x70 || a == 0x50) && (b == 0x2B || b == 0x2D) then 2 + ppLoop r
    else if isAlnum a || a == 0x2E then 1 + ppLoop (b :: r)
    else 0

/-- `strstr(p, "*/")`: offset of the first `*/`. -/
def findClose : List UInt8 → Option Nat
  | [] => none
  | [_] => none
  | a :: b :: r => if a = 0x2A ∧ b = 0x2F then some 0 else (findClose (b :: r)).map (· + 1)

/-- `isdigit(p[0])`; the NUL is not a digit. -/
def headDig : List UInt8 → Bool
  | [] => false
  | d :: _ => isDig d

/-- One iteration of the main loop of tokenize, tokenize.c:563-721, with `*p` = `c`. -/
def lexCons (h : Host) (c : UInt8) (r : List UInt8) : Except TErr Piece :=
  if startsWith (c :: r) (asc "//") then
    -- while (*p != '\n') p++;
    match ((c :: r).drop 2).findIdx? (· = 10) with
    | none => .error .overrun
    | some i => .ok (.line (2 + i))
  else if startsWith (c :: r) (asc "/*") then
    match findClose ((c :: r).drop 2) with
    | none => .error .unclosedComment
    | some i => .ok (.block (2 + i + 2))
  else if c = 10 then .ok .newline
  else if isSpace c then .ok .space
  else if isDig c || (c == 0x2E && headDig r) then
    .ok (.tok .ppNum (1 + ppLoop r) .none)
  else if c = 0x22 then readString h 0 .char r
  else if startsWith (c :: r) (asc "u8\"") then readString h 2 .char ((c :: r).drop 3)
  else if startsWith (c :: r) (asc "u\"") then readString h 1 .ushort ((c :: r).drop 2)
  else if startsWith (c :: r) (asc "U\"") then readString h 1 .uint ((c :: r).drop 2)
  else if startsWith (c :: r) (asc "L\"") then readString h 1 .int ((c :: r).drop 2)
  else if c = 0x27 then charTok h 0 .int true r
  else if startsWith (c :: r) (asc "L'") then charTok h 1 .int false ((c :: r).drop 2)
  else if startsWith (c :: r) (asc "u'") then charTok h 1 .ushort false ((c :: r).drop 2)
  else if startsWith (c :: r) (asc "U'") then charTok h 1 .uint false ((c :: r).drop 2)
  else
    match readIdent (c :: r) with
    | none => .error .badUtf8
    | some (n + 1) => .ok (.tok .ident (n + 1) .none)
    | some 0 =>
      match readPunct (c :: r) with
      | n + 1 => .ok (.tok .punct (n + 1) .none)
      | 0 => .error .invalidToken

/-- The loop body on the text at the read position (the loop stops at the NUL). -/
def lexOne (h : Host) : List UInt8 → Except TErr Piece
  | [] => .error .invalidToken
  | c :: r => lexCons h c r

end Toycc.Lex
