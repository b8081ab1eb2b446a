import Verif.Lex.Model
/-! Model of `convert_pp_int`, tokenize.c:418-501. -/
namespace Toycc.Lex
open Toycc.Source (isXDigit)

/-- The integer types of constants (p_ty_int, p_ty_uint, p_ty_long, p_ty_ulong). -/
inductive IntTy where
  | int | uint | long | ulong
  deriving DecidableEq, Repr

/-- Value of a digit for strtoul: `0-9`, then letters of either case. -/
def strtoulDigit (b : UInt8) : Option Nat :=
  if 0x30 ≤ b && b ≤ 0x39 then some (b.toNat - 0x30)
  else if 0x61 ≤ b && b ≤ 0x7A then some (b.toNat - 87)
  else if 0x41 ≤ b && b ≤ 0x5A then some (b.toNat - 55)
  else none

/-- The digit loop of strtoul: the (unbounded) value and the number of digits. -/
def strtoulLoop (base acc : Nat) : List UInt8 → Nat × Nat
  | [] => (acc, 0)
  | b :: r =>
    match strtoulDigit b with
    | none => (acc, 0)
    | some d =>
      if d < base then
        let (v, n) := strtoulLoop base (acc * base + d) r
        (v, n + 1)
      else (acc, 0)

/-- strtoul before saturation: in base 16 an (additional) `0x` before a hexadecimal digit is accepted. -/
def strtoulRaw (base : Nat) (p : List UInt8) : Nat × Nat :=
  match p with
  | z :: x :: d :: r =>
    if base = 16 ∧ z = 0x30 ∧ (x = 0x78 ∨ x = 0x58) ∧ isXDigit d = true then
      ((strtoulLoop 16 0 (d :: r)).1, (strtoulLoop 16 0 (d :: r)).2 + 2)
    else strtoulLoop base 0 p
  | _ => strtoulLoop base 0 p

/-- libc `strtoul(p, &end, base)` as called at tokenize.c:436: value and bytes consumed; values above ULONG_MAX give
ULONG_MAX. White space and signs cannot occur there: `p` points to a digit or a dot. (The C23 `0b` prefix of newer
libcs is not modelled.) -/
def strtoul (base : Nat) (p : List UInt8) : Nat × Nat :=
  (min (strtoulRaw base p).1 (2 ^ 64 - 1), (strtoulRaw base p).2)

/-- `tolower` in the C locale. -/
def toLower (b : UInt8) : UInt8 := if 0x41 ≤ b && b ≤ 0x5A then b + 32 else b

/-- `!strncasecmp(p, q, strlen(q))` for a lower-case `q`. -/
def startsCI (p q : List UInt8) : Bool := q.isPrefixOf (p.map toLower)

/-- Base and length of the prefix, tokenize.c:423-434. -/
def readBase (p : List UInt8) : Nat × Nat :=
  match p with
  | z :: x :: d :: _ =>
    if startsCI [z, x] (asc "0x") && isXDigit d then (16, 2)
    else if startsCI [z, x] (asc "0b") && (d == 0x30 || d == 0x31) then (2, 2)
    else if z = 0x30 then (8, 0) else (10, 0)
  | z :: _ => if z = 0x30 then (8, 0) else (10, 0)
  | [] => (10, 0)

/-- The suffix, tokenize.c:439-466: `l`, `u`, bytes consumed. -/
def readSuffix (p : List UInt8) : Bool × Bool × Nat :=
  if startsWith p (asc "LLU") || startsWith p (asc "LLu") || startsWith p (asc "llU") || startsWith p (asc "llu") ||
     startsWith p (asc "ULL") || startsWith p (asc "Ull") || startsWith p (asc "uLL") || startsWith p (asc "ull") then
    (true, true, 3)
  else if startsCI p (asc "lu") || startsCI p (asc "ul") then (true, true, 2)
  else if startsWith p (asc "LL") || startsWith p (asc "ll") then (true, false, 2)
  else if startsWith p (asc "L") || startsWith p (asc "l") then (true, false, 1)
  else if startsWith p (asc "U") || startsWith p (asc "u") then (false, true, 1)
  else (false, false, 0)

/-- `(int64_t)` of a 64-bit value. -/
def asI64 (v : Nat) : Int := if v < 2 ^ 63 then v else (v : Int) - 2 ^ 64

/-- The type, tokenize.c:471-495; `val` is an int64_t, `>>` is arithmetic. -/
def inferType (base : Nat) (l u : Bool) (val : Int) : IntTy :=
  if base = 10 then
    if l && u then .ulong
    else if l then .long
    else if u then (if val >>> 32 ≠ 0 then .ulong else .uint)
    else (if val >>> 31 ≠ 0 then .long else .int)
  else
    if l && u then .ulong
    else if l then (if val >>> 63 ≠ 0 then .ulong else .long)
    else if u then (if val >>> 32 ≠ 0 then .ulong else .uint)
    else if val >>> 63 ≠ 0 then .ulong
    else if val >>> 32 ≠ 0 then .long
    else if val >>> 31 ≠ 0 then .uint
    else .int

/-- convert_pp_int, tokenize.c:418-501: `p` is the text from the token to the NUL, `len` the token's length.
`none` = `return false`; otherwise the 64-bit pattern stored in `val` and the type. -/
def convertPpInt (p : List UInt8) (len : Nat) : Option (Nat × IntTy) :=
  let (base, skip) := readBase p
  let (v, n) := strtoul base (p.drop skip)
  let (l, u, m) := readSuffix (p.drop (skip + n))
  if skip + n + m ≠ len then none
  else some (v, inferType base l u (asI64 v))

end Toycc.Lex
