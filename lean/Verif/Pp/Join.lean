import Verif.Pp.Model
import Verif.Lex.LitProps
/-! Model of getStringKind and join_adjacent_string_literals, preprocess.c:1187-1293. -/
namespace Toycc.Pp
open Toycc.Lex (Kind Payload Host TErr asc Elem Piece readString)

/-- enum StringKind, preprocess.c:1187-1193. -/
inductive SKind where
  | none | utf8 | utf16 | utf32 | wide
  deriving DecidableEq, Repr

/-- Outcomes of join_adjacent_string_literals other than success: the diagnostic, an error while a literal is read
again, a token without a string or with an unknown prefix, and a write outside the allocated buffer. -/
inductive JErr where
  | mixed | lex (e : TErr) | null | overflow
  deriving DecidableEq, Repr

/-- getStringKind, preprocess.c:1195-1212. `strcmp(tok->loc, "u8")` compares with the whole text from `loc` to the end
of the file, which contains at least the token. -/
def stringKind (t : PTok) : Option SKind :=
  if t.text = asc "u8" then some .utf8
  else
    match t.text with
    | 0x22 :: _ => some .none
    | 0x75 :: _ => some .utf16
    | 0x55 :: _ => some .utf32
    | 0x4C :: _ => some .wide
    | _ => Option.none

/-- `ty->base` and the stored elements of a string token. -/
def strOf (t : PTok) : Option (Elem × List Nat) :=
  match t.payload with
  | .str el us => some (el, us)
  | _ => none

/-- Size of an element type, type.c. -/
def esize : Elem → Nat
  | .char => 1
  | .ushort => 2
  | .uint | .int => 4

/-- The loop over the second and later literals of a run, preprocess.c:1234-1248. -/
def mix (kind : SKind) (base : Elem) : List PTok → Except JErr Elem
  | [] => .ok base
  | t :: r =>
    match stringKind t, strOf t with
    | some k2, some (e2, _) =>
      if kind = .none then mix k2 e2 r
      else if k2 ≠ .none ∧ kind ≠ k2 then .error .mixed
      else mix kind base r
    | _, _ => .error .null

/-- tokenize_string_literal, tokenize.c:363-374, and the copy over the old token: the text from the byte after `loc` on
is read as the body of a literal. new_token (tokenize.c:45-62) leaves the line number and the hide set zero; the file
fields, which it takes from the last file read, are left alone here. -/
def retokenize (h : Host) (el : Elem) (t : PTok) : Except JErr PTok :=
  match readString h 0 (if esize el = 2 then .ushort else el) (t.text.drop 1) with
  | .error e => .error (.lex e)
  | .ok (.tok k n pl) => .ok { t with kind := k, text := t.text.take n, payload := pl, hs := [], line := 0, delta := 0 }
  | .ok _ => .error .null

/-- preprocess.c:1252-1256. -/
def widen (h : Host) (el : Elem) : List PTok → Except JErr (List PTok)
  | [] => .ok []
  | t :: r =>
    match strOf t with
    | none => .error .null
    | some (e, _) =>
      match (if esize e = 1 then retokenize h el t else .ok t) with
      | .error e => .error e
      | .ok t' =>
        match widen h el r with
        | .error e => .error e
        | .ok r' => .ok (t' :: r')

/-- The body of the first loop for one run of at least two literals, preprocess.c:1229-1257. -/
def convRun (h : Host) (t : PTok) (ts : List PTok) : Except JErr (List PTok) :=
  match stringKind t, strOf t with
  | some k, some (e, _) =>
    match mix k e ts with
    | .error e => .error e
    | .ok el => if esize el > 1 then widen h el (t :: ts) else .ok (t :: ts)
  | _, _ => .error .null

def isStr (t : PTok) : Bool := t.kind == .str

theorem dropWhile_le (p : PTok → Bool) (l : List PTok) : (l.dropWhile p).length ≤ l.length :=
  (List.dropWhile_sublist p).length_le

/-- The first loop, preprocess.c:1222-1262. -/
def pass1 (h : Host) : List PTok → Except JErr (List PTok)
  | [] => .ok []
  | t :: r =>
    if isStr t = false ∨ (r.takeWhile isStr) = [] then
      match pass1 h r with
      | .error e => .error e
      | .ok r' => .ok (t :: r')
    else
      match convRun h t (r.takeWhile isStr) with
      | .error e => .error e
      | .ok run =>
        match pass1 h (r.dropWhile isStr) with
        | .error e => .error e
        | .ok r' => .ok (run ++ r')
termination_by l => l.length
decreasing_by
  · simp
  · have := dropWhile_le isStr r; simp; omega

/-- The bytes of an array of elements (little endian). -/
def leBytes : Nat → Nat → List UInt8
  | 0, _ => []
  | w + 1, u => UInt8.ofNat (u % 256) :: leBytes w (u / 256)

def bytesOf (w : Nat) (us : List Nat) : List UInt8 := us.flatMap (leBytes w)

def ofLe : List UInt8 → Nat
  | [] => 0
  | b :: r => b.toNat + 256 * ofLe r

/-- The elements in a buffer of `n` elements of `w` bytes. -/
def unitsOf (w : Nat) : Nat → List UInt8 → List Nat
  | 0, _ => []
  | n + 1, b => ofLe (b.take w) :: unitsOf w n (b.drop w)

/-- `memcpy(buf + i, bs, |bs|)`; `none` when it writes outside the buffer. -/
def writeAt (buf : List UInt8) (i : Nat) (bs : List UInt8) : Option (List UInt8) :=
  if i + bs.length ≤ buf.length then some (buf.take i ++ bs ++ buf.drop (i + bs.length)) else none

/-- The copying loop, preprocess.c:1280-1284. -/
def copyLits (buf : List UInt8) (i : Nat) : List (Elem × List Nat) → Option (List UInt8)
  | [] => some buf
  | (e, us) :: r =>
    match writeAt buf i (bytesOf (esize e) us) with
    | none => none
    | some b => copyLits b (i + esize e * us.length - esize e) r

/-- All elements of `f x`, or `none`. -/
def allSome (f : PTok → Option (Elem × List Nat)) : List PTok → Option (List (Elem × List Nat))
  | [] => some []
  | t :: r =>
    match f t, allSome f r with
    | some x, some xs => some (x :: xs)
    | _, _ => none

/-- The body of the second loop for one run, preprocess.c:1271-1291. -/
def joinRun (t : PTok) (ts : List PTok) : Except JErr PTok :=
  match strOf t, allSome strOf ts with
  | some (e, us), some xs =>
    let len := us.length + (xs.map fun x => x.2.length - 1).sum
    match copyLits (List.replicate (esize e * len) 0) 0 ((e, us) :: xs) with
    | none => .error .overflow
    | some buf => .ok { t with payload := .str e (unitsOf (esize e) len buf) }
  | _, _ => .error .null

/-- The second loop, preprocess.c:1265-1292. -/
def pass2 : List PTok → Except JErr (List PTok)
  | [] => .ok []
  | t :: r =>
    if isStr t = false ∨ (r.takeWhile isStr) = [] then
      match pass2 r with
      | .error e => .error e
      | .ok r' => .ok (t :: r')
    else
      match joinRun t (r.takeWhile isStr) with
      | .error e => .error e
      | .ok u =>
        match pass2 (r.dropWhile isStr) with
        | .error e => .error e
        | .ok r' => .ok (u :: r')
termination_by l => l.length
decreasing_by
  · simp
  · have := dropWhile_le isStr r; simp; omega

/-- join_adjacent_string_literals, preprocess.c:1216-1293. -/
def joinStrings (h : Host) (l : List PTok) : Except JErr (List PTok) :=
  match pass1 h l with
  | .error e => .error e
  | .ok l1 => pass2 l1

end Toycc.Pp
