import Verif.Src.Chars
import Verif.Lex.Spec
import Verif.Lex.PrintSpec
import Verif.Lex.NumSpec
import Verif.Source.Spec
/-!
Specification: how tokens are written in a file. Names, keywords, punctuators, integer and character constants have spellings; between them stand white space and comments, which
may be missing where the next character does not continue the token (C11 5.1.1.2, 6.4).
-/
namespace Toycc.Src
open Toycc.Lex (asc Kind GapItem ValidGap gapBytes glues IntConst)
open Toycc.Pp (Bytes)
open Toycc.Parse (Tok P)

/-- The keywords of toycc: those of C11 6.4.1 except `inline`, `_Complex`, `_Generic`, `_Imaginary` and `_Static_assert`, and six more. -/
def IsKeyword (s : String) : Prop :=
  s ∈ ["auto", "break", "case", "char", "const", "continue", "default", "do", "double", "else", "enum", "extern", "float", "for", "goto", "if", "int", "long", "register", "restrict",
    "return", "short", "signed", "sizeof", "static", "struct", "switch", "typedef", "union", "unsigned", "void", "volatile", "while", "_Alignas", "_Alignof", "_Atomic", "_Bool",
    "_Noreturn", "_Thread_local"] ∨ s ∈ ["asm", "typeof", "__attribute__", "__restrict", "__restrict__", "__thread"]

/-- A letter or `_`. -/
def Letter (c : Char) : Prop := ('a' ≤ c ∧ c ≤ 'z') ∨ ('A' ≤ c ∧ c ≤ 'Z') ∨ c = '_'

/-- A word: a letter, then letters and digits. -/
def Word (s : String) : Prop := ∃ c r, s.toList = c :: r ∧ Letter c ∧ ∀ d ∈ r, Letter d ∨ ('0' ≤ d ∧ d ≤ '9')

/-- `Spelling t w k`: the token `t` is spelled `w`, which is a preprocessing token of kind `k`. `'c'` stands for the
code of a printing character other than `'` and the backslash. -/
inductive Spelling : Tok → Bytes → Kind → Prop where
  | sign (p : P) : Spelling (.p p) (asc (sign p)) .punct
  | kw {s} : IsKeyword s → Spelling (.kw s) (asc s) .ident
  | name {s} : Word s → ¬ IsKeyword s → Spelling (.ident s) (asc s) .ident
  | int {w v} : IntConst w v .int → Spelling (.num v) w .ppNum
  | uint {w v} : IntConst w v .uint → Spelling (.tnum .uint v) w .ppNum
  | long {w v} : IntConst w v .long → Spelling (.tnum .long v) w .ppNum
  | ulong {w v} : IntConst w v .ulong → Spelling (.tnum .ulong v) w .ppNum
  | chr {c : UInt8} : 0x20 ≤ c → c ≤ 0x7E → c ≠ 0x27 → c ≠ 0x5C → Spelling (.num c.toNat) [0x27, c, 0x27] .num

/-- `Laid text ts`: the text is a gap, a token, a gap, ..., a token, a gap. After a token comes something that is not read as part of it. -/
inductive Laid : Bytes → List Tok → Prop where
  | nil {g} : ValidGap g → Laid (gapBytes g) []
  | cons {g t w k rest ts} : ValidGap g → Spelling t w k → glues k w rest = false → rest ≠ [] → Laid rest ts → Laid (gapBytes g ++ (w ++ rest)) (t :: ts)

/-- The text of a file after the first translation phases (C09-C11): the missing newline at the end is added, line ends become newlines, lines that end in a backslash are spliced,
universal character names are replaced. -/
def logical (contents : Bytes) : Bytes :=
  Source.Spec.ucn (Source.Spec.splice 0 (Source.Spec.newlines (if contents.getLast? = some 10 then contents else contents ++ [10])))

/-- A file at `path` that contains the tokens `ts` and neither a NUL nor a byte order mark. -/
structure Contains (env : Pp.Env) (path : Bytes) (ts : List Tok) : Prop where
  ex : ∃ c, env.read path = some c ∧ (∀ b ∈ c, b ≠ 0) ∧ (∀ r, c ≠ 0xEF :: 0xBB :: 0xBF :: r) ∧ Laid (logical c) ts

/-- The words of a list of tokens that might be names of macros. -/
def words' : List Tok → List String
  | [] => []
  | .ident s :: r => s :: words' r
  | .kw s :: r => s :: words' r
  | _ :: r => words' r

end Toycc.Src
