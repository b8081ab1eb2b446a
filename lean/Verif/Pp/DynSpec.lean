import Verif.Pp.CondProps
import Verif.Lex.NumProps
/-! C89: what the predefined macros __LINE__, __FILE__, __COUNTER__ and __BASE_FILE__ stand for, and what a #line directive changes. -/
namespace Toycc.Pp.Dyn
open Toycc.Lex (asc Kind)

/-- A token of a source file: its kind, its spelling, and the physical line on which it stands. -/
structure SrcTok where
  kind : Kind
  text : Bytes
  line : Nat
  deriving DecidableEq, Repr

/-- What a name means. `other` covers all macros of which nothing is said here. -/
inductive Meaning where
  | ordinary
  | line | file | counter | baseFile
  | object (body : List (Kind × Bytes))
  | other
  deriving DecidableEq, Repr

/-- What is put into the output: a token as it was written, a number, a string. -/
inductive Out where
  | same (k : Kind) (s : Bytes)
  | num (n : Nat)
  | str (s : Bytes)
  deriving DecidableEq, Repr

/-- What is known about the file at some place: its presumed name, and by how much the presumed line numbers differ from the physical ones. -/
structure Pres where
  name : Bytes
  off : Int
  deriving DecidableEq, Repr

/-- `Becomes D B p H c ts o c'`: the tokens `ts`, in which the macros `H` are not replaced any more, become `o`; the next
value of __COUNTER__ is `c` before and `c'` afterwards. `D` says what the names mean, `B` is the name of the main file,
`p` the presumed name and line numbers. The tokens of a macro's replacement list count as standing where the macro's name stands. -/
inductive Becomes (D : Bytes → Meaning) (B : Bytes) (p : Pres) : List Bytes → Nat → List SrcTok → List Out → Nat → Prop where
  | nil {H c} : Becomes D B p H c [] [] c
  | same {H c t ts o c'} : t.kind ≠ .ident ∨ D t.text = .ordinary ∨ t.text ∈ H → Becomes D B p H c ts o c' →
      Becomes D B p H c (t :: ts) (.same t.kind t.text :: o) c'
  | line {H c t ts o c'} {n : Nat} : t.kind = .ident → t.text ∉ H → D t.text = .line → (t.line : Int) + p.off = n → Becomes D B p H c ts o c' →
      Becomes D B p H c (t :: ts) (.num n :: o) c'
  | file {H c t ts o c'} : t.kind = .ident → t.text ∉ H → D t.text = .file → Becomes D B p H c ts o c' →
      Becomes D B p H c (t :: ts) (.str p.name :: o) c'
  | baseFile {H c t ts o c'} : t.kind = .ident → t.text ∉ H → D t.text = .baseFile → Becomes D B p H c ts o c' →
      Becomes D B p H c (t :: ts) (.str B :: o) c'
  | counter {H c t ts o c'} : t.kind = .ident → t.text ∉ H → D t.text = .counter → Becomes D B p H (c + 1) ts o c' →
      Becomes D B p H c (t :: ts) (.num c :: o) c'
  | object {H c t ts o1 o2 c1 c'} {b : List (Kind × Bytes)} : t.kind = .ident → t.text ∉ H → D t.text = .object b → b ≠ [] →
      Becomes D B p (t.text :: H) c (b.map fun x => ⟨x.1, x.2, t.line⟩) o1 c1 → Becomes D B p H c1 ts o2 c' →
      Becomes D B p H c (t :: ts) (o1 ++ o2) c'

/-- A piece of a file: text without directives, or a line marker on physical line `at`: `#line n`, `# n`, with a file name or without. -/
inductive Part where
  | text (ts : List SrcTok)
  | marker (at_ n : Nat) (name : Option Bytes)

/-- What a file becomes. toycc gives the line *of* the directive the number `n` (C gives it to the line after it). -/
inductive FileBecomes (D : Bytes → Meaning) (B : Bytes) : Pres → Nat → List Part → List Out → Pres → Nat → Prop where
  | nil {p c} : FileBecomes D B p c [] [] p c
  | text {p p' c c1 c' ts ps o1 o2} : Becomes D B p [] c ts o1 c1 → FileBecomes D B p c1 ps o2 p' c' →
      FileBecomes D B p c (.text ts :: ps) (o1 ++ o2) p' c'
  | marker {p p' c c' ps o} {l n : Nat} {name : Option Bytes} : FileBecomes D B ⟨name.getD p.name, (n : Int) - l⟩ c ps o p' c' →
      FileBecomes D B p c (.marker l n name :: ps) o p' c'

/-! ### How the tokens and the state of the preprocessor show these -/

/-- The state knows the names as `D` says. -/
def Knows (D : Bytes → Meaning) (st : St) : Prop :=
  ∀ s, match D s with
    | .ordinary => lookup st s = none
    | .line => ∃ m, lookup st s = some m ∧ m.handler = some .line
    | .file => ∃ m, lookup st s = some m ∧ m.handler = some .file
    | .counter => ∃ m, lookup st s = some m ∧ m.handler = some .counter
    | .baseFile => ∃ m, lookup st s = some m ∧ m.handler = some .baseFile
    | .object b => ∃ m ts, lookup st s = some m ∧ m.handler = none ∧ m.objlike = true ∧ m.name = s ∧ m.body = ts ++ [lineEnd] ∧
        ts.map (fun t => (t.kind, t.text)) = b ∧ ∀ t ∈ ts, t.isEof = false ∧ t.hs = [] ∧ t.text ≠ asc "#"
    | .other => True

/-- The presumed name and line numbers of file `f` are those of `p`. -/
def Shown (st : St) (f : FileRef) (p : Pres) : Prop := lineState st f = (p.name, p.off)

/-- A token of file `f` as written. -/
def Written (f : FileRef) (s : SrcTok) (t : PTok) : Prop :=
  t.kind = s.kind ∧ t.text = s.text ∧ t.file = f ∧ t.line = s.line ∧ t.origin = none ∧ t.hs = [] ∧ t.isEof = false ∧ t.text ≠ asc "#"

/-- Two lists, element by element. -/
inductive All2 {α β : Type} (R : α → β → Prop) : List α → List β → Prop where
  | nil : All2 R [] []
  | cons {a b as bs} : R a b → All2 R as bs → All2 R (a :: as) (b :: bs)

/-- The output token `t` is the one described by `o`. -/
def Out.IsTok (o : Out) (t : PTok) : Prop :=
  match o with
  | .same k s => t.kind = k ∧ t.text = s
  | .num n => t.kind = .ppNum ∧ t.text = asc (toString n)
  | .str s => t.kind = .str ∧ t.payload = .str .char (s.map UInt8.toNat ++ [0])

/-- What follows the number in a marker: nothing, or a string literal. -/
inductive NameToks : Option Bytes → List PTok → Prop where
  | none : NameToks none []
  | some {s : PTok} {name : Bytes} : s.bol = false → s.kind = .str → s.payload = .str .char (name.map UInt8.toNat ++ [0]) → (0 : UInt8) ∉ name →
      NameToks (some name) [s]

/-- The tokens of a part of file `f`. In a marker the word `line` may be left out, and the number is an integer constant of type `int`. -/
inductive PartToks (f : FileRef) : Part → List PTok → Prop where
  | text {ss ts} : All2 (Written f) ss ts → PartToks f (.text ss) ts
  | marker {h n : PTok} {d s : List PTok} {l v : Nat} {name : Option Bytes} : isHash h = true → h.kind = .punct → (d = [] ∨ ∃ x, d = [x] ∧ x.text = asc "line") →
      n.bol = false → n.kind = .ppNum → n.file = f → n.line = l → Lex.IntConst n.text v .int → NameToks name s →
      PartToks f (.marker l v name) (h :: (d ++ n :: s))

/-- The tokens of a sequence of parts; after a marker a new line begins. -/
inductive FileToks (f : FileRef) : List Part → List PTok → Prop where
  | nil {e : PTok} : e.isEof = true → e.bol = true → FileToks f [] [e]
  | text {ss ps ts us} : PartToks f (.text ss) ts → FileToks f ps us → FileToks f (.text ss :: ps) (ts ++ us)
  | marker {l n name ps ts us} : PartToks f (.marker l n name) ts → FileToks f ps us → (∀ u ∈ us.head?, u.bol = true) →
      FileToks f (.marker l n name :: ps) (ts ++ us)

end Toycc.Pp.Dyn
