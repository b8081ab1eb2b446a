import Verif.Src.IfSpec
import Verif.Pp.Incl
/-!
Specification: source files with directives (C11 6.10). A file is a group of text lines, of the directives #define, #undef and #include, and of conditional sections. How it is
written in characters: `WrittenP`. What comes out of preprocessing it: `Runs`.
-/
namespace Toycc.Src
open Toycc.Lex (asc Kind GapItem ValidGap gapBytes glues hasNl)
open Toycc.Pp (Bytes Opens)
open Toycc.Parse (Tok P Tree)

/-- What is between `#include` and the end of its line: a string or words and punctuators in angle brackets. -/
inductive Header where
  | quoted (name : Bytes)
  | angled (ts : List Tok)

/-- The condition on the opening line of a section. -/
inductive If where
  | ifE (ts : List Tok)
  | ifdef (x : String)
  | ifndef (x : String)

mutual
/-- 6.10p1: a group. `defineF` defines a function-like macro (`va`: the name of its variable arguments), `once` is `#pragma once`, `other` another directive (`#error`, `#line`, ...). -/
inductive Grp where
  | nil
  | line (t : Tok) (ts : List Tok) (g : Grp)
  | define (x : String) (b : List Tok) (g : Grp)
  | defineF (x : String) (ps : List String) (va : Option String) (b : List Tok) (g : Grp)
  | undef (x : String) (g : Grp)
  | incl (h : Header) (g : Grp)
  | once (g : Grp)
  | pragma (t : Tok) (ts : List Tok) (g : Grp)
  | other (x : String) (ts : List Tok) (g : Grp)
  | sect (c : If) (b : Grp) (r : Rest) (g : Grp)
/-- What follows the first group of a section. -/
inductive Rest where
  | endif
  | els (g : Grp)
  | elif (ts : List Tok) (g : Grp) (r : Rest)
end

/-! ### How it is written -/

/-- The preprocessing tokens of a file. -/
inductive PT where
  | hash
  | tok (t : Tok)
  | str (name : Bytes)

/-- What must stand before a token: anything, white space, nothing. -/
inductive Sep where
  | any | white | tight

/-- A token and whether it is the first of its line. -/
structure Item where
  tok : PT
  bol : Bool
  sep : Sep

/-- Tokens that are not the first of their line. -/
def inner (ts : List Tok) : List Item := ts.map fun t => ⟨.tok t, false, .any⟩

/-- The beginning of a directive. -/
def dirItems (s : String) : List Item := [⟨.hash, true, .any⟩, ⟨.tok (nm s), false, .any⟩]

/-- 6.10.3p3: white space between the name of a macro and its replacement list. -/
def bodyItems : List Tok → List Item
  | [] => []
  | t :: ts => ⟨.tok t, false, .white⟩ :: inner ts

/-- 6.10.3p12: an ellipsis stands for `__VA_ARGS__`. The extension `name...` gives the variable arguments another name. -/
def vaText : Option String → List (List Tok)
  | none => []
  | some v => if v = "__VA_ARGS__" then [[.p .dots]] else [[nm v, .p .dots]]

/-- 6.10.3p10: the parenthesis follows the name of a function-like macro without white space. -/
def paramItems (ps : List String) (va : Option String) : List Item := ⟨.tok (.p .lpar), false, .tight⟩ :: inner (sepBy (ps.map (fun s => [nm s]) ++ vaText va) ++ [.p .rpar])

def Header.items : Header → List Item
  | .quoted name => [⟨.str name, false, .any⟩]
  | .angled ts => ⟨.tok (.p .lt), false, .any⟩ :: (ts.map fun t => ⟨.tok t, false, .tight⟩) ++ [⟨.tok (.p .gt), false, .tight⟩]

def If.items : If → List Item
  | .ifE ts => dirItems "if" ++ inner ts
  | .ifdef x => dirItems "ifdef" ++ inner [nm x]
  | .ifndef x => dirItems "ifndef" ++ inner [nm x]

mutual
/-- The tokens of a group. -/
def Grp.items : Grp → List Item
  | .nil => []
  | .line t ts g => ⟨.tok t, true, .any⟩ :: inner ts ++ g.items
  | .define x b g => dirItems "define" ++ inner [nm x] ++ bodyItems b ++ g.items
  | .defineF x ps va b g => dirItems "define" ++ inner [nm x] ++ paramItems ps va ++ inner b ++ g.items
  | .undef x g => dirItems "undef" ++ inner [nm x] ++ g.items
  | .incl h g => dirItems "include" ++ h.items ++ g.items
  | .once g => dirItems "pragma" ++ inner [nm "once"] ++ g.items
  | .pragma t ts g => dirItems "pragma" ++ inner (t :: ts) ++ g.items
  | .other x ts g => dirItems x ++ inner ts ++ g.items
  | .sect c b r g => c.items ++ b.items ++ r.items ++ g.items
def Rest.items : Rest → List Item
  | .endif => dirItems "endif"
  | .els g => dirItems "else" ++ g.items ++ dirItems "endif"
  | .elif ts g r => dirItems "elif" ++ inner ts ++ g.items ++ r.items
end

mutual
/-- Other directives are not those of conditional inclusion. -/
def Grp.Ok : Grp → Prop
  | .nil => True
  | .line _ _ g | .define _ _ g | .defineF _ _ _ _ g | .undef _ g | .incl _ g | .once g | .pragma _ _ g => g.Ok
  | .other x _ g => x ∉ ["if", "ifdef", "ifndef", "elif", "else", "endif"] ∧ g.Ok
  | .sect _ b r g => b.Ok ∧ r.Ok ∧ g.Ok
def Rest.Ok : Rest → Prop
  | .endif => True
  | .els g => g.Ok
  | .elif _ g r => g.Ok ∧ r.Ok
end

/-- Spellings. -/
inductive SpellP : PT → Bytes → Kind → Prop where
  | hash : SpellP .hash (asc "#") .punct
  | tok {t w k} : Spelling t w k → SpellP (.tok t) w k
  | str {name : Bytes} : (∀ b ∈ name, b ≠ 0x22 ∧ b ≠ 0x5C ∧ b ≠ 10) → SpellP (.str name) (0x22 :: (name ++ [0x22])) .str

/-- The gap is one that may stand before a token. -/
def Sep.Ok : Sep → List GapItem → Prop
  | .any, _ => True
  | .white, g => g ≠ []
  | .tight, g => g = []

/-- `WrittenP start text is`: the text is a gap, a token, ..., a gap; a token is the first of its line if a newline (outside of comments) is before it, or if the file begins there (`start`). The
text ends with a newline. -/
inductive WrittenP : Bool → Bytes → List Item → Prop where
  | nil {start g} : ValidGap g → (start || hasNl g) = true → WrittenP start (gapBytes g) []
  | cons {start g i w k rest is} : ValidGap g → i.bol = (start || hasNl g) → i.sep.Ok g → SpellP i.tok w k → glues k w rest = false → rest ≠ [] → WrittenP false rest is →
      WrittenP start (gapBytes g ++ (w ++ rest)) (i :: is)

/-- The file at `path` is `G`, and contains neither a NUL nor a byte order mark. -/
structure IsGrp (env : Pp.Env) (path : Bytes) (G : Grp) : Prop where
  ex : ∃ c, env.read path = some c ∧ (∀ b ∈ c, b ≠ 0) ∧ (∀ r, c ≠ 0xEF :: 0xBB :: 0xBF :: r) ∧ WrittenP true (logical c) G.items
  ok : G.Ok

/-! ### What it means -/

/-- Object-like macros with their replacement lists, function-like ones with their parameters too, and others. -/
inductive Mac where
  | obj (b : List Tok)
  | fn (ps : List String) (va : Option String) (b : List Tok)
  | other

/-- The macros that are defined, by the spelling of the name. -/
abbrev Macros := Bytes → Option Mac

def Macros.set (M : Macros) (x : String) (m : Option Mac) : Macros := fun y => if y = asc x then m else M y
def Macros.obj (M : Macros) (s : String) (b : List Tok) : Prop := M (asc s) = some (.obj b)
def Macros.free (M : Macros) (s : String) : Prop := M (asc s) = none

/-- As the macros of MacSpec. -/
def Macros.defs (M : Macros) : Defs := ⟨M.obj, fun s ps va b => M (asc s) = some (.fn ps va b), M.free⟩

/-- Lines of text before a group. -/
def Grp.text : List (Tok × List Tok) → Grp → Grp
  | [], g => g
  | (t, ts) :: r, g => .line t ts (Grp.text r g)

/-- Their tokens. -/
def textToks (ls : List (Tok × List Tok)) : List Tok := ls.flatMap fun l => l.1 :: l.2

/-- The value of a controlling expression (6.10.1p4, see C76). -/
def Value (M : Macros) (ts : List Tok) (v : Int) : Prop :=
  ∃ us ws e, Reads (fun x => (M (asc x)).isSome) ts us ∧ Expands M.defs us ws ∧ IfText e (zeroed ws) ∧ Signed e ∧ Fits e ∧ ifVal e = some v

/-- Whether the condition of a section holds. -/
inductive Cond (M : Macros) : If → Bool → Prop where
  | ifE {ts v} : Value M ts v → Cond M (.ifE ts) (v != 0)
  | ifdef {x} : Cond M (.ifdef x) (M (asc x)).isSome
  | ifndef {x} : Cond M (.ifndef x) (!(M (asc x)).isSome)

/-- How tokens of header names are spelled: words and punctuators other than `>`. -/
def spell : Tok → Option Bytes
  | .ident s | .kw s => some (asc s)
  | .p .gt => none
  | .p p => some (asc (sign p))
  | _ => none

/-- The name of the file and whether it is searched for in the directory of the includer. -/
inductive Header.Names : Header → Bool → Bytes → Prop where
  | quoted {name} : Header.Names (.quoted name) true name
  | angled {ts ws} : ts.mapM spell = some ws → Header.Names (.angled ts) false ws.flatten

/-- A file that begins like one with an include guard is one: nothing follows the section, and the section has no other group (see `Pp.C28_second_section_wrong` and `Pp.C28_else_wrong`). -/
def Grp.Guardable : Grp → Prop
  | .sect (.ifndef x) (.define y _ _) r g => x = y → r = .endif ∧ g = .nil
  | .sect (.ifndef x) (.defineF y _ _ _ _) r g => x = y → r = .endif ∧ g = .nil
  | .sect (.ifndef _) (.other x _ _) r g => x = "define" → r = .endif ∧ g = .nil
  | _ => True

/-- The macros, the files that are not to be included again, and whether the line before is a #define without replacement list. -/
structure PState where
  mac : Macros
  once : List Bytes := []
  bare : Bool := false

/-- After a line that is not such a #define. -/
def PState.next (s : PState) : PState := { s with bare := false }

mutual
/-- `Runs env files cur s G s' out`: preprocessing the group `G` of the file `cur` outputs the tokens `out`; `files` are the groups in the files that may be included. Lines of text are expanded (as one list),
macros are defined and undefined, included files are preprocessed in the place of the directive unless they contain `#pragma once` and have been included before, and of each section the first
group whose condition holds is preprocessed, or else the #else group. The last token of a list of lines does not vanish. -/
inductive Runs (env : Pp.Env) (files : Bytes → Option Grp) : Bytes → PState → Grp → PState → List Tok → Prop where
  | nil {cur s} : Runs env files cur s .nil s []
  | text {cur s t ts ls us g s' out} : Expand s.mac.defs [] (t :: ts ++ textToks ls) us true → (s.bare = true → t ≠ .p .lpar) →
      Runs env files cur s.next g s' out → Runs env files cur s (.line t ts (.text ls g)) s' (us ++ out)
  | define {cur s x b g s' out} : Runs env files cur { s with mac := s.mac.set x (some (.obj b)), bare := b.isEmpty } g s' out → Runs env files cur s (.define x b g) s' out
  | defineF {cur s x ps va b g s' out} : Runs env files cur { s.next with mac := s.mac.set x (some (.fn ps va b)) } g s' out → Runs env files cur s (.defineF x ps va b g) s' out
  | undef {cur s x g s' out} : Runs env files cur { s.next with mac := s.mac.set x none } g s' out → Runs env files cur s (.undef x g) s' out
  | incl {cur s h q name path G g s1 s' o1 o2} : h.Names q name → Opens env cur q name path → path ∉ s.once → files path = some G → G.Guardable →
      Runs env files path s.next G s1 o1 → Runs env files cur s1 g s' o2 → Runs env files cur s (.incl h g) s' (o1 ++ o2)
  | again {cur s h q name path g s' out} : h.Names q name → Opens env cur q name path → path ∈ s.once → Runs env files cur s.next g s' out → Runs env files cur s (.incl h g) s' out
  | once {cur s g s' out} : Runs env files cur { s.next with once := cur :: s.once } g s' out → Runs env files cur s (.once g) s' out
  | pragma {cur s t ts g s' out} : t ≠ nm "once" → Runs env files cur s.next g s' out → Runs env files cur s (.pragma t ts g) s' out
  | taken {cur s c b r g s1 s' o1 o2} : Cond s.mac c true → Runs env files cur s.next b s1 o1 → Runs env files cur s1.next g s' o2 → Runs env files cur s (.sect c b r g) s' (o1 ++ o2)
  | skipped {cur s c b r g s1 s' o1 o2} : Cond s.mac c false → RunsRest env files cur s.next r s1 o1 → Runs env files cur s1.next g s' o2 →
      Runs env files cur s (.sect c b r g) s' (o1 ++ o2)
/-- The same for the rest of a section none of whose groups has been taken. -/
inductive RunsRest (env : Pp.Env) (files : Bytes → Option Grp) : Bytes → PState → Rest → PState → List Tok → Prop where
  | endif {cur s} : RunsRest env files cur s .endif s []
  | els {cur s g s' out} : Runs env files cur s.next g s' out → RunsRest env files cur s (.els g) s' out
  | taken {cur s ts g r v s' out} : Value s.mac ts v → v ≠ 0 → Runs env files cur s.next g s' out → RunsRest env files cur s (.elif ts g r) s' out
  | skipped {cur s ts g r s' out} : Value s.mac ts 0 → RunsRest env files cur s r s' out → RunsRest env files cur s (.elif ts g r) s' out
end

/-- Files one after the other: those of the options -include and the source file. -/
inductive RunsFiles (env : Pp.Env) (files : Bytes → Option Grp) : PState → List (Bytes × Grp) → PState → List Tok → Prop where
  | nil {s} : RunsFiles env files s [] s []
  | cons {s path G s1 fs s' o1 o2} : Runs env files path s G s1 o1 → RunsFiles env files s1 fs s' o2 → RunsFiles env files s ((path, G) :: fs) s' (o1 ++ o2)

end Toycc.Src
