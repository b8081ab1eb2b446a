import Verif.Pp.Model
/-!
Conditional inclusion (C21), specification: the grammar of groups and sections of C11 6.10p1, and which groups are
selected (6.10.1).
-/
namespace Toycc.Pp
open Toycc.Lex (asc)

/-- A directive line: `#`, the directive's name, the rest of the line. -/
structure Dir where
  hash : PTok
  name : PTok
  line : List PTok

def Dir.flat (d : Dir) : List PTok := d.hash :: d.name :: d.line

mutual
/-- A group: text lines and other directives, and conditional sections. -/
inductive Group where
  | nil
  | text (l : List PTok) (g : Group)
  | sect (o : Dir) (b : Group) (t : Tail) (g : Group)
/-- What follows the first group of a section. -/
inductive Tail where
  | endif (d : Dir)
  | els (d : Dir) (g : Group) (e : Dir)
  | elif (d : Dir) (g : Group) (t : Tail)
end

mutual
/-- The tokens of a group. -/
def Group.flat : Group → List PTok
  | .nil => []
  | .text l g => l ++ g.flat
  | .sect o b t g => o.flat ++ (b.flat ++ (t.flat ++ g.flat))
def Tail.flat : Tail → List PTok
  | .endif d => d.flat
  | .els d g e => d.flat ++ (g.flat ++ e.flat)
  | .elif d g t => d.flat ++ (g.flat ++ t.flat)
end

/-- The name of a directive of conditional inclusion. -/
def condName (u : PTok) : Bool := opensIf u || (u.is "elif" || u.is "else" || u.is "endif")

/-- Tokens that contain no directive of conditional inclusion: no `#` at the beginning of a line is followed by such
a name. -/
def plain : List PTok → Bool
  | [] => true
  | t :: r => !t.isEof && !(isHash t && r.head?.any condName) && plain r

/-- A directive with one of the names `ns`, all of it on one line. -/
def Dir.Wf (ns : List String) (d : Dir) : Prop :=
  isHash d.hash = true ∧ d.hash.kind = .punct ∧ d.name.kind = .ident ∧ d.name.bol = false ∧
  (∃ s ∈ ns, d.name.is s = true) ∧ ∀ t ∈ d.line, t.bol = false ∧ t.isEof = false

/-- Openers of sections. -/
def openers : List String := ["if", "ifdef", "ifndef"]

mutual
/-- Text starts on a new line, contains no conditional directive and extends to the next section or the end
of the group; directives have the right names. -/
def Group.Wf : Group → Prop
  | .nil => True
  | .text l g => plain l = true ∧ (∀ t ∈ l.head?, t.bol = true) ∧ (∀ l' g', g ≠ .text l' g') ∧ g.Wf
  | .sect o b t g => o.Wf openers ∧ b.Wf ∧ t.Wf ∧ g.Wf
def Tail.Wf : Tail → Prop
  | .endif d => d.Wf ["endif"]
  | .els d g e => d.Wf ["else"] ∧ g.Wf ∧ e.Wf ["endif"]
  | .elif d g t => d.Wf ["elif"] ∧ g.Wf ∧ t.Wf
end

/-- Nothing follows the name on the `#endif` line (toycc leaves such tokens in the output). -/
def Tail.clean : Tail → Prop
  | .endif d => d.line = []
  | .els _ _ e => e.line = []
  | .elif _ _ t => t.clean

/-- The output of a run, without the ghost component. -/
def ppO (env : Env) (n : Nat) (st : St) (l : List PTok) : Except PErr (St × List PTok) :=
  (pp env n true st l).map fun r => (r.1, r.2.1)

/-- From state `st` and list `l` the preprocessor comes to state `st'` and list `l'` having output `out`. -/
def Steps (env : Env) (st : St) (l out : List PTok) (st' : St) (l' : List PTok) : Prop :=
  ∃ k N, ∀ n, N ≤ n → ppO env (n + k) st l = (ppO env n st' l').map fun r => (r.1, out ++ r.2)

/-- A list that starts with a directive or is at its end. -/
def AtDirective (l : List PTok) : Prop :=
  ∃ t r, l = t :: r ∧ t.bol = true ∧ ((t.is "#" = true ∧ t.kind = .punct) ∨ t.isEof = true)

/-- The state with another stack of open sections. -/
def withConds (st : St) (cs : List Cond) : St := { st with conds := cs }

/-- What preprocessing the text `l` outputs, independent of what follows and of the open sections. -/
def Text (env : Env) (st : St) (l : List PTok) (st' : St) (out : List PTok) : Prop :=
  ∀ cs rest, AtDirective rest → Steps env (withConds st cs) (l ++ rest) out (withConds st' cs) rest

/-- The value of the expression on an `#if` or `#elif` line. -/
def Val (env : Env) (st : St) (line : List PTok) (v : Int) (st' : St) : Prop :=
  ∀ cs rest, (∃ t r, rest = t :: r ∧ t.bol = true) →
    ∃ N, ∀ n, N ≤ n → evalConst env (pp env n false) (withConds st cs) (line ++ rest) = .ok (withConds st' cs, v, rest)

/-- Whether the condition on the opening line of a section holds. -/
inductive Holds (env : Env) (st : St) (d : Dir) : Bool → St → Prop
  | ifE (v : Int) (st') : d.name.is "if" = true → Val env st d.line v st' → Holds env st d (v != 0) st'
  | ifdef (m) : d.name.is "ifdef" = true → d.line = [m] → Holds env st d (findMacro st m).isSome st
  | ifndef (m) : d.name.is "ifndef" = true → d.line = [m] → Holds env st d (!(findMacro st m).isSome) st

mutual
/-- The output that C prescribes for a group: of each section exactly one group, the first whose condition holds, or
else the `#else` group. Nothing is said about the other groups. -/
inductive Sel (env : Env) : St → Group → St → List PTok → Prop
  | nil (st) : Sel env st .nil st []
  | text (st st1 st2 l g o1 o2) : Text env st l st1 o1 → Sel env st1 g st2 o2 → Sel env st (.text l g) st2 (o1 ++ o2)
  | taken (st st1 st2 st3 o b t g o1 o2) : Holds env st o true st1 → Sel env st1 b st2 o1 → t.clean →
      Sel env st2 g st3 o2 → Sel env st (.sect o b t g) st3 (o1 ++ o2)
  | other (st st1 st2 st3 o b t g o1 o2) : Holds env st o false st1 → SelTail env st1 t st2 o1 →
      Sel env st2 g st3 o2 → Sel env st (.sect o b t g) st3 (o1 ++ o2)
/-- The same for the rest of a section none of whose groups has been selected yet. -/
inductive SelTail (env : Env) : St → Tail → St → List PTok → Prop
  | endif (st d) : d.line = [] → SelTail env st (.endif d) st []
  | els (st st' d g e o) : d.line = [] → e.line = [] → Sel env st g st' o → SelTail env st (.els d g e) st' o
  | elifT (st st1 st2 d g t v o) : Val env st d.line v st1 → v ≠ 0 → Sel env st1 g st2 o → t.clean →
      SelTail env st (.elif d g t) st2 o
  | elifF (st st1 st2 d g t o) : Val env st d.line 0 st1 → SelTail env st1 t st2 o → SelTail env st (.elif d g t) st2 o
end

end Toycc.Pp
