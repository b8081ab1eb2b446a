import Verif.Decl.Sound
/-!
C67: declarators mean what C11 6.7.6 says.
-/
namespace Toycc.Decl.Props
open Toycc.Decl
open Toycc.Parse (Tok P)
variable {B L : Type}

/-- Every declarator and every abstract declarator of the grammar, of any size, is read to its end, and the type and the name are those of
the specification. Partial: a function declarator without a name needs a parenthesis or a bracket first (`int (int)` is misread, see
`abstract_function_misread`); no parameter is declared as a variable-length array (see `vla_parameter_kept`); the bracket takes no other
words than `static` and `restrict`. The words of specifiers and of lengths are assumed to be read by declspec and conditional. -/
theorem C67_declarator_partial (O : Oracle B L) (abs : Bool) (d : Dcl B L) (T : DTy B L) (r : List Tok) (hs : d.Syn (reads O) abs)
    (hf : d.Fits O.const T) (hr : Stop r) :
    ∃ N, ∀ n, N ≤ n → declarator O abs n (d.text ++ r) T = .ok ((d.den O.const T).1, (d.den O.const T).2, r) :=
  decl_ev O abs d T r hs hf hr

/-- What is accepted is a declarator of the grammar followed by the tokens left, and its type and name are those of the specification. Partial: no
variable-length arrays; and the constraints of C11 are not checked (`function_returning_function`). -/
theorem C67_accepted_partial (O : Oracle B L) (hO : O.Prefix) (hv : ∀ e, O.const e ≠ none) (abs : Bool) (n : Nat) (ts : List Tok) (T T' : DTy B L)
    (x : Option String) (rest : List Tok) (h : declarator O abs n ts T = .ok (T', x, rest)) :
    ∃ d : Dcl B L, d.Syn (read O) abs ∧ ts = d.text ++ rest ∧ (T', x) = d.den O.const T := by
  obtain ⟨d, h1, h2, h3⟩ := (all_sound O hO hv n).1 abs ts T _ h
  refine ⟨d, h1, h2, ?_⟩
  have := Except.ok.inj (h.symm.trans (h3 T))
  simp only [Prod.mk.injEq] at this
  exact Prod.ext this.1 this.2.1

/-! ### Examples: an oracle with the types `int`, `char` and `void`; a length is a number or a name -/

inductive Bs where
  | int | char | void
  deriving DecidableEq, Repr

def spec1 : List Tok → Except DErr (Bs × List Tok)
  | .kw s :: r => if s = "int" then .ok (.int, r) else if s = "char" then .ok (.char, r) else if s = "void" then .ok (.void, r) else .error .other
  | _ => .error .other

/-- A length: a number, a number after a minus sign, or a name. -/
def cond1 : List Tok → Except DErr ((Int ⊕ String) × List Tok)
  | .num n :: r => .ok (.inl n, r)
  | .p .minus :: .num n :: r => .ok (.inl (-n), r)
  | .ident x :: r => .ok (.inr x, r)
  | _ => .error .other

def const1 : Int ⊕ String → Option Int
  | .inl n => some n
  | .inr _ => none

def O1 : Oracle Bs (Int ⊕ String) := ⟨spec1, cond1, const1⟩

/-- Computes the model on concrete tokens. -/
macro "run" : tactic => `(tactic| simp [declarator, declBody, typeSuffix, params, pointers, isQual, isDimQual, isVoid, sep, skip, adjust, mkArr, DTy.isVla, O1, spec1, cond1,
  const1, List.dropWhile, bind, Except.bind])

abbrev num (n : Nat) : Option (List Tok × (Int ⊕ String)) := some ([.num n], .inl n)

theorem len1 (n : Nat) : ∀ p, num n = some p → (reads O1).len p.1 p.2 := by
  rintro _ ⟨⟩; exact ⟨fun r => rfl, _, _, rfl, rfl, by simp⟩

theorem specI (d : Dcl Bs (Int ⊕ String)) : (reads O1).spec [.kw "int"] .int d := ⟨fun r _ => rfl, _, _, rfl, by simp, by simp⟩
theorem specC (d : Dcl Bs (Int ⊕ String)) : (reads O1).spec [.kw "char"] .char d := ⟨fun r _ => rfl, _, _, rfl, by simp, by simp⟩

/-- `(*signal(int sig, void (*func)(int)))(int)` with `char` for the second `void`. -/
def exSignal : Dcl Bs (Int ⊕ String) :=
  .dir (.fn (.paren (.ptr [.kw "const"] (.dir (.fn (.name "signal")
    (.list (.cons [.kw "int"] .int (.dir (.name "sig"))
      (.cons [.kw "char"] .char (.dir (.fn (.paren (.ptr [] (.dir (.name "func")))) (.list (.cons [.kw "int"] .int (.dir .empty) .nil) false)))
      .nil)) false)))))
    (.list (.cons [.kw "int"] .int (.dir .empty) .nil) true))

example : exSignal.Syn (reads O1) false := by
  simp only [exSignal, Dcl.Syn, Dir.Syn, Plist.Syn, Ps.Syn, specI, specC, isQual, List.all]; simp

example : exSignal.Fits O1.const (.base .void) := by
  simp [exSignal, Dcl.Fits, Dir.Fits, Plist.Fits, Ps.Fits, Dcl.text, Dir.text, Plist.text, Ps.text, Plist.NotVoid, DTy.funcOrArray, Dcl.den, Dir.den, DTy.isVla]

example : exSignal.text = [.p .lpar, .p .star, .kw "const", .ident "signal", .p .lpar, .kw "int", .ident "sig", .p .comma,
    .kw "char", .p .lpar, .p .star, .ident "func", .p .rpar, .p .lpar, .kw "int", .p .rpar, .p .rpar, .p .rpar,
    .p .lpar, .kw "int", .p .comma, .p .dots, .p .rpar] := by rfl

/-- A function `signal` of `int` and a pointer to a function, that returns a pointer to a function of `int`. -/
example : exSignal.den O1.const (.base .void) =
    (.func (.ptr (.func (.base .void) (.cons (.base .int) none .nil) true))
      (.cons (.base .int) (some "sig") (.cons (.ptr (.func (.base .char) (.cons (.base .int) none .nil) false)) (some "func") .nil)) false,
     some "signal") := by rfl

/-- `(*a[3])[4]`, then `;`: three pointers to arrays of four. -/
def exArr : Dcl Bs (Int ⊕ String) := .dir (.arr (.paren (.ptr [] (.dir (.arr (.name "a") [] (num 3))))) [.kw "static"] (num 4))

example : exArr.Syn (reads O1) false ∧ exArr.Fits O1.const (.base .int) := by
  simp only [exArr, Dcl.Syn, Dir.Syn, Dcl.Fits, Dir.Fits]
  exact ⟨⟨⟨rfl, trivial, rfl, len1 3⟩, rfl, len1 4⟩, by simp [Dcl.text], trivial⟩

example : exArr.den O1.const (.base .int) = (.arr (.ptr (.arr (.base .int) 4)) 3, some "a") := by rfl

example : declarator O1 false 9 (exArr.text ++ [.p .comma]) (.base .int) = .ok (.arr (.ptr (.arr (.base .int) 4)) 3, some "a", [.p .comma]) := by
  rw [show exArr.text ++ [.p .comma] = [.p .lpar, .p .star, .ident "a", .p .lbrk, .num 3, .p .rbrk, .p .rpar, .p .lbrk, .kw "static", .num 4, .p .rbrk, .p .comma] from rfl]
  run

/-- `*(*)[2]`, an abstract declarator. -/
def exAbs : Dcl Bs (Int ⊕ String) := .ptr [.kw "const"] (.dir (.arr (.paren (.ptr [] (.dir .empty))) [] (num 2)))

example : exAbs.Syn (reads O1) true ∧ exAbs.Fits O1.const (.base .char) ∧ exAbs.den O1.const (.base .char) = (.ptr (.arr (.ptr (.base .char)) 2), none) := by
  simp only [exAbs, Dcl.Syn, Dir.Syn, Dcl.Fits, Dir.Fits]
  exact ⟨⟨rfl, ⟨rfl, trivial⟩, rfl, len1 2⟩, ⟨by simp [Dcl.text], trivial⟩, rfl⟩

/-- An oracle as the second theorem wants it. -/
def O2 : Oracle Bs Int := ⟨spec1, fun | .num n :: r => .ok (n, r) | _ => .error .other, some⟩

theorem O2_prefix : O2.Prefix where
  cond ts e r h := by
    simp only [O2] at h
    split at h
    · cases h; exact ⟨[_], rfl⟩
    · cases h
  declspec ts b r h := by
    simp only [O2, spec1] at h
    split at h
    · rename_i s r'
      by_cases h1 : s = "int"
      · rw [if_pos h1] at h; cases h; exact ⟨[_], rfl⟩
      · rw [if_neg h1] at h
        by_cases h2 : s = "char"
        · rw [if_pos h2] at h; cases h; exact ⟨[_], rfl⟩
        · rw [if_neg h2] at h
          by_cases h3 : s = "void"
          · rw [if_pos h3] at h; cases h; exact ⟨[_], rfl⟩
          · rw [if_neg h3] at h; cases h
    · cases h

example : (∀ e, O2.const e ≠ none) ∧ declarator O2 false 9 [.p .star, .ident "f", .p .lpar, .kw "int", .p .lbrk, .num 3, .p .rbrk, .p .rpar, .p .semi] (.base .int) =
    .ok (.func (.ptr (.base .int)) (.cons (.ptr (.base .int)) none .nil) false, some "f", [.p .semi]) := by
  exact And.intro (fun e h => nomatch h) (by simp only [O2]; run)

/-! ### Where the code does not follow C11 -/

/-- A parameter `int (int)`, a function without a name, is rejected: the parenthesis is taken for a parenthesised declarator. -/
theorem abstract_function_misread (n : Nat) (r : List Tok) (T : DTy Bs (Int ⊕ String)) (v) :
    declarator O1 false n (.p .lpar :: .kw "int" :: .p .rpar :: r) T ≠ .ok v := by
  match n with
  | 0 => simp [declarator]
  | 1 => simp [declarator, pointers, isQual, declBody, bind, Except.bind]
  | 2 => simp [declarator, pointers, isQual, declBody, typeSuffix, bind, Except.bind]
  | n + 3 => simp [declarator, pointers, isQual, declBody, typeSuffix, skip, bind, Except.bind]

/-- A parameter `int ()` is read as `int`; it is a pointer to a function. -/
theorem empty_parentheses_dropped : params O1 9 true [.kw "int", .p .lpar, .p .rpar, .p .rpar] = .ok (.cons (.base .int) none .nil, false, []) := by
  run

/-- A parameter `int a[n]` keeps the type of a variable-length array; it is a pointer. -/
theorem vla_parameter_kept : params O1 9 true [.kw "int", .ident "a", .p .lbrk, .ident "n", .p .rbrk, .p .rpar] =
    .ok (.cons (.vla (.base .int) (.inr "n")) (some "a") .nil, false, []) := by
  run

/-- `a[-1]` is accepted as an array of unknown length. -/
theorem negative_length : declarator O1 false 9 [.ident "a", .p .lbrk, .p .minus, .num 1, .p .rbrk] (.base .int) = .ok (.arr (.base .int) (-1), some "a", []) := by
  run

/-- `(f(int))(int)` is accepted as a function that returns a function. -/
theorem function_returning_function :
    declarator O1 false 9 [.p .lpar, .ident "f", .p .lpar, .kw "int", .p .rpar, .p .rpar, .p .lpar, .kw "char", .p .rpar] (.base .int) =
    .ok (.func (.func (.base .int) (.cons (.base .char) none .nil) false) (.cons (.base .int) none .nil) false, some "f", []) := by
  run

/-- `[const 3]` is not accepted where `[static 3]` is. -/
theorem const_in_brackets : declarator O1 false 9 [.ident "a", .p .lbrk, .kw "const", .num 3, .p .rbrk] (.base .int) = .error .other ∧
    declarator O1 false 9 [.ident "a", .p .lbrk, .kw "static", .num 3, .p .rbrk] (.base .int) = .ok (.arr (.base .int) 3, some "a", []) := by
  constructor <;> run

end Toycc.Decl.Props
