import Verif.Ip.FlexMem
import Verif.Ip.Props
/-!
C68: flexible array members.
-/
namespace Toycc.Ip.Props
open Toycc.Ip
open Toycc.Parse (Tok P)
open Toycc.Init (Ini Inis)
variable {α : Type}

/-- A structure with a flexible array member as its last one (`withLast pre x off b k`: the members `pre`, and `x` with `k` elements): the member gets the length that its initialiser asks for, the object
is that much larger, and each subobject has the expression that it would have if the member had been declared with this length. The list may initialise the members in any
order. Partial as `C68_initializer_partial`; and the initialiser of the member is a literal or a list in braces, and the first one for it is for the whole member
(`firstFor`; see `flexible_index_rejected`). -/
theorem C68_flexible_partial (O : Oracle α) (width : String → Nat) (hw : ∀ s, width s = 1 ∨ width s = 2 ∨ width s = 4) (sz : Nat) (pre : IMems) (x : String) (off : Nat) (b : ITy) (k : Nat)
    (its : Items α) (c : Bool) (r : List Tok) (fin : Ini α) (hT : (ITy.struc sz (withLast pre x off b k)).Ok) (hs : TameSrc width (.struc sz (withLast pre x off b k)) (.list its c))
    (hrd : (Src.list its c).Reads O) (hk : firstFor width (.struc sz (withLast pre x off b k)) pre.length (fun p s => p = [] ∧ lengthIs O width b k s) its (some [0]))
    (h : value O width (.struc sz (withLast pre x off b k)) (.list its c) = some fin) :
    ∃ N, ∀ n, N ≤ n → initStructFlex O n sz pre x off b ((Src.list its c).text ++ r) = .ok (sz + b.size * k, k, fin, r) :=
  (flexmem_correct hw sz pre x off b k its c r fin hT hs hrd h).1 hk

/-- If no item is for the flexible member, it has no elements and the object has the size of the structure; all else is as if the member had been declared with some length `k`. -/
theorem C68_flexible_absent_partial (O : Oracle α) (width : String → Nat) (hw : ∀ s, width s = 1 ∨ width s = 2 ∨ width s = 4) (sz : Nat) (pre : IMems) (x : String) (off : Nat) (b : ITy) (k : Nat)
    (its : Items α) (c : Bool) (r : List Tok) (fin : Ini α) (hT : (ITy.struc sz (withLast pre x off b k)).Ok) (hs : TameSrc width (.struc sz (withLast pre x off b k)) (.list its c))
    (hrd : (Src.list its c).Reads O) (hk : extent width (.struc sz (withLast pre x off b k)) its (some [0]) ≤ pre.length)
    (h : value O width (.struc sz (withLast pre x off b k)) (.list its c) = some fin) :
    ∃ N, ∀ n, N ≤ n → initStructFlex O n sz pre x off b ((Src.list its c).text ++ r) = .ok (sz, 0, setChild fin pre.length (.mk none none .nil), r) :=
  (flexmem_correct hw sz pre x off b k its c r fin hT hs hrd h).2 hk

/-- Whatever is accepted, for all texts and types: the object has room for the elements counted, and its tree is the one of a structure that declares the member with this
length. -/
theorem C68_flexible_as_declared (O : Oracle α) (n sz : Nat) (pre : IMems) (x : String) (off : Nat) (b : ITy) (ts r : List Tok) (size k : Nat) (t : Ini α)
    (h : initStructFlex O n sz pre x off b ts = .ok (size, k, t, r)) :
    size = sz + b.size * k ∧ initializer O (n + 1) (.struc sz (withLast pre x off b k)) ts = .ok (t, r) :=
  flexmem_agrees n sz pre x off b ts r size k t h

macro "flex_simp" : tactic => `(tactic| simp [initStructFlex, struct1F, memberFlex, desgFlex, initFlex, count, withLast, IMems.length, init2, arr1, arr2, struct1, struct2, desg, range, arrayDesignator,
  structDesignator, findMember, hasMember, blank, blanks, Inis.replicate, child, setChild, setExpr, setMem, setI, Init.Inis.get?, skip, sep, consumeEnd, isEnd, isDesg, stringInit, fillStr, ITy.size,
  Init.Ty.size, Low.CTy.size, IMems.get?, exO, bind, Except.bind, pair, int, char, two, leaf, row])

/-! ### `struct { struct { int a; int b; } p; char s[]; } x = { 1, 2, "ab" };` has three characters, and 11 bytes -/

def fmPre : IMems := .cons (some "p") 0 none pair .nil
def fmItems : Items Int := .cons [] (n 1) (.cons [] (n 2) (.cons [] (lit "ab") .nil))
def fmTree : Ini Int := .mk none none (two (.mk none none (two (leaf (some 1)) (leaf (some 2)))) (row (some 97) (some 98) (some 0)))

theorem fm_ok (k : Nat) (hk : 0 < k) : (ITy.struc 8 (withLast fmPre "s" 8 char k)).Ok := by
  simp only [fmPre, withLast, ITy.Ok, IMems.Ok, IMems.get?]
  exact ⟨rfl, pair_ok, by simp, ⟨hk, char_ok⟩, by simp, trivial⟩

theorem fm_value : value exO w1 (.struc 8 (withLast fmPre "s" 8 char 3)) (.list fmItems false) = some fmTree := by
  simp only [fmPre, withLast, fmItems, fmTree, row]
  init_simp

theorem fm_first : firstFor w1 (.struc 8 (withLast fmPre "s" 8 char 3)) fmPre.length (fun p s => p = [] ∧ lengthIs exO w1 char 3 s) fmItems (some [0]) := by
  simp only [fmPre, withLast, fmItems, firstFor, IMems.length, lengthIs]
  init_simp

theorem fm_tame : TameSrc w1 (.struc 8 (withLast fmPre "s" 8 char 3)) (.list fmItems false) := by
  simp only [fmPre, withLast, TameSrc, fmItems]
  refine tame_cons (U := pair) [0] rfl rfl (by simp [n, TameSrc, Lands, LandsM, pair, int]) (by simp) ?_
  refine tame_cons (U := int) [0, 1] (by init_simp) rfl (n_tame _ _) (by simp) ?_
  refine tame_cons (U := .arr char 3) [1] (by init_simp) rfl (by simp [lit, TameSrc, litOf, Lands, isChars, char, w1, Low.CTy.isInt, Low.CTy.size]) (by simp) ?_
  rw [Tame]; trivial

example : ∃ N, ∀ m, N ≤ m → initStructFlex exO m 8 fmPre "s" 8 char [.p .lbrace, .num 1, .p .comma, .num 2, .p .comma, .str "ab", .p .rbrace, .p .semi] = .ok (11, 3, fmTree, [.p .semi]) := by
  have := C68_flexible_partial exO w1 (fun _ => .inl rfl) 8 fmPre "s" 8 char 3 fmItems false [.p .semi] fmTree (fm_ok 3 (by omega)) fm_tame
    (by simp only [fmItems, Src.Reads, Items.Reads]; exact ⟨by simp, n_reads 1, by simp, n_reads 2, by simp, lit_reads "ab", trivial⟩) fm_first fm_value
  simpa [Src.text, fmItems, Items.text, n, lit, desText, Des.text, closing, char, ITy.size, Init.Ty.size, Low.CTy.size] using this

/-- `{ 1, 2 }` -/
def fmItems0 : Items Int := .cons [] (n 1) (.cons [] (n 2) .nil)

example : ∃ N, ∀ m, N ≤ m → initStructFlex exO m 8 fmPre "s" 8 char [.p .lbrace, .num 1, .p .comma, .num 2, .p .rbrace, .p .semi] =
    .ok (8, 0, .mk none none (two (.mk none none (two (leaf (some 1)) (leaf (some 2)))) (leaf none)), [.p .semi]) := by
  have := C68_flexible_absent_partial exO w1 (fun _ => .inl rfl) 8 fmPre "s" 8 char 1 fmItems0 false [.p .semi]
    (.mk none none (two (.mk none none (two (leaf (some 1)) (leaf (some 2)))) (.mk none none (.cons (leaf none) .nil)))) (fm_ok 1 (by omega))
    (by
      simp only [fmPre, withLast, TameSrc, fmItems0]
      refine tame_cons (U := pair) [0] rfl rfl (by simp [n, TameSrc, Lands, LandsM, pair, int]) (by simp) ?_
      refine tame_cons (U := int) [0, 1] (by init_simp) rfl (n_tame _ _) (by simp) ?_
      rw [Tame]; trivial)
    (by simp only [fmItems0, Src.Reads, Items.Reads]; exact ⟨by simp, n_reads 1, by simp, n_reads 2, trivial⟩)
    (by simp only [fmPre, withLast, fmItems0, extent, IMems.length]; init_simp)
    (by simp only [fmPre, withLast, fmItems0]; init_simp)
  simpa [Src.text, fmItems0, Items.text, n, desText, Des.text, closing, setChild, setI, two, leaf, fmPre, IMems.length] using this

/-- Without braces: `struct { struct { int a; int b; } p; char s[]; } x = { 1, 2, 3, 4 };` has two characters. -/
example : ∀ m, initStructFlex exO (m + 20) 8 fmPre "s" 8 char [.p .lbrace, .num 1, .p .comma, .num 2, .p .comma, .num 3, .p .comma, .num 4, .p .rbrace, .p .semi] =
    .ok (10, 2, .mk none none (two (.mk none none (two (leaf (some 1)) (leaf (some 2)))) (.mk none none (two (leaf (some 3)) (leaf (some 4))))), [.p .semi]) := fun m => by simp only [fmPre]; flex_simp

/-- Designations, in another order: `struct { int n; struct { int a; int b; } p[]; } x = { .p = { {1}, [2] = {3} }, .n = 7 };` has three elements and 28 bytes. -/
def fdPre : IMems := .cons (some "n") 0 none int .nil
def fdIn : Items Int := .cons [] (.list (.cons [] (n 1) .nil) false) (.cons [.idx [.num 2] 2] (.list (.cons [] (n 3) .nil) false) .nil)
def fdItems : Items Int := .cons [.field "p"] (.list fdIn false) (.cons [.field "n"] (n 7) .nil)
def fdPair (a : Option Int) : Ini Int := .mk none none (two (leaf a) (leaf none))
def fdTree : Ini Int := .mk none none (two (leaf (some 7)) (.mk none none (.cons (fdPair (some 1)) (.cons (fdPair none) (.cons (fdPair (some 3)) .nil)))))

theorem fd_value : value exO w1 (.struc 4 (withLast fdPre "p" 4 pair 3)) (.list fdItems false) = some fdTree := by
  simp only [fdPre, withLast, fdItems, fdIn, fdTree, fdPair]
  init_simp

theorem fd_first : firstFor w1 (.struc 4 (withLast fdPre "p" 4 pair 3)) fdPre.length (fun p s => p = [] ∧ lengthIs exO w1 pair 3 s) fdItems (some [0]) := by
  simp only [fdPre, withLast, fdItems, fdIn, firstFor, IMems.length, lengthIs, extent]
  init_simp

theorem fd_tame : TameSrc w1 (.struc 4 (withLast fdPre "p" 4 pair 3)) (.list fdItems false) := by
  simp only [fdPre, withLast, TameSrc, fdItems]
  refine tame_cons (U := .arr pair 3) [1] (by init_simp) rfl ?_ (by intro _ _ i q V h1 h2; simp at h1; obtain ⟨rfl, rfl⟩ := h1; simp [lastIn]) ?_
  · simp only [fdIn, TameSrc]
    refine ⟨by simp, ?_⟩
    refine tame_cons (U := pair) [0] (by init_simp) rfl ?_ (by simp) ?_
    · simp only [pair, TameSrc]
      exact tame_cons (U := int) [0] (by init_simp) rfl (n_tame _ _) (by simp) (by rw [Tame]; trivial)
    refine tame_cons (U := pair) [2] (by init_simp) rfl ?_ (by intro _ _ i q V h1 h2; simp at h1; obtain ⟨rfl, rfl⟩ := h1; simp [lastIn]) ?_
    · simp only [pair, TameSrc]
      exact tame_cons (U := int) [0] (by init_simp) rfl (n_tame _ _) (by simp) (by rw [Tame]; trivial)
    rw [Tame]; trivial
  refine tame_cons (U := int) [0] (by init_simp) rfl (n_tame _ _) (by simp [Items.isNil]) ?_
  rw [Tame]; trivial

example : ∃ N, ∀ m, N ≤ m → initStructFlex exO m 4 fdPre "p" 4 pair [.p .lbrace, .p .dot, .ident "p", .p .eq, .p .lbrace, .p .lbrace, .num 1, .p .rbrace, .p .comma, .p .lbrk, .num 2, .p .rbrk, .p .eq,
    .p .lbrace, .num 3, .p .rbrace, .p .rbrace, .p .comma, .p .dot, .ident "n", .p .eq, .num 7, .p .rbrace, .p .semi] = .ok (28, 3, fdTree, [.p .semi]) := by
  have := C68_flexible_partial exO w1 (fun _ => .inl rfl) 4 fdPre "p" 4 pair 3 fdItems false [.p .semi] fdTree
    (by simp only [fdPre, withLast, ITy.Ok, IMems.Ok, IMems.get?]; exact ⟨rfl, int_ok, by simp, ⟨by omega, pair_ok⟩, by simp, trivial⟩) fd_tame
    (by simp only [fdItems, fdIn, Src.Reads, Items.Reads]
        exact ⟨by simp, ⟨by simp, ⟨by simp, n_reads 1, trivial⟩, by simp [exO], ⟨by simp, n_reads 3, trivial⟩, trivial⟩, by simp, n_reads 7, trivial⟩) fd_first fd_value
  simpa [Src.text, fdItems, fdIn, Items.text, n, desText, Des.text, closing, pair, ITy.size] using this

/-! ### Where the code does not have the property -/

/-- `struct { int n; int a[]; } x = {.a[1] = 5};` is rejected: the member has no elements before it has an initialiser of its own. -/
theorem flexible_index_rejected : ∀ m, initStructFlex exO (m + 20) 4 fdPre "a" 4 int [.p .lbrace, .p .dot, .ident "a", .p .lbrk, .num 1, .p .rbrk, .p .eq, .num 5, .p .rbrace, .p .semi] =
    .error .bounds := fun m => by simp only [fdPre]; flex_simp

/-- `struct { int n; char s[]; } x = {.s = "a", .s = "bcd"};`: the length is that of the first literal, and the second one is cut. -/
theorem flexible_again_cut : ∀ m, initStructFlex exO (m + 20) 4 fdPre "s" 4 char [.p .lbrace, .p .dot, .ident "s", .p .eq, .str "a", .p .comma, .p .dot, .ident "s", .p .eq, .str "bcd", .p .rbrace, .p .semi] =
    .ok (6, 2, .mk none none (two (leaf none) (.mk none none (two (leaf (some 98)) (leaf (some 99))))), [.p .semi]) := fun m => by simp only [fdPre]; flex_simp

/-- `struct { int n; int a[]; } x = {1, 2, 3, .n = 4};`: without braces, all to the end of the list is counted, and a designation there is not read. -/
theorem flexible_count_rejected : ∀ m, initStructFlex exO (m + 20) 4 fdPre "a" 4 int [.p .lbrace, .num 1, .p .comma, .num 2, .p .comma, .num 3, .p .comma, .p .dot, .ident "n", .p .eq, .num 4, .p .rbrace, .p .semi] =
    .error .other := fun m => by simp only [fdPre]; flex_simp

end Toycc.Ip.Props
