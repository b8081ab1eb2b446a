import Verif.Ip.Flex
/-!
C68: an initialiser gives each subobject the expression that C11 6.7.9 says.
-/
namespace Toycc.Ip.Props
open Toycc.Ip
open Toycc.Parse (Tok P)
open Toycc.Init (Ini Inis)
variable {α : Type}

/-- An initialiser of an object of type `T` is read to its end, and the tree has at each subobject the expression the specification says. The lists may be nested, have fewer braces
than the type, designations, and any length. Partial: `T.Ok` (no anonymous unions), `TameSrc` (see the witnesses below), no ranges `[a ... b]`, flexible array members in Verif.Ip.FlexProps; and
`value` is only defined where a subobject is not initialised again as a whole (`overridden_list_kept`). That assign and const_expr read the tokens of the expressions
is an assumption. -/
theorem C68_initializer_partial (O : Oracle α) (width : String → Nat) (hw : ∀ s, width s = 1 ∨ width s = 2 ∨ width s = 4) (T : ITy) (s : Src α) (r : List Tok) (fin : Ini α)
    (hT : T.Ok) (hs : TameSrc width T s) (hrd : s.Reads O) (hr : StopE r) (h : value O width T s = some fin) :
    ∃ N, ∀ n, N ≤ n → initializer O n T (s.text ++ r) = .ok (fin, r) :=
  value_correct hw T s r fin hT hs hrd hr h

/-- An array of unknown length gets the length that its initialiser asks for: that of the literal, or one more than the largest index for which the list has an initialiser. The value
is that of an array of this length. Partial as `C68_initializer_partial`. -/
theorem C68_length_partial (O : Oracle α) (width : String → Nat) (hw : ∀ s, width s = 1 ∨ width s = 2 ∨ width s = 4) (b : ITy) (k : Nat) (s : Src α) (r : List Tok) (fin : Ini α)
    (hT : (ITy.arr b k).Ok) (hs : TameSrc width (.arr b k) s) (hrd : s.Reads O) (hr : StopE r) (hk : lengthIs O width b k s) (h : value O width (.arr b k) s = some fin) :
    ∃ N, ∀ n, N ≤ n → initFlex O n b (s.text ++ r) = .ok (k, fin, r) :=
  flex_correct hw b k s r fin hT hs hrd hr hk h

/-! ### Examples: expressions are numbers, literals, and variables: `s` is of the structure type of size 8, `u` of a union type -/

def exO : Oracle Int where
  assign
    | .num v :: r => .ok (v, false, r)
    | .str _ :: r => .ok (-1, false, r)
    | .ident "s" :: r => .ok (-2, true, r)
    | .ident "u" :: r => .ok (-3, false, r)
    | _ => .error .other
  const
    | .num v :: r => .ok (v, r)
    | _ => .error .other
  str s _ := s.toList.map (fun c => (c.toNat : Int)) ++ [0]

def w1 : String → Nat := fun _ => 1
def int : ITy := .sc (.scalar (.int false))
def char : ITy := .sc (.scalar (.char false))
def charp : ITy := .sc (.scalar (.ptr (.char false)))
/-- `struct { int a; int b; }` -/
def pair : ITy := .struc 8 (.cons (some "a") 0 none int (.cons (some "b") 4 none int .nil))
def isPair : ITy → Bool
  | .struc 8 _ => true
  | _ => false
def n (v : Int) : Src Int := .expr [.num v] v false (fun _ => false)
def sv : Src Int := .expr [.ident "s"] (-2) true isPair
def lit (s : String) : Src Int := .expr [.str s] (-1) false (fun _ => false)
def leaf (v : Option Int) : Ini Int := .mk v none .nil
def two (a b : Ini Int) : Inis Int := .cons a (.cons b .nil)

theorem n_reads (v : Int) : (n v).Reads exO := by
  rw [n, Src.Reads]
  exact ⟨fun r _ => rfl, _, _, rfl, by simp [ExprStart], fun s h => by cases h⟩

theorem lit_reads (s : String) : (lit s).Reads exO := by
  rw [lit, Src.Reads]
  exact ⟨fun r _ => rfl, _, _, rfl, by simp [ExprStart], fun s' h => ⟨rfl, rfl⟩⟩

theorem sv_reads : sv.Reads exO := by
  rw [sv, Src.Reads]
  exact ⟨fun r _ => rfl, _, _, rfl, by simp [ExprStart], fun s' h => by cases h⟩

theorem int_ok : int.Ok := rfl
theorem char_ok : char.Ok := rfl
theorem pair_ok : pair.Ok := by
  simp only [pair, ITy.Ok, IMems.Ok, IMems.get?]
  exact ⟨rfl, int_ok, by simp, int_ok, by simp, trivial⟩

/-- The simplification set for concrete initialisers. -/
macro "init_simp" : tactic => `(tactic| simp [value, place, run, bracesFor, put, next, resolve, ITy.sub, ITy.child?, IMems.get?, Src.land, land, landM, setVal, clean, cleans, litOf, isChars,
  memberPath, blank, blanks, Inis.replicate, Inis.get?, setI, fillStr, setExpr, n, sv, lit, leaf, two, int, char, charp, pair, isPair, w1, exO, Init.Inis.get?, Low.CTy.isInt, Low.CTy.size])

/-- `struct { struct { int a; int b; } p[2]; char t[3]; int z; } x = { 1, 2, [… no] 3, .t = "hi", 7, }` -/
def big : ITy := .struc 24 (.cons (some "p") 0 none (.arr pair 2) (.cons (some "t") 16 none (.arr char 3) (.cons (some "z") 20 none int .nil)))

def bigItems : Items Int := .cons [] (n 1) (.cons [] (n 2) (.cons [] (n 3) (.cons [.field "t"] (lit "hi") (.cons [] (n 7) .nil))))

def bigTree : Ini Int := .mk none none (.cons (.mk none none (two (.mk none none (two (leaf (some 1)) (leaf (some 2)))) (.mk none none (two (leaf (some 3)) (leaf none)))))
  (.cons (.mk none none (.cons (leaf (some 104)) (.cons (leaf (some 105)) (.cons (leaf (some 0)) .nil)))) (.cons (leaf (some 7)) .nil)))

theorem big_value : value exO w1 big (.list bigItems true) = some bigTree := by
  simp only [big, bigItems, bigTree]
  init_simp

theorem tame_cons {w : String → Nat} {T U : ITy} {ds : List Des} {s : Src Int} {r : Items Int} {c : Option Path} (p : Path) (h1 : (if ds.isEmpty then c else resolve T ds) = some p)
    (h2 : T.sub p = some U) (h3 : TameSrc w U s) (h4 : ds ≠ [] → r.isNil = false → ∀ i q V, p = i :: q → T.child? i = some V → lastIn V q)
    (h5 : Tame w T r (next T (p ++ s.land w U))) : Tame w T (.cons ds s r) c := by
  rw [Tame]
  intro p' U' h1' h2'
  rw [h1] at h1'; cases h1'
  rw [h2] at h2'; cases h2'
  exact ⟨h3, h4, h5⟩

theorem big_ok : big.Ok := by
  simp only [big, ITy.Ok, IMems.Ok, IMems.get?]
  exact ⟨rfl, ⟨by omega, pair_ok⟩, by simp, ⟨by omega, char_ok⟩, by simp, int_ok, by simp, trivial⟩

theorem n_tame (w : String → Nat) (v : Int) : TameSrc w int (n v) := by rw [n, TameSrc]; trivial

theorem big_tame : TameSrc w1 big (.list bigItems true) := by
  simp only [big, TameSrc, bigItems]
  refine tame_cons (U := .arr pair 2) [0] rfl rfl (by simp [n, TameSrc, litOf, Lands, LandsM, pair, int]) (by simp) ?_
  refine tame_cons (U := int) [0, 0, 1] (by init_simp) rfl (n_tame _ _) (by simp) ?_
  refine tame_cons (U := pair) [0, 1] (by init_simp) rfl (by simp [n, TameSrc, Lands, LandsM, pair, int]) (by simp) ?_
  refine tame_cons (U := .arr char 3) [1] (by init_simp) rfl (by simp [lit, TameSrc, litOf, Lands, isChars, char, w1, Low.CTy.isInt, Low.CTy.size]) (by intro _ _ i q V h1 h2; simp at h1; obtain ⟨rfl, rfl⟩ := h1; simp [lastIn, ITy.child?] at *; try (subst h2; simp)) ?_
  refine tame_cons (U := int) [2] (by init_simp) rfl (n_tame _ _) (by simp) ?_
  rw [Tame]; trivial

theorem big_reads : (Src.list bigItems true : Src Int).Reads exO := by
  simp only [bigItems, Src.Reads, Items.Reads]
  exact ⟨by simp, n_reads 1, by simp, n_reads 2, by simp, n_reads 3, by simp, lit_reads "hi", by simp, n_reads 7, trivial⟩

/-- `{1, 2, 3, .t = "hi", 7,};` -/
def bigText : List Tok := [.p .lbrace, .num 1, .p .comma, .num 2, .p .comma, .num 3, .p .comma, .p .dot, .ident "t", .p .eq, .str "hi", .p .comma, .num 7, .p .comma, .p .rbrace, .p .semi]

example : ∃ N, ∀ n, N ≤ n → initializer exO n big bigText = .ok (bigTree, [.p .semi]) := by
  have := C68_initializer_partial exO w1 (fun _ => .inl rfl) big _ [.p .semi] bigTree big_ok big_tame big_reads (by simp [StopE]) big_value
  simpa [Src.text, bigItems, Items.text, n, lit, desText, Des.text, closing, bigText] using this

/-- `int a[2][3] = {[1][1] = 5, 6, [0] = {7}};` -/
def mat : ITy := .arr (.arr int 3) 2
def matItems : Items Int := .cons [.idx [.num 1] 1, .idx [.num 1] 1] (n 5) (.cons [] (n 6) (.cons [.idx [.num 0] 0] (.list (.cons [] (n 7) .nil) false) .nil))
def row (a b c : Option Int) : Ini Int := .mk none none (.cons (leaf a) (.cons (leaf b) (.cons (leaf c) .nil)))
def matTree : Ini Int := .mk none none (two (row (some 7) none none) (row none (some 5) (some 6)))

theorem mat_value : value exO w1 mat (.list matItems false) = some matTree := by
  simp only [mat, matItems, matTree, row]
  init_simp

theorem mat_tame : TameSrc w1 mat (.list matItems false) := by
  simp only [mat, TameSrc, matItems]
  refine ⟨by simp, ?_⟩
  refine tame_cons (U := int) [1, 1] (by init_simp) rfl (n_tame _ _) (by intro _ _ i q V h1 h2; simp at h1; obtain ⟨rfl, rfl⟩ := h1; simp [lastIn, ITy.child?] at *; try (subst h2; simp)) ?_
  refine tame_cons (U := int) [1, 2] (by init_simp) rfl (n_tame _ _) (by simp) ?_
  refine tame_cons (U := .arr int 3) [0] (by init_simp) rfl ?_ (by simp [Items.isNil]) ?_
  · rw [TameSrc]
    refine ⟨?_, tame_cons (U := int) [0] (by init_simp) rfl (n_tame _ _) (by simp) (by rw [Tame]; trivial)⟩
    intro ts e st w s h hl
    simp [n] at h
    obtain ⟨rfl, _⟩ := h
    cases hl
  · rw [Tame]; trivial

example : ∃ N, ∀ m, N ≤ m → initializer exO m mat ([.p .lbrace, .p .lbrk, .num 1, .p .rbrk, .p .lbrk, .num 1, .p .rbrk, .p .eq, .num 5, .p .comma, .num 6, .p .comma, .p .lbrk, .num 0,
    .p .rbrk, .p .eq, .p .lbrace, .num 7, .p .rbrace, .p .rbrace, .p .semi]) = .ok (matTree, [.p .semi]) := by
  have := C68_initializer_partial exO w1 (fun _ => .inl rfl) mat _ [.p .semi] matTree (by simp only [mat, ITy.Ok]; exact ⟨by omega, by omega, int_ok⟩) mat_tame
    (by simp only [matItems, Src.Reads, Items.Reads]; exact ⟨by simp [exO], n_reads 5, by simp, n_reads 6, by simp [exO], ⟨by simp, n_reads 7, trivial⟩, trivial⟩) (by simp [StopE]) mat_value
  simpa [Src.text, matItems, Items.text, n, desText, Des.text, closing] using this

/-- An expression of structure type for a member, and a union: `struct { struct { int a; int b; } p; union { int i; char c; } v; } x = { s, {.c = 4} };` -/
def un : ITy := .union 4 (.cons (some "i") 0 none int (.cons (some "c") 0 none char .nil))
def mix : ITy := .struc 12 (.cons (some "p") 0 none pair (.cons (some "v") 8 none un .nil))
def mixItems : Items Int := .cons [] sv (.cons [] (.list (.cons [.field "c"] (n 4) .nil) false) .nil)
def mixTree : Ini Int := .mk none none (two (.mk (some (-2)) none (two (leaf none) (leaf none))) (.mk none (some 1) (two (leaf none) (leaf (some 4)))))

theorem mix_value : value exO w1 mix (.list mixItems false) = some mixTree := by
  simp only [mix, mixItems, mixTree, un]
  init_simp

theorem mix_tame : TameSrc w1 mix (.list mixItems false) := by
  simp only [mix, TameSrc, mixItems]
  refine tame_cons (U := pair) [0] rfl rfl (by simp [sv, TameSrc, Lands, pair, isPair]) (by simp) ?_
  refine tame_cons (U := un) [1] (by init_simp) rfl ?_ (by simp) (by rw [Tame]; trivial)
  simp only [un, TameSrc]
  refine ⟨by simp [Items.isNil], tame_cons (U := char) [1] (by init_simp) rfl (by rw [n, TameSrc]; trivial) (by intro _ _ i q V h1 h2; simp at h1; obtain ⟨rfl, rfl⟩ := h1; simp [lastIn, ITy.child?] at *; try (subst h2; simp)) (by rw [Tame]; trivial), ?_⟩
  intro ds s r h
  cases h
  exact ⟨by simp [Items.plain], fun _ => trivial⟩

example : ∃ N, ∀ m, N ≤ m → initializer exO m mix ([.p .lbrace, .ident "s", .p .comma, .p .lbrace, .p .dot, .ident "c", .p .eq, .num 4, .p .rbrace, .p .rbrace, .p .semi]) = .ok (mixTree, [.p .semi]) := by
  have := C68_initializer_partial exO w1 (fun _ => .inl rfl) mix _ [.p .semi] mixTree
    (by simp only [mix, ITy.Ok, IMems.Ok, IMems.get?, un]; exact ⟨rfl, pair_ok, by simp, ⟨rfl, int_ok, by simp, char_ok, by simp, trivial⟩, by simp, trivial⟩) mix_tame
    (by simp only [mixItems, Src.Reads, Items.Reads]; exact ⟨by simp, sv_reads, by simp, ⟨by simp, n_reads 4, trivial⟩, trivial⟩) (by simp [StopE]) mix_value
  simpa [Src.text, mixItems, Items.text, n, sv, desText, Des.text, closing] using this

/-- `struct { int a; int b; } x[] = {1, 2, [2] = {3}, 4};` has four elements. -/
def flexItems : Items Int := .cons [] (n 1) (.cons [] (n 2) (.cons [.idx [.num 2] 2] (.list (.cons [] (n 3) .nil) false) (.cons [] (n 4) .nil)))
def flexTree : Ini Int := .mk none none (.cons (.mk none none (two (leaf (some 1)) (leaf (some 2)))) (.cons (.mk none none (two (leaf none) (leaf none)))
  (.cons (.mk none none (two (leaf (some 3)) (leaf none))) (.cons (.mk none none (two (leaf (some 4)) (leaf none))) .nil))))

theorem flex_value : value exO w1 (.arr pair 4) (.list flexItems false) = some flexTree := by
  simp only [flexItems, flexTree]
  init_simp

theorem flex_length : lengthIs exO w1 pair 4 (.list flexItems false) := by
  simp only [flexItems, lengthIs, extent]
  init_simp

theorem flex_tame : TameSrc w1 (.arr pair 4) (.list flexItems false) := by
  simp only [TameSrc, flexItems]
  refine ⟨by simp, ?_⟩
  refine tame_cons (U := pair) [0] (by init_simp) rfl (by simp [n, TameSrc, Lands, LandsM, pair, int]) (by simp) ?_
  refine tame_cons (U := int) [0, 1] (by init_simp) rfl (n_tame _ _) (by simp) ?_
  refine tame_cons (U := pair) [2] (by init_simp) rfl ?_ (by intro _ _ i q V h1 h2; simp at h1; obtain ⟨rfl, rfl⟩ := h1; simp [lastIn]) ?_
  · simp only [pair, TameSrc]
    exact tame_cons (U := int) [0] (by init_simp) rfl (n_tame _ _) (by simp) (by rw [Tame]; trivial)
  refine tame_cons (U := pair) [3] (by init_simp) rfl (by simp [n, TameSrc, Lands, LandsM, pair, int]) (by simp) ?_
  rw [Tame]; trivial

example : ∃ N, ∀ m, N ≤ m → initFlex exO m pair ([.p .lbrace, .num 1, .p .comma, .num 2, .p .comma, .p .lbrk, .num 2, .p .rbrk, .p .eq, .p .lbrace, .num 3, .p .rbrace, .p .comma, .num 4,
    .p .rbrace, .p .semi]) = .ok (4, flexTree, [.p .semi]) := by
  have := C68_length_partial exO w1 (fun _ => .inl rfl) pair 4 _ [.p .semi] flexTree (by rw [ITy.Ok]; exact ⟨by omega, pair_ok⟩) flex_tame
    (by simp only [flexItems, Src.Reads, Items.Reads]; exact ⟨by simp, n_reads 1, by simp, n_reads 2, by simp [exO], ⟨by simp, n_reads 3, trivial⟩, by simp, n_reads 4, trivial⟩) (by simp [StopE])
    flex_length flex_value
  simpa [Src.text, flexItems, Items.text, n, desText, Des.text, closing] using this

/-! ### Where the code does not have the property -/

/-- `struct { struct { int a; int b; } s; int c; }` -/
def nest : ITy := .struc 12 (.cons (some "s") 0 none pair (.cons (some "c") 8 none int .nil))

/-- `struct { struct { int a; int b; }; int c; }` -/
def anon : ITy := .struc 12 (.cons none 0 none pair (.cons (some "c") 8 none int .nil))

/-- The simplification set for the parser on concrete tokens. -/
macro "read_simp" : tactic => `(tactic| simp [initializer, init2, arr1, arr2, struct1, struct2, unionI, desg, range, arrayDesignator, structDesignator, findMember, hasMember, blank, blanks,
  Inis.replicate, child, setChild, setExpr, setMem, setI, Init.Inis.get?, skip, sep, consumeEnd, isEnd, isDesg, dropComma, stringInit, fillStr, ITy.size, Init.Ty.size, Low.CTy.size, IMems.get?, exO,
  bind, Except.bind, nest, anon, un, pair, int, char, charp, two, leaf, row])

/-- After a designation through a member that is not the last one of its structure, the next item is not read: struct_initializer2 expects no comma. `{.s.a = 1, .s.b = 2}` is rejected. -/
theorem nested_designation_rejected : value exO w1 nest (.list (.cons [.field "s", .field "a"] (n 1) (.cons [.field "s", .field "b"] (n 2) .nil)) false) =
      some (.mk none none (two (.mk none none (two (leaf (some 1)) (leaf (some 2)))) (leaf none))) ∧
    ∀ m, initializer exO (m + 20) nest [.p .lbrace, .p .dot, .ident "s", .p .dot, .ident "a", .p .eq, .num 1, .p .comma, .p .dot, .ident "s", .p .dot, .ident "b", .p .eq, .num 2,
      .p .rbrace, .p .semi] = .error .other := by
  refine ⟨by simp only [nest]; init_simp, fun m => by read_simp⟩

/-- The same for the members of an anonymous structure: `{.a = 1, .b = 2}` is rejected. -/
theorem anonymous_struct_rejected : value exO w1 anon (.list (.cons [.field "a"] (n 1) (.cons [.field "b"] (n 2) .nil)) false) =
      some (.mk none none (two (.mk none none (two (leaf (some 1)) (leaf (some 2)))) (leaf none))) ∧
    ∀ m, initializer exO (m + 20) anon [.p .lbrace, .p .dot, .ident "a", .p .eq, .num 1, .p .comma, .p .dot, .ident "b", .p .eq, .num 2, .p .rbrace, .p .semi] = .error .other := by
  refine ⟨by simp only [anon]; init_simp, fun m => by read_simp⟩

/-- `struct { union { int i; char c; }; int c2; }`: a designation of a member after an anonymous union, or in it, uses a null pointer (`mem->name` of the anonymous union). -/
theorem anonymous_union_null : value exO w1 (.struc 8 (.cons none 0 none un (.cons (some "z") 4 none int .nil))) (.list (.cons [.field "z"] (n 1) .nil) false) =
      some (.mk none none (two (.mk none none (two (leaf none) (leaf none))) (leaf (some 1)))) ∧
    ∀ m, initializer exO (m + 20) (.struc 8 (.cons none 0 none un (.cons (some "z") 4 none int .nil))) [.p .lbrace, .p .dot, .ident "z", .p .eq, .num 1, .p .rbrace, .p .semi] = .error .null := by
  refine ⟨by simp only [un]; init_simp, fun m => by read_simp⟩

/-- `int x = {3,};` is rejected. -/
theorem scalar_comma_rejected : value exO w1 int (.list (.cons [] (n 3) .nil) true) = some (leaf (some 3)) ∧
    ∀ m, initializer exO (m + 20) int [.p .lbrace, .num 3, .p .comma, .p .rbrace, .p .semi] = .error .skip := by
  refine ⟨by init_simp, fun m => by read_simp⟩

/-- `union { int i; char c; } x = {.c = 1,};` is rejected. -/
theorem union_comma_rejected : value exO w1 un (.list (.cons [.field "c"] (n 1) .nil) true) = some (.mk none (some 1) (two (leaf none) (leaf (some 1)))) ∧
    ∀ m, initializer exO (m + 20) un [.p .lbrace, .p .dot, .ident "c", .p .eq, .num 1, .p .comma, .p .rbrace, .p .semi] = .error .skip := by
  refine ⟨by simp only [un]; init_simp, fun m => by read_simp⟩

/-- An initialiser of union type, `union U x = u;`, is taken for one of the first member. -/
theorem union_expression_misread : value exO w1 un (.expr [.ident "u"] (-3) false (fun U => match U with | .union _ _ => true | _ => false)) = some (.mk (some (-3)) none (two (leaf none) (leaf none))) ∧
    ∀ m, initializer exO (m + 20) un [.ident "u", .p .semi] = .ok (.mk none (some 0) (two (leaf (some (-3))) (leaf none)), [.p .semi]) := by
  refine ⟨by simp only [un]; init_simp, fun m => by read_simp⟩

/-- `char s[3] = {"hi"};`: the address of the literal is taken for the first character. -/
theorem literal_in_braces_misread : value exO w1 (.arr char 3) (.list (.cons [] (lit "hi") .nil) false) =
      some (.mk none none (.cons (leaf (some 104)) (.cons (leaf (some 105)) (.cons (leaf (some 0)) .nil)))) ∧
    ∀ m, initializer exO (m + 20) (.arr char 3) [.p .lbrace, .str "hi", .p .rbrace, .p .semi] = .ok (row (some (-1)) none none, [.p .semi]) := by
  refine ⟨by init_simp, fun m => by read_simp⟩

/-- `struct { char *p[2]; } x = {"a", "b"};`: the literal is taken for one of an array of characters; unreachable() is reached. -/
theorem literal_for_pointers_rejected : value exO w1 (.struc 16 (.cons (some "p") 0 none (.arr charp 2) .nil)) (.list (.cons [] (lit "a") (.cons [] (lit "b") .nil)) false) =
      some (.mk none none (.cons (.mk none none (two (leaf (some (-1))) (leaf (some (-1))))) .nil)) ∧
    ∀ m, initializer exO (m + 20) (.struc 16 (.cons (some "p") 0 none (.arr charp 2) .nil)) [.p .lbrace, .str "a", .p .comma, .str "b", .p .rbrace, .p .semi] = .error .unreach := by
  refine ⟨by init_simp, fun m => by read_simp⟩

/-- `struct { int a[2]; } x = {.a = {1, 2}, .a = {3}};`: by 6.7.9p19 the second list replaces the first one; but `a[1]` keeps 2. -/
theorem overridden_list_kept : ∀ m, initializer exO (m + 20) (.struc 8 (.cons (some "a") 0 none (.arr int 2) .nil)) [.p .lbrace, .p .dot, .ident "a", .p .eq, .p .lbrace, .num 1, .p .comma, .num 2,
      .p .rbrace, .p .comma, .p .dot, .ident "a", .p .eq, .p .lbrace, .num 3, .p .rbrace, .p .rbrace, .p .semi] =
    .ok (.mk none none (.cons (.mk none none (two (leaf (some 3)) (leaf (some 2)))) .nil), [.p .semi]) := fun m => by read_simp

/-- `int a[2] = {[-1] = 5};` is not rejected: an element before the array is used. -/
theorem negative_designator : ∀ m, initializer exO (m + 20) (.arr int 2) [.p .lbrace, .p .lbrk, .num (-1), .p .rbrk, .p .eq, .num 5, .p .rbrace, .p .semi] = .error .ub := fun m => by read_simp

/-- `struct { int : 3; int b; } x = {5};`: the member without a name takes the value, which is for `b` (6.7.9p9). -/
theorem unnamed_bitfield_taken : ∀ m, initializer exO (m + 20) (.struc 8 (.cons none 0 (some (0, 3)) int (.cons (some "b") 4 none int .nil))) [.p .lbrace, .num 5, .p .rbrace, .p .semi] =
    .ok (.mk none none (two (leaf (some 5)) (leaf none)), [.p .semi]) := fun m => by read_simp

end Toycc.Ip.Props
