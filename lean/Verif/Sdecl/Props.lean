import Verif.Sdecl.Proof
import Verif.Layout.Props
/-! C92: definitions of structures and unions, from tokens to members and layout. -/
namespace Toycc.Sdecl.Props
open Toycc.Parse (Tok P)
open Toycc.Decl
variable {B L : Type}

/-- Every list of struct-declarations of the grammar is read as the members it declares, in their order, with their names, types, alignments and widths. The declarators
are those of C67, with its restrictions. -/
theorem C92_members_partial (M : Orc B L) (ds : List (MDecl B L)) (hv : ∀ d ∈ ds, d.Valid M) (r : List Tok) :
    ∃ N, ∀ n, N ≤ n → members M n (ds.flatMap MDecl.text ++ .p .rbrace :: r) = .ok (ds.flatMap (MDecl.den M.const), r) :=
  members_ev M ds r hv

/-- What is accepted is a list of struct-declarations up to its brace, and the members are those it declares. Partial: no variable-length arrays; declarations without
a declarator are accepted too (`declares_nothing`). -/
theorem C92_accepted_partial (M : Orc B L) (hO : M.toOracle.Prefix) (hc : ∀ e, M.const e ≠ none) (hs : ∀ ts b r, M.spec ts = .ok (b, r) → ∃ p, ts = p ++ r)
    (n : Nat) (ts rest : List Tok) (ms : List (Memb B L)) (h : members M n ts = .ok (ms, rest)) :
    ∃ ds : List (MDecl B L), ts = ds.flatMap MDecl.text ++ .p .rbrace :: rest ∧ ms = ds.flatMap (MDecl.den M.const) ∧ ∀ d ∈ ds, d.Read M :=
  members_sound M hO hc hs n ts rest ms h

/-- The text of a definition after `struct` or `union`: attributes, a tag, the members in braces, attributes. -/
def text (gs : List (List (Item L))) (tag : Option String) (ds : List (MDecl B L)) (gs' : List (List (Item L))) : List Tok :=
  gs.flatMap attrText ++ (tag.toList.map Tok.ident ++ .p .lbrace :: (ds.flatMap MDecl.text ++ .p .rbrace :: gs'.flatMap attrText))

/-- What a definition says: packed if any attribute says so, the last alignment asked for (1 if none), the members, the last of them made a flexible array
member if its length is unknown. -/
def meaning (const : L → Option Int) (gs gs' : List (List (Item L))) (ds : List (MDecl B L)) : Body B L where
  packed := isPacked (gs ++ gs').flatten
  align := lastAligned const 1 (gs ++ gs').flatten
  members := (lastFlexible (ds.flatMap (MDecl.den const))).getD (ds.flatMap (MDecl.den const))
  isFlexible := (lastFlexible (ds.flatMap (MDecl.den const))).isSome

/-- A definition is read as what it says, up to the first token that is not an attribute. -/
theorem C92_definition_partial (M : Orc B L) (gs gs' : List (List (Item L))) (tag : Option String) (ds : List (MDecl B L)) (r : List Tok)
    (hg : ∀ g ∈ gs, ∀ x ∈ g, x.Valid M) (hg' : ∀ g ∈ gs', ∀ x ∈ g, x.Valid M) (hv : ∀ d ∈ ds, d.Valid M) (hr : ∀ q, r ≠ .kw "__attribute__" :: q) :
    ∃ N, ∀ n, N ≤ n → structUnion M n (text gs tag ds gs' ++ r) = .ok (tag, meaning M.const gs gs' ds, r) := by
  obtain ⟨N1, h1⟩ := attributes_ev M gs (tag.toList.map Tok.ident ++ .p .lbrace :: (ds.flatMap MDecl.text ++ .p .rbrace :: (gs'.flatMap attrText ++ r))) (false, 1) hg
    (by intro q; cases tag <;> simp)
  obtain ⟨N2, h2⟩ := members_ev M ds (gs'.flatMap attrText ++ r) hv
  obtain ⟨N3, h3⟩ := attributes_ev M gs' r (isPacked gs.flatten, lastAligned M.const 1 gs.flatten) hg' hr
  refine ⟨max N1 (max N2 N3), fun n hn => ?_⟩
  have e : text gs tag ds gs' ++ r = gs.flatMap attrText ++ (tag.toList.map Tok.ident ++ .p .lbrace :: (ds.flatMap MDecl.text ++ .p .rbrace :: (gs'.flatMap attrText ++ r))) := by
    simp [text]
  have et : tagOf (tag.toList.map Tok.ident ++ .p .lbrace :: (ds.flatMap MDecl.text ++ .p .rbrace :: (gs'.flatMap attrText ++ r))) =
      (tag, .p .lbrace :: (ds.flatMap MDecl.text ++ .p .rbrace :: (gs'.flatMap attrText ++ r))) := by
    cases tag <;> rfl
  rw [e, structUnion, h1 n (by omega)]
  simp only [bind, Except.bind, et, skip, ↓reduceIte]
  rw [h2 n (by omega)]
  simp only
  rw [show ((false || isPacked gs.flatten, lastAligned M.const 1 gs.flatten) : Bool × Int) = (isPacked gs.flatten, lastAligned M.const 1 gs.flatten) by simp, h3 n (by omega)]
  simp only [meaning, flexible_eq, List.flatten_append, isPacked_append, lastAligned_append]
  cases lastFlexible (ds.flatMap (MDecl.den M.const)) <;> rfl

theorem toAgg_eq (M : Orc B L) (t : Body B L) : toAgg M t = { align := t.align, packed := t.packed, members := t.members.map fun m => (memOf M.lay m, {}) } := by
  simp only [toAgg, toMem_eq]

theorem meaning_members (M : Orc B L) (t : Body B L) : (toAgg M t).members.map (·.1) = t.members.map (memOf M.lay) := by rw [toAgg_eq]; simp

/-- A structure that is not packed: its members, as they are declared, follow each other at the least offsets their alignments allow; its size is the least multiple
of its alignment that holds them. -/
theorem C92_struct_layout_partial (M : Orc B L) (gs gs' : List (List (Item L))) (tag : Option String) (ds : List (MDecl B L)) (r : List Tok)
    (hg : ∀ g ∈ gs, ∀ x ∈ g, x.Valid M) (hg' : ∀ g ∈ gs', ∀ x ∈ g, x.Valid M) (hv : ∀ d ∈ ds, d.Valid M) (hr : ∀ q, r ≠ .kw "__attribute__" :: q)
    (hp : isPacked (gs ++ gs').flatten = false) (ha : 0 < lastAligned M.const 1 (gs ++ gs').flatten)
    (hok : ∀ m ∈ (meaning M.const gs gs' ds).members, (memOf M.lay m).Ok) :
    ∃ N, ∀ n, N ≤ n → ∃ body t fin, structUnion M n (text gs tag ds gs' ++ r) = .ok (tag, body, r) ∧ Layout.structDecl (toAgg M body) = some t ∧
      t.members.map (·.1) = (meaning M.const gs gs' ds).members.map (memOf M.lay) ∧ Layout.Laid 0 t.members fin ∧
      Layout.MaxAlign (lastAligned M.const 1 (gs ++ gs').flatten) t.members t.align ∧ Layout.Least (fun n => t.align ∣ n ∧ fin ≤ 8 * n) t.size := by
  obtain ⟨N, h⟩ := C92_definition_partial M gs gs' tag ds r hg hg' hv hr
  obtain ⟨t, fin, h1, h2, h3, h4, h5⟩ := Layout.C33_struct_layout (toAgg M (meaning M.const gs gs' ds)) hp (Int.le_refl 0) ha (by
    intro x hx
    rw [toAgg_eq] at hx
    obtain ⟨m, hm, rfl⟩ := List.mem_map.mp hx
    exact hok m hm)
  exact ⟨N, fun n hn => ⟨_, t, fin, h n hn, h1, by rw [h2, meaning_members], h3, h4, h5⟩⟩

/-- A union: every member at offset 0, and the least size that holds them all. -/
theorem C92_union_layout_partial (M : Orc B L) (gs gs' : List (List (Item L))) (tag : Option String) (ds : List (MDecl B L)) (r : List Tok)
    (hg : ∀ g ∈ gs, ∀ x ∈ g, x.Valid M) (hg' : ∀ g ∈ gs', ∀ x ∈ g, x.Valid M) (hv : ∀ d ∈ ds, d.Valid M) (hr : ∀ q, r ≠ .kw "__attribute__" :: q)
    (ha : 0 < lastAligned M.const 1 (gs ++ gs').flatten) :
    ∃ N, ∀ n, N ≤ n → ∃ body t, structUnion M n (text gs tag ds gs' ++ r) = .ok (tag, body, r) ∧ Layout.unionDecl (toAgg M body) = some t ∧
      t.members = (meaning M.const gs gs' ds).members.map (fun m => (memOf M.lay m, ⟨0, 0⟩)) ∧
      Layout.MaxAlign (lastAligned M.const 1 (gs ++ gs').flatten) t.members t.align ∧
      Layout.Least (fun n => t.align ∣ n ∧ 0 ≤ n ∧ ∀ m ∈ (meaning M.const gs gs' ds).members, tySize M.lay m.ty ≤ n) t.size := by
  obtain ⟨N, h⟩ := C92_definition_partial M gs gs' tag ds r hg hg' hv hr
  obtain ⟨t, h1, _, h2, _, h4, h5⟩ := Layout.C35_union_layout (toAgg M (meaning M.const gs gs' ds)) rfl ha (by
    intro x hx
    rw [toAgg_eq] at hx
    obtain ⟨m, hm, rfl⟩ := List.mem_map.mp hx
    rfl)
  have hm : t.members = (meaning M.const gs gs' ds).members.map (fun m => (memOf M.lay m, ⟨0, 0⟩)) := by rw [h2, toAgg_eq]
  have conv : ∀ y : Int, (∀ x ∈ t.members, x.1.size ≤ y) ↔ ∀ m ∈ (meaning M.const gs gs' ds).members, tySize M.lay m.ty ≤ y := by
    intro y
    rw [hm]
    constructor
    · intro hx m hmm; exact hx _ (List.mem_map_of_mem hmm)
    · intro hx x hxx
      obtain ⟨m, hmm, rfl⟩ := List.mem_map.mp hxx
      exact hx m hmm
  refine ⟨N, fun n hn => ⟨_, t, h n hn, h1, hm, h4, ?_, ?_⟩⟩
  · exact ⟨h5.1.1, h5.1.2.1, (conv _).1 h5.1.2.2⟩
  · intro y hy; exact h5.2 y ⟨hy.1, hy.2.1, (conv y).2 hy.2.2⟩

/-- A packed structure without bit-fields: the members follow each other without gaps. -/
theorem C92_packed_layout_partial (M : Orc B L) (gs gs' : List (List (Item L))) (tag : Option String) (ds : List (MDecl B L)) (r : List Tok)
    (hg : ∀ g ∈ gs, ∀ x ∈ g, x.Valid M) (hg' : ∀ g ∈ gs', ∀ x ∈ g, x.Valid M) (hv : ∀ d ∈ ds, d.Valid M) (hr : ∀ q, r ≠ .kw "__attribute__" :: q)
    (hp : isPacked (gs ++ gs').flatten = true) (ha : lastAligned M.const 1 (gs ++ gs').flatten = 1)
    (hm : ∀ m ∈ (meaning M.const gs gs' ds).members, m.width = none ∧ 0 ≤ tySize M.lay m.ty) :
    ∃ N, ∀ n, N ≤ n → ∃ body t, structUnion M n (text gs tag ds gs' ++ r) = .ok (tag, body, r) ∧ Layout.structDecl (toAgg M body) = some t ∧ t.align = 1 ∧
      t.size = ((meaning M.const gs gs' ds).members.map fun m => tySize M.lay m.ty).sum ∧ t.members.length = (meaning M.const gs gs' ds).members.length ∧
      ∀ i (h : i < t.members.length), t.members[i].2.offset = (((meaning M.const gs gs' ds).members.take i).map fun m => tySize M.lay m.ty).sum := by
  obtain ⟨N, h⟩ := C92_definition_partial M gs gs' tag ds r hg hg' hv hr
  obtain ⟨t, h1, h2, h3, h4, h5⟩ := Layout.C33_packed (toAgg M (meaning M.const gs gs' ds)) hp (Int.le_refl 0) ha (by
    intro x hx
    rw [toAgg_eq] at hx
    obtain ⟨m, hmm, rfl⟩ := List.mem_map.mp hx
    exact hm m hmm)
  have tot : ∀ l : List (Memb B L), Layout.totalSize (l.map fun m => (memOf M.lay m, {})) = (l.map fun m => tySize M.lay m.ty).sum := by
    intro l; simp only [Layout.totalSize, List.map_map]; rfl
  refine ⟨N, fun n hn => ⟨_, t, h n hn, h1, h3, by rw [h2, toAgg_eq]; exact tot _, by rw [h4]; simp [toAgg], ?_⟩⟩
  intro i hi
  have hi' : i < (toAgg M (meaning M.const gs gs' ds)).members.length := by rw [← h4]; exact hi
  rw [(h5 i hi hi').2, show (toAgg M (meaning M.const gs gs' ds)).members = (meaning M.const gs gs' ds).members.map (fun m => (memOf M.lay m, {})) by rw [toAgg_eq], ← List.map_take]
  exact tot _

/-! ### Examples -/

inductive Ty where
  | int | char | pair
  deriving DecidableEq, Repr

def ty1 : List Tok → Except DErr (Ty × List Tok)
  | .kw "int" :: r => .ok (.int, r)
  | .kw "char" :: r => .ok (.char, r)
  | .kw "pair" :: r => .ok (.pair, r)
  | _ => .error .other

/-- `_Alignas(n)` may come first. `pair` stands for a structure of 8 bytes. -/
def spec2 : List Tok → Except DErr ((Ty × Int) × List Tok)
  | .kw "_Alignas" :: .p .lpar :: .num n :: .p .rpar :: .kw "int" :: r => .ok ((.int, n), r)
  | ts => do let (b, r) ← ty1 ts; .ok ((b, 0), r)

def num2 : List Tok → Except DErr (Int × List Tok)
  | .num n :: r => .ok (n, r)
  | _ => .error .other

def M2 : Orc Ty Int where
  declspec := ty1
  cond := num2
  const := some
  spec := spec2
  agg b := b == .pair
  lay
    | .int => (4, 4)
    | .char => (1, 1)
    | .pair => (8, 4)

abbrev nm (x : String) : MDcl Ty Int := { d := .dir (.name x) }

/-- `char c, *p; int b : 3, : 0; pair; _Alignas(16) int x; char tail[];` -/
def exDs : List (MDecl Ty Int) := [
  .decl [.kw "char"] .char 0 [nm "c", { d := .ptr [] (.dir (.name "p")) }],
  .decl [.kw "int"] .int 0 [{ d := .dir (.name "b"), width := some ([.num 3], 3) }, { d := .dir .empty, width := some ([.num 0], 0) }],
  .anon [.kw "pair"] .pair 0,
  .decl [.kw "_Alignas", .p .lpar, .num 16, .p .rpar, .kw "int"] .int 16 [nm "x"],
  .decl [.kw "char"] .char 0 [{ d := .dir (.arr (.name "tail") [] none) }]]

theorem exValid : ∀ d ∈ exDs, d.Valid M2 := by
  have hn : ∀ (b : Ty) (x : String), (nm x).Valid M2 b := fun b x =>
    ⟨by simp [MDcl.text, Dcl.text, Dir.text], by simp [Dcl.Syn, Dir.Syn], by simp [Dcl.Fits, Dir.Fits], fun p h => nomatch h⟩
  have hw : ∀ (k : Nat) (p : List Tok × Int), some ([Tok.num k], (k : Int)) = some p → (∃ w, M2.const p.2 = some w) ∧ ∀ r, Ends r → M2.cond (p.1 ++ r) = .ok (p.2, r) := by
    rintro k _ ⟨⟩; exact ⟨⟨k, rfl⟩, fun r _ => rfl⟩
  intro d hd
  simp only [exDs, List.mem_cons, List.not_mem_nil, or_false] at hd
  rcases hd with rfl | rfl | rfl | rfl | rfl
  · refine ⟨by simp, ⟨_, _, rfl, by simp⟩, fun r => rfl, fun x hx => ?_⟩
    simp only [List.mem_cons, List.not_mem_nil, or_false] at hx
    rcases hx with rfl | rfl
    · exact hn _ _
    · exact ⟨by simp [MDcl.text, Dcl.text], by simp [Dcl.Syn, Dir.Syn], by simp [Dcl.Fits, Dir.Fits], fun p h => nomatch h⟩
  · refine ⟨by simp, ⟨_, _, rfl, by simp⟩, fun r => rfl, fun x hx => ?_⟩
    simp only [List.mem_cons, List.not_mem_nil, or_false] at hx
    rcases hx with rfl | rfl
    · exact ⟨by simp [MDcl.text, Dcl.text, Dir.text], by simp [Dcl.Syn, Dir.Syn], by simp [Dcl.Fits, Dir.Fits], hw 3⟩
    · exact ⟨by simp [MDcl.text, widthText], by simp [Dcl.Syn, Dir.Syn], by simp [Dcl.Fits, Dir.Fits], hw 0⟩
  · exact ⟨rfl, ⟨_, _, rfl, by simp⟩, fun r => rfl⟩
  · refine ⟨by simp, ⟨_, _, rfl, by simp⟩, fun r => rfl, fun x hx => ?_⟩
    simp only [List.mem_cons, List.not_mem_nil, or_false] at hx
    cases hx; exact hn _ _
  · refine ⟨by simp, ⟨_, _, rfl, by simp⟩, fun r => rfl, fun x hx => ?_⟩
    simp only [List.mem_cons, List.not_mem_nil, or_false] at hx
    cases hx
    exact ⟨by simp [MDcl.text, Dcl.text, Dir.text], by simp [Dcl.Syn, Dir.Syn, List.all], by simp [Dcl.Fits, Dir.Fits], fun p h => nomatch h⟩

/-- `__attribute__((aligned(32)))`, and `__attribute__((packed, aligned(2)))`. -/
def exA : List (Item Int) := [.aligned [.num 32] 32]
def exP : List (Item Int) := [.packed, .aligned [.num 2] 2]

theorem exItems : (∀ x ∈ exA, x.Valid M2) ∧ ∀ x ∈ exP, x.Valid M2 := by
  constructor
  · intro x hx
    simp only [exA, List.mem_cons, List.not_mem_nil, or_false] at hx
    cases hx; exact ⟨⟨32, rfl⟩, fun r => rfl⟩
  · intro x hx
    simp only [exP, List.mem_cons, List.not_mem_nil, or_false] at hx
    rcases hx with rfl | rfl
    · exact trivial
    · exact ⟨⟨2, rfl⟩, fun r => rfl⟩

example : text [exA] (some "s") [.anon [.kw "pair"] Ty.pair 0] [exP] =
    [.kw "__attribute__", .p .lpar, .p .lpar, .ident "aligned", .p .lpar, .num 32, .p .rpar, .p .rpar, .p .rpar, .ident "s", .p .lbrace, .kw "pair", .p .semi, .p .rbrace,
     .kw "__attribute__", .p .lpar, .p .lpar, .ident "packed", .p .comma, .ident "aligned", .p .lpar, .num 2, .p .rpar, .p .rpar, .p .rpar] := rfl

example : (meaning M2.const [exA] [exP] exDs).packed = true ∧ (meaning M2.const [exA] [exP] exDs).align = 2 ∧ (meaning M2.const [exA] [exP] exDs).isFlexible = true := ⟨rfl, rfl, rfl⟩

/-- Size, alignment and width of the members of `exDs`. -/
theorem exMembers : (meaning M2.const [] [exA] exDs).members.map (memOf M2.lay) =
    [⟨1, 1, none⟩, ⟨8, 8, none⟩, ⟨4, 4, some 3⟩, ⟨4, 4, some 0⟩, ⟨8, 4, none⟩, ⟨4, 16, none⟩, ⟨0, 1, none⟩] := by rfl

/-- The hypotheses of the theorem about structures hold. -/
example : isPacked ([] ++ [exA]).flatten = false ∧ 0 < lastAligned M2.const 1 ([] ++ [exA]).flatten ∧ ∀ m ∈ (meaning M2.const [] [exA] exDs).members, (memOf M2.lay m).Ok := by
  refine ⟨rfl, by decide, fun m hm => ?_⟩
  have : memOf M2.lay m ∈ (meaning M2.const [] [exA] exDs).members.map (memOf M2.lay) := List.mem_map_of_mem hm
  rw [exMembers] at this
  simp only [List.mem_cons, List.not_mem_nil, or_false] at this
  rcases this with h | h | h | h | h | h | h <;> rw [h] <;> simp [Layout.Mem.Ok]

/-- Those of the theorem about packed structures: `char c; int *p;`. -/
example : isPacked ([[Item.packed]] ++ ([] : List (List (Item Int)))).flatten = true ∧ lastAligned M2.const 1 ([[Item.packed]] ++ []).flatten = 1 ∧
    ∀ m ∈ (meaning M2.const [[.packed]] [] [.decl [.kw "char"] .char 0 [nm "c"], .decl [.kw "int"] .int 0 [{ d := .ptr [] (.dir (.name "p")) }]]).members,
      m.width = none ∧ 0 ≤ tySize M2.lay m.ty := by
  refine ⟨rfl, rfl, fun m hm => ?_⟩
  have : m ∈ [(⟨.base .char, some "c", 0, none⟩ : Memb Ty Int), ⟨.ptr (.base .int), some "p", 0, none⟩] := hm
  simp only [List.mem_cons, List.not_mem_nil, or_false] at this
  rcases this with h | h <;> rw [h] <;> simp [tySize, M2]

theorem M2_prefix : M2.toOracle.Prefix where
  cond ts e r h := by
    simp only [M2, num2] at h
    split at h
    · cases h; exact ⟨[_], rfl⟩
    · cases h
  declspec ts b r h := by
    simp only [M2] at h
    rw [ty1.eq_def] at h
    split at h <;> first | (cases h; exact ⟨[_], rfl⟩) | cases h

/-- The hypotheses of the converse hold. -/
example : M2.toOracle.Prefix ∧ (∀ e, M2.const e ≠ none) ∧ ∀ ts b r, M2.spec ts = .ok (b, r) → ∃ p, ts = p ++ r := by
  refine And.intro M2_prefix (And.intro (fun e h => nomatch h) ?_)
  rintro ts b r h
  simp only [M2] at h
  rw [spec2.eq_def] at h
  split at h
  · cases h; exact ⟨[_, _, _, _, _], rfl⟩
  · obtain ⟨⟨b', r'⟩, h1, h2⟩ := bind_ok h
    cases h2
    exact M2_prefix.declspec _ _ _ h1

/-! ### Where the code does not have the property -/

macro "runs" : tactic => `(tactic| simp [structUnion, attributes, tagOf, members, dcls, semi, bitWidth, flexible, unknown, M2, spec2, ty1, num2, declarator, declBody, typeSuffix, params, pointers,
  isQual, isDimQual, isVoid, sep, skip, adjust, mkArr, DTy.isVla, List.dropWhile, bind, Except.bind])

/-- `{ int a[]; char b; }` is accepted (C11 6.7.2.1p3 forbids it), and `b` lies three bytes before the structure, whose size is 0. -/
theorem flexible_in_the_middle : ∃ t, structUnion M2 9 [.p .lbrace, .kw "int", .ident "a", .p .lbrk, .p .rbrk, .p .semi, .kw "char", .ident "b", .p .semi, .p .rbrace, .p .semi] =
    .ok (none, t, [.p .semi]) ∧ (Layout.structDecl (toAgg M2 t)).map (fun t => (t.members.map (·.2.offset), t.size)) = some ([0, -3], 0) := by
  refine ⟨⟨false, 1, [⟨.arr (.base .int) (-1), some "a", 0, none⟩, ⟨.base .char, some "b", 0, none⟩], false⟩, by runs, by decide +kernel⟩

/-- `{ int; }` is accepted, and declares no member (C11 6.7.2.1p2). -/
theorem declares_nothing : structUnion M2 9 [.p .lbrace, .kw "int", .p .semi, .p .rbrace, .p .semi] = .ok (none, ⟨false, 1, [], false⟩, [.p .semi]) := by runs

/-- `{ int , a; }` is accepted with a member that has no name. -/
theorem missing_declarator : structUnion M2 9 [.p .lbrace, .kw "int", .p .comma, .ident "a", .p .semi, .p .rbrace, .p .semi] =
    .ok (none, ⟨false, 1, [⟨.base .int, none, 0, none⟩, ⟨.base .int, some "a", 0, none⟩], false⟩, [.p .semi]) := by runs

/-- Two members of the same name are accepted (C11 6.7.2.1p15 and 6.7p3). -/
theorem duplicate_member : structUnion M2 9 [.p .lbrace, .kw "int", .ident "a", .p .semi, .kw "char", .ident "a", .p .semi, .p .rbrace, .p .semi] =
    .ok (none, ⟨false, 1, [⟨.base .int, some "a", 0, none⟩, ⟨.base .char, some "a", 0, none⟩], false⟩, [.p .semi]) := by runs

/-- A width larger than the type is accepted (C11 6.7.2.1p4). -/
theorem wide_bit_field : structUnion M2 9 [.p .lbrace, .kw "char", .ident "a", .p .colon, .num 99, .p .semi, .p .rbrace, .p .semi] =
    .ok (none, ⟨false, 1, [⟨.base .char, some "a", 0, some 99⟩], false⟩, [.p .semi]) := by runs

/-- `_Alignas` may weaken the alignment of a member (C11 6.7.5p4). -/
theorem alignas_weakens : (toMem M2 ⟨.base .int, some "a", 1, none⟩).align = 1 ∧
    structUnion M2 9 [.p .lbrace, .kw "_Alignas", .p .lpar, .num 1, .p .rpar, .kw "int", .ident "a", .p .semi, .p .rbrace, .p .semi] =
    .ok (none, ⟨false, 1, [⟨.base .int, some "a", 1, none⟩], false⟩, [.p .semi]) := ⟨rfl, by runs⟩

end Toycc.Sdecl.Props
