import Verif.Generic.Model
import Verif.Generic.Spec
import Verif.Parse.Props
/-! C77: _Generic. -/
namespace Toycc.Generic
open Toycc.Parse (Tok P Tree Oracle PErr Derives skip assign C43_assign_grammar)
open Toycc.Types

/-! ### Types -/

theorem within_strip {S : Ty → Prop} : ∀ {t : Ty}, Within S t → Within S (strip t)
  | .copy _ o, h => within_strip (t := o) (by simp only [Within] at h; exact h.2)
  | .basic _ _, h | .ptr _ _, h | .func _ _ _ _, h | .array _ _ _, h | .vla _ _, h | .tagged _, h => h

theorem erase_strip : ∀ t : Ty, erase (strip t) = erase t
  | .copy _ o => erase_strip o
  | .basic _ _ | .ptr _ _ | .func _ _ _ _ | .array _ _ _ | .vla _ _ | .tagged _ => rfl

theorem converted_strip : ∀ t : Ty, converted (strip t) = converted t
  | .copy _ o => converted_strip o
  | .basic _ _ | .ptr _ _ | .func _ _ _ _ | .array _ _ _ | .vla _ _ | .tagged _ => rfl

theorem isVla_strip : ∀ t : Ty, isVla (strip t) = isVla t
  | .copy _ o => isVla_strip o
  | .basic _ _ | .ptr _ _ | .func _ _ _ _ | .array _ _ _ | .vla _ _ | .tagged _ => rfl

theorem strip_not_copy : ∀ (t : Ty) i o, strip t ≠ .copy i o
  | .copy _ o, i, p => strip_not_copy o i p
  | .basic _ _, _, _ | .ptr _ _, _, _ | .func _ _ _ _, _, _ | .array _ _ _, _, _ | .vla _ _, _, _ | .tagged _, _, _ => by intro h; cases h

/-- The conversion of the code is the one of C. -/
theorem decayed_converted (fresh : Nat) (t : Ty) (hv : isVla t = false) : erase (decayed fresh t) = converted t := by
  unfold decayed
  rw [← converted_strip, ← isVla_strip] at *
  have he := erase_strip t
  have hc := strip_not_copy t
  cases h : strip t with
  | func i r p v => simp only [erase, converted]; rw [← he, h]; rfl
  | array i b n => simp only [erase, converted]
  | vla i b => rw [h] at hv; cases hv
  | copy i o => exact absurd h (hc i o)
  | basic i b => rw [h] at he; exact he.symm
  | ptr i b => rw [h] at he; exact he.symm
  | tagged i => rw [h] at he; exact he.symm

mutual
theorem Within.mono {S S' : Ty → Prop} (h : ∀ t, S t → S' t) : ∀ {t : Ty}, Within S t → Within S' t
  | .basic _ _, w | .tagged _, w => by simp only [Within] at w ⊢; exact h _ w
  | .ptr _ b, w => by simp only [Within] at w ⊢; exact ⟨h _ w.1, Within.mono h w.2⟩
  | .func _ r p _, w => by simp only [Within] at w ⊢; exact ⟨h _ w.1, Within.mono h w.2.1, WithinParams.mono h w.2.2⟩
  | .array _ b _, w => by simp only [Within] at w ⊢; exact ⟨h _ w.1, Within.mono h w.2⟩
  | .vla _ b, w => by simp only [Within] at w ⊢; exact ⟨h _ w.1, Within.mono h w.2⟩
  | .copy _ o, w => by simp only [Within] at w ⊢; exact ⟨h _ w.1, Within.mono h w.2⟩
theorem WithinParams.mono {S S' : Ty → Prop} (h : ∀ t, S t → S' t) : ∀ {p : Tys}, WithinParams S p → WithinParams S' p
  | .nil, _ => by simp only [WithinParams]
  | .cons _ _, w => by simp only [WithinParams] at w ⊢; exact ⟨Within.mono h w.1, WithinParams.mono h w.2⟩
end

/-- is_compatible on the converted type. -/
theorem compat_decayed {S : Ty → Prop} (H : Heap S) {fresh : Nat} (hf : ∀ t, S t → t.id ≠ fresh) {t t2 : Ty} (h1 : Within S t) (h2 : Within S t2) (hv : isVla t = false) :
    compat (decayed fresh t) t2 = true ↔ erase t2 = converted t := by
  rw [← decayed_converted fresh t hv]
  have key : ∀ b, Within S b → (compat (.ptr fresh b) t2 = true ↔ erase t2 = erase (.ptr fresh b)) := by
    intro b hb
    have H' : Heap fun t => S t ∨ t = .ptr fresh b := by
      refine ⟨?_, ?_, ?_⟩
      · rintro x y (hx | rfl) (hy | rfl) e
        · exact H.addr x y hx hy e
        · exact absurd e (hf x hx)
        · exact absurd e.symm (hf y hy)
        · rfl
      · rintro i j (hx | hx) (hy | hy)
        · exact H.void i j hx hy
        all_goals first | cases hx | cases hy
      · rintro i j (hx | hx) (hy | hy)
        · exact H.bool i j hx hy
        all_goals first | cases hx | cases hy
    rw [C31_compatible_iff H' _ _ (by simp only [Within]; exact ⟨.inr trivial, Within.mono (fun _ => .inl) hb⟩) (Within.mono (fun _ => .inl) h2)]
    exact eq_comm
  unfold decayed
  have hw := within_strip h1
  cases h : strip t with
  | func i r p v => exact key t h1
  | array i b n => rw [h] at hw; simp only [Within] at hw; exact key b hw.2
  | _ => dsimp only; rw [C31_compatible_iff H _ _ h1 h2]; exact eq_comm

/-! ### The loop -/

variable {T : Type}

/-- What the loop finds. -/
def pick (c : T → Bool) (ret : Option (Tree T)) : List (Assoc T) → Option (Tree T)
  | [] => ret
  | ⟨none, e⟩ :: as => pick c (if ret.isNone then some e else ret) as
  | ⟨some t, e⟩ :: as => pick c (if c t then some e else ret) as

/-- What is needed of the reader of type names besides `Oracle.Good`: it stops at a colon, and `default` is not a type. -/
structure ReadsColon (O : Oracle T) (tn : T → List Tok) : Prop where
  colon : ∀ t r, O.typename (tn t ++ .p .colon :: r) = .ok (t, .p .colon :: r)
  dflt : O.isType (.kw "default") = false

theorem assocs_pick {O : Oracle T} {tn : T → List Tok} (hO : O.Good tn) (hC : ReadsColon O tn) (den : T → Ty) (t1 : Ty) {as : List (Assoc T)} {u : List Tok} (h : Assocs O tn as u) (rest : List Tok) :
    ∃ n, ∀ f, n ≤ f → ∀ ret, assocs O den t1 f ret (u ++ .p .rpar :: rest) = .ok (pick (fun t => compat t1 (den t)) ret as, rest) := by
  induction h with
  | nil =>
    refine ⟨1, fun f hf ret => ?_⟩
    obtain ⟨g, rfl⟩ : ∃ g, f = g + 1 := ⟨f - 1, by omega⟩
    rw [List.nil_append, assocs, if_pos (show (Tok.p P.rpar :: rest).head? = some (.p .rpar) from rfl)]
    rfl
  | @cons a s as u ha _ ih =>
    obtain ⟨n, hn⟩ := ih
    have hrest : ∀ a r, u ++ .p .rpar :: rest = a :: r → Parse.ends a = true ∨ a = .p .comma := by
      intro a r e
      rename_i hu
      cases hu with
      | nil => cases e; exact .inl rfl
      | cons _ _ => cases e; exact .inr rfl
    cases ha with
    | @type t e s he =>
      obtain ⟨m, hm⟩ := (C43_assign_grammar O tn hO (u ++ .p .rpar :: rest) hrest).1 he
      refine ⟨max n m + 1, fun f hf ret => ?_⟩
      obtain ⟨g, rfl⟩ : ∃ g, f = g + 1 := ⟨f - 1, by omega⟩
      have e1 : .p .comma :: (tn t ++ .p .colon :: s ++ u) ++ .p .rpar :: rest = .p .comma :: (tn t ++ .p .colon :: (s ++ (u ++ .p .rpar :: rest))) := by simp
      rw [e1, assocs, if_neg (by simp)]
      have hd : (tn t ++ .p .colon :: (s ++ (u ++ .p .rpar :: rest))).head? ≠ some (.kw "default") := by
        obtain ⟨a, r, ea, hat⟩ := hO.starts t
        rw [ea]
        intro h
        have : a = .kw "default" := by simpa using h
        rw [this, hC.dflt] at hat
        cases hat
      simp only [skip, if_true, bind, Except.bind]
      rw [if_neg hd, hC.colon]
      simp only [if_true]
      rw [hm g (by omega)]
      dsimp only
      rw [hn g (by omega)]
      rfl
    | @dflt e s he =>
      obtain ⟨m, hm⟩ := (C43_assign_grammar O tn hO (u ++ .p .rpar :: rest) hrest).1 he
      refine ⟨max n m + 1, fun f hf ret => ?_⟩
      obtain ⟨g, rfl⟩ : ∃ g, f = g + 1 := ⟨f - 1, by omega⟩
      have e1 : .p .comma :: (.kw "default" :: .p .colon :: s ++ u) ++ .p .rpar :: rest = .p .comma :: .kw "default" :: .p .colon :: (s ++ (u ++ .p .rpar :: rest)) := by simp
      rw [e1, assocs, if_neg (by simp)]
      simp only [skip, if_true, bind, Except.bind, List.head?_cons, List.tail_cons]
      rw [hm g (by omega)]
      dsimp only
      rw [hn g (by omega)]
      rfl

/-- Without an association of a matching type the first `default` is found, unless something has been found. -/
theorem pick_none {c : T → Bool} : ∀ {as : List (Assoc T)} (ret), (∀ a ∈ as, ∀ t, a.type = some t → c t = false) →
    pick c ret as = if ret.isNone then ((as.find? fun a => a.type.isNone).map (·.expr)) else ret
  | [], ret, _ => by cases ret <;> rfl
  | ⟨none, e⟩ :: as, ret, h => by
    rw [pick, pick_none _ fun a ha => h a (List.mem_cons_of_mem _ ha)]
    cases ret <;> rfl
  | ⟨some t, e⟩ :: as, ret, h => by
    rw [pick, h _ List.mem_cons_self t rfl, if_neg (by decide), pick_none _ fun a ha => h a (List.mem_cons_of_mem _ ha)]
    rfl

theorem pick_type {c : T → Bool} {t : T} {e : Tree T} (ht : c t = true) : ∀ {as : List (Assoc T)} (ret), ⟨some t, e⟩ ∈ as →
    (∀ pre post, as = pre ++ ⟨some t, e⟩ :: post → ∀ a ∈ post, ∀ t', a.type = some t' → c t' = false) → pick c ret as = some e
  | [], _, h, _ => by cases h
  | ⟨ty, e'⟩ :: as, ret, h, hl => by
    by_cases hin : ⟨some t, e⟩ ∈ as
    · have := fun ret => pick_type ht ret hin fun pre post ep => hl (⟨ty, e'⟩ :: pre) post (by rw [ep]; rfl)
      cases ty <;> (rw [pick]; exact this _)
    · rcases List.mem_cons.mp h with he | he
      · cases he
        rw [pick, ht, if_pos rfl, pick_none _ (hl [] as rfl)]
        rfl
      · exact absurd he hin

section
variable {O : Oracle T} {tn : T → List Tok} (hO : O.Good tn) (hC : ReadsColon O tn) (den : T → Ty) (typeOf : Tree T → Ty) {S : Ty → Prop} (H : Heap S) {fresh : Nat} (hf : ∀ t, S t → t.id ≠ fresh)
include hO hC

theorem selection_pick {c : Tree T} {as : List (Assoc T)} {s : List Tok} (h : Text O tn c as s) (rest : List Tok) :
    ∃ n, ∀ f, n ≤ f → selection O den typeOf fresh f (s ++ rest) =
      match pick (fun t => compat (decayed fresh (typeOf c)) (den t)) none as with
      | none => .error .expected
      | some e => .ok (e, rest) := by
  cases h with
  | mk hc ha =>
    rename_i s u
    have hrest : ∀ a r, u ++ .p .rpar :: rest = a :: r → Parse.ends a = true ∨ a = .p .comma := by
      intro a r e
      cases ha with
      | nil => cases e; exact .inl rfl
      | cons _ _ => cases e; exact .inr rfl
    obtain ⟨m, hm⟩ := (C43_assign_grammar O tn hO (u ++ .p .rpar :: rest) hrest).1 hc
    obtain ⟨n, hn⟩ := assocs_pick hO hC den (decayed fresh (typeOf c)) ha rest
    refine ⟨max n m, fun f hf => ?_⟩
    have e1 : .p .lpar :: (s ++ (u ++ [.p .rpar])) ++ rest = .p .lpar :: (s ++ (u ++ .p .rpar :: rest)) := by simp
    rw [e1]
    unfold selection
    simp only [skip, if_true, bind, Except.bind]
    rw [hm f (by omega)]
    dsimp only
    rw [hn f (by omega)]
    rfl

include H hf
/-- **C77**. A generic selection is the expression of the association whose type is that of the controlling expression (arrays and functions converted to pointers), and that of `default` if
there is none, wherever `default` stands. Missing (and false, `C77_vla_wrong`, `C77_qualified_wrong`): controlling expressions that are variable-length arrays; type names that differ only in
qualifiers. -/
theorem C77_selected_partial {c : Tree T} {as : List (Assoc T)} {s : List Tok} (h : Text O tn c as s) (hd : Distinct den as)
    (hc : Within S (typeOf c)) (ha : ∀ a ∈ as, ∀ t, a.type = some t → Within S (den t)) (hv : isVla (typeOf c) = false)
    {e : Tree T} (hs : Selected den (converted (typeOf c)) as e) (rest : List Tok) :
    ∃ n, ∀ f, n ≤ f → selection O den typeOf fresh f (s ++ rest) = .ok (e, rest) := by
  obtain ⟨n, hn⟩ := selection_pick hO hC den typeOf (fresh := fresh) h rest
  refine ⟨n, fun f hfu => ?_⟩
  rw [hn f hfu]
  have hcomp : ∀ a ∈ as, ∀ t, a.type = some t → (compat (decayed fresh (typeOf c)) (den t) = true ↔ erase (den t) = converted (typeOf c)) :=
    fun a hm t ht => compat_decayed H hf hc (ha a hm t ht) hv
  have hb : ∀ {b : Bool} {p : Prop}, (b = true ↔ p) → ¬ p → b = false := by
    intro b p h hp; cases b with
    | false => rfl
    | true => exact absurd (h.mp rfl) hp
  cases hs with
  | @type t e hm ht =>
    rw [pick_type (c := fun t => compat (decayed fresh (typeOf c)) (den t)) ((hcomp _ hm t rfl).mpr ht) none hm]
    intro pre post ep a hap t' ht'
    have hma : a ∈ as := by rw [ep]; simp [hap]
    refine hb (hcomp a hma t' ht') fun he => ?_
    unfold Distinct at hd
    rw [ep] at hd
    have := (List.pairwise_cons.mp (List.pairwise_append.mp hd).2.1).1 a hap
    rw [ht'] at this
    simp only [Option.map_some] at this
    rw [ht, he] at this
    exact this rfl
  | @dflt e hno hm =>
    rw [pick_none none fun a hma t ht => hb (hcomp a hma t ht) (hno a hma t ht)]
    have : (as.find? fun a => a.type.isNone) = some ⟨none, e⟩ := by
      clear hn hno hcomp h ha
      induction as with
      | nil => cases hm
      | cons a as ih =>
        rw [List.find?_cons]
        obtain ⟨h1, h2⟩ := List.pairwise_cons.mp hd
        rcases List.mem_cons.mp hm with rfl | hm
        · rfl
        · have := h1 _ hm
          cases hat : a.type with
          | none => rw [hat] at this; exact absurd rfl this
          | some t => exact ih h2 hm
    rw [this]
    rfl

/-- **C77**. A selection without a matching association and without `default` is reported. -/
theorem C77_reported {c : Tree T} {as : List (Assoc T)} {s : List Tok} (h : Text O tn c as s)
    (hc : Within S (typeOf c)) (ha : ∀ a ∈ as, ∀ t, a.type = some t → Within S (den t)) (hv : isVla (typeOf c) = false)
    (hno : ∀ a ∈ as, ∃ t, a.type = some t ∧ erase (den t) ≠ converted (typeOf c)) (rest : List Tok) :
    ∃ n, ∀ f, n ≤ f → selection O den typeOf fresh f (s ++ rest) = .error .expected := by
  obtain ⟨n, hn⟩ := selection_pick hO hC den typeOf (fresh := fresh) h rest
  refine ⟨n, fun f hfu => ?_⟩
  rw [hn f hfu, pick_none]
  · have : (as.find? fun a => a.type.isNone) = none := by
      rw [List.find?_eq_none]
      intro a hma
      obtain ⟨t, ht, -⟩ := hno a hma
      simp [ht]
    rw [this]
    rfl
  · intro a hma t ht
    obtain ⟨t', ht', hne⟩ := hno a hma
    rw [ht] at ht'; cases ht'
    cases hcc : compat (decayed fresh (typeOf c)) (den t) with
    | false => rfl
    | true => exact absurd ((compat_decayed H hf hc (ha a hma t ht) hv).mp hcc) hne

end

/-! ### Example and violations -/

def tyChar : Ty := .basic 1 (.char false)
def tyInt : Ty := .basic 2 (.int false)
def tyPtr : Ty := .ptr 3 tyInt

/-- Type names `char`, `int *` and `const int *`. The type objects: qualifiers are skipped by declspec (declarator.c:446-663), so the last two are the same type. -/
inductive Name where
  | char | ptr | cptr
def den : Name → Ty
  | .char => tyChar | .ptr => tyPtr | .cptr => .ptr 4 tyInt
def tn : Name → List Tok
  | .char => [.kw "char"] | .ptr => [.kw "int", .p .star] | .cptr => [.kw "const", .kw "int", .p .star]
def exO : Oracle Name where
  isType t := t == .kw "char" || t == .kw "int" || t == .kw "const"
  typename ts := match ts with
    | .kw "const" :: .kw "int" :: .p .star :: r => .ok (.cptr, r)
    | .kw "int" :: .p .star :: r => .ok (.ptr, r)
    | .kw "char" :: r => .ok (.char, r)
    | _ => .error .typename

theorem exO_good : exO.Good tn where
  read := fun t r => by cases t <;> rfl
  starts := fun t => by cases t <;> exact ⟨_, _, rfl, by decide⟩
  word := fun t h => by
    refine .inr ?_
    simp only [exO, Bool.or_eq_true, beq_iff_eq] at h
    rcases h with (h | h) | h <;> exact ⟨_, h, by decide, by decide⟩

theorem exO_colon : ReadsColon exO tn where
  colon := fun t r => by cases t <;> rfl
  dflt := by decide

/-- The type objects of the examples. -/
def exS (t : Ty) : Prop := t = tyChar ∨ t = tyInt ∨ t = tyPtr ∨ t = .array 7 tyInt 5

theorem exS_heap : Heap exS where
  addr := by
    rintro a b (rfl | rfl | rfl | rfl) (rfl | rfl | rfl | rfl) h <;> first | rfl | exact absurd h (by decide)
  void := by rintro i j (h | h | h | h) _ <;> cases h
  bool := by rintro i j (h | h | h | h) _ <;> cases h

/-- `(a, default: 1, char: 2, int *: 3)` -/
def exText : List Tok := [.p .lpar, .ident "a", .p .comma, .kw "default", .p .colon, .num 1, .p .comma, .kw "char", .p .colon, .num 2, .p .comma, .kw "int", .p .star, .p .colon, .num 3, .p .rpar]
def exAssocs : List (Assoc Name) := [⟨none, .num 1⟩, ⟨some .char, .num 2⟩, ⟨some .ptr, .num 3⟩]

theorem dv {v : Int} : Derives exO tn false 1 (.num v) [.num v] := .outer (.num v) (by decide)
theorem di {x : String} : Derives exO tn false 1 (.ident x) [.ident x] := .outer (.ident (.inl rfl)) (by decide)

theorem exText_text : Text exO tn (.ident "a") exAssocs exText :=
  .mk (s := [.ident "a"]) di (.cons (.dflt (dv (v := 1))) (.cons (.type (t := Name.char) (dv (v := 2))) (.cons (.type (t := Name.ptr) (dv (v := 3))) .nil)))

/-- For an array of 5 int, 3 is selected. -/
example : ∃ n, ∀ f, n ≤ f → selection exO den (fun _ => .array 7 tyInt 5) 8 f (exText ++ [.p .semi]) = .ok (.num 3, [.p .semi]) := by
  refine C77_selected_partial exO_good exO_colon den (fun _ => .array 7 tyInt 5) exS_heap ?_ exText_text ?_ ?_ ?_ rfl (.type (t := Name.ptr) (by simp [exAssocs]) rfl) _
  · rintro t (rfl | rfl | rfl | rfl) <;> decide
  · simp [Distinct, exAssocs, den, erase, tyChar, tyPtr]
  · simp [Within, exS, tyInt]
  · intro a ha t ht
    simp only [exAssocs, List.mem_cons, List.not_mem_nil, or_false] at ha
    rcases ha with rfl | rfl | rfl <;> cases ht <;> simp [den, Within, exS, tyChar, tyPtr, tyInt]

/-- A variable-length array is not converted to a pointer: `_Generic(v, int *: 3)` is rejected. -/
theorem C77_vla_wrong : converted (.vla 9 tyInt) = erase (den .ptr) ∧
    ∃ n, ∀ f, n ≤ f → selection exO den (fun _ => .vla 9 tyInt) 8 f [.p .lpar, .ident "v", .p .comma, .kw "int", .p .star, .p .colon, .num 3, .p .rpar] = .error .expected := by
  refine ⟨rfl, ?_⟩
  obtain ⟨n, hn⟩ := selection_pick exO_good exO_colon den (fun _ => .vla 9 tyInt) (fresh := 8)
    (.mk (s := [.ident "v"]) (di (x := "v")) (.cons (.type (t := Name.ptr) (dv (v := 3))) .nil)) []
  refine ⟨n, fun f hf => (hn f hf).trans ?_⟩
  simp [pick, decayed, strip, den, tyPtr, tyInt, compat, Ty.id]

/-- `_Generic(p, int *: 1, const int *: 2)` for `p` of type `int *` selects 2, and not 1. -/
theorem C77_qualified_wrong : ∃ n, ∀ f, n ≤ f →
    selection exO den (fun _ => tyPtr) 8 f [.p .lpar, .ident "p", .p .comma, .kw "int", .p .star, .p .colon, .num 1, .p .comma, .kw "const", .kw "int", .p .star, .p .colon, .num 2, .p .rpar] =
      .ok (.num 2, []) := by
  obtain ⟨n, hn⟩ := selection_pick exO_good exO_colon den (fun _ => tyPtr) (fresh := 8)
    (.mk (s := [.ident "p"]) (di (x := "p")) (.cons (.type (t := Name.ptr) (dv (v := 1))) (.cons (.type (t := Name.cptr) (dv (v := 2))) .nil))) []
  refine ⟨n, fun f hf => (hn f hf).trans ?_⟩
  simp [pick, decayed, strip, den, tyPtr, tyInt, compat, Ty.id]

end Toycc.Generic
