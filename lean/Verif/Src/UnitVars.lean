import Verif.Src.UnitRead
/-! Lemmas for C74: the numbers of variables, and where the variables are. -/
namespace Toycc.Src
open Toycc.Cg Toycc.Low Toycc.Rv
open Toycc.Parse (Tok P Tree)
open Toycc.Frame hiding St
open Toycc.Whole (Func intVar inObjs)

/-! ### Numbers -/

/-- A list of variables with types and numbers, all among the variables `L`. -/
def AllIn (L : List CTy) (l : List (CTy × Int)) : Prop := ∀ p ∈ l, ∃ n : Nat, p.2 = n ∧ L[n]? = some p.1

theorem AllIn.app {L : List CTy} {l r : List (CTy × Int)} (h1 : AllIn L l) (h2 : AllIn L r) : AllIn L (l ++ r) := by
  intro p hp
  rcases List.mem_append.mp hp with h | h
  · exact h1 p h
  · exact h2 p h

theorem AllIn.nil (L : List CTy) : AllIn L [] := fun _ h => absurd h List.not_mem_nil

theorem AllIn.more {L : List CTy} {l : List (CTy × Int)} (h : AllIn L l) (L' : List CTy) : AllIn (L ++ L') l := by
  intro p hp
  obtain ⟨n, e1, e2⟩ := h p hp
  exact ⟨n, e1, by rw [List.getElem?_append_left (List.getElem?_eq_some_iff.mp e2).1]; exact e2⟩

/-- The local variables visible in the scopes are among the variables `L`, all that have been made. -/
structure ScOk (a : Sc) (L : List CTy) : Prop where
  next : a.next = L.length
  vars : ∀ s ∈ a.scopes, ∀ x t i, (x, Bind.var t (.loc i)) ∈ s → ∃ n : Nat, i = n ∧ L[n]? = some t

theorem lookup_mem {s : List (String × Bind)} {x : String} {b : Bind} (h : s.lookup x = some b) : (x, b) ∈ s := by
  induction s with
  | nil => cases h
  | cons p r ih =>
    obtain ⟨y, c⟩ := p
    rw [List.lookup_cons] at h
    split at h
    · rename_i e; cases h; rw [beq_iff_eq] at e; subst e; exact List.mem_cons_self
    · exact List.mem_cons_of_mem _ (ih h)

theorem ScOk.find {a : Sc} {L : List CTy} (h : ScOk a L) {x : String} {t : CTy} {i : Int} (e : a.find x = some (.var t (.loc i))) : ∃ n : Nat, i = n ∧ L[n]? = some t := by
  unfold Sc.find at e
  obtain ⟨s, hs, e⟩ := List.exists_of_findSome?_eq_some e
  exact h.vars s hs x t i (lookup_mem e)

theorem ScOk.enter {a : Sc} {L : List CTy} (h : ScOk a L) : ScOk a.enter L := by
  refine ⟨h.next, fun s hs x t i hx => ?_⟩
  rcases List.mem_cons.mp hs with rfl | hs
  · exact absurd hx List.not_mem_nil
  · exact h.vars s hs x t i hx

theorem ScOk.leave {a : Sc} {L : List CTy} (h : ScOk a L) : ScOk a.leave L :=
  ⟨h.next, fun s hs x t i hx => h.vars s (List.mem_of_mem_tail hs) x t i hx⟩

theorem push_mem {a : Sc} {x : String} {b : Bind} {s : List (String × Bind)} (hs : s ∈ (a.push x b).scopes) : ∀ y c, (y, c) ∈ s → (y = x ∧ c = b) ∨ ∃ s' ∈ a.scopes, (y, c) ∈ s' := by
  intro y c h
  unfold Sc.push at hs
  cases e : a.scopes with
  | nil =>
    rw [e] at hs
    simp only [List.mem_singleton] at hs
    subst hs
    simp only [List.mem_singleton, Prod.mk.injEq] at h
    exact .inl h
  | cons s' r =>
    rw [e] at hs
    rcases List.mem_cons.mp hs with rfl | hs
    · rcases List.mem_cons.mp h with h | h
      · cases h; exact .inl ⟨rfl, rfl⟩
      · exact .inr ⟨s', List.mem_cons_self, h⟩
    · exact .inr ⟨s, List.mem_cons_of_mem _ hs, h⟩

theorem ScOk.push {a : Sc} {L : List CTy} (h : ScOk a L) (x : String) {b : Bind} (hb : ∀ t i, b ≠ .var t (.loc i)) : ScOk (a.push x b) L := by
  refine ⟨h.next, fun s hs y t i hy => ?_⟩
  rcases push_mem hs _ _ hy with ⟨_, e⟩ | ⟨s', h1, h2⟩
  · exact absurd e.symm (hb t i)
  · exact h.vars s' h1 y t i h2

theorem ScOk.newVar {a : Sc} {L : List CTy} (h : ScOk a L) (x : String) (t : CTy) : ScOk (a.newVar num x t) (L ++ [t]) := by
  refine ⟨?_, fun s hs y u i hy => ?_⟩
  · show a.next + 1 = _
    rw [h.next, List.length_append]; rfl
  rcases push_mem (a := a) (b := .var t (.loc (num a.next))) hs _ _ hy with ⟨_, e⟩ | ⟨s', h1, h2⟩
  · cases e
    refine ⟨a.next, rfl, ?_⟩
    rw [h.next, List.getElem?_append_right (Nat.le_refl _), Nat.sub_self]; rfl
  · obtain ⟨n, e1, e2⟩ := h.vars s' h1 y u i h2
    exact ⟨n, e1, by rw [List.getElem?_append_left (List.getElem?_eq_some_iff.mp e2).1]; exact e2⟩

theorem op2_locals {o : Parse.BOp} {l r x : SExpr} (h : Op2 o l r x) {L : List CTy} (h1 : AllIn L (localsX l)) (h2 : AllIn L (localsX r)) : AllIn L (localsX x) := by
  cases h <;> first | exact h1.app h2 | exact h2.app h1

mutual
theorem means_locals {a : Sc} {L : List CTy} (h : ScOk a L) : ∀ {e : Tree TN} {x : SExpr}, Means a e x → AllIn L (localsX x)
  | _, .var t (.loc i), .var e => by
    intro p hp
    rw [localsX, List.mem_singleton] at hp
    subst hp
    exact h.find e
  | _, .var t (.vla i), .var e => by rw [localsX]; exact .nil _; intro n h; cases h
  | _, .var t (.glob i), .var e => by rw [localsX]; exact .nil _; intro n h; cases h
  | _, _, .enum _ => .nil _
  | _, _, .int _ _ => .nil _
  | _, _, .uint _ _ => .nil _
  | _, _, .long _ _ => .nil _
  | _, _, .ulong _ _ => .nil _
  | _, _, .sizeof _ => .nil _
  | _, _, .bin h1 h2 h3 => op2_locals h3 (means_locals h h1) (means_locals h h2)
  | _, _, .opAssign _ h1 h2 => (means_locals h h1).app (means_locals h h2)
  | _, _, .cond h1 h2 h3 => ((means_locals h h1).app (means_locals h h2)).app (means_locals h h3)
  | _, _, .assign h1 h2 => (means_locals h h1).app (means_locals h h2)
  | _, _, .elvis h1 h2 => (means_locals h h1).app (means_locals h h2)
  | _, _, .comma h1 h2 => (means_locals h h1).app (means_locals h h2)
  | _, _, .index h1 h2 => (means_locals h h1).app (means_locals h h2)
  | _, _, .neg h1 => by rw [localsX]; exact means_locals h h1
  | _, _, .addr h1 => by rw [localsX]; exact means_locals h h1
  | _, _, .deref h1 => by rw [localsX]; exact means_locals h h1
  | _, _, .not h1 => by rw [localsX]; exact means_locals h h1
  | _, _, .bitnot h1 => by rw [localsX]; exact means_locals h h1
  | _, _, .preinc h1 => by rw [localsX]; exact means_locals h h1
  | _, _, .predec h1 => by rw [localsX]; exact means_locals h h1
  | _, _, .postinc h1 => by rw [localsX]; exact means_locals h h1
  | _, _, .postdec h1 => by rw [localsX]; exact means_locals h h1
  | _, _, .cast h1 => by rw [localsX]; exact means_locals h h1
  | _, _, .call _ h2 => (AllIn.nil _).app (args_locals h h2)
theorem args_locals {a : Sc} {L : List CTy} (h : ScOk a L) : ∀ {ps : List CTy} {e : Parse.Trees TN} {x : SArgs}, MeansArgs a ps e x → AllIn L (localsAs x)
  | _, _, _, .nil => .nil _
  | _, _, _, .cons h1 h2 => (means_locals h h1).app (args_locals h h2)
end

theorem typedefs_ok {t : CTy} {a : Sc} {ds : List Dr} {b : Sc} {L : List CTy} (h : Typedefs t a ds b) (hok : ScOk a L) : ScOk b L := by
  induction h with
  | nil a => exact hok
  | cons _ _ _ ih => exact ih (hok.push _ (by intro t i e; cases e))

theorem ScOk.tag {a : Sc} {L : List CTy} (h : ScOk a L) (x : Option String) : ScOk (a.tag x) L := by
  cases x with
  | none => exact h
  | some x => exact ⟨h.next, h.vars⟩

theorem enumerators_ok {val : Sc → Tree TN → Option Int} {a : Sc} {n : Int} {ds : List Er} {b : Sc} {L : List CTy} (h : Enumerators val a n ds b) (hok : ScOk a L) : ScOk b L := by
  induction h with
  | nil a => exact hok
  | cons _ _ _ _ ih => exact ih (hok.push _ (by intro t i e; cases e))

theorem specs_ok {val : Sc → Tree TN → Option Int} {a : Sc} {ts : List Tok} {t : CTy} {xs : List String} {b : Sc} {L : List CTy} (h : Specs val a ts t xs b) (hok : ScOk a L) : ScOk b L := by
  cases h with
  | spec _ => exact hok
  | enum _ h => exact (enumerators_ok h hok).tag _

theorem vars_locals {t : CTy} {a : Sc} {ds : List Dr} {is : List XI} {b : Sc} (h : Vars num t a ds is b) : ∀ {L : List CTy}, ScOk a L →
    ScOk b (L ++ is.flatMap declI) ∧ AllIn (L ++ is.flatMap declI) (is.flatMap localsI) := by
  induction h with
  | nil a => intro L hok; rw [List.flatMap_nil, List.append_nil]; exact ⟨hok, .nil _⟩
  | @cons a d i ds is b hv hl hi _ ih =>
    intro L hok
    have h1 := hok.newVar d.name (d.ty t)
    obtain ⟨k1, k2⟩ := ih h1
    have hd : declI i = [d.ty t] := by
      revert hi
      generalize d.init = o
      intro hi
      cases hi <;> rfl
    rw [List.flatMap_cons, List.flatMap_cons, hd, ← List.append_assoc]
    refine ⟨k1, .app (AllIn.more ?_ _) k2⟩
    revert hi
    generalize d.init = o
    intro hi
    cases hi with
    | none => exact .nil _
    | some ok hx hu =>
      intro p hp
      rcases List.mem_cons.mp hp with rfl | hp
      · refine ⟨a.next, rfl, ?_⟩
        rw [hok.next, List.getElem?_append_right (Nat.le_refl _), Nat.sub_self]; rfl
      · exact means_locals h1 hx p hp

section
variable {val : Sc → Tree TN → Option Int}

theorem expr_locals {a b : Sc} {ts : List Tok} {e : SExpr} {L : List CTy} (h : (words num val).expr a ts e b) (hok : ScOk a L) : b = a ∧ AllIn L (localsX e) := by
  obtain ⟨_, _, hx, rfl⟩ := h
  exact ⟨rfl, means_locals hok hx⟩

theorem opt_locals {a b : Sc} {ts : List Tok} {e : Option SExpr} {L : List CTy} (h : Stx.OptExpr (words num val) a e ts b) (hok : ScOk a L) :
    b = a ∧ AllIn L (e.toList.flatMap localsX) := by
  cases h with
  | none => exact ⟨rfl, .nil _⟩
  | some h =>
    obtain ⟨h1, h2⟩ := expr_locals h hok
    exact ⟨h1, by simpa using h2⟩

theorem varDecl_locals {a b : Sc} {ts : List Tok} {is : List XI} {L : List CTy} (h : VarDecl num val a ts is b) (hok : ScOk a L) :
    ScOk b (L ++ is.flatMap declI) ∧ AllIn (L ++ is.flatMap declI) (is.flatMap localsI) := by
  cases h with
  | vars hs h => exact vars_locals h (specs_ok hs hok)

theorem blockDecl_locals {a b : Sc} {ts : List Tok} {is : List XI} {L : List CTy} (h : BlockDecl num val a ts is b) (hok : ScOk a L) :
    ScOk b (L ++ is.flatMap declI) ∧ AllIn (L ++ is.flatMap declI) (is.flatMap localsI) := by
  cases h with
  | vars h => exact varDecl_locals h hok
  | typedef hs h => rw [List.flatMap_nil, List.append_nil]; exact ⟨typedefs_ok h (specs_ok hs hok), .nil _⟩

mutual
theorem stmt_locals : ∀ {a : Sc} {s : Stx.S SExpr (List XI)} {ts : List Tok} {b : Sc} {x : XStmt} {L : List CTy}, Stx.Stmt (words num val) ⟨Sc.enter, Sc.leave⟩ a s ts b →
    IsBody s x → ScOk a L → ScOk b (L ++ decls x) ∧ AllIn (L ++ decls x) (localsS x)
  | _, _, _, _, _, L, .null _, .null, hok => by rw [decls, List.append_nil]; exact ⟨hok, .nil _⟩
  | _, _, _, _, _, L, .expr h, .expr _, hok => by
    obtain ⟨rfl, h2⟩ := expr_locals h hok
    rw [decls, localsS, List.flatMap_cons, List.flatMap_cons, List.flatMap_nil, List.flatMap_nil, declI, localsI, List.append_nil, List.append_nil, List.append_nil]
    exact ⟨hok, h2⟩
  | _, _, _, _, _, L, .ret h, .ret _, hok => by
    obtain ⟨rfl, h2⟩ := opt_locals h hok
    rw [decls, List.append_nil]; exact ⟨hok, h2⟩
  | _, _, _, _, _, L, .ifs h1 h2, .ifs b2, hok => by
    obtain ⟨rfl, k1⟩ := expr_locals h1 hok
    obtain ⟨k2, k3⟩ := stmt_locals h2 b2 hok
    rw [decls, decls, List.append_nil]
    exact ⟨k2, (((k1.more _)).app k3).app (.nil _)⟩
  | _, _, _, _, _, L, .ifElse h1 h2 _ h3, .ifElse b2 b3, hok => by
    obtain ⟨rfl, k1⟩ := expr_locals h1 hok
    obtain ⟨k2, k3⟩ := stmt_locals h2 b2 hok
    obtain ⟨k4, k5⟩ := stmt_locals h3 b3 k2
    rw [decls, ← List.append_assoc]
    exact ⟨k4, (((k1.more _).more _).app (k3.more _)).app k5⟩
  | _, _, _, _, _, L, .switch h1 h2, .switch b2, hok => by
    obtain ⟨rfl, k1⟩ := expr_locals h1 hok
    obtain ⟨k2, k3⟩ := stmt_locals h2 b2 hok
    exact ⟨k2, (k1.more _).app k3⟩
  | _, _, _, _, _, L, .case h1 h2, .case b2, hok => by
    have := const_same h1
    subst this
    rw [decls, localsS]
    exact stmt_locals h2 b2 hok
  | _, _, _, _, _, L, .range h1 h2 _ h3, .case b3, hok => by
    have e1 := const_same h1
    subst e1
    have e2 := const_same h2
    subst e2
    rw [decls, localsS]
    exact stmt_locals h3 b3 hok
  | _, _, _, _, _, L, .dflt h, .dflt b, hok => by rw [decls, localsS]; exact stmt_locals h b hok
  | _, _, _, _, _, L, .forS h1 h2 h3 h4, .forDecl b4, hok => by
    cases h1 with
    | decl h1 =>
      obtain ⟨k0, k1⟩ := varDecl_locals h1 hok.enter
      obtain ⟨rfl, k2⟩ := opt_locals h2 k0
      obtain ⟨rfl, k3⟩ := opt_locals h3 k0
      obtain ⟨k4, k5⟩ := stmt_locals h4 b4 k0
      rw [decls, ← List.append_assoc]
      exact ⟨k4.leave, (((k1.more _).app (k2.more _)).app (k3.more _)).app k5⟩
  | _, _, _, _, _, L, .forS h1 h2 h3 h4, .forExpr b4, hok => by
    cases h1 with
    | expr h1 =>
      obtain ⟨rfl, k1⟩ := opt_locals h1 hok.enter
      obtain ⟨rfl, k2⟩ := opt_locals h2 hok.enter
      obtain ⟨rfl, k3⟩ := opt_locals h3 hok.enter
      obtain ⟨k4, k5⟩ := stmt_locals h4 b4 hok.enter
      rw [decls]
      exact ⟨k4.leave, (((k1.more _).app (k2.more _)).app (k3.more _)).app k5⟩
  | _, _, _, _, _, L, .forS h1 h2 h3 h4, .forNone b4, hok => by
    cases h1 with
    | expr h1 =>
      obtain ⟨rfl, k1⟩ := opt_locals h1 hok.enter
      obtain ⟨rfl, k2⟩ := opt_locals h2 hok.enter
      obtain ⟨rfl, k3⟩ := opt_locals h3 hok.enter
      obtain ⟨k4, k5⟩ := stmt_locals h4 b4 hok.enter
      rw [decls]
      exact ⟨k4.leave, (((k1.more _).app (k2.more _)).app (k3.more _)).app k5⟩
  | _, _, _, _, _, L, .whileS h1 h2, .while b2, hok => by
    obtain ⟨rfl, k1⟩ := expr_locals h1 hok
    obtain ⟨k2, k3⟩ := stmt_locals h2 b2 hok
    rw [decls]
    refine ⟨k2, AllIn.app ?_ k3⟩
    show AllIn _ ([] ++ (localsX _ ++ []) ++ [])
    rw [List.append_nil, List.append_nil, List.nil_append]
    exact k1.more _
  | _, _, _, _, _, L, .doW h1 h2, .doW b1, hok => by
    obtain ⟨k2, k3⟩ := stmt_locals h1 b1 hok
    obtain ⟨rfl, k1⟩ := expr_locals h2 k2
    exact ⟨k2, k3.app k1⟩
  | _, _, _, _, _, L, .goto _, .goto _, hok => by rw [decls, List.append_nil]; exact ⟨hok, .nil _⟩
  | _, _, _, _, _, L, .brk _, .brk, hok => by rw [decls, List.append_nil]; exact ⟨hok, .nil _⟩
  | _, _, _, _, _, L, .cont _, .cont, hok => by rw [decls, List.append_nil]; exact ⟨hok, .nil _⟩
  | _, _, _, _, _, L, .label h, .label b, hok => by rw [decls, localsS]; exact stmt_locals h b hok
  | _, _, _, _, _, L, .block h, .block b, hok => by
    obtain ⟨k1, k2⟩ := items_locals h b hok.enter
    exact ⟨k1.leave, k2⟩
theorem items_locals : ∀ {a : Sc} {s : Stx.B SExpr (List XI)} {ts : List Tok} {b : Sc} {x : XStmt} {L : List CTy}, Stx.Items (words num val) ⟨Sc.enter, Sc.leave⟩ a s ts b →
    IsBlock s x → ScOk a L → ScOk b (L ++ decls x) ∧ AllIn (L ++ decls x) (localsS x)
  | _, _, _, _, _, L, .nil _, .nil, hok => by rw [decls, List.append_nil]; exact ⟨hok, .nil _⟩
  | _, _, _, _, _, L, .decl h1 h2, .decl b2, hok => by
    obtain ⟨k1, k2⟩ := blockDecl_locals h1 hok
    obtain ⟨k3, k4⟩ := items_locals h2 b2 k1
    rw [decls, decls, ← List.append_assoc]
    exact ⟨k3, (k2.more _).app k4⟩
  | _, _, _, _, _, L, .stmt h1 h2, .stmt b1 b2, hok => by
    obtain ⟨k1, k2⟩ := stmt_locals h1 b1 hok
    obtain ⟨k3, k4⟩ := items_locals h2 b2 k1
    rw [decls, ← List.append_assoc]
    exact ⟨k3, (k2.more _).app k4⟩
end

end

/-- The scopes at file level have no local variables. -/
def NoLocal (a : Sc) : Prop := ∀ s ∈ a.scopes, ∀ x t i, (x, Bind.var t (.loc i)) ∉ s

theorem NoLocal.push {a : Sc} (h : NoLocal a) (x : String) {b : Bind} (hb : ∀ t i, b ≠ .var t (.loc i)) : NoLocal (a.push x b) := by
  intro s hs y t i hy
  rcases push_mem hs _ _ hy with ⟨_, e⟩ | ⟨s', h1, h2⟩
  · exact hb t i e.symm
  · exact h s' h1 y t i h2

theorem parmsIn_ok {a : Sc} (h : ScOk a []) : ∀ {ps : List (CTy × Option String)} {b : Sc}, ParmsIn a ps b → ScOk b (ps.map (·.1)).reverse := by
  intro ps b hp
  induction hp with
  | nil => exact h
  | @cons t x r b _ ih =>
    rw [List.map_cons, List.reverse_cons]
    exact ih.newVar x t

theorem bodyIn_ok {a : Sc} (h : NoLocal a) {f : String} {ps : List (CTy × Option String)} {b : Sc} (hb : BodyIn a f ps b) :
    ScOk b ((ps.map (·.1)).reverse ++ [.ptr (.char false)]) := by
  cases hb with
  | mk hp =>
    have h0 : ScOk { a.enter with next := 0 } [] := by
      refine ⟨rfl, fun s hs x t i hx => ?_⟩
      rcases List.mem_cons.mp hs with rfl | hs
      · exact absurd hx List.not_mem_nil
      · exact absurd hx (h s hs x t i)
    exact (((parmsIn_ok h0 hp).newVar _ _).push _ (by intro t i e; cases e)).push _ (by intro t i e; cases e)

theorem typedefs_noLocal {t : CTy} {a : Sc} {ds : List Dr} {b : Sc} (h : Typedefs t a ds b) : NoLocal a → NoLocal b := by
  induction h with
  | nil a => exact id
  | cons _ _ _ ih => exact fun hok => ih (hok.push _ (by intro t i e; cases e))

theorem enumerators_noLocal {val : Sc → Tree TN → Option Int} {a : Sc} {n : Int} {ds : List Er} {b : Sc} (h : Enumerators val a n ds b) : NoLocal a → NoLocal b := by
  induction h with
  | nil a => exact id
  | cons _ _ _ _ ih => exact fun hok => ih (hok.push _ (by intro t i e; cases e))

theorem specs_noLocal {val : Sc → Tree TN → Option Int} {a : Sc} {ts : List Tok} {t : CTy} {xs : List String} {b : Sc} (h : Specs val a ts t xs b) (hok : NoLocal a) : NoLocal b := by
  cases h with
  | spec _ => exact hok
  | @enum x _ b _ h =>
    have := enumerators_noLocal h hok
    cases x with
    | none => exact this
    | some x => exact this

theorem globals_noLocal {t : CTy} {a : Sc} {ds : List Dr} {b : Sc} (h : Globals t a ds b) : NoLocal a → NoLocal b := by
  induction h with
  | nil a => exact id
  | cons _ _ _ _ ih => exact fun hok => ih (hok.push _ (by intro t i e; cases e))

theorem declares_noLocal {a : Sc} {f : String} {t : CTy} {ps : List CTy} {b : Sc} (h : Declares a f t ps b) (hok : NoLocal a) : NoLocal b := by
  cases h with
  | first _ => exact hok.push _ (by intro t i e; cases e)
  | again _ => exact hok

/-- In the bodies every variable is used with its type. -/
theorem file_locals {val : Sc → Tree TN → Option Int} {a : Sc} {dn : List String} {ts : List Tok} {U : List Def} (h : File val a dn ts U) : NoLocal a →
    ∀ d ∈ U, AllIn d.named (localsS d.body) := by
  induction h with
  | nil a dn => exact fun _ d hd => absurd hd List.not_mem_nil
  | typedef hs _ ht _ ih => exact fun hok => ih (typedefs_noLocal ht (specs_noLocal hs hok))
  | vars hs _ ht _ ih => exact fun hok => ih (globals_noLocal ht (specs_noLocal hs hok))
  | proto _ _ _ hd _ ih => exact fun hok => ih (declares_noLocal hd hok)
  | func k _ _ hd _ hc hb _ ih =>
    intro hok d hd'
    have hb' := declares_noLocal hd hok
    rcases List.mem_cons.mp hd' with rfl | hd'
    · obtain ⟨s, h1, h2⟩ := hb
      have := (stmt_locals h1 (.block h2) (bodyIn_ok hb' hc)).2
      unfold Def.named
      rw [List.append_assoc] at this
      exact this
    · exact ih hb' d hd'

end Toycc.Src
