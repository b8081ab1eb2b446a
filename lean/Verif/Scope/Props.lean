import Verif.Scope.Main
import Verif.Scope.Flat
/-! C44: scopes. -/
namespace Toycc.Scope
open Toycc.HashMap (Key)

/-! ### The scope functions -/

/-- C44, the scope functions. After every properly nested sequence of calls that enter and leave scopes and enter names in them, no call has failed,
and looking up a name finds its latest declaration outside of the blocks that have been left: the innermost one. Entering a tag does not
affect ordinary identifiers, nor the converse (`visible` looks for one kind of event only). -/
theorem C44_lookup (es : List Ev) (h : Nested es) :
    ∃ s, calls es St.init.scopes = .ok s ∧ ∀ x, findVar s x = .ok (visible (onDecl x) es.reverse 0) ∧
      findTag s x = .ok (visible (onTag x) es.reverse 0) ∧ findFunc s x = .ok (atFile (onDecl x) es.reverse == some .fn) := by
  obtain ⟨s, fs, h1, h2, h3⟩ := flat_init h
  have hpos : 0 < fs.length := by have := h3.len; have := h es [] (by simp); omega
  refine ⟨s, h1, fun x => ⟨?_, ?_, ?_⟩⟩
  · rw [view_findVar h2, ← h3.var x 0 hpos]; rfl
  · rw [view_findTag h2, ← h3.tag x 0 hpos]; rfl
  · rw [view_findFunc h2 (by intro e; subst e; cases hpos), h3.file x]
    cases atFile (onDecl x) es.reverse with
    | none => rfl
    | some v => cases v <;> rfl

/-- `int x; typedef .. T; struct x; { int x; { struct T; } `: nothing is confused. -/
example : ∃ s, calls [.var (key "x") (.obj 1), .var (key "T") (.obj 2), .tag (key "x") 3, .opened false, .var (key "x") (.obj 4), .opened false,
      .tag (key "T") 5, .closed] St.init.scopes = .ok s ∧
    findVar s (key "x") = .ok (some (.obj 4)) ∧ findVar s (key "T") = .ok (some (.obj 2)) ∧ findTag s (key "x") = .ok (some 3) ∧
    findTag s (key "T") = .ok none := by
  obtain ⟨s, h1, h2⟩ := C44_lookup [.var (key "x") (.obj 1), .var (key "T") (.obj 2), .tag (key "x") 3, .opened false, .var (key "x") (.obj 4), .opened false,
      .tag (key "T") 5, .closed] (nested_of (by decide +kernel))
  refine ⟨s, h1, ?_, ?_, ?_, ?_⟩
  · rw [(h2 _).1]; decide +kernel
  · rw [(h2 _).1]; decide +kernel
  · rw [(h2 _).2.1]; decide +kernel
  · rw [(h2 _).2.1]; decide +kernel

/-- C44, leaving a block. Whatever is declared between the calls that enter and leave a block (nested blocks included), after leaving it the
scopes are those from before entering it, so every name means what it meant. -/
theorem C44_restore (es bs : List Ev) (b : Bool) (h : Nested es) (hb : Nested bs) (hb0 : level bs.reverse = 0) :
    ∃ s, calls es St.init.scopes = .ok s ∧ calls (es ++ .opened b :: bs ++ [.closed]) St.init.scopes = .ok s := by
  obtain ⟨s, fs, h1, h2, h3⟩ := flat_init h
  have hes := h es [] (by simp)
  refine ⟨s, h1, ?_⟩
  obtain ⟨s', fs', e', -, -⟩ := flat (.opened b :: bs) s fs es.reverse h2 h3 (by
    intro a c hac
    rw [level_append]
    cases a with
    | nil => simpa [level] using hes
    | cons e a =>
      simp only [List.cons_append, List.cons.injEq] at hac
      have := hb a c hac.2
      rw [← hac.1, List.reverse_cons, level_append]
      simp only [level]
      omega)
  obtain ⟨top', rfl, hlen⟩ := calls_keep s bs [⟨HashMap.Map.new, HashMap.Map.new⟩] s' (by
    intro a c hac
    have := hb a c hac
    simp; omega) e'
  rw [hb0] at hlen
  obtain ⟨t, rfl⟩ : ∃ t, top' = [t] := by
    match top', hlen with
    | [], h => simp at h
    | [t], _ => exact ⟨t, rfl⟩
    | _ :: _ :: r, h => simp at h; omega
  rw [List.append_assoc, calls_append, h1]
  show calls (.opened b :: bs ++ [.closed]) s = _
  rw [calls_append, e']
  rfl

example : ∃ s, calls [.var (key "x") (.obj 1), .tag (key "S") 0] St.init.scopes = .ok s ∧
    calls [.var (key "x") (.obj 1), .tag (key "S") 0, .opened false, .var (key "x") (.obj 2), .opened false, .tag (key "S") 1, .closed, .closed]
      St.init.scopes = .ok s ∧ findVar s (key "x") = .ok (some (.obj 1)) := by
  obtain ⟨s, h1, h2⟩ := C44_restore [.var (key "x") (.obj 1), .tag (key "S") 0] [.var (key "x") (.obj 2), .opened false, .tag (key "S") 1, .closed] false
    (nested_of (by decide +kernel)) (nested_of (by decide +kernel)) (by decide +kernel)
  obtain ⟨s', h3, h4⟩ := C44_lookup [.var (key "x") (.obj 1), .tag (key "S") 0] (nested_of (by decide +kernel))
  have : s' = s := by rw [h1] at h3; exact (Except.ok.inj h3).symm
  subst this
  exact ⟨s', h1, h2, by rw [(h4 _).1]; decide +kernel⟩

/-! ### Translation units -/

/-- C44, translation units, full statement minus the constructs listed in `Odd`. If a translation unit contains none of these, then for every use of
an identifier and every mention of a tag, toycc finds the declaration that C prescribes: the same object, typedef name, enumeration constant or
function, and the same struct, union or enumeration up to a one-to-one renaming of the types. -/
theorem C44_unit_partial (p : Items) (wf : p.Wf) (h : (cUnit p).odd = []) :
    ∃ log φ, unit p = .ok log ∧ log.map (Res.ren φ) = (cUnit p).log ∧
      (∀ t, .tag (some t) ∈ log → (φ t).isSome = true) ∧ (∀ a b n, φ a = some n → φ b = some n → a = b) := by
  have A : At [] F.empty [] (fun _ => none) St.init ⟨[], 0, [], []⟩ := by
    refine ⟨⟨mapOk_new, mapOk_new, trivial⟩, ⟨?_, ?_, ?_, ?_, ?_, ?_, ?_, ?_, ?_, ?_, ?_, ?_⟩, rfl, ?_⟩
    · intro x _; rfl
    · intro x _; rfl
    · intro x _; rfl
    · intro x _; rfl
    · intro x n hx; cases hx
    · intro x y n hx; cases hx
    · intro a n hx; cases hx
    · intro a b n hx; cases hx
    · exact Int.le_refl _
    · intro hx; exact absurd rfl hx
    · intro _ _; rfl
    · intro hx; cases hx
    · intro t ht; cases ht
  obtain ⟨st, f', φ', P', evs, e, o⟩ := sim_items p A wf h ⟨(fun _ => rfl), (fun p hp => by cases hp), (fun p hp => by cases hp)⟩
  refine ⟨st.log, φ', ?_, o.at'.log.1, o.at'.log.2, o.at'.rel.inj⟩
  simp only [unit, e, bind, Except.bind]

/-- Shorthand. -/
def its : List Item → Items := List.foldr .cons .nil

/-- `typedef .. T; struct S; int f(T x, struct S *p) { struct S { struct S2 *q; struct S *r; }; for (int x;;) { x; T; { int T; T; } } x; T; struct S; __func__; f; }
T; struct S {..}; struct S2;`, in essence. -/
def exUnit : Items := its [.decl (key "T") 0, .tagFwd (key "S"), .proto (its [.use (key "T"), .param (key "x") 1, .tagRef (key "S"), .param (key "p") 2]),
  .fdef (key "f") [(key "x", 1), (key "p", 2)] false (its [
    .tagRef (key "S"), .tagDef none (its [.tagRef (key "S2")]),
    .forS (its [.decl (key "x") 3, .temp [], .use (key "x"), .block (its [.use (key "T"), .block (its [.decl (key "T") 4, .use (key "T")]), .use (key "T")])]),
    .use (key "x"), .sel (its [.use (key "T"), .block (its [.decl (key "x") 6, .use (key "x"), .tagDef (some (key "S")) (its [.tagRef (key "S2")])])]),
    .use (key "__func__"), .use (key "f"), .tagRef (key "S2")]),
  .use (key "x"), .use (key "f"), .tagDef (some (key "S")) (its [.tagRef (key "S"), .tagRef (key "S2")]), .tagRef (key "S")]

example : exUnit.Wf ∧ (cUnit exUnit).odd = [] ∧ (cUnit exUnit).log =
    [.tag (some 0), .var (some (.obj 0)), .tag (some 0), .tag (some 0), .tag (some 1), .var (some (.obj 3)), .var (some (.obj 0)), .var (some (.obj 4)), .var (some (.obj 0)),
     .var (some (.obj 1)), .var (some (.obj 0)), .var (some (.obj 6)), .tag (some 1), .tag (some 2), .var (some (.impl (key "__func__"))), .var (some .fn), .tag (some 1),
     .var none, .var (some .fn), .tag (some 0), .tag (some 3), .tag (some 0), .tag (some 0)] := by
  refine ⟨?_, by decide +kernel, by decide +kernel⟩
  simp [exUnit, its, Items.Wf, Item.Wf, IsName, key]

/-! ### Where toycc differs from C -/

/-- What toycc and C resolve a unit to (the former with the types as numbered by toycc). -/
def differ (p : Items) (toy c : List Res) : Prop := unit p = .ok toy ∧ (cUnit p).log = c
instance (p toy c) : Decidable (differ p toy c) := by unfold differ; infer_instance

/-- `struct S; { struct S { struct S *next; } }`: in C the member points to the new struct, in toycc to the outer one, so a list node declared in a
block is not a list node when the tag is declared outside (finding). -/
theorem C44_self_reference :
    differ (its [.tagFwd (key "S"), .block (its [.tagDef (some (key "S")) (its [.tagRef (key "S")])])])
      [.tag (some 0), .tag (some 0), .tag (some 1)] [.tag (some 0), .tag (some 1), .tag (some 1)] := by decide +kernel

/-- `struct S; { struct S; }`: in C the second declares a new type, in toycc it does not (finding). -/
theorem C44_forward :
    differ (its [.tagFwd (key "S"), .block (its [.tagFwd (key "S")])]) [.tag (some 0), .tag (some 0)] [.tag (some 0), .tag (some 1)] := by
  decide +kernel

/-- `void g(enum { A } x); A`: the enumeration constant is still known after the parameter list (finding); in C it is undeclared. The same for
`if (sizeof(enum { A })) ; A`. -/
theorem C44_leak :
    differ (its [.proto (its [.enumDef none (its [.decl (key "A") 1])]), .use (key "A")]) [.var (some (.obj 1))] [.var none] ∧
    differ (its [.sel (its [.enumDef none (its [.decl (key "A") 1])]), .use (key "A")]) [.var (some (.obj 1))] [.var none] := by
  decide +kernel

/-- `void g(int n, int a[n])`: the parameter `n` is not found, or a global one of that name is (finding). -/
theorem C44_parameter :
    differ (its [.decl (key "n") 7, .proto (its [.param (key "n") 1, .use (key "n")])]) [.var (some (.obj 7))] [.var (some (.obj 1))] := by
  decide +kernel

/-- `int f(); { int f; { int f(); f; } }`: the name means the variable, not the function (finding). -/
theorem C44_function :
    differ (its [.fdecl (key "f"), .block (its [.decl (key "f") 1, .block (its [.fdecl (key "f"), .use (key "f")])])])
      [.var (some (.obj 1))] [.var (some .fn)] := by
  decide +kernel

end Toycc.Scope
