import Verif.Call.Spec
import Verif.Decl.Props
/-! C93: calls, from tokens to converted arguments. -/
namespace Toycc.Call
open Toycc.Parse (Tok P)
open Toycc.Decl (DTy DTys)
variable {B L α : Type}

theorem args_step (O : Orc B L α) (v : Bool) (n : Nat) (first : Bool) (ps : DTys B L) (ts : List Tok) (h : ∀ q, ts ≠ .p .rpar :: q) :
    args O v (n + 1) first ps ts = (do
      let ts ← comma first ts
      let (e, ts) ← O.assign ts
      match ps with
      | .nil =>
        if v then do
          let (as, r) ← args O v n false .nil ts
          .ok (toDots O e :: as, r)
        else .error .tooMany
      | .cons t _ ps => do
        let (as, r) ← args O v n false ps ts
        .ok (toParam O t e :: as, r)) := by
  rw [args.eq_def]
  dsimp only
  split
  · exact absurd rfl (h _)
  · rfl

/-- What the code makes of the arguments. -/
def made (O : Orc B L α) : List (DTy B L) → List α → List (Arg B L α)
  | _, [] => []
  | [], e :: es => toDots O e :: made O [] es
  | t :: ps, e :: es => toParam O t e :: made O ps es

theorem toParam_eq (O : Orc B L α) (t : DTy B L) (e : α) : toParam O t e = convert O [t] 0 e := by
  cases t <;> rfl

theorem toDots_eq (O : Orc B L α) (e : α) : toDots O e = convert O [] 0 e := by
  simp only [toDots, convert, List.getElem?_nil]
  cases O.ty e <;> rfl

theorem made_get (O : Orc B L α) : ∀ (ps : List (DTy B L)) (es : List α) (i : Nat), (made O ps es)[i]? = es[i]?.map (convert O ps i)
  | ps, [], i => by simp [made]
  | [], e :: es, 0 => by simp [made, toDots_eq]
  | [], e :: es, i + 1 => by
    have := made_get O [] es i
    simp only [made, List.getElem?_cons_succ, this]
    congr 1
  | t :: ps, e :: es, 0 => by simp [made, toParam_eq, convert]
  | t :: ps, e :: es, i + 1 => by
    have := made_get O ps es i
    simp only [made, List.getElem?_cons_succ, this]
    congr 1

theorem made_length (O : Orc B L α) : ∀ (ps : List (DTy B L)) (es : List α), (made O ps es).length = es.length
  | ps, [] => by simp [made]
  | [], e :: es => by simp [made, made_length O [] es]
  | t :: ps, e :: es => by simp [made, made_length O ps es]

theorem count_succ {v : Bool} {a b : Nat} : Count v (a + 1) (b + 1) ↔ Count v a b := by simp [Count]

theorem ends (as : List (List Tok × α)) (r : List Tok) : ∃ q, text false as ++ .p .rpar :: r = .p .comma :: q ∨ text false as ++ .p .rpar :: r = .p .rpar :: q := by
  cases as with
  | nil => exact ⟨r, .inr rfl⟩
  | cons a as => exact ⟨_, .inl rfl⟩

theorem args_unfold (O : Orc B L α) (v : Bool) (n : Nat) (first : Bool) (ps : DTys B L) (a : List Tok × α) (as : List (List Tok × α)) (r : List Tok) (ha : Reads O a) :
    args O v (n + 1) first ps (text first (a :: as) ++ .p .rpar :: r) = (match ps with
      | .nil =>
        if v then do
          let (as, r) ← args O v n false .nil (text false as ++ .p .rpar :: r)
          .ok (toDots O a.2 :: as, r)
        else .error .tooMany
      | .cons t _ ps => do
        let (as, r) ← args O v n false ps (text false as ++ .p .rpar :: r)
        .ok (toParam O t a.2 :: as, r)) := by
  obtain ⟨⟨t, q, h1, h2⟩, h3⟩ := ha
  have e1 : comma first (text first (a :: as) ++ .p .rpar :: r) = .ok (a.1 ++ (text false as ++ .p .rpar :: r)) := by
    cases first <;> simp [comma, text]
  have e0 : ∀ q, text first (a :: as) ++ .p .rpar :: r ≠ .p .rpar :: q := by
    intro q hq
    cases first with
    | false => simp [text] at hq
    | true => simp [text, h1] at hq; exact h2 hq.1
  rw [args_step O v n first ps _ e0, e1]
  show (O.assign _ >>= _) = _
  rw [h3 _ (ends as r)]
  rfl

theorem args_ok (O : Orc B L α) (v : Bool) (r : List Tok) : ∀ (as : List (List Tok × α)) (first : Bool) (ps : DTys B L) (n : Nat), (∀ a ∈ as, Reads O a) → Count v (types ps).length as.length →
    as.length < n → args O v n first ps (text first as ++ .p .rpar :: r) = .ok (made O (types ps) (as.map (·.2)), r)
  | [], first, ps, n, _, hc, hn => by
    obtain ⟨n, rfl⟩ : ∃ m, n = m + 1 := ⟨n - 1, by omega⟩
    cases ps with
    | nil => rfl
    | cons t x ps =>
      exfalso
      simp only [Count, types, List.length_cons, List.length_nil] at hc
      omega
  | a :: as, first, ps, n, hr, hc, hn => by
    obtain ⟨n, rfl⟩ : ∃ m, n = m + 1 := ⟨n - 1, by omega⟩
    simp only [List.length_cons] at hn
    rw [args_unfold O v n first ps a as r (hr a (.head _))]
    cases ps with
    | nil =>
      have hv : v = true := by
        simp only [Count, types, List.length_cons, List.length_nil] at hc
        rcases hc with h | h
        · omega
        · exact h.1
      have ih := args_ok O v r as false .nil n (fun b hb => hr b (.tail _ hb)) (.inr ⟨hv, by simp [types]⟩) (by omega)
      simp only [hv, ↓reduceIte]
      rw [hv] at ih
      rw [ih]
      rfl
    | cons t x ps =>
      have ih := args_ok O v r as false ps n (fun b hb => hr b (.tail _ hb)) (by
        simp only [types, List.length_cons, count_succ] at hc
        exact hc) (by omega)
      simp only
      rw [ih]
      rfl

theorem args_bad (O : Orc B L α) (v : Bool) (r : List Tok) : ∀ (as : List (List Tok × α)) (first : Bool) (ps : DTys B L) (n : Nat), (∀ a ∈ as, Reads O a) →
    ¬ Count v (types ps).length as.length → as.length < n →
    args O v n first ps (text first as ++ .p .rpar :: r) = .error (if as.length < (types ps).length then .tooFew else .tooMany)
  | [], first, ps, n, _, hc, hn => by
    obtain ⟨n, rfl⟩ : ∃ m, n = m + 1 := ⟨n - 1, by omega⟩
    cases ps with
    | nil => exact absurd (.inl rfl) hc
    | cons t x ps => simp [args, text, types]
  | a :: as, first, ps, n, hr, hc, hn => by
    obtain ⟨n, rfl⟩ : ∃ m, n = m + 1 := ⟨n - 1, by omega⟩
    simp only [List.length_cons] at hn
    rw [args_unfold O v n first ps a as r (hr a (.head _))]
    cases ps with
    | nil =>
      have hv : v = false := by
        cases v with
        | false => rfl
        | true => exact absurd (.inr ⟨rfl, by simp [types]⟩) hc
      simp [hv, types]
    | cons t x ps =>
      have ih := args_bad O v r as false ps n (fun b hb => hr b (.tail _ hb)) (by
        simp only [types, List.length_cons, count_succ] at hc
        exact hc) (by omega)
      simp only
      rw [ih]
      simp [types, bind, Except.bind]

/-- A call with the right number of arguments is read to its closing parenthesis; every argument is converted to the type of its parameter, an argument for
the ellipsis from float to double; the call has the type the function returns, and room for the result if that is a structure or union. -/
theorem C93_call (O : Orc B L α) (f ret : DTy B L) (ps : DTys B L) (v : Bool) (hf : Callee f ret ps v) (as : List (List Tok × α)) (hr : ∀ a ∈ as, Reads O a)
    (hc : Count v (types ps).length as.length) (r : List Tok) (n : Nat) (hn : as.length < n) :
    ∃ node, funcall O n f (text true as ++ .p .rpar :: r) = .ok (node, r) ∧ node.ty = ret ∧ (node.buffer = true ↔ ∃ b, ret = .base b ∧ O.agg b = true) ∧
      node.args.length = as.length ∧ ∀ i (h : i < as.length), node.args[i]? = some (convert O (types ps) i as[i].2) := by
  refine ⟨⟨made O (types ps) (as.map (·.2)), ret, onBase O.agg ret⟩, ?_, rfl, ?_, ?_, ?_⟩
  · rcases hf with h | h <;> subst h <;> simp only [funcall] <;> rw [args_ok O v r as true ps n hr hc hn] <;> rfl
  · cases ret <;> simp [onBase]
  · simp [made_length]
  · intro i hi
    rw [made_get]
    simp [hi]

/-- A call with a wrong number of arguments is diagnosed. -/
theorem C93_count (O : Orc B L α) (f ret : DTy B L) (ps : DTys B L) (v : Bool) (hf : Callee f ret ps v) (as : List (List Tok × α)) (hr : ∀ a ∈ as, Reads O a)
    (hc : ¬ Count v (types ps).length as.length) (r : List Tok) (n : Nat) (hn : as.length < n) :
    funcall O n f (text true as ++ .p .rpar :: r) = .error (if as.length < (types ps).length then .tooFew else .tooMany) := by
  rcases hf with h | h <;> subst h <;> simp only [funcall] <;> rw [args_bad O v r as true ps n hr hc hn] <;> rfl

/-- Only functions and pointers to functions are called. -/
theorem C93_callee (O : Orc B L α) (n : Nat) (f : DTy B L) (ts : List Tok) (hf : ∀ ret ps v, ¬ Callee f ret ps v) : funcall O n f ts = .error .notFunction := by
  rw [funcall.eq_def]
  split
  · exact absurd (.inl rfl) (hf _ _ _)
  · exact absurd (.inr rfl) (hf _ _ _)
  · rfl

/-- As passed, every argument for a parameter has the parameter's type. Partial: not for parameters that are structures or unions (`struct_unchecked`). -/
theorem C93_types_partial (O : Orc B L α) (ps : List (DTy B L)) (i : Nat) (t : DTy B L) (ht : ps[i]? = some t) (hs : ∀ b, t = .base b → O.agg b = false) (e : α) :
    (convert O ps i e).ty O = t := by
  simp only [convert, ht]
  cases t with
  | base b => simp [hs b rfl, Arg.ty]
  | _ => rfl

theorem bind_ok {α β : Type} {x : Except CErr α} {f : α → Except CErr β} {b : β} (h : (x >>= f) = .ok b) : ∃ a, x = .ok a ∧ f a = .ok b := by
  cases x with
  | error e => cases h
  | ok a => exact ⟨a, rfl, h⟩

theorem comma_ok {first : Bool} {ts r : List Tok} (h : comma first ts = .ok r) : ts = (if first then [] else [.p .comma]) ++ r := by
  cases first with
  | true => cases h; rfl
  | false =>
    simp only [comma] at h
    split at h
    · rename_i h'; exact absurd h' (by simp)
    · split at h
      · cases h; rfl
      · cases h

theorem args_sound (O : Orc B L α) (hO : ∀ ts e r, O.assign ts = .ok (e, r) → ∃ p, ts = p ++ r) (v : Bool) : ∀ (n : Nat) (first : Bool) (ps : DTys B L) (ts rest : List Tok)
    (cs : List (Arg B L α)), args O v n first ps ts = .ok (cs, rest) →
    ∃ as : List (List Tok × α), ts = text first as ++ .p .rpar :: rest ∧ (∀ a ∈ as, ∃ r, O.assign (a.1 ++ r) = .ok (a.2, r)) ∧ Count v (types ps).length as.length ∧
      cs = made O (types ps) (as.map (·.2))
  | 0, _, _, _, _, _, h => by cases h
  | n + 1, first, ps, ts, rest, cs, h => by
    by_cases hs : ∃ q, ts = .p .rpar :: q
    · obtain ⟨q, rfl⟩ := hs
      cases ps with
      | nil => cases h; exact ⟨[], rfl, by simp, .inl rfl, rfl⟩
      | cons t x ps => cases h
    · rw [args_step O v n first ps ts (fun q hq => hs ⟨q, hq⟩)] at h
      obtain ⟨t1, e1, h1⟩ := bind_ok h
      obtain ⟨⟨e, t2⟩, e2, h2⟩ := bind_ok h1
      have e1 := comma_ok e1
      obtain ⟨p, hp⟩ := hO _ _ _ e2
      cases ps with
      | nil =>
        simp only at h2
        cases v with
        | false => cases h2
        | true =>
          obtain ⟨⟨as', r'⟩, e3, h3⟩ := bind_ok h2
          cases h3
          obtain ⟨as, a1, a2, a3, a4⟩ := args_sound O hO true n false .nil _ _ _ e3
          refine ⟨(p, e) :: as, ?_, ?_, .inr ⟨rfl, by simp [types]⟩, ?_⟩
          · rw [e1, hp, a1]; simp [text]
          · intro a ha
            cases ha with
            | head => exact ⟨_, hp ▸ e2⟩
            | tail _ ha => exact a2 a ha
          · rw [a4]; rfl
      | cons t x ps =>
        obtain ⟨⟨as', r'⟩, e3, h3⟩ := bind_ok h2
        cases h3
        obtain ⟨as, a1, a2, a3, a4⟩ := args_sound O hO v n false ps _ _ _ e3
        refine ⟨(p, e) :: as, ?_, ?_, ?_, ?_⟩
        · rw [e1, hp, a1]; simp [text]
        · intro a ha
          cases ha with
          | head => exact ⟨_, hp ▸ e2⟩
          | tail _ ha => exact a2 a ha
        · simp only [types, List.length_cons, count_succ]; exact a3
        · rw [a4]; rfl

/-- What is accepted is a call: arguments separated by commas up to the parenthesis, as many as there are parameters (with an ellipsis, at least as many). -/
theorem C93_accepted (O : Orc B L α) (hO : ∀ ts e r, O.assign ts = .ok (e, r) → ∃ p, ts = p ++ r) (n : Nat) (f : DTy B L) (ts rest : List Tok) (node : Node B L α)
    (h : funcall O n f ts = .ok (node, rest)) :
    ∃ ret ps v, ∃ as : List (List Tok × α), Callee f ret ps v ∧ ts = text true as ++ .p .rpar :: rest ∧ (∀ a ∈ as, ∃ r, O.assign (a.1 ++ r) = .ok (a.2, r)) ∧
      Count v (types ps).length as.length ∧ node.ty = ret ∧ ∀ i (h : i < as.length), node.args[i]? = some (convert O (types ps) i as[i].2) := by
  rw [funcall.eq_def] at h
  split at h
  · rename_i ret ps v
    obtain ⟨⟨cs, r⟩, e, h1⟩ := bind_ok h
    cases h1
    obtain ⟨as, a1, a2, a3, a4⟩ := args_sound O hO v n true ps _ _ _ e
    refine ⟨ret, ps, v, as, .inl rfl, a1, a2, a3, rfl, fun i hi => ?_⟩
    dsimp only
    rw [a4, made_get]
    simp [hi]
  · rename_i ret ps v
    obtain ⟨⟨cs, r⟩, e, h1⟩ := bind_ok h
    cases h1
    obtain ⟨as, a1, a2, a3, a4⟩ := args_sound O hO v n true ps _ _ _ e
    refine ⟨ret, ps, v, as, .inr rfl, a1, a2, a3, rfl, fun i hi => ?_⟩
    dsimp only
    rw [a4, made_get]
    simp [hi]
  · cases h

/-! ### Examples -/

inductive Bt where
  | int | float | double | pair
  deriving DecidableEq

/-- `1` is an int, `x` a float, `s` a structure. -/
def O1 : Orc Bt Unit String where
  assign
    | .num _ :: r => .ok ("1", r)
    | .ident x :: r => .ok (x, r)
    | _ => .error .other
  ty e := .base (if e = "1" then .int else if e = "x" then .float else .pair)
  agg b := b == .pair
  flt b := b == .float
  double := .double

/-- `pair (*f)(double, pair, ...)`. -/
def exF : DTy Bt Unit := .ptr (.func (.base .pair) (.cons (.base .double) none (.cons (.base .pair) none .nil)) true)

def exArgs : List (List Tok × String) := [([.num 1], "1"), ([.ident "s"], "s"), ([.ident "x"], "x"), ([.num 1], "1")]

theorem exReads : ∀ a ∈ exArgs, Reads O1 a := by
  intro a ha
  simp only [exArgs, List.mem_cons, List.not_mem_nil, or_false] at ha
  rcases ha with rfl | rfl | rfl | rfl <;> exact ⟨⟨_, _, rfl, by simp⟩, fun r _ => rfl⟩

example : Callee exF (.base .pair) (.cons (.base .double) none (.cons (.base .pair) none .nil)) true ∧ Count true 2 exArgs.length := ⟨.inr rfl, .inr ⟨rfl, by decide⟩⟩

example : text true exArgs = [.num 1, .p .comma, .ident "s", .p .comma, .ident "x", .p .comma, .num 1] := rfl

/-- The first argument becomes a double, and so does the float; the others stay. -/
example : (funcall O1 9 exF (text true exArgs ++ [.p .rpar])).toOption.map (fun x => (x.1.args, x.1.buffer)) =
    some ([.cast "1" (.base .double), .plain "s", .cast "x" (.base .double), .plain "1"], true) := by
  rw [show text true exArgs ++ [.p .rpar] = [.num 1, .p .comma, .ident "s", .p .comma, .ident "x", .p .comma, .num 1, .p .rpar] from rfl]
  simp [funcall, exF, args, comma, O1, toParam, toDots, onBase, bind, Except.bind, Except.toOption]

/-- One argument for two parameters. -/
example : ¬ Count true 2 1 := by simp [Count]

/-- The hypothesis of the converse holds. -/
example : ∀ ts e r, O1.assign ts = .ok (e, r) → ∃ p, ts = p ++ r := by
  intro ts e r h
  simp only [O1] at h
  split at h
  · cases h; exact ⟨[_], rfl⟩
  · cases h; exact ⟨[_], rfl⟩
  · cases h

/-! ### Where the code does not have the property -/

/-- `int f();` says nothing about the parameters (C11 6.7.6.3p14), and `f(1)` is a call without a constraint violation; it is rejected. -/
theorem no_prototype : Decl.declarator Decl.Props.O1 false 9 [.ident "f", .p .lpar, .p .rpar, .p .semi] (.base .int) = .ok (.func (.base .int) .nil false, some "f", [.p .semi]) ∧
    funcall O1 9 (.func (.base .int) .nil false) [.num 1, .p .rpar] = .error .tooMany := by
  constructor
  · simp [Decl.declarator, Decl.declBody, Decl.typeSuffix, Decl.params, Decl.pointers, Decl.isQual, Decl.isVoid, bind, Except.bind]
  · simp [funcall, args, comma, O1, bind, Except.bind]

/-- An int is accepted for a parameter that is a structure, and passed as it is; a structure is accepted for an int and cast (C11 6.5.2.2p2, 6.5.16.1p1). -/
theorem struct_unchecked : funcall O1 9 (.func (.base .int) (.cons (.base .pair) none .nil) false) [.num 1, .p .rpar] = .ok (⟨[.plain "1"], .base .int, false⟩, []) ∧
    (Arg.plain "1" : Arg Bt Unit String).ty O1 = .base .int ∧
    funcall O1 9 (.func (.base .int) (.cons (.base .int) none .nil) false) [.ident "s", .p .rpar] = .ok (⟨[.cast "s" (.base .int)], .base .int, false⟩, []) := by
  refine ⟨?_, ?_, ?_⟩ <;> simp [funcall, args, comma, O1, toParam, onBase, Arg.ty, bind, Except.bind]

end Toycc.Call
