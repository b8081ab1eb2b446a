import Verif.Ip.Model
import Verif.Cg.Sem
/-!
C71: `s.x` and `p->x`. Model of get_struct_member and struct_ref; the specification; the theorems. A structure type is given by its
members (`IMems`, with their offsets, laid out as in C33-C35).
-/
namespace Toycc.Ip
open Toycc.Cg (Expr Field evalC CEnv adr)
open Toycc.Rv (W Mem)

/-- struct Member. -/
structure Mbr where
  name : Option String
  off : Nat
  bits : Option (Nat × Nat)
  ty : ITy

/-- get_struct_member, parser.c:305-323. `null`: `mem->name->len` of a member without a name that is neither a structure nor a
union (an unnamed bit-field). -/
def getMember (x : String) : IMems → Except IErr (Option Mbr)
  | .nil => .ok none
  | .cons none o b (.struc sz ms) r =>
    match getMember x ms with
    | .error e => .error e
    | .ok (some _) => .ok (some ⟨none, o, b, .struc sz ms⟩)
    | .ok none => getMember x r
  | .cons none o b (.union sz ms) r =>
    match getMember x ms with
    | .error e => .error e
    | .ok (some _) => .ok (some ⟨none, o, b, .union sz ms⟩)
    | .ok none => getMember x r
  | .cons none _ _ _ _ => .error .null
  | .cons (some y) o b t r => if y = x then .ok (some ⟨some y, o, b, t⟩) else getMember x r

/-- The members of a structure or union type. -/
def ITy.members : ITy → Option IMems
  | .struc _ ms | .union _ ms => some ms
  | _ => none

/-- The loop of struct_ref, parser.c:345-358; `K` is the type as code generation sees it, `e` the node so far. `null`: the members of
a type that has none are looked at (does not happen). The recursion is bounded by `n`. -/
def refLoop (K : ITy → Cg.Ty) (x : String) : Nat → ITy → Expr → Except IErr Expr
  | 0, _, _ => .error .fuel
  | n + 1, t, e =>
    match t.members with
    | none => .error .null
    | some ms =>
      match getMember x ms with
      | .error er => .error er
      | .ok none => .error .noMember
      | .ok (some m) =>
        let e := Expr.member ⟨K m.ty, m.off, m.bits⟩ e
        match m.name with
        | some _ => .ok e
        | none => refLoop K x n m.ty e

/-- struct_ref, parser.c:338-361; `t` is the type of the expression `e`. -/
def structRef (K : ITy → Cg.Ty) (n : Nat) (x : String) (t : ITy) (e : Expr) : Except IErr Expr :=
  match t with
  | .struc _ _ | .union _ _ => refLoop K x n t e
  | _ => .error .notStruct

/-! ### Specification -/

/-- C11 6.7.2.1p13: the member named `x` of a structure with the members `ms` is at offset `o`, a bit-field if `b` says so, of type `t`;
"the members of an anonymous structure or union are considered to be members of the containing structure or union". -/
inductive Denotes (x : String) : IMems → Nat → Option (Nat × Nat) → ITy → Prop where
  | here (o b t r) : Denotes x (.cons (some x) o b t r) o b t
  | later {r o b t} (n' o' b' t') : Denotes x r o b t → Denotes x (.cons n' o' b' t' r) o b t
  | struc {ms o' b' t'} (o b sz r) : Denotes x ms o' b' t' → Denotes x (.cons none o b (.struc sz ms) r) (o + o') b' t'
  | union {ms o' b' t'} (o b sz r) : Denotes x ms o' b' t' → Denotes x (.cons none o b (.union sz ms) r) (o + o') b' t'

mutual
/-- The names of the members, those of anonymous structures and unions included. -/
def names : IMems → List String
  | .nil => []
  | .cons (some y) _ _ _ r => y :: names r
  | .cons none _ _ t r => anonNames t ++ names r
def anonNames : ITy → List String
  | .struc _ ms | .union _ ms => names ms
  | _ => []
end

mutual
/-- There are no unnamed bit-fields. -/
def Named : IMems → Prop
  | .nil => True
  | .cons (some _) _ _ _ r => Named r
  | .cons none _ _ t r => anonNamed t ∧ Named r
def anonNamed : ITy → Prop
  | .struc _ ms | .union _ ms => Named ms
  | _ => False
end

mutual
/-- How deep anonymous structures are nested. -/
def depth : IMems → Nat
  | .nil => 0
  | .cons (some _) _ _ _ r => depth r
  | .cons none _ _ t r => max (anonDepth t + 1) (depth r)
def anonDepth : ITy → Nat
  | .struc _ ms | .union _ ms => depth ms
  | _ => 0
end

/-! ### Lemmas -/

theorem Denotes.mem {x ms o b t} (h : Denotes x ms o b t) : x ∈ names ms := by
  induction h with
  | here => simp [names]
  | later n' _ _ t' _ ih => cases n' <;> simp [names, ih]
  | struc _ _ _ _ _ ih => simp [names, anonNames, ih]
  | union _ _ _ _ _ ih => simp [names, anonNames, ih]

theorem getMember_none (x : String) : ∀ ms, Named ms → x ∉ names ms → getMember x ms = .ok none
  | .nil, _, _ => rfl
  | .cons (some y) o b t r, h, hx => by
    simp only [names, List.mem_cons, not_or] at hx
    simp only [getMember, if_neg (Ne.symm hx.1)]
    exact getMember_none x r h hx.2
  | .cons none o b (.struc sz ms) r, h, hx => by
    simp only [names, anonNames, List.mem_append, not_or] at hx
    simp only [getMember, getMember_none x ms h.1 hx.1, getMember_none x r h.2 hx.2]
  | .cons none o b (.union sz ms) r, h, hx => by
    simp only [names, anonNames, List.mem_append, not_or] at hx
    simp only [getMember, getMember_none x ms h.1 hx.1, getMember_none x r h.2 hx.2]
  | .cons none _ _ (.sc _) _, h, _ => h.1.elim
  | .cons none _ _ (.arr _ _) _, h, _ => h.1.elim

/-- What get_struct_member finds: the member itself, or the anonymous structure or union it is in. -/
inductive Found (x : String) (ms : IMems) (o : Nat) (b : Option (Nat × Nat)) (t : ITy) : Mbr → Prop where
  | self : Found x ms o b t ⟨some x, o, b, t⟩
  | inner {o1 b1 o2 t1 ms1} : t1.members = some ms1 → Denotes x ms1 o2 b t → o = o1 + o2 → Named ms1 → (names ms1).Nodup →
      depth ms1 < depth ms → Found x ms o b t ⟨none, o1, b1, t1⟩

theorem Found.mono {x ms ms' o b t m} (h : Found x ms o b t m) (hd : depth ms ≤ depth ms') : Found x ms' o b t m := by
  cases h with
  | self => exact .self
  | inner a b c d e f => exact .inner a b c d e (Nat.lt_of_lt_of_le f hd)

theorem getMember_found {x ms o b t} (h : Denotes x ms o b t) : Named ms → (names ms).Nodup →
    ∃ m, getMember x ms = .ok (some m) ∧ Found x ms o b t m := by
  induction h with
  | here o b t r => intro _ _; exact ⟨_, by simp only [getMember, if_true], .self⟩
  | @later r o b t n' o' b' t' h ih =>
    intro hn hd
    cases n' with
    | some y =>
      simp only [names, List.nodup_cons] at hd
      obtain ⟨m, h1, h2⟩ := ih hn hd.2
      have hy : y ≠ x := fun e => hd.1 (e ▸ h.mem)
      exact ⟨m, by simp only [getMember, if_neg hy, h1], h2.mono (Nat.le_refl _)⟩
    | none =>
      simp only [names, List.nodup_append] at hd
      obtain ⟨m, h1, h2⟩ := ih hn.2 hd.2.1
      have hx : x ∉ anonNames t' := fun hx => hd.2.2 x hx x h.mem rfl
      refine ⟨m, ?_, h2.mono (Nat.le_max_right _ _)⟩
      cases t' with
      | sc _ => exact hn.1.elim
      | arr _ _ => exact hn.1.elim
      | struc sz ms => simp only [getMember, getMember_none x ms hn.1 hx, h1]
      | union sz ms => simp only [getMember, getMember_none x ms hn.1 hx, h1]
  | @struc ms o' b' t' o b sz r h ih =>
    intro hn hd
    simp only [names, anonNames, List.nodup_append] at hd
    obtain ⟨m, h1, _⟩ := ih hn.1 hd.1
    exact ⟨⟨none, o, b, .struc sz ms⟩, by simp only [getMember, h1], .inner rfl h rfl hn.1 hd.1 (Nat.lt_of_lt_of_le (Nat.lt_succ_self _) (Nat.le_max_left _ _))⟩
  | @union ms o' b' t' o b sz r h ih =>
    intro hn hd
    simp only [names, anonNames, List.nodup_append] at hd
    obtain ⟨m, h1, _⟩ := ih hn.1 hd.1
    exact ⟨⟨none, o, b, .union sz ms⟩, by simp only [getMember, h1], .inner rfl h rfl hn.1 hd.1 (Nat.lt_of_lt_of_le (Nat.lt_succ_self _) (Nat.le_max_left _ _))⟩

/-- A member of a member is the member at the sum of the offsets. -/
theorem member_member (E : CEnv) (ad : Bool) (d : Nat) (t1 : Cg.Ty) (o1 o2 : Nat) (b1 : Option (Nat × Nat)) (t2 : Cg.Ty)
    (b2 : Option (Nat × Nat)) (e : Expr) (m : Mem) :
    evalC E ad d (.member ⟨t2, o2, b2⟩ (.member ⟨t1, o1, b1⟩ e)) m = evalC E ad d (.member ⟨t2, ((o1 + o2 : Nat) : Int), b2⟩ e) m := by
  simp only [evalC, if_true]
  cases evalC E true d e m with
  | none => rfl
  | some p =>
    obtain ⟨a, m⟩ := p
    simp only [Option.bind_eq_bind, Option.bind_some]
    have : adr ((adr a + BitVec.ofInt 64 (o1 : Int)).toNat : Int) + BitVec.ofInt 64 (o2 : Int) = adr a + BitVec.ofInt 64 ((o1 + o2 : Nat) : Int) := by
      simp only [adr]
      rw [BitVec.ofInt_natCast, BitVec.ofNat_toNat, BitVec.setWidth_eq, BitVec.add_assoc, ← BitVec.ofInt_add, Int.natCast_add]
    rw [this]
    rfl

/-- Replacing the operand of a member access by one that has the same address. -/
theorem member_congr (E : CEnv) (ad : Bool) (d : Nat) (f : Field) (e e' : Expr) (m : Mem)
    (h : evalC E true d e m = evalC E true d e' m) : evalC E ad d (.member f e) m = evalC E ad d (.member f e') m := by
  simp only [evalC, h]

/-! ### Property theorems -/

theorem refLoop_ok (K : ITy → Cg.Ty) (x : String) : ∀ (n : Nat) (t : ITy) (ms : IMems) {o b u}, t.members = some ms → Named ms →
    (names ms).Nodup → Denotes x ms o b u → ∀ e, depth ms < n →
    ∃ f e', refLoop K x n t e = .ok (.member f e') ∧ f.ty = K u ∧ f.bits = b ∧
      ∀ E ad d m, evalC E ad d (.member f e') m = evalC E ad d (.member ⟨K u, o, b⟩ e) m
  | 0, _, _, _, _, _, _, _, _, _, _, hf => absurd hf (by omega)
  | n + 1, t, ms, o, b, u, ht, hn, hd, h, e, hf => by
    obtain ⟨m, h1, h2⟩ := getMember_found h hn hd
    simp only [refLoop, ht, h1]
    cases h2 with
    | self => exact ⟨_, _, rfl, rfl, rfl, fun _ _ _ _ => rfl⟩
    | @inner o1 b1 o2 t1 ms1 hm hden ho hn1 hd1 hlt =>
      subst ho
      obtain ⟨f, e', k1, k2, k3, k4⟩ := refLoop_ok K x n t1 ms1 hm hn1 hd1 hden (.member ⟨K t1, o1, b1⟩ e) (by omega)
      exact ⟨f, e', k1, k2, k3, fun E ad d m => by rw [k4, member_member]⟩

/-- C71: if the structure `t` has, directly or in anonymous structures and unions, a member named `x` at offset `o`, then `e.x` is
accepted and is that member: the node is a member access of the type of the member, to a bit-field exactly if the member is one; its
value, its address and what an assignment to it does are those of the object at offset `o` from the address of `e` (C36 and C38
are about the code for such nodes). The names are distinct, a constraint of C. Missing: structures with unnamed bit-fields
(`C71_unnamed_wrong`). -/
theorem C71_member_partial (K : ITy → Cg.Ty) (x : String) (t : ITy) (ms : IMems) (ht : t.members = some ms) (hn : Named ms)
    (hd : (names ms).Nodup) {o b u} (h : Denotes x ms o b u) (e : Expr) (n : Nat) (hf : depth ms < n) :
    ∃ f e', structRef K n x t e = .ok (.member f e') ∧ f.ty = K u ∧ f.bits = b ∧
      (∀ E ad d m, evalC E ad d (.member f e') m = evalC E ad d (.member ⟨K u, o, b⟩ e) m) ∧
      (∀ E ad d ty r m, evalC E ad d (.assign ty (.member f e') r) m = evalC E ad d (.assign ty (.member ⟨K u, o, b⟩ e) r) m) := by
  obtain ⟨f, e', h1, h2, h3, h4⟩ := refLoop_ok K x n t ms ht hn hd h e hf
  refine ⟨f, e', ?_, h2, h3, h4, ?_⟩
  · cases t with
    | sc _ => cases ht
    | arr _ _ => cases ht
    | struc _ _ => exact h1
    | union _ _ => exact h1
  · intro E ad d ty r m
    have hb : ∀ a v m, Cg.assignC E (Expr.bitfield (.member f e')) ty a v m = Cg.assignC E (Expr.bitfield (.member ⟨K u, o, b⟩ e)) ty a v m := by
      intro a v m
      simp only [Expr.bitfield, h3]
      cases b with
      | none => rfl
      | some p => simp only [Cg.assignC, h2]
    simp only [evalC] at h4 ⊢
    simp only [hb]
    have := h4 E true d m
    simp only [if_true] at this ⊢
    rw [this]

/-- C71: a name that no member has is diagnosed. -/
theorem C71_no_member_partial (K : ITy → Cg.Ty) (x : String) (t : ITy) (ms : IMems) (ht : t.members = some ms) (hn : Named ms)
    (hx : x ∉ names ms) (e : Expr) (n : Nat) (hf : 0 < n) : structRef K n x t e = .error .noMember := by
  obtain ⟨n, rfl⟩ : ∃ k, n = k + 1 := ⟨n - 1, by omega⟩
  have : refLoop K x (n + 1) t e = .error .noMember := by simp only [refLoop, ht, getMember_none x ms hn hx]
  cases t with
  | sc _ => cases ht
  | arr _ _ => cases ht
  | struc _ _ => exact this
  | union _ _ => exact this

/-- C71: so is a member of something that is neither a structure nor a union. -/
theorem C71_not_struct (K : ITy → Cg.Ty) (n : Nat) (x : String) (t : ITy) (e : Expr) (h : t.members = none) :
    structRef K n x t e = .error .notStruct := by
  cases t <;> first | rfl | cases h

theorem Denotes.unique {x ms o b t} (h : Denotes x ms o b t) : (names ms).Nodup → ∀ {o' b' t'}, Denotes x ms o' b' t' →
    o = o' ∧ b = b' ∧ t = t' := by
  induction h with
  | here o b t r =>
    intro hd o' b' t' h'
    cases h' with
    | here => exact ⟨rfl, rfl, rfl⟩
    | later _ _ _ _ k =>
      simp only [names, List.nodup_cons] at hd
      exact absurd k.mem hd.1
  | @later r o b t n' o1 b1 t1 h ih =>
    intro hd o' b' t' h'
    cases h' with
    | here =>
      simp only [names, List.nodup_cons] at hd
      exact absurd h.mem hd.1
    | later _ _ _ _ k =>
      cases n' with
      | some y => exact ih (by simp only [names, List.nodup_cons] at hd; exact hd.2) k
      | none => exact ih (by simp only [names, List.nodup_append] at hd; exact hd.2.1) k
    | struc _ _ _ _ k | union _ _ _ _ k =>
      simp only [names, anonNames, List.nodup_append] at hd
      exact absurd rfl (hd.2.2 x k.mem x h.mem)
  | @struc ms o1 b1 t1 o b sz r h ih =>
    intro hd o' b' t' h'
    simp only [names, anonNames, List.nodup_append] at hd
    cases h' with
    | later _ _ _ _ k => exact absurd rfl (hd.2.2 x h.mem x k.mem)
    | struc _ _ _ _ k =>
      obtain ⟨rfl, rfl, rfl⟩ := ih hd.1 k
      exact ⟨rfl, rfl, rfl⟩
  | @union ms o1 b1 t1 o b sz r h ih =>
    intro hd o' b' t' h'
    simp only [names, anonNames, List.nodup_append] at hd
    cases h' with
    | later _ _ _ _ k => exact absurd rfl (hd.2.2 x h.mem x k.mem)
    | union _ _ _ _ k =>
      obtain ⟨rfl, rfl, rfl⟩ := ih hd.1 k
      exact ⟨rfl, rfl, rfl⟩

/-- The members a name can denote: at most one. -/
theorem C71_unique {x ms o b t o' b' t'} (hd : (names ms).Nodup) (h : Denotes x ms o b t) (h' : Denotes x ms o' b' t') :
    o = o' ∧ b = b' ∧ t = t' := h.unique hd h'

def exInt : ITy := .sc (.scalar (.int false))
/-- `struct { int a; struct { int b; union { int c; int d : 3; }; }; }`. -/
def exMs : IMems :=
  .cons (some "a") 0 none exInt (.cons none 4 none
    (.struc 8 (.cons (some "b") 0 none exInt (.cons none 4 none (.union 4 (.cons (some "c") 0 none exInt
      (.cons (some "d") 0 (some (0, 3)) exInt .nil))) .nil))) .nil)
example : Named exMs ∧ (names exMs).Nodup ∧ names exMs = ["a", "b", "c", "d"] ∧ depth exMs = 2 ∧ Denotes "d" exMs 8 (some (0, 3)) exInt :=
  ⟨by simp [exMs, Named, anonNamed], by simp [exMs, names, anonNames], by simp [exMs, names, anonNames], by simp [exMs, depth, anonDepth],
    .later _ _ _ _ (.struc 4 none 8 _ (.later _ _ _ _ (.union 4 none 4 _ (.later _ _ _ _ (.here ..)))))⟩
example (K e) : structRef K 3 "d" (.struc 12 exMs) e =
    .ok (.member ⟨K exInt, 0, some (0, 3)⟩ (.member ⟨K (.union 4 (.cons (some "c") 0 none exInt (.cons (some "d") 0 (some (0, 3)) exInt .nil))), 4, none⟩
      (.member ⟨K (.struc 8 (.cons (some "b") 0 none exInt (.cons none 4 none (.union 4 (.cons (some "c") 0 none exInt
      (.cons (some "d") 0 (some (0, 3)) exInt .nil))) .nil))), 4, none⟩ e))) := rfl

/-- Violated: after an unnamed bit-field no member is found; the compiler uses a null pointer. `struct { int a : 3; int : 5; int b; } s;
s.b` -/
theorem C71_unnamed_wrong (K : ITy → Cg.Ty) (e : Expr) : ∃ ms,
    Denotes "b" ms 4 none exInt ∧ (names ms).Nodup ∧ ∀ n, structRef K (n + 1) "b" (.struc 8 ms) e = .error .null :=
  ⟨.cons (some "a") 0 (some (0, 3)) exInt (.cons none 0 (some (3, 5)) exInt (.cons (some "b") 4 none exInt .nil)),
    .later _ _ _ _ (.later _ _ _ _ (.here ..)), by simp [names, anonNames, exInt], fun _ => rfl⟩

/-- Not diagnosed: two members of the same name; the first one counts. -/
theorem C71_duplicate (K : ITy → Cg.Ty) (x : String) (e : Expr) (t u : ITy) (n : Nat) :
    structRef K (n + 1) x (.struc 8 (.cons (some x) 0 none t (.cons (some x) 4 none u .nil))) e = .ok (.member ⟨K t, 0, none⟩ e) := by
  simp [structRef, refLoop, ITy.members, getMember]

end Toycc.Ip
