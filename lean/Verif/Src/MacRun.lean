import Verif.Src.Names
/-! Runs of preprocess2 over part of a list, with an account of which nodes of the list are passed through (for arguments that are used again). -/
namespace Toycc.Src
open Toycc.Lex (asc Kind IntConst)
open Toycc.Pp (PTok Bytes)
open Toycc.Parse (Tok P)

/-- Two lists, token by token. -/
inductive Each (R : Tok → PTok → Prop) : List Tok → List PTok → Prop where
  | nil : Each R [] []
  | cons {t p ts ps} : R t p → Each R ts ps → Each R (t :: ts) (p :: ps)

theorem Each.append {R} {t1 t2 : List Tok} {p1 p2 : List PTok} (h1 : Each R t1 p1) (h2 : Each R t2 p2) : Each R (t1 ++ t2) (p1 ++ p2) := by
  induction h1 with
  | nil => exact h2
  | cons h _ ih => exact .cons h ih

theorem Each.split {R} {t1 t2 : List Tok} : ∀ {ps : List PTok}, Each R (t1 ++ t2) ps → ∃ p1 p2, ps = p1 ++ p2 ∧ Each R t1 p1 ∧ Each R t2 p2 := by
  induction t1 with
  | nil => intro ps h; exact ⟨[], ps, rfl, .nil, h⟩
  | cons t t1 ih =>
    intro ps h
    cases h with
    | cons h1 h2 =>
      obtain ⟨p1, p2, rfl, a, b⟩ := ih h2
      exact ⟨_ :: p1, p2, rfl, .cons h1 a, b⟩

theorem Each.imp {R S : Tok → PTok → Prop} {ts : List Tok} {ps : List PTok} (h : Each R ts ps) (hi : ∀ t p, t ∈ ts → R t p → S t p) : Each S ts ps := by
  induction h with
  | nil => exact .nil
  | cons h _ ih => exact .cons (hi _ _ List.mem_cons_self h) (ih fun t p ht => hi t p (List.mem_cons_of_mem _ ht))

theorem Each.map {R S : Tok → PTok → Prop} {ts : List Tok} {ps : List PTok} (h : Each R ts ps) {g : PTok → PTok} (hi : ∀ t p, t ∈ ts → R t p → S t (g p)) : Each S ts (ps.map g) := by
  induction h with
  | nil => exact .nil
  | cons h _ ih => exact .cons (hi _ _ List.mem_cons_self h) (ih fun t p ht => hi t p (List.mem_cons_of_mem _ ht))

theorem each_all {ts : List Tok} {ps : List PTok} (h : All ts ps) : Each Is ts ps := by
  induction h with
  | nil => exact .nil
  | cons h _ ih => exact .cons h ih

theorem Each.all {R} {ts : List Tok} {ps : List PTok} (h : Each R ts ps) (hi : ∀ t p, R t p → Is t p) : All ts ps := by
  induction h with
  | nil => exact .nil
  | cons h _ ih => exact .cons (hi _ _ h) ih

theorem Each.mem {R} {ts : List Tok} {ps : List PTok} (h : Each R ts ps) : ∀ p ∈ ps, ∃ t ∈ ts, R t p := by
  induction h with
  | nil => intro p hp; cases hp
  | @cons t q ts ps h _ ih =>
    intro p hp
    rcases List.mem_cons.mp hp with rfl | hp
    · exact ⟨t, List.mem_cons_self, h⟩
    · obtain ⟨t, ht, hr⟩ := ih p hp
      exact ⟨t, List.mem_cons_of_mem _ ht, hr⟩

/-- The hidden macros are in the hide set of the token. -/
def HasHid (H : List String) (p : PTok) : Prop := ∀ s ∈ H, asc s ∈ p.hs

/-- A token of a list in which the macros `H` are hidden: its hide set is `H`, or it is one that is not replaced. -/
def HidT (D : Defs) (H : List String) (t : Tok) (p : PTok) : Prop :=
  Is t p ∧ HasHid H p ∧ (Stop D H t ∨ ∀ s, ascii s → asc s ∈ p.hs → s ∈ H)

/-- A token of the result. -/
def OutT (H : List String) (t : Tok) (p : PTok) : Prop := Is t p ∧ HasHid H p

theorem is_flags {t : Tok} {p : PTok} (h : Is t p) (b sp : Bool) : Is t { p with bol := b, sp := sp } := h

theorem HidT.flags {D H t p} (h : HidT D H t p) (b sp : Bool) : HidT D H t { p with bol := b, sp := sp } := h

/-- An empty expansion hands its flags on to the token after it. -/
def upd (o : Option (Bool × Bool)) (l : List PTok) : List PTok :=
  match o with
  | none => l
  | some f => Pp.setFlags f.1 f.2 l

theorem upd_cons (o : Option (Bool × Bool)) (p : PTok) (r : List PTok) : ∃ b sp, upd o (p :: r) = { p with bol := b, sp := sp } :: r := by
  cases o with
  | none => exact ⟨p.bol, p.sp, rfl⟩
  | some f => exact ⟨f.1, f.2, rfl⟩

theorem setFlags_cons (b sp : Bool) (p : PTok) (r : List PTok) : Pp.setFlags b sp (p :: r) = { p with bol := b, sp := sp } :: r := rfl

section
variable (env : Pp.Env) (st : Pp.St)

/-- What a run that outputs `out` having consumed the nodes `pre` before adds to the result of the rest. -/
def addTo (out pre : List PTok) (r : Pp.St × List PTok × List PTok) : Pp.St × List PTok × List PTok :=
  (r.1, out ++ r.2.1, if out.any (·.own) then pre else pre ++ r.2.2)

/-- From the list `l` preprocess2 comes to `l'` having output `out` and consumed the nodes `pre` before the first one that was passed through. -/
def Goes (top : Bool) (l out pre l' : List PTok) : Prop :=
  ∃ k N, ∀ n, N ≤ n → Pp.pp env (n + k) top st l = (Pp.pp env n top st l').map (addTo out pre)

variable {env st}

theorem Goes.refl {top : Bool} (l : List PTok) : Goes env st top l [] [] l := by
  refine ⟨0, 0, fun n _ => ?_⟩
  rw [Nat.add_zero]
  cases Pp.pp env n top st l <;> rfl

theorem Goes.trans {top : Bool} {l l1 l2 o1 o2 p1 p2 : List PTok} (h1 : Goes env st top l o1 p1 l1) (h2 : Goes env st top l1 o2 p2 l2) :
    Goes env st top l (o1 ++ o2) (if o1.any (·.own) then p1 else p1 ++ p2) l2 := by
  obtain ⟨k1, N1, h1⟩ := h1
  obtain ⟨k2, N2, h2⟩ := h2
  refine ⟨k2 + k1, max N1 N2, fun n hn => ?_⟩
  rw [← Nat.add_assoc, h1 _ (by omega), h2 _ (by omega)]
  cases Pp.pp env n top st l2 with
  | error e => rfl
  | ok r =>
    simp only [Except.map, addTo, List.append_assoc, List.any_append]
    congr 3
    cases ha : o1.any (·.own) <;> cases hb : o2.any (·.own) <;> simp

/-- A token that is passed through. -/
theorem Goes.pass {top : Bool} {q : PTok} {l : List PTok} (he : q.isEof = false) (hh : Pp.isHash q = false)
    (hx : ∀ n, Pp.expandMacro env (Pp.pp env n false) st q l = .ok none) : Goes env st top (q :: l) [Pp.mark st q] [] l := by
  refine ⟨1, 0, fun n _ => ?_⟩
  rw [Pp.pp, he, hx n]
  simp only [hh, Bool.not_false, if_true, Bool.false_eq_true, if_false]
  cases Pp.pp env n top st l with
  | error e => rfl
  | ok r =>
    simp only [Except.map, addTo, List.cons_append, List.nil_append, List.any_cons, List.any_nil, Bool.or_false]
    rfl

/-- A macro that is replaced. -/
theorem Goes.expand {top : Bool} {q : PTok} {l l' : List PTok} (he : q.isEof = false) {N : Nat}
    (hx : ∀ n, N ≤ n → Pp.expandMacro env (Pp.pp env n false) st q l = .ok (some (st, l'))) : Goes env st top (q :: l) [] (Pp.consumed (q :: l) l') l' := by
  refine ⟨1, N, fun n hn => ?_⟩
  rw [Pp.pp, he, hx n hn]
  simp only [Bool.false_eq_true, if_false]
  cases Pp.pp env n top st l' with
  | error e => rfl
  | ok r => rfl

/-- The nodes consumed: all of those that make up `ts`, or none. -/
def PreOk (D : Defs) (b : Option Bool) (H : List String) (ts : List Tok) (pre : List PTok) : Prop :=
  match b with
  | some true => Each (HidT D H) ts pre ∧ ∀ p ∈ pre, p.own = true
  | some false => pre = []
  | none => True

/-- The nodes all belong to the given list, or none does, or nothing is known. -/
def Owned (b : Option Bool) (ps : List PTok) : Prop := ∀ x, b = some x → ∀ p ∈ ps, p.own = x

theorem Owned.left {b : Option Bool} {p q : List PTok} (h : Owned b (p ++ q)) : Owned b p := fun x e r hr => h x e r (List.mem_append_left _ hr)
theorem Owned.right {b : Option Bool} {p q : List PTok} (h : Owned b (p ++ q)) : Owned b q := fun x e r hr => h x e r (List.mem_append_right _ hr)
theorem Owned.tail {b : Option Bool} {p : PTok} {q : List PTok} (h : Owned b (p :: q)) : Owned b q := fun x e r hr => h x e r (List.mem_cons_of_mem _ hr)

theorem PreOk.append {D b H t1 t2 p1 p2} (h1 : PreOk D b H t1 p1) (h2 : PreOk D b H t2 p2) : PreOk D b H (t1 ++ t2) (p1 ++ p2) := by
  match b with
  | none => trivial
  | some true =>
    refine ⟨h1.1.append h2.1, fun p hp => ?_⟩
    rcases List.mem_append.mp hp with h | h
    · exact h1.2 p h
    · exact h2.2 p h
  | some false =>
    have e1 : p1 = [] := h1
    have e2 : p2 = [] := h2
    subst e1 e2
    rfl

variable (env st)

/-- A list `ts` whose nodes belong to the given list (`b`) or not is replaced by `us`. `full`: no node of the given list is passed through. -/
def Sem (D : Defs) (b : Option Bool) (full : Bool) (H : List String) (ts us : List Tok) (z : Bool) : Prop :=
  ∀ (top : Bool) (ps rest : List PTok) (o : Option (Bool × Bool)), Each (HidT D H) ts ps → Owned b ps → rest ≠ [] →
    ∃ out pre o', Each (OutT H) us out ∧ Goes env st top (upd o (ps ++ rest)) out pre (upd o' rest) ∧ (ts = [] → o' = o) ∧ (z = true → o' = none) ∧
      (full = true → out.any (·.own) = false ∧ PreOk D b H ts pre)

variable {env st}

theorem Sem.nil {D b full H} : Sem env st D b full H [] [] false := by
  intro top ps rest o ha _ _
  cases ha
  refine ⟨[], [], o, .nil, Goes.refl _, fun _ => rfl, (fun h => by cases h), fun _ => ⟨rfl, ?_⟩⟩
  match b with
  | none => trivial
  | some true => exact ⟨.nil, fun p hp => by cases hp⟩
  | some false => rfl

theorem Sem.append {D b full H t1 t2 u1 u2 z1 z2} (h1 : Sem env st D b full H t1 u1 z1) (h2 : Sem env st D b full H t2 u2 z2) :
    Sem env st D b full H (t1 ++ t2) (u1 ++ u2) (lastOf t2 z1 z2) := by
  intro top ps rest o ha ho hr
  obtain ⟨p1, p2, rfl, a1, a2⟩ := ha.split
  have hr1 : p2 ++ rest ≠ [] := fun h => hr (List.append_eq_nil_iff.mp h).2
  obtain ⟨o1, r1, f1, b1, c1, d1, e1, g1⟩ := h1 top p1 (p2 ++ rest) o a1 ho.left hr1
  obtain ⟨o2, r2, f2, b2, c2, d2, e2, g2⟩ := h2 top p2 rest f1 a2 ho.right hr
  rw [List.append_assoc]
  refine ⟨_, _, f2, b1.append b2, c1.trans c2, ?_, ?_, ?_⟩
  · intro h
    obtain ⟨x1, x2⟩ := List.append_eq_nil_iff.mp h
    rw [d2 x2, d1 x1]
  · intro hz
    unfold lastOf at hz
    cases t2 with
    | nil => rw [d2 rfl]; exact e1 hz
    | cons t t2 => exact e2 hz
  · intro hf
    obtain ⟨i1, j1⟩ := g1 hf
    obtain ⟨i2, j2⟩ := g2 hf
    rw [i1]
    simp only [Bool.false_eq_true, if_false]
    exact ⟨by rw [List.any_append, i1, i2]; rfl, j1.append j2⟩

/-- Why a token is passed through. -/
def Passes (D : Defs) (H : List String) (t : Tok) (ts : List Tok) : Prop :=
  Stop D H t ∨ ∃ s ps va b u r, (t = .ident s ∨ t = .kw s) ∧ s ∉ H ∧ D.fn s ps va b ∧ ts = u :: r ∧ u ≠ .p .lpar

theorem lpar_is {t : Tok} {p : PTok} (h : Is t p) (hn : t ≠ .p .lpar) : p.is "(" = false := by
  cases hc : p.is "(" with
  | false => rfl
  | true =>
    have hx : p.text = asc "(" := by simpa [Pp.PTok.is] using hc
    exact absurd (sign_is (q := .lpar) h hx) hn

theorem findMacro_name {t : Tok} {p : PTok} {s : String} (h : Is t p) (ht : t = .ident s ∨ t = .kw s) : Pp.findMacro st p = Pp.lookup st (asc s) := by
  obtain ⟨hk, htx, -⟩ := is_name h ht
  unfold Pp.findMacro
  rw [hk, htx]; rfl

theorem passes_none {H t ts p ps rest} (h : Passes (defsOf st) H t ts) (hp : HidT (defsOf st) H t p) (ha : Each (HidT (defsOf st) H) ts ps) (b sp : Bool) (rec : Pp.Rec) :
    Pp.expandMacro env rec st { p with bol := b, sp := sp } (ps ++ rest) = .ok none := by
  obtain ⟨hi, hh, hx⟩ := hp
  by_cases hn : ∃ s, t = .ident s ∨ t = .kw s
  · obtain ⟨s, hs⟩ := hn
    obtain ⟨hk, htx, hasc⟩ := is_name hi hs
    unfold Pp.expandMacro
    by_cases hc : Pp.hsContains p.hs p.text = true
    · rw [if_pos hc]
    · rw [if_neg hc, findMacro_name (is_flags hi b sp) hs]
      rcases h with h | ⟨s', qs, va, b', u, r, hs', -, hf, rfl, hu⟩
      · rcases h s hs with h | h
        · rw [show Pp.lookup st (asc s) = none from h]
        · refine absurd ?_ hc
          rw [htx, Pp.hsContains_iff]
          exact hh s h
      · have : s = s' := by rcases hs with rfl | rfl <;> rcases hs' with h' | h' <;> cases h' <;> rfl
        subst this
        obtain ⟨m, hm, ho, -⟩ := hf
        rw [hm.found]
        dsimp only
        rw [hm.handler]
        dsimp only
        rw [ho]
        simp only [Bool.false_eq_true, if_false]
        cases ha with
        | cons hq _ =>
          rw [List.cons_append]
          dsimp only
          rw [lpar_is hq.1 hu]
          rfl
  · have hk := is_other hi fun s hs => hn ⟨s, hs⟩
    unfold Pp.expandMacro
    split
    · rfl
    · unfold Pp.findMacro
      show (match (if (p.kind == _) = true then Pp.lookup st p.text else none) with | none => _ | some m => _) = _
      rw [if_neg (by simpa using hk)]

/-- A token before a list. -/
theorem Sem.cons {b full H t ts us z} (hb : full = true → b = some false) (hp : Passes (defsOf st) H t ts) (h : Sem env st (defsOf st) b full H ts us z) :
    Sem env st (defsOf st) b full H (t :: ts) (t :: us) (lastOf ts true z) := by
  intro top ps rest o ha ho hr
  cases ha with
  | @cons _ p _ ps hi ha =>
    obtain ⟨out, pre, o', a1, a2, a3, a4, a5⟩ := h top ps rest none ha ho.tail hr
    obtain ⟨b', sp, e⟩ := upd_cons o p (ps ++ rest)
    rw [List.cons_append, e]
    have hi' := is_flags hi.1 b' sp
    refine ⟨[_] ++ out, _, o', .cons ?_ a1, (Goes.pass (is_hash hi').1 (is_hash hi').2 fun n => passes_none hp hi ha b' sp _).trans a2, ?_, ?_, ?_⟩
    · exact ⟨⟨hi'.1, hi'.2.1, hi'.2.2.1, hi'.2.2.2⟩, hi.2.1⟩
    · intro h; cases h
    · intro hz
      unfold lastOf at hz
      cases ts with
      | nil => exact a3 rfl
      | cons u ts => exact a4 hz
    · intro hf
      have : b = some false := hb hf
      subst this
      obtain ⟨i1, i2⟩ := a5 hf
      have ho' : p.own = false := ho false rfl p List.mem_cons_self
      have e2 : pre = [] := i2
      subst e2
      have e3 : ([Pp.mark st { p with bol := b', sp := sp }].any (·.own)) = false := by
        rw [List.any_cons, List.any_nil, Bool.or_false]; exact ho'
      rw [e3]
      refine ⟨?_, rfl⟩
      rw [List.any_append, e3, i1]; rfl

/-- Nodes of the given list from the first one on that is passed through. -/
def TailSem (env : Pp.Env) (st : Pp.St) (D : Defs) (H : List String) (ts us : List Tok) : Prop :=
  ∀ (top : Bool) (ps rest : List PTok) (o : Option (Bool × Bool)), Each (HidT D H) ts ps → (∀ p ∈ ps, p.own = true) → rest ≠ [] →
    ∃ q out o', Each (OutT H) us (q :: out) ∧ Goes env st top (upd o (ps ++ rest)) (q :: out) [] (upd o' rest) ∧ q.own = true

theorem TailSem.cons {H t ts us z} (hp : Passes (defsOf st) H t ts) (h : Sem env st (defsOf st) none false H ts us z) :
    TailSem env st (defsOf st) H (t :: ts) (t :: us) := by
  intro top ps rest o ha ho hr
  cases ha with
  | @cons _ p _ ps hi ha =>
    obtain ⟨out, pre, o', a1, a2, a3, a4, a5⟩ := h top ps rest none ha (fun x e => by cases e) hr
    obtain ⟨b', sp, e⟩ := upd_cons o p (ps ++ rest)
    rw [List.cons_append, e]
    have hi' := is_flags hi.1 b' sp
    have ho' : p.own = true := ho p List.mem_cons_self
    have e3 : ([Pp.mark st { p with bol := b', sp := sp }].any (·.own)) = true := by
      rw [List.any_cons, List.any_nil, Bool.or_false]; exact ho'
    have hg := (Goes.pass (top := top) (is_hash hi').1 (is_hash hi').2 fun n => passes_none (rest := rest) hp hi ha b' sp (Pp.pp env n false)).trans a2
    rw [e3, if_pos rfl] at hg
    refine ⟨_, out, o', .cons ?_ a1, hg, ho'⟩
    exact ⟨⟨hi'.1, hi'.2.1, hi'.2.2.1, hi'.2.2.2⟩, hi.2.1⟩

theorem dead_sem {H : List String} : ∀ {us : List Tok}, (∀ u ∈ us, Stop (defsOf st) H u) → ∃ z, Sem env st (defsOf st) none false H us us z
  | [], _ => ⟨_, Sem.nil⟩
  | u :: us, h => by
    obtain ⟨z, hz⟩ := dead_sem (us := us) fun v hv => h v (List.mem_cons_of_mem _ hv)
    exact ⟨_, Sem.cons (fun e => by cases e) (.inl (h u List.mem_cons_self)) hz⟩

theorem Sem.weak {D b full H ts us z} (h : Sem env st D b true H ts us z) : Sem env st D b full H ts us z := by
  intro top ps rest o ha ho hr
  obtain ⟨out, pre, o', a1, a2, a3, a4, a5⟩ := h top ps rest o ha ho hr
  exact ⟨out, pre, o', a1, a2, a3, a4, fun _ => a5 rfl⟩

theorem filter_own_false : ∀ {l : List PTok}, (∀ p ∈ l, p.own = false) → l.filter (·.own) = [] ∧ l.countP (·.own) = 0
  | [], _ => ⟨rfl, rfl⟩
  | p :: l, h => by
    obtain ⟨i1, i2⟩ := filter_own_false (l := l) fun q hq => h q (List.mem_cons_of_mem _ hq)
    have := h p List.mem_cons_self
    constructor
    · rw [List.filter_cons, this]; exact i1
    · rw [List.countP_cons, this, i2]; rfl

theorem filter_own_true : ∀ {l : List PTok}, (∀ p ∈ l, p.own = true) → l.filter (·.own) = l ∧ l.countP (·.own) = l.length
  | [], _ => ⟨rfl, rfl⟩
  | p :: l, h => by
    obtain ⟨i1, i2⟩ := filter_own_true (l := l) fun q hq => h q (List.mem_cons_of_mem _ hq)
    have := h p List.mem_cons_self
    constructor
    · rw [List.filter_cons, this, if_pos rfl, i1]
    · rw [List.countP_cons, this, i2]; rfl

theorem countP_setFlags (b sp : Bool) (l : List PTok) : (Pp.setFlags b sp l).countP (·.own) = l.countP (·.own) := by
  cases l with
  | nil => rfl
  | cons p l => rw [setFlags_cons, List.countP_cons, List.countP_cons]

theorem consumed_eq {a b r : List PTok} {f : Bool × Bool} (hb : ∀ p ∈ b, p.own = false) :
    ((∀ p ∈ a, p.own = true) → Pp.consumed (a ++ r) (Pp.setFlags f.1 f.2 (b ++ r)) = a) ∧ ((∀ p ∈ a, p.own = false) → Pp.consumed (a ++ r) (Pp.setFlags f.1 f.2 (b ++ r)) = []) := by
  unfold Pp.consumed
  rw [countP_setFlags, List.countP_append, List.countP_append, (filter_own_false hb).2, List.filter_append]
  constructor
  · intro ha
    rw [(filter_own_true ha).1, (filter_own_true ha).2, show a.length + List.countP (·.own) r - (0 + List.countP (·.own) r) = a.length by omega, List.take_left']
    rfl
  · intro ha
    rw [(filter_own_false ha).1, (filter_own_false ha).2, Nat.sub_self]
    rfl

/-- A macro, with its arguments if it has any. -/
theorem Sem.chunk {D b full H ts us z s body}
    (hx : ∀ (ps rest : List PTok), Each (HidT D H) ts ps → rest ≠ [] → ∃ q l qs N, ps = q :: l ∧ q.isEof = false ∧ Each (HidT D (s :: H)) body qs ∧ (∀ p ∈ qs, p.own = false) ∧
      ∀ b sp n, N ≤ n → Pp.expandMacro env (Pp.pp env n false) st { q with bol := b, sp := sp } (l ++ rest) = .ok (some (st, Pp.setFlags b sp (qs ++ rest))))
    (hb : Sem env st D (some false) true (s :: H) body us z) : Sem env st D b full H ts us z := by
  refine Sem.weak ?_
  intro top ps rest o ha ho hr
  obtain ⟨q, l, qs, N, rfl, he, h1, h2, h3⟩ := hx ps rest ha hr
  obtain ⟨b', sp, e⟩ := upd_cons o q (l ++ rest)
  obtain ⟨out, pre, o', a1, a2, a3, a4, a5⟩ := hb top qs rest (some (b', sp)) h1 (fun x e => by cases e; exact h2) hr
  rw [List.cons_append, e]
  obtain ⟨i1, i2⟩ := a5 rfl
  have e2 : pre = [] := i2
  subst e2
  have hg := (Goes.expand (top := top) (q := { q with bol := b', sp := sp }) (by exact he) fun n hn => h3 b' sp n hn).trans a2
  simp only [List.nil_append, List.any_nil, Bool.false_eq_true, if_false, List.append_nil] at hg
  refine ⟨out, _, o', a1.imp fun t p _ h => ⟨h.1, fun s' hs' => h.2 s' (List.mem_cons_of_mem _ hs')⟩, hg, ?_, a4, fun _ => ⟨i1, ?_⟩⟩
  · intro h; subst h; cases ha
  · have hc := consumed_eq (a := { q with bol := b', sp := sp } :: l) (r := rest) (f := (b', sp)) h2
    match b with
    | none => trivial
    | some true =>
      have hown : ∀ p ∈ ({ q with bol := b', sp := sp } :: l : List PTok), p.own = true := by
        intro p hp
        rcases List.mem_cons.mp hp with rfl | hp
        · exact ho _ rfl q List.mem_cons_self
        · exact ho _ rfl p (List.mem_cons_of_mem _ hp)
      have h4 := hc.1 hown
      rw [List.cons_append] at h4
      rw [h4]
      refine ⟨?_, hown⟩
      cases ha with
      | cons h h' => exact .cons (h.flags b' sp) h'
    | some false =>
      have h4 := hc.2 (by
        intro p hp
        rcases List.mem_cons.mp hp with rfl | hp
        · exact ho _ rfl q List.mem_cons_self
        · exact ho _ rfl p (List.mem_cons_of_mem _ hp))
      rw [List.cons_append] at h4
      rw [h4]
      rfl

end

end Toycc.Src
