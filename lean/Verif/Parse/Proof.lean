import Verif.Parse.Spec
/-! Proof of the round trip of expressions. -/
namespace Toycc.Parse

variable {T : Type}

/-- With enough recursion depth the result is `x`. -/
def Y {α : Type} (g : Nat → Except PErr α) (x : α) : Prop := ∃ n, ∀ f, n ≤ f → g f = .ok x

theorem Y.step {α : Type} {g h : Nat → Except PErr α} {x : α} (e : ∀ f, g (f + 1) = h f) (hy : Y h x) : Y g x := by
  obtain ⟨n, hn⟩ := hy
  refine ⟨n + 1, fun f hf => ?_⟩
  obtain ⟨f, rfl⟩ : ∃ k, f = k + 1 := ⟨f - 1, by omega⟩
  rw [e]
  exact hn f (by omega)

theorem Y.bind {α β : Type} {a : Nat → Except PErr α} {k : Nat → α → Except PErr β} {x : α} {y : β} (ha : Y a x)
    (hk : Y (fun f => k f x) y) : Y (fun f => a f >>= k f) y := by
  obtain ⟨n, hn⟩ := ha
  obtain ⟨m, hm⟩ := hk
  refine ⟨max n m, fun f hf => ?_⟩
  simp only [hn f (by omega)]
  exact hm f (by omega)

theorem Y.ret {α : Type} (x : α) : Y (fun _ => .ok x) x := ⟨0, fun _ _ => rfl⟩

theorem Y.skip {β : Type} {k : Nat → List Tok → Except PErr β} {ts : List Tok} {q : P} (r : List Tok) {y : β} (e : ts = .p q :: r)
    (hk : Y (fun f => k f r) y) : Y (fun f => Parse.skip ts q >>= k f) y := by
  subst e
  have : Parse.skip (.p q :: r) q = .ok r := by simp [Parse.skip]
  rw [this]
  exact hk

theorem Y.of_eq {α : Type} {g h : Nat → Except PErr α} {x : α} (e : ∀ f, g f = h f) (hy : Y h x) : Y g x := by
  obtain ⟨n, hn⟩ := hy
  exact ⟨n, fun f hf => by rw [e]; exact hn f hf⟩

/-- The production whose loop or test a token goes on. -/
def tokLevel : Tok → Option Nat
  | .p .lpar | .p .lbrk | .p .dot | .p .arrow | .p .inc | .p .dec => some 15
  | .p .star | .p .slash | .p .percent => some 12
  | .p .plus | .p .minus => some 11
  | .p .shl | .p .shr => some 10
  | .p .lt | .p .le | .p .gt | .p .ge => some 9
  | .p .eqeq | .p .ne => some 8
  | .p .amp => some 7
  | .p .caret => some 6
  | .p .bar => some 5
  | .p .ampamp => some 4
  | .p .barbar => some 3
  | .p .quest => some 2
  | .p .eq | .p .pluseq | .p .minuseq | .p .stareq | .p .slasheq | .p .percenteq | .p .ampeq | .p .bareq | .p .careteq
  | .p .shleq | .p .shreq => some 1
  | .p .comma => some 0
  | _ => none

/-- Nothing in `ts` goes on an expression at production `k`. -/
def stops (k : Nat) (ts : List Tok) : Prop := ∀ t r, ts = t :: r → ∀ j, tokLevel t = some j → j < k

theorem stops.mono {k l : Nat} {ts : List Tok} (h : stops k ts) (hk : k ≤ l) : stops l ts := fun t r e j hj => by
  have := h t r e j hj; omega

theorem opAt_level {k : Nat} {t : Tok} {op : BOp} (h : opAt k t = some op) : tokLevel t = some k := by
  unfold opAt at h
  split at h <;> simp [tokLevel] at h ⊢

theorem opAt_tok (op : BOp) : opAt op.prec op.tok = some op := by cases op <;> rfl

theorem assignOp_level {t : Tok} {op : AOp} (h : assignOp t = some op) : tokLevel t = some 1 := by
  unfold assignOp at h
  split at h <;> simp [tokLevel] at h ⊢

theorem assignOp_tok {op : AOp} {t : Tok} (h : op.tok = some t) : assignOp t = some op := by
  rcases op with _ | op
  · cases h; rfl
  · cases op <;> cases h <;> rfl

theorem prec_range (op : BOp) : 3 ≤ op.prec ∧ op.prec ≤ 12 := by cases op <;> decide

theorem tok_stops (op : BOp) (r : List Tok) : stops (op.prec + 1) (op.tok :: r) := by
  intro t r' e j hj
  cases e
  cases op <;> cases hj <;> decide

theorem stops_p {k : Nat} {q : Tok} (r : List Tok) (h : ∀ j, tokLevel q = some j → j < k) : stops k (q :: r) := by
  intro t r' e; cases e; exact h

variable (O : Oracle T)

/-- The functions of the parser by production. -/
def parseAt (k f : Nat) (ts : List Tok) : Except PErr (Tree T × List Tok) :=
  if k = 0 then expr O f ts
  else if k = 1 then assign O f ts
  else if k = 2 then conditional O f ts
  else if k ≤ 12 then binary O f k ts
  else if k = 13 then cast O f ts
  else if k = 14 then unary O f ts
  else postfixE O f ts

theorem parseAt_bin {k : Nat} (h1 : 3 ≤ k) (h2 : k ≤ 12) (f : Nat) (ts : List Tok) : parseAt O k f ts = binary O f k ts := by
  unfold parseAt
  rw [if_neg (by omega), if_neg (by omega), if_neg (by omega), if_pos h2]

/-- The tokens `s` are parsed as `t` where production `k` is wanted. -/
def PS (k : Nat) (s : List Tok) (t : Tree T) : Prop := ∀ rest, stops k rest → Y (fun f => parseAt O k f (s ++ rest)) (t, rest)

/-- After the tokens `s`, the loop of production `k` is reached with the tree `t`. -/
def A (k : Nat) (s : List Tok) (t : Tree T) : Prop :=
  ∀ rest y, stops (k + 1) rest → Y (fun f => loop O f k t rest) y → Y (fun f => binary O f k (s ++ rest)) y
def A15 (s : List Tok) (t : Tree T) : Prop :=
  ∀ rest y, Y (fun f => tails O f t rest) y → Y (fun f => postfixE O f (s ++ rest)) y

theorem loop_stop {k : Nat} {n : Tree T} {rest : List Tok} (h : stops k rest) : Y (fun f => loop O f k n rest) (n, rest) := by
  apply Y.step (h := fun _ => .ok (n, rest))
  · intro f
    cases rest with
    | nil => rfl
    | cons t r =>
      have : opAt k t = none := by
        cases ho : opAt k t with
        | none => rfl
        | some op => have := h t r rfl k (opAt_level ho); omega
      simp only [loop, this]
  · exact Y.ret _

theorem tails_stop {n : Tree T} {rest : List Tok} (h : stops 15 rest) : Y (fun f => tails O f n rest) (n, rest) := by
  apply Y.step (h := fun _ => .ok (n, rest))
  · intro f
    cases rest with
    | nil => rfl
    | cons t r =>
      have := h t r rfl
      unfold tails
      split <;> simp_all [tokLevel]
  · exact Y.ret _

theorem A_of_PS {k : Nat} (h1 : 3 ≤ k) (h2 : k ≤ 12) {s : List Tok} {t : Tree T} (h : PS O (k + 1) s t) : A O k s t := by
  intro rest y hs hy
  apply Y.step (h := fun f => binary O f (k + 1) (s ++ rest) >>= fun z => loop O f k z.1 z.2)
  · intro f
    rw [binary, if_neg (by omega)]
  refine Y.bind (x := (t, rest)) ?_ hy
  have hp := h rest hs
  by_cases h12 : k = 12
  · subst h12
    apply Y.step (h := fun f => cast O f (s ++ rest))
    · intro f; rw [binary, if_pos (by omega)]
    · exact hp
  · exact hp.of_eq fun f => (parseAt_bin O (by omega) (by omega) f _).symm

theorem PS_of_A {k : Nat} (h1 : 3 ≤ k) (h2 : k ≤ 12) {s : List Tok} {t : Tree T} (h : A O k s t) : PS O k s t := by
  intro rest hs
  exact (h rest (t, rest) (hs.mono (by omega)) (loop_stop O hs)).of_eq fun f => parseAt_bin O h1 h2 f _

theorem PS2_of_PS3 {s : List Tok} {t : Tree T} (h : PS O 3 s t) : PS O 2 s t := by
  intro rest hs
  apply Y.step (g := fun f => parseAt O 2 f (s ++ rest)) (h := fun f => binary O f 3 (s ++ rest) >>= fun z => match z.2 with
    | .p .quest :: .p .colon :: r => do
      let (b, ts) ← conditional O f r
      .ok (.elvis z.1 b, ts)
    | .p .quest :: r => do
      let (a, ts) ← expr O f r
      let ts ← skip ts .colon
      let (b, ts) ← conditional O f ts
      .ok (.cond z.1 a b, ts)
    | ts => .ok (z.1, ts))
  · intro f; rfl
  refine Y.bind (x := (t, rest)) ((h rest (hs.mono (by omega))).of_eq fun f => (parseAt_bin O (by omega) (by omega) f _).symm) ?_
  simp only
  split
  · have := hs _ _ rfl 2 rfl; omega
  · have := hs _ _ rfl 2 rfl; omega
  · exact Y.ret _

theorem PS1_of_PS2 {s : List Tok} {t : Tree T} (h : PS O 2 s t) : PS O 1 s t := by
  intro rest hs
  apply Y.step (g := fun f => parseAt O 1 f (s ++ rest)) (h := fun f => conditional O f (s ++ rest) >>= fun z => match z.2 with
    | t :: r =>
      match assignOp t with
      | some op => do
        let (m, ts) ← assign O f r
        .ok (.assign op z.1 m, ts)
      | none => .ok (z.1, t :: r)
    | [] => .ok (z.1, []))
  · intro f; rfl
  refine Y.bind (x := (t, rest)) ((h rest (hs.mono (by omega))).of_eq fun f => rfl) ?_
  cases rest with
  | nil => exact Y.ret _
  | cons a r =>
    have : assignOp a = none := by
      cases ho : assignOp a with
      | none => rfl
      | some op => have := hs a r rfl 1 (assignOp_level ho); omega
    simp only [this]
    exact Y.ret _

theorem PS0_of_PS1 {s : List Tok} {t : Tree T} (h : PS O 1 s t) : PS O 0 s t := by
  intro rest hs
  apply Y.step (g := fun f => parseAt O 0 f (s ++ rest)) (h := fun f => assign O f (s ++ rest) >>= fun z => match z.2 with
    | .p .comma :: r => do
      let (m, ts) ← expr O f r
      .ok (.comma z.1 m, ts)
    | ts => .ok (z.1, ts))
  · intro f; rfl
  refine Y.bind (x := (t, rest)) ((h rest (hs.mono (by omega))).of_eq fun f => rfl) ?_
  simp only
  split
  · have := hs _ _ rfl 0 rfl; omega
  · exact Y.ret _

/-- `s` does not start with a parenthesised type name. -/
def NT (s : List Tok) : Prop := ∀ rest, opensType O (s ++ rest) = false

/-- `s` does not start with a prefix operator. -/
def NP (s : List Tok) : Prop := ∃ a r, s = a :: r ∧ prefixCast a = none ∧ prefixUnary a = none ∧ a ≠ .p .ampamp

theorem PS15_of_A15 {s : List Tok} {t : Tree T} (h : A15 O s t) : PS O 15 s t := by
  intro rest hs
  exact (h rest (t, rest) (tails_stop O hs)).of_eq fun f => rfl

theorem PS14_of_PS15 {s : List Tok} {t : Tree T} (hn : NP s) (h : PS O 15 s t) : PS O 14 s t := by
  intro rest hs
  obtain ⟨a, r, rfl, h1, h2, h3⟩ := hn
  apply Y.step (g := fun f => parseAt O 14 f (a :: r ++ rest)) (h := fun f => postfixE O f (a :: r ++ rest))
  · intro f
    show unary O (f + 1) (a :: (r ++ rest)) = _
    simp only [unary, h1, h2, if_neg h3]
    rfl
  · exact (h rest (hs.mono (by omega))).of_eq fun f => rfl

theorem PS13_of_PS14 {s : List Tok} {t : Tree T} (hn : NT O s) (h : PS O 14 s t) : PS O 13 s t := by
  intro rest hs
  apply Y.step (g := fun f => parseAt O 13 f (s ++ rest)) (h := fun f => unary O f (s ++ rest))
  · intro f
    show cast O (f + 1) (s ++ rest) = _
    rw [cast, hn rest]
    rfl
  · exact (h rest (hs.mono (by omega))).of_eq fun f => rfl

/-- From a production to the outer ones. -/
theorem PS_down {s : List Tok} {t : Tree T} : ∀ d k, k + d ≤ 13 → PS O (k + d) s t → PS O k s t
  | 0, k, _, h => h
  | d + 1, k, hk, h => by
    have h' : PS O (k + d) s t := by
      rcases Nat.lt_or_ge (k + d) 3 with hlt | hge
      · have h3 : PS O (k + d + 1) s t := h
        have : k + d = 0 ∨ k + d = 1 ∨ k + d = 2 := by omega
        rcases this with e | e | e <;> rw [e] at h3 ⊢
        · exact PS0_of_PS1 O h3
        · exact PS1_of_PS2 O h3
        · exact PS2_of_PS3 O h3
      · exact PS_of_A O hge (by omega) (A_of_PS O hge (by omega) h)
    exact PS_down d k (by omega) h'

theorem PS_le {s : List Tok} {t : Tree T} {k l : Nat} (hk : k ≤ l) (hl : l ≤ 13) (h : PS O l s t) : PS O k s t :=
  PS_down O (l - k) k (by omega) (by rw [show k + (l - k) = l by omega]; exact h)

/-- Tokens that can start an expression. -/
def starter : Tok → Bool
  | .ident _ | .num _ | .tnum _ _ | .str _ | .kw _ => true
  | .p .lpar | .p .minus | .p .amp | .p .star | .p .bang | .p .tilde | .p .inc | .p .dec | .p .ampamp => true
  | _ => false

/-- What is known of the first tokens `s` of a tree of production `q`. -/
structure First (q : Nat) (s : List Tok) : Prop where
  head : ∃ a r, s = a :: r ∧ starter a = true ∧ O.isType a = false
  nt : 14 ≤ q → NT O s
  np : 15 ≤ q → NP s

theorem lpar_notType (hO : ∀ t, O.isType t = true → (∃ s, t = .ident s) ∨ (∃ s, t = .kw s ∧ s ≠ "sizeof" ∧ s ≠ "_Alignof")) (q : P) :
    O.isType (.p q) = false := by
  cases h : O.isType (.p q) with
  | false => rfl
  | true => rcases hO _ h with ⟨s, h⟩ | ⟨s, h, _⟩ <;> cases h

/-- A parenthesised tree is a primary expression. -/
theorem A15_paren {s : List Tok} {t : Tree T} (hf : ∃ a r, s = a :: r ∧ starter a = true ∧ O.isType a = false) (h : PS O 0 s t) :
    A15 O (.p .lpar :: (s ++ [.p .rpar])) t := by
  intro rest y hy
  obtain ⟨a, r, rfl, ha, hty⟩ := hf
  have hlb : a ≠ .p .lbrace := by rintro rfl; simp [starter] at ha
  apply Y.step (h := fun f => primary O f (.p .lpar :: (a :: r ++ [.p .rpar]) ++ rest) >>= fun z => tails O f z.1 z.2)
  · intro f
    rw [postfixE]
    have : opensType O (.p .lpar :: (a :: r ++ [.p .rpar]) ++ rest) = false := hty
    rw [this]
    rfl
  refine Y.bind (x := (t, rest)) ?_ hy
  apply Y.step (h := fun f => expr O f (a :: r ++ .p .rpar :: rest) >>= fun z => skip z.2 .rpar >>= fun ts => .ok (z.1, ts))
  · intro f
    have : (.p .lpar :: (a :: r ++ [.p .rpar]) ++ rest : List Tok) = .p .lpar :: (a :: r ++ .p .rpar :: rest) := by simp
    rw [this]
    simp only [List.cons_append]
    rw [primary]
    intro r' e; injection e with e _; exact hlb e
  refine Y.bind (x := (t, Tok.p .rpar :: rest)) ?_ (Y.skip _ rfl (Y.ret _))
  exact (h (.p .rpar :: rest) (stops_p _ (by intro j hj; cases hj))).of_eq fun f => rfl

/-- What is proved of the tokens `s` of a tree `t` of production `q`. -/
structure G (q : Nat) (s : List Tok) (t : Tree T) : Prop where
  ps : ∀ p, p ≤ q → p ≤ 15 → PS O p s t
  a : ∀ k, k ≤ q → 3 ≤ k → k ≤ 12 → A O k s t
  a15 : 15 ≤ q → A15 O s t
  first : First O q s

theorem G.outer {p q : Nat} {s : List Tok} {t : Tree T} (h : G O q s t) (hp : p ≤ q) : G O p s t :=
  ⟨fun k hk => h.ps k (by omega), fun k hk => h.a k (by omega), fun hk => h.a15 (by omega),
    ⟨h.first.head, fun hk => h.first.nt (by omega), fun hk => h.first.np (by omega)⟩⟩

/-- From the tokens of the tree at its own production to all uses of it. -/
theorem G_of {q : Nat} {s : List Tok} {t : Tree T} (hf : First O q s)
    (h15 : 15 ≤ q → A15 O s t) (hbin : 3 ≤ q → q ≤ 12 → A O q s t)
    (hps : q < 15 → PS O q s t) : G O q s t := by
  have hself : ∀ p, p ≤ q → p ≤ 15 → PS O p s t := by
    intro p hp hp15
    rcases Nat.lt_or_ge q 14 with hl | hl
    · exact PS_le O hp (by omega) (hps (by omega))
    · have h14 : PS O 14 s t := by
        rcases Nat.lt_or_ge q 15 with hl2 | hl2
        · have := hps hl2; rwa [show q = 14 by omega] at this
        · exact PS14_of_PS15 O (hf.np hl2) (PS15_of_A15 O (h15 hl2))
      rcases Nat.lt_or_ge p 15 with hp2 | hp2
      · rcases Nat.lt_or_ge p 14 with hp3 | hp3
        · exact PS_le O (l := 13) (by omega) (by omega) (PS13_of_PS14 O (hf.nt hl) h14)
        · rw [show p = 14 by omega]; exact h14
      · rw [show p = 15 by omega]; exact PS15_of_A15 O (h15 (by omega))
  refine ⟨hself, fun k hk h3 h12 => ?_, h15, hf⟩
  rcases Nat.lt_or_ge k q with hl | hl
  · exact A_of_PS O h3 h12 (hself (k + 1) (by omega) (by omega))
  · have e : k = q := by omega
    rw [e]; exact hbin (by omega) (by omega)

theorem G_par {s : List Tok} {t : Tree T} (hl : ∀ q : P, O.isType (.p q) = false) (h : G O 0 s t) : G O 16 (.p .lpar :: (s ++ [.p .rpar])) t := by
  refine G_of O ⟨⟨_, _, rfl, rfl, hl _⟩, fun _ => ?_, fun _ => ⟨_, _, rfl, rfl, rfl, by decide⟩⟩
    (fun _ => A15_paren O h.first.head (h.ps 0 (by omega) (by omega))) (fun _ h => absurd h (by omega)) (fun h => absurd h (by omega))
  obtain ⟨a, r, e, ha, hty⟩ := h.first.head
  intro rest
  rw [e]
  exact hty

theorem G.first15 {t : Tree T} {s : List Tok} (h : G O 15 s t) (u : List Tok) : NT O (s ++ u) ∧ NP (s ++ u) := by
  have hn := h.first.nt (by omega)
  obtain ⟨a', r', e', h1, h2, h3⟩ := h.first.np (by omega)
  refine ⟨?_, a', r' ++ u, by rw [e']; rfl, h1, h2, h3⟩
  intro rest
  rw [List.append_assoc]
  exact hn _

end Toycc.Parse
