import Verif.Parse.Props
/-! C43, the other direction: what the parser accepts. -/
namespace Toycc.Parse

variable {T : Type} (O : Oracle T)

theorem opAt_some {k : Nat} {t : Tok} {op : BOp} (h : opAt k t = some op) : op.prec = k ∧ op.tok = t := by
  unfold opAt at h
  split at h <;> cases h <;> exact ⟨rfl, rfl⟩

theorem assignOp_some {t : Tok} {op : AOp} (h : assignOp t = some op) : AOp.tok op = some t := by
  unfold assignOp at h
  split at h <;> cases h <;> rfl

theorem prefixCast_some {t : Tok} {op : Option UOp} (h : prefixCast t = some op) : (op = none ∧ t = .p .plus) ∨ ∃ o, op = some o ∧ o.operand = 13 ∧ o.tok = t := by
  unfold prefixCast at h
  split at h <;> cases h
  · exact .inl ⟨rfl, rfl⟩
  all_goals exact .inr ⟨_, rfl, rfl, rfl⟩

theorem prefixUnary_some {t : Tok} {op : UOp} (h : prefixUnary t = some op) : op.operand = 14 ∧ op.tok = t := by
  unfold prefixUnary at h
  split at h <;> cases h <;> exact ⟨rfl, rfl⟩

theorem skip_ok {ts r : List Tok} {q : P} (h : skip ts q = .ok r) : ts = .p q :: r := by
  unfold skip at h
  split at h
  · split at h
    · rename_i e; cases h; rw [e]
    · cases h
  · cases h

theorem opens_lpar {ts : List Tok} (h : opensType O ts = true) : ts = .p .lpar :: ts.tail := by
  unfold opensType at h
  split at h
  · rfl
  · cases h

theorem bind_ok {α β ε : Type} {x : Except ε α} {k : α → Except ε β} {b : β} (h : (x >>= k) = .ok b) : ∃ a, x = .ok a ∧ k a = .ok b := by
  cases x with
  | error _ => cases h
  | ok a => exact ⟨a, rfl, h⟩

/-- What the parser has read. -/
def Read (tn : T → List Tok) (p : Nat) (ts : List Tok) (z : Tree T × List Tok) : Prop := ∃ s, ts = s ++ z.2 ∧ Derives O tn true p z.1 s

/-- What a loop has read after `s0`, which makes `n`. -/
def More (tn : T → List Tok) (p : Nat) (n : Tree T) (ts : List Tok) (z : Tree T × List Tok) : Prop :=
  ∀ s0, Derives O tn true p n s0 → ∃ s, ts = s ++ z.2 ∧ Derives O tn true p z.1 (s0 ++ s)

structure Acc (tn : T → List Tok) (f : Nat) : Prop where
  expr : ∀ {ts z}, expr O f ts = .ok z → Read O tn 0 ts z
  assign : ∀ {ts z}, assign O f ts = .ok z → Read O tn 1 ts z
  conditional : ∀ {ts z}, conditional O f ts = .ok z → Read O tn 2 ts z
  binary : ∀ {k ts z}, k ≤ 13 → binary O f k ts = .ok z → Read O tn k ts z
  loop : ∀ {k n ts z}, k ≤ 12 → loop O f k n ts = .ok z → More O tn k n ts z
  cast : ∀ {ts z}, cast O f ts = .ok z → Read O tn 13 ts z
  unary : ∀ {ts z}, unary O f ts = .ok z → Read O tn 14 ts z
  postfixE : ∀ {ts z}, postfixE O f ts = .ok z → Read O tn 15 ts z
  tails : ∀ {n ts z}, tails O f n ts = .ok z → More O tn 15 n ts z
  args : ∀ {first ts z}, args O f first ts = .ok z → ∃ s, ts = s ++ .p .rpar :: z.2 ∧ DerivesArgs O tn true first z.1 s
  primary : ∀ {ts z}, primary O f ts = .ok z → Read O tn 16 ts z

theorem More.cons {tn : T → List Tok} {p : Nat} {n n' : Tree T} {ts ts' u : List Tok} {z : Tree T × List Tok} (h : More O tn p n' ts' z)
    (hd : ∀ s0, Derives O tn true p n s0 → Derives O tn true p n' (s0 ++ u)) (e : ts = u ++ ts') : More O tn p n ts z := by
  intro s0 d
  obtain ⟨s, e', d'⟩ := h _ (hd _ d)
  exact ⟨u ++ s, by rw [e, e', List.append_assoc], by rw [← List.append_assoc]; exact d'⟩

theorem acc {tn : T → List Tok} (hT : ∀ ts t r, O.typename ts = .ok (t, r) → ts = tn t ++ r) : ∀ f, Acc O tn f
  | 0 => by
    constructor <;> intros <;> rename_i h <;> first
      | (rw [expr] at h; cases h) | (rw [assign] at h; cases h) | (rw [conditional] at h; cases h) | (rw [binary] at h; cases h) | (rw [loop] at h; cases h)
      | (rw [cast] at h; cases h) | (rw [unary] at h; cases h) | (rw [postfixE] at h; cases h) | (rw [tails] at h; cases h) | (rw [args] at h; cases h)
      | (rw [primary] at h; cases h)
  | f + 1 => by
    have ih := acc hT f
    constructor
    · intro ts z h
      rw [expr] at h
      obtain ⟨⟨n, ts1⟩, h1, h⟩ := bind_ok h
      obtain ⟨s, e, d⟩ := ih.assign h1
      dsimp only at h e d
      split at h
      · obtain ⟨⟨m, ts2⟩, h2, h⟩ := bind_ok h
        obtain ⟨s2, e2, d2⟩ := ih.expr h2
        cases h
        exact ⟨_, by rw [e, e2]; simp, .comma d d2⟩
      · cases h
        exact ⟨s, e, .outer d (by omega)⟩
    · intro ts z h
      rw [assign] at h
      obtain ⟨⟨n, ts1⟩, h1, h⟩ := bind_ok h
      obtain ⟨s, e, d⟩ := ih.conditional h1
      dsimp only at h e d
      split at h
      · split at h
        · rename_i op ho
          obtain ⟨⟨m, ts2⟩, h2, h⟩ := bind_ok h
          obtain ⟨s2, e2, d2⟩ := ih.assign h2
          cases h
          exact ⟨_, by rw [e, e2]; simp, .assignTo rfl (assignOp_some ho) d d2⟩
        · cases h
          exact ⟨s, e, .outer d (by omega)⟩
      · cases h
        exact ⟨s, e, .outer d (by omega)⟩
    · intro ts z h
      rw [conditional] at h
      obtain ⟨⟨n, ts1⟩, h1, h⟩ := bind_ok h
      obtain ⟨s, e, d⟩ := ih.binary (by omega) h1
      dsimp only at h e d
      split at h
      · obtain ⟨⟨m, ts2⟩, h2, h⟩ := bind_ok h
        obtain ⟨s2, e2, d2⟩ := ih.conditional h2
        cases h
        exact ⟨_, by rw [e, e2]; simp, .elvis d d2⟩
      · obtain ⟨⟨m, ts2⟩, h2, h⟩ := bind_ok h
        obtain ⟨s2, e2, d2⟩ := ih.expr h2
        obtain ⟨ts3, h3, h⟩ := bind_ok h
        obtain ⟨⟨b, ts4⟩, h4, h⟩ := bind_ok h
        obtain ⟨s4, e4, d4⟩ := ih.conditional h4
        have e3 := skip_ok h3
        cases h
        dsimp only at e2 e3 e4
        exact ⟨_, by rw [e, e2, e3, e4]; simp, .cond d d2 d4⟩
      · cases h
        exact ⟨s, e, .outer d (by omega)⟩
    · intro k ts z hk h
      rw [binary] at h
      split at h
      · have : k = 13 := by omega
        subst this
        exact ih.cast h
      · obtain ⟨⟨n, ts1⟩, h1, h⟩ := bind_ok h
        obtain ⟨s, e, d⟩ := ih.binary (by omega) h1
        obtain ⟨s2, e2, d2⟩ := ih.loop (by omega) h s (.outer d (by omega))
        exact ⟨_, by rw [e]; dsimp only; rw [e2, List.append_assoc], d2⟩
    · intro k n ts z hk h
      rw [loop.eq_def] at h
      dsimp only at h
      split at h
      · split at h
        · rename_i op ho
          obtain ⟨rfl, rfl⟩ := opAt_some ho
          obtain ⟨⟨m, ts2⟩, h2, h⟩ := bind_ok h
          obtain ⟨s2, e2, d2⟩ := ih.binary (by omega) h2
          refine (ih.loop hk h).cons O (u := op.tok :: s2) (fun s0 d => .bin d d2) ?_
          rw [e2]; simp
        · cases h
          exact fun s0 d => ⟨[], rfl, by rw [List.append_nil]; exact d⟩
      · cases h
        exact fun s0 d => ⟨[], rfl, by rw [List.append_nil]; exact d⟩
    · intro ts z h
      rw [cast] at h
      split at h
      · rename_i ho
        obtain ⟨⟨t, ts1⟩, h1, h⟩ := bind_ok h
        obtain ⟨ts2, h2, h⟩ := bind_ok h
        split at h
        · cases h
        · obtain ⟨⟨m, ts3⟩, h3, h⟩ := bind_ok h
          obtain ⟨s3, e3, d3⟩ := ih.cast h3
          have e1 := hT _ _ _ h1
          have e2 := skip_ok h2
          cases h
          dsimp only at e1 e2 e3
          exact ⟨_, by rw [opens_lpar O ho, e1, e2, e3]; simp, .cast d3⟩
      · obtain ⟨s, e, d⟩ := ih.unary h
        exact ⟨s, e, .outer d (by omega)⟩
    · intro ts z h
      rw [unary.eq_def] at h
      dsimp only at h
      split at h
      · split at h
        · rename_i op ho
          obtain ⟨⟨m, ts2⟩, h2, h⟩ := bind_ok h
          obtain ⟨s2, e2, d2⟩ := ih.cast h2
          cases h
          rcases prefixCast_some ho with ⟨rfl, rfl⟩ | ⟨o, rfl, h13, rfl⟩
          · exact ⟨_, by rw [e2]; rfl, .plus rfl d2⟩
          · exact ⟨_, by rw [e2]; rfl, .un (by rw [h13]; exact d2)⟩
        · split at h
          · rename_i op ho
            obtain ⟨⟨m, ts2⟩, h2, h⟩ := bind_ok h
            obtain ⟨s2, e2, d2⟩ := ih.unary h2
            cases h
            obtain ⟨h14, rfl⟩ := prefixUnary_some ho
            exact ⟨_, by rw [e2]; rfl, .un (by rw [h14]; exact d2)⟩
          · split at h
            · rename_i e
              split at h
              · cases h
                exact ⟨_, by rw [e]; rfl, .labelVal _⟩
              · cases h
            · obtain ⟨s, e, d⟩ := ih.postfixE h
              exact ⟨s, e, .outer d (by omega)⟩
      · cases h
    · intro ts z h
      rw [postfixE] at h
      split at h
      · cases h
      · obtain ⟨⟨m, ts1⟩, h1, h⟩ := bind_ok h
        obtain ⟨s, e, d⟩ := ih.primary h1
        obtain ⟨s2, e2, d2⟩ := ih.tails h s (.outer d (by omega))
        exact ⟨_, by rw [e]; dsimp only; rw [e2, List.append_assoc], d2⟩
    · intro n ts z h
      rw [tails.eq_def] at h
      dsimp only at h
      split at h
      · obtain ⟨⟨as, ts1⟩, h1, h⟩ := bind_ok h
        obtain ⟨s, e, d⟩ := ih.args h1
        refine (ih.tails h).cons O (u := .p .lpar :: (s ++ [.p .rpar])) (fun s0 d0 => .call d0 d) ?_
        rw [e]; simp
      · obtain ⟨⟨i, ts1⟩, h1, h⟩ := bind_ok h
        obtain ⟨s, e, d⟩ := ih.expr h1
        obtain ⟨ts2, h2, h⟩ := bind_ok h
        have e2 := skip_ok h2
        dsimp only at e2
        refine (ih.tails h).cons O (u := .p .lbrk :: (s ++ [.p .rbrk])) (fun s0 d0 => .index d0 d) ?_
        rw [e, e2]; simp
      · exact (ih.tails h).cons O (fun s0 d0 => .member d0) rfl
      · exact (ih.tails h).cons O (fun s0 d0 => .arrow d0) rfl
      · cases h
      · cases h
      · exact (ih.tails h).cons O (fun s0 d0 => .postinc d0) rfl
      · exact (ih.tails h).cons O (fun s0 d0 => .postdec d0) rfl
      · cases h
        exact fun s0 d => ⟨[], rfl, by rw [List.append_nil]; exact d⟩
    · intro first ts z h
      rw [args] at h
      split at h
      · rename_i ho
        cases h
        cases ts with
        | nil => cases ho
        | cons a r => injection ho with ho; exact ⟨[], by rw [ho]; rfl, .nil _⟩
      · have h : ((if first then .ok ts else skip ts .comma) >>= fun ts => assign O f ts >>= fun z => args O f false z.2 >>= fun w => .ok (.cons z.1 w.1, w.2)) = .ok z := by
          cases first <;> exact h
        obtain ⟨ts1, h1, h⟩ := bind_ok h
        obtain ⟨⟨m, ts2⟩, h2, h⟩ := bind_ok h
        obtain ⟨⟨es, ts3⟩, h3, h⟩ := bind_ok h
        obtain ⟨s2, e2, d2⟩ := ih.assign h2
        obtain ⟨s3, e3, d3⟩ := ih.args h3
        cases h
        refine ⟨_, ?_, .cons d2 d3⟩
        dsimp only at e2 e3
        cases first with
        | true => cases h1; rw [e2, e3]; simp
        | false => rw [skip_ok h1, e2, e3]; simp
    · intro ts z h
      rw [primary.eq_def] at h
      dsimp only at h
      split at h
      · cases h
      · obtain ⟨⟨i, ts1⟩, h1, h⟩ := bind_ok h
        obtain ⟨s, e, d⟩ := ih.expr h1
        obtain ⟨ts2, h2, h⟩ := bind_ok h
        have e2 := skip_ok h2
        cases h
        dsimp only at e2
        exact ⟨_, by rw [e, e2]; simp, .par d⟩
      · split at h
        · rename_i ho
          obtain ⟨⟨t, ts1⟩, h1, h⟩ := bind_ok h
          obtain ⟨ts2, h2, h⟩ := bind_ok h
          have e1 := hT _ _ _ h1
          have e2 := skip_ok h2
          cases h
          dsimp only at e1 e2
          exact ⟨_, by rw [opens_lpar O ho, e1, e2]; simp, .ofType rfl (.inl ⟨rfl, rfl⟩)⟩
        · obtain ⟨⟨m, ts2⟩, h2, h⟩ := bind_ok h
          obtain ⟨s2, e2, d2⟩ := ih.unary h2
          cases h
          exact ⟨_, by rw [e2]; rfl, .ofExpr rfl (.inl rfl) d2⟩
      · split at h
        · rename_i ho
          obtain ⟨⟨t, ts1⟩, h1, h⟩ := bind_ok h
          obtain ⟨ts2, h2, h⟩ := bind_ok h
          have e1 := hT _ _ _ h1
          have e2 := skip_ok h2
          cases h
          dsimp only at e1 e2
          exact ⟨_, by rw [opens_lpar O ho, e1, e2]; simp, .ofType rfl (.inr ⟨rfl, rfl⟩)⟩
        · obtain ⟨⟨m, ts2⟩, h2, h⟩ := bind_ok h
          obtain ⟨s2, e2, d2⟩ := ih.unary h2
          cases h
          exact ⟨_, by rw [e2]; rfl, .ofExpr rfl (.inr rfl) d2⟩
      · cases h
      · cases h; exact ⟨_, rfl, .ident (.inr rfl)⟩
      · cases h; exact ⟨_, rfl, .str _⟩
      · cases h; exact ⟨_, rfl, .num _⟩
      · cases h; exact ⟨_, rfl, .tnum _ _⟩
      · cases h

/-- C43, the other direction: whatever is accepted as an expression is derived by the grammar with the tree returned, except for the four liberties of `Derives` with `loose = true`:
`+e` is `e`, the left side of an assignment may be any conditional expression, `sizeof` and `_Alignof` expressions may be followed by postfix operators, and an identifier that names a type
is taken as an expression. -/
theorem C43_accepted (tn : T → List Tok) (hT : ∀ ts t r, O.typename ts = .ok (t, r) → ts = tn t ++ r) {f : Nat} {ts rest : List Tok} {t : Tree T}
    (h : expr O f ts = .ok (t, rest)) : ∃ s, ts = s ++ rest ∧ Derives O tn true 0 t s := (acc O hT f).expr h

/-- The liberties are taken: `a + b = c` is accepted as the assignment of `c` to `a + b`, and `sizeof(int)++` as `(sizeof(int))++`... -/
theorem C43_accepts_more : expr exO 30 [.ident "a", .p .plus, .ident "b", .p .eq, .ident "c", .p .semi] =
      .ok (.assign none (.bin .add (.ident "a") (.ident "b")) (.ident "c"), [.p .semi]) ∧
    expr exO 30 [.kw "sizeof", .p .lpar, .kw "int", .p .rpar, .p .inc, .p .semi] = .ok (.postinc (.sizeofT ()), [.p .semi]) := by
  constructor <;> rfl

theorem bin_par {tn : T → List Tok} : ∀ {q t s}, Derives O tn false q t s → ∀ {op l r}, t = .bin op l r → op.prec < q → ∃ u, s = .p .lpar :: u
  | _, _, _, .outer h hq, _, _, _, e, hq' => bin_par h e (by omega)
  | _, _, _, .par _, _, _, _, _, _ => ⟨_, rfl⟩
  | _, _, _, .bin _ _, _, _, _, e, hq => by cases e; omega
  | _, _, _, .plus h _, _, _, _, _, _ => absurd h (by decide)
  | _, _, _, .ofType h _, _, _, _, _, _ => absurd h (by decide)
  | _, _, _, .ident _, _, _, _, e, _ => by cases e
  | _, _, _, .num _, _, _, _, e, _ => by cases e
  | _, _, _, .tnum _ _, _, _, _, e, _ => by cases e
  | _, _, _, .str _, _, _, _, e, _ => by cases e
  | _, _, _, .index _ _, _, _, _, e, _ => by cases e
  | _, _, _, .call _ _, _, _, _, e, _ => by cases e
  | _, _, _, .member _, _, _, _, e, _ => by cases e
  | _, _, _, .arrow _, _, _, _, e, _ => by cases e
  | _, _, _, .postinc _, _, _, _, e, _ => by cases e
  | _, _, _, .postdec _, _, _, _, e, _ => by cases e
  | _, _, _, .un _, _, _, _, e, _ => by cases e
  | _, _, _, .sizeofT _, _, _, _, e, _ => by cases e
  | _, _, _, .alignofT _, _, _, _, e, _ => by cases e
  | _, _, _, .labelVal _, _, _, _, e, _ => by cases e
  | _, _, _, .cast _, _, _, _, e, _ => by cases e
  | _, _, _, .cond _ _ _, _, _, _, e, _ => by cases e
  | _, _, _, .elvis _ _, _, _, _, e, _ => by cases e
  | _, _, _, .comma _ _, _, _, _, e, _ => by cases e
  | _, _, _, .ofExpr _ _ _, _, _, _, e, _ => by cases e
  | _, _, _, .assign _ _ _, _, _, _, e, _ => by cases e
  | _, _, _, .assignTo _ _ _ _, _, _, _, e, _ => by cases e

theorem assign_lhs {tn : T → List Tok} : ∀ {q t s}, Derives O tn false q t s → ∀ {op l r}, t = .assign op l r → (∃ u, s = .p .lpar :: u) ∨ ∃ u v, s = u ++ v ∧ Derives O tn false 14 l u
  | _, _, _, .outer h hq, _, _, _, e => assign_lhs h e
  | _, _, _, .par _, _, _, _, _ => .inl ⟨_, rfl⟩
  | _, _, _, .assign _ h _, _, _, _, e => by cases e; exact .inr ⟨_, _, rfl, h⟩
  | _, _, _, .plus h _, _, _, _, _ => absurd h (by decide)
  | _, _, _, .assignTo h _ _ _, _, _, _, _ => absurd h (by decide)
  | _, _, _, .ofType h _, _, _, _, _ => absurd h (by decide)
  | _, _, _, .ident _, _, _, _, e => by cases e
  | _, _, _, .num _, _, _, _, e => by cases e
  | _, _, _, .tnum _ _, _, _, _, e => by cases e
  | _, _, _, .str _, _, _, _, e => by cases e
  | _, _, _, .index _ _, _, _, _, e => by cases e
  | _, _, _, .call _ _, _, _, _, e => by cases e
  | _, _, _, .member _, _, _, _, e => by cases e
  | _, _, _, .arrow _, _, _, _, e => by cases e
  | _, _, _, .postinc _, _, _, _, e => by cases e
  | _, _, _, .postdec _, _, _, _, e => by cases e
  | _, _, _, .un _, _, _, _, e => by cases e
  | _, _, _, .sizeofT _, _, _, _, e => by cases e
  | _, _, _, .alignofT _, _, _, _, e => by cases e
  | _, _, _, .labelVal _, _, _, _, e => by cases e
  | _, _, _, .cast _, _, _, _, e => by cases e
  | _, _, _, .cond _ _ _, _, _, _, e => by cases e
  | _, _, _, .elvis _ _, _, _, _, e => by cases e
  | _, _, _, .comma _ _, _, _, _, e => by cases e
  | _, _, _, .ofExpr _ _ _, _, _, _, e => by cases e
  | _, _, _, .bin _ _, _, _, _, e => by cases e

/-- ... although it is not an expression of C. -/
theorem C43_not_expression (e : Tree Unit) : ¬ Derives exO exTn false 0 e [.ident "a", .p .plus, .ident "b", .p .eq, .ident "c"] := by
  intro h
  obtain ⟨n, hn⟩ := C43_grammar_partial exO exTn exO_good h [] (fun _ _ e => by cases e)
  have h1 := hn (n + 30) (by omega)
  have h2 : expr exO (n + 30) ([.ident "a", .p .plus, .ident "b", .p .eq, .ident "c"] ++ []) = .ok (.assign none (.bin .add (.ident "a") (.ident "b")) (.ident "c"), []) := rfl
  rw [h2] at h1
  simp only [Except.ok.injEq, Prod.mk.injEq] at h1
  obtain ⟨rfl, -⟩ := h1
  rcases assign_lhs exO h rfl with ⟨u, e⟩ | ⟨u, v, e, d⟩
  · cases e
  · obtain ⟨w, rfl⟩ := bin_par exO d rfl (by decide)
    cases e

/-- Redundant parentheses: `((a)) * (b + c)`. -/
example : Derives exO exTn false 0 (.bin .mul (.ident "a") (.bin .add (.ident "b") (.ident "c")))
    [.p .lpar, .p .lpar, .ident "a", .p .rpar, .p .rpar, .p .star, .p .lpar, .ident "b", .p .plus, .ident "c", .p .rpar] :=
  have i (x : String) : Derives exO exTn false 16 (.ident x) [.ident x] := .ident (.inl (by simp [exO]))
  have up {p t s} (h : Derives exO exTn false 16 t s) (hp : p ≤ 16) : Derives exO exTn false p t s := .outer h hp
  .outer (.bin (op := .mul) (up (.par (up (.par (up (i "a") (by decide))) (by decide))) (by decide))
    (up (.par (.outer (.bin (op := .add) (up (i "b") (by decide)) (up (i "c") (by decide))) (by decide))) (by decide))) (by decide)

end Toycc.Parse
