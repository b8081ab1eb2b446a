import Verif.Stex.Spec
/-! Lemmas for C95. -/
namespace Toycc.Stex
variable {σ : Type}

/-! ### Labels -/

def labels : List (Instr σ) → List Lbl
  | [] => []
  | .label L :: r => L :: labels r
  | _ :: r => labels r

theorem labels_append : ∀ (a b : List (Instr σ)), labels (a ++ b) = labels a ++ labels b
  | [], _ => rfl
  | i :: a, b => by cases i <;> simp [labels, labels_append a b]

theorem find_at (L : Lbl) : ∀ (pre post : List (Instr σ)) (n : Nat), (labels (pre ++ .label L :: post)).Nodup → find L (pre ++ .label L :: post) n = some (n + pre.length)
  | [], post, n, _ => by simp [find]
  | i :: pre, post, n, h => by
    have ih := fun h' => find_at L pre post (n + 1) h'
    have e : n + 1 + pre.length = n + (i :: pre).length := by simp; omega
    cases i with
    | label L' =>
      simp only [List.cons_append, labels, List.nodup_cons] at h
      have hne : L' ≠ L := by
        intro e'
        subst e'
        apply h.1
        rw [labels_append]
        simp [labels]
      simp only [List.cons_append, find, if_neg hne]
      rw [ih h.2, e]
    | prim _ => simp only [List.cons_append, find]; rw [ih h, e]
    | un _ => simp only [List.cons_append, find]; rw [ih h, e]
    | push => simp only [List.cons_append, find]; rw [ih h, e]
    | pop _ => simp only [List.cons_append, find]; rw [ih h, e]
    | jz _ => simp only [List.cons_append, find]; rw [ih h, e]
    | jnz _ => simp only [List.cons_append, find]; rw [ih h, e]
    | jeq _ _ => simp only [List.cons_append, find]; rw [ih h, e]
    | j _ => simp only [List.cons_append, find]; rw [ih h, e]

def Lbl.idx : Lbl → Option Nat
  | .els k | .fin k | .begin k | .brk k | .cont k | .case k _ => some k
  | .ret => none

/-- The labels are different and numbered from `k` to below `k'`. -/
def Fresh (k k' : Nat) (ls : List Lbl) : Prop := ls.Nodup ∧ ∀ L, L ∈ ls → ∃ i, L.idx = some i ∧ k ≤ i ∧ i < k'

theorem fresh_nil (k k' : Nat) : Fresh k k' [] := ⟨List.nodup_nil, fun _ h => nomatch h⟩

theorem fresh_append {k k1 k2 : Nat} {a b : List Lbl} (ha : Fresh k k1 a) (hb : Fresh k1 k2 b) (h1 : k ≤ k1) (h2 : k1 ≤ k2) : Fresh k k2 (a ++ b) := by
  refine ⟨List.nodup_append.2 ⟨ha.1, hb.1, ?_⟩, ?_⟩
  · intro x hx y hy e
    subst e
    obtain ⟨i, i1, i2, i3⟩ := ha.2 x hx
    obtain ⟨j, j1, j2, j3⟩ := hb.2 x hy
    rw [i1] at j1
    cases j1
    omega
  · intro L hL
    rcases List.mem_append.1 hL with h | h
    · obtain ⟨i, i1, i2, i3⟩ := ha.2 L h; exact ⟨i, i1, i2, by omega⟩
    · obtain ⟨i, i1, i2, i3⟩ := hb.2 L h; exact ⟨i, i1, by omega, i3⟩

/-- A label with the number `k` put between lists of labels with larger numbers, or with other labels of this number. -/
theorem fresh_insert {k k' : Nat} {L : Lbl} {a b : List Lbl} (hL : L.idx = some k) (hk : k < k') (h : Fresh k k' (a ++ b)) (hn : L ∉ a ++ b) : Fresh k k' (a ++ (L :: b)) := by
  obtain ⟨h1, h2⟩ := h
  rw [List.nodup_append] at h1
  obtain ⟨n1, n2, n3⟩ := h1
  refine ⟨List.nodup_append.2 ⟨n1, List.nodup_cons.2 ⟨fun hh => hn (List.mem_append.2 (.inr hh)), n2⟩, ?_⟩, ?_⟩
  · intro x hx y hy e
    subst e
    rcases List.mem_cons.1 hy with h | h
    · subst h; exact hn (List.mem_append.2 (.inl hx))
    · exact n3 x hx x h rfl
  · intro x hx
    rcases List.mem_append.1 hx with h | h
    · exact h2 x (List.mem_append.2 (.inl h))
    · rcases List.mem_cons.1 h with h | h
      · subst h; exact ⟨k, hL, Nat.le_refl _, hk⟩
      · exact h2 x (List.mem_append.2 (.inr h))

theorem fresh_mono {k0 k k' : Nat} {a : List Lbl} (h0 : k0 ≤ k) (h : Fresh k k' a) : Fresh k0 k' a :=
  ⟨h.1, fun L hL => by obtain ⟨i, i1, i2, i3⟩ := h.2 L hL; exact ⟨i, i1, by omega, i3⟩⟩

theorem fresh_not {k k' : Nat} {a : List Lbl} {L : Lbl} (h : Fresh (k + 1) k' a) (hL : L.idx = some k) : L ∉ a := by
  intro hm
  obtain ⟨i, i1, i2, _⟩ := h.2 L hm
  rw [hL] at i1
  cases i1
  omega

/-- Two branches: `a`, `els`, `b`, `fin`. -/
theorem fresh_branch {k k' : Nat} {a b : List Lbl} (hk : k < k') (h : Fresh (k + 1) k' (a ++ b)) : Fresh k k' (a ++ (.els k :: (b ++ [.fin k]))) := by
  have n1 : Lbl.fin k ∉ a ++ b := fresh_not h rfl
  have n2 : Lbl.els k ∉ a ++ b := fresh_not h rfl
  have h1 : Fresh k k' ((a ++ b) ++ (.fin k :: [])) := fresh_insert rfl hk (by simpa using fresh_mono (Nat.le_succ k) h) (by simpa using n1)
  refine fresh_insert rfl hk (by simpa using h1) ?_
  simp only [List.mem_append, List.mem_cons, List.not_mem_nil, or_false] at n2 ⊢
  intro h
  rcases h with h | h | h
  · exact n2 (.inl h)
  · exact n2 (.inr h)
  · cases h

theorem fresh_loop {k k' : Nat} {a b : List Lbl} (hk : k < k') (h : Fresh (k + 1) k' (a ++ b)) : Fresh k k' (.begin k :: (a ++ (.cont k :: (b ++ [.brk k])))) := by
  have n1 : Lbl.brk k ∉ a ++ b := fresh_not h rfl
  have n2 : Lbl.cont k ∉ a ++ b := fresh_not h rfl
  have n3 : Lbl.begin k ∉ a ++ b := fresh_not h rfl
  have h1 : Fresh k k' ((a ++ b) ++ (.brk k :: [])) := fresh_insert rfl hk (by simpa using fresh_mono (Nat.le_succ k) h) (by simpa using n1)
  have h2 : Fresh k k' (a ++ (.cont k :: (b ++ [.brk k]))) := by
    refine fresh_insert rfl hk (by simpa using h1) ?_
    simp only [List.mem_append, List.mem_cons, List.not_mem_nil, or_false] at n2 ⊢
    intro h
    rcases h with h | h | h
    · exact n2 (.inl h)
    · exact n2 (.inr h)
    · cases h
  have := fresh_insert (a := []) (L := .begin k) rfl hk (by simpa using h2) (by
    simp only [List.nil_append, List.mem_append, List.mem_cons, List.not_mem_nil, or_false] at n3 ⊢
    intro h
    rcases h with h | h | h | h
    · exact n3 (.inl h)
    · cases h
    · exact n3 (.inr h)
    · cases h)
  simpa using this

theorem labels_disp (k : Nat) : ∀ (cs : Cases σ) (i : Nat), labels (disp k cs i) = []
  | .nil, _ => rfl
  | .cons (some v) _ r, i => by simp [disp, labels_append, labels_disp k r, labels]
  | .cons none _ r, i => by simp [disp, labels_disp k r]

theorem labels_other (k : Nat) (cs : Cases σ) : labels (other k cs) = [] := by
  rw [other]; split <;> rfl

/-- The labels of the cases from `i` on, and of the statements in them. -/
def FreshC (k i k1 k2 : Nat) (ls : List Lbl) : Prop := ls.Nodup ∧ ∀ L, L ∈ ls → (∃ j, i ≤ j ∧ L = .case k j) ∨ (∃ x, L.idx = some x ∧ k1 ≤ x ∧ x < k2)

theorem freshC_nil (k i k1 k2 : Nat) : FreshC k i k1 k2 [] := ⟨List.nodup_nil, fun _ h => nomatch h⟩

theorem freshC_cons {k i k1 k2 k3 : Nat} {a b : List Lbl} (hk : k < k1) (h12 : k1 ≤ k2) (h23 : k2 ≤ k3) (ha : Fresh k1 k2 a) (hb : FreshC k (i + 1) k2 k3 b) :
    FreshC k i k1 k3 (.case k i :: (a ++ b)) := by
  refine ⟨List.nodup_cons.2 ⟨?_, List.nodup_append.2 ⟨ha.1, hb.1, ?_⟩⟩, ?_⟩
  · intro h
    rcases List.mem_append.1 h with h | h
    · obtain ⟨x, h1, h2, _⟩ := ha.2 _ h
      cases h1; omega
    · rcases hb.2 _ h with ⟨j, h1, h2⟩ | ⟨x, h1, h2, _⟩
      · cases h2; omega
      · cases h1; omega
  · intro x hx y hy e
    subst e
    obtain ⟨z, h1, h2, h3⟩ := ha.2 _ hx
    rcases hb.2 _ hy with ⟨j, _, h5⟩ | ⟨u, h4, h5, _⟩
    · subst h5; cases h1; omega
    · rw [h1] at h4; cases h4; omega
  · intro L hL
    rcases List.mem_cons.1 hL with h | h
    · exact .inl ⟨i, Nat.le_refl _, h⟩
    · rcases List.mem_append.1 h with h | h
      · obtain ⟨z, h1, h2, h3⟩ := ha.2 _ h; exact .inr ⟨z, h1, h2, by omega⟩
      · rcases hb.2 _ h with ⟨j, h4, h5⟩ | ⟨u, h4, h5, h6⟩
        · exact .inl ⟨j, by omega, h5⟩
        · exact .inr ⟨u, h4, by omega, h6⟩

theorem fresh_switch {k k1 k2 : Nat} {a b : List Lbl} (h1 : k + 1 ≤ k1) (h12 : k1 ≤ k2) (ha : Fresh (k + 1) k1 a) (hb : FreshC k 0 k1 k2 b) : Fresh k k2 (a ++ (b ++ [.brk k])) := by
  refine ⟨List.nodup_append.2 ⟨ha.1, List.nodup_append.2 ⟨hb.1, by simp, ?_⟩, ?_⟩, ?_⟩
  · intro x hx y hy e
    subst e
    simp only [List.mem_cons, List.not_mem_nil, or_false] at hy
    subst hy
    rcases hb.2 _ hx with ⟨j, _, h5⟩ | ⟨u, h4, h5, _⟩
    · cases h5
    · cases h4; omega
  · intro x hx y hy e
    subst e
    obtain ⟨z, z1, z2, z3⟩ := ha.2 _ hx
    rcases List.mem_append.1 hy with h | h
    · rcases hb.2 _ h with ⟨j, _, h5⟩ | ⟨u, h4, h5, _⟩
      · subst h5; cases z1; omega
      · rw [z1] at h4; cases h4; omega
    · simp only [List.mem_cons, List.not_mem_nil, or_false] at h
      subst h; cases z1; omega
  · intro L hL
    rcases List.mem_append.1 hL with h | h
    · obtain ⟨z, z1, z2, z3⟩ := ha.2 _ h; exact ⟨z, z1, by omega, by omega⟩
    · rcases List.mem_append.1 h with h | h
      · rcases hb.2 _ h with ⟨j, _, h5⟩ | ⟨u, h4, h5, h6⟩
        · subst h5; exact ⟨k, rfl, Nat.le_refl _, by omega⟩
        · exact ⟨u, h4, by omega, h6⟩
      · simp only [List.mem_cons, List.not_mem_nil, or_false] at h
        subst h; exact ⟨k, rfl, Nat.le_refl _, by omega⟩

mutual
theorem labE : ∀ (e : Expr σ) (k : Nat) (B C : Lbl), Fresh k (k + cntE e) (labels (genE k B C e))
  | .leaf g, k, B, C => by simpa [genE, labels] using fresh_nil _ _
  | .una f e, k, B, C => by
    have := labE e k B C
    simpa [genE, labels, labels_append, cntE] using this
  | .rl f l r, k, B, C => by
    have := fresh_append (labE r k B C) (labE l (k + cntE r) B C) (by omega) (by omega)
    simpa [genE, labels, labels_append, cntE, Nat.add_assoc] using this
  | .lr f l r, k, B, C => by
    have := fresh_append (labE l k B C) (labE r (k + cntE l) B C) (by omega) (by omega)
    simpa [genE, labels, labels_append, cntE, Nat.add_assoc] using this
  | .cond c a b, k, B, C => by
    have h := fresh_append (fresh_append (labE c (k + 1) B C) (labE a (k + 1 + cntE c) B C) (by omega) (by omega)) (labE b (k + 1 + cntE c + cntE a) B C) (by omega) (by omega)
    have := fresh_branch (by omega) h
    simpa [genE, labels, labels_append, cntE, Nat.add_assoc] using this
  | .stx ss, k, B, C => by
    have := labSS ss k B C
    simpa [genE, cntE] using this
theorem labS : ∀ (s : Stmt σ) (k : Nat) (B C : Lbl), Fresh k (k + cntS s) (labels (genS k B C s))
  | .expr e, k, B, C => by
    have := labE e k B C
    simpa [genS, cntS] using this
  | .block ss, k, B, C => by
    have := labSS ss k B C
    simpa [genS, cntS] using this
  | .ite c a b, k, B, C => by
    have h := fresh_append (fresh_append (labE c (k + 1) B C) (labS a (k + 1 + cntE c) B C) (by omega) (by omega)) (labS b (k + 1 + cntE c + cntS a) B C) (by omega) (by omega)
    have := fresh_branch (by omega) h
    simpa [genS, labels, labels_append, cntS, Nat.add_assoc] using this
  | .loop w c s i, k, B, C => by
    have h := fresh_append (fresh_append (labE c (k + 1) (if w then B else .brk k) (if w then C else .cont k)) (labS s (k + 1 + cntE c) (.brk k) (.cont k)) (by omega) (by omega))
      (labE i (k + 1 + cntE c + cntS s) (if w then B else .brk k) (if w then C else .cont k)) (by omega) (by omega)
    have := fresh_loop (by omega) h
    simpa [genS, labels, labels_append, cntS, Nat.add_assoc] using this
  | .dow s c, k, B, C => by
    have h := fresh_append (labS s (k + 1) (.brk k) (.cont k)) (labE c (k + 1 + cntS s) B C) (by omega) (by omega)
    have := fresh_loop (by omega) h
    simpa [genS, labels, labels_append, cntS, Nat.add_assoc] using this
  | .sw e cs, k, B, C => by
    have := fresh_switch (by omega) (by omega) (labE e (k + 1) B C) (labC cs k 0 (k + 1 + cntE e) C (by omega))
    simpa [genS, labels, labels_append, labels_disp, labels_other, cntS, Nat.add_assoc] using this
  | .brk, k, B, C => by simpa [genS, labels] using fresh_nil _ _
  | .cont, k, B, C => by simpa [genS, labels] using fresh_nil _ _
  | .ret e, k, B, C => by
    have := labE e k B C
    simpa [genS, labels, labels_append, cntS] using this
theorem labSS : ∀ (ss : Stmts σ) (k : Nat) (B C : Lbl), Fresh k (k + cntSS ss) (labels (genSS k B C ss))
  | .nil, k, B, C => by simpa [genSS, labels] using fresh_nil _ _
  | .cons s r, k, B, C => by
    have := fresh_append (labS s k B C) (labSS r (k + cntS s) B C) (by omega) (by omega)
    simpa [genSS, labels, labels_append, cntSS, Nat.add_assoc] using this
theorem labC : ∀ (cs : Cases σ) (k i k' : Nat) (C : Lbl), k < k' → FreshC k i k' (k' + cntC cs) (labels (genC k i k' C cs))
  | .nil, k, i, k', C, _ => by simpa [genC, labels] using freshC_nil _ _ _ _
  | .cons v ss r, k, i, k', C, hk => by
    have := freshC_cons hk (by omega) (by omega) (labSS ss k' (.brk k) C) (labC r k (i + 1) (k' + cntSS ss) C (by omega))
    simpa [genC, labels, labels_append, cntC, Nat.add_assoc] using this
end

theorem gen_nodup (s : Stmt σ) : (labels (gen s)).Nodup := by
  have h := labS s 0 .ret .ret
  rw [gen, labels_append]
  refine List.nodup_append.2 ⟨h.1, by simp [labels], ?_⟩
  intro x hx y hy e
  subst e
  simp [labels] at hy
  subst hy
  obtain ⟨i, i1, _⟩ := h.2 _ hx
  cases i1

/-! ### Places -/

/-- The code `c` is at the place `pc`. -/
def At (prog : List (Instr σ)) (pc : Nat) (c : List (Instr σ)) : Prop := ∃ pre post, prog = pre ++ (c ++ post) ∧ pre.length = pc

theorem At.left {prog : List (Instr σ)} {pc : Nat} {a b : List (Instr σ)} (h : At prog pc (a ++ b)) : At prog pc a := by
  obtain ⟨pre, post, h1, h2⟩ := h
  exact ⟨pre, b ++ post, by rw [h1, List.append_assoc], h2⟩

theorem At.right {prog : List (Instr σ)} {pc : Nat} {a b : List (Instr σ)} (h : At prog pc (a ++ b)) : At prog (pc + a.length) b := by
  obtain ⟨pre, post, h1, h2⟩ := h
  exact ⟨pre ++ a, post, by rw [h1]; simp [List.append_assoc], by simp [h2]⟩

theorem At.get {prog : List (Instr σ)} {pc : Nat} {i : Instr σ} (h : At prog pc [i]) : prog[pc]? = some i := by
  obtain ⟨pre, post, h1, h2⟩ := h
  subst h2
  rw [h1]
  simp

theorem At.find {prog : List (Instr σ)} {pc : Nat} {L : Lbl} (hn : (labels prog).Nodup) (h : At prog pc [.label L]) : find L prog 0 = some pc := by
  obtain ⟨pre, post, h1, h2⟩ := h
  subst h2
  have e : prog = pre ++ .label L :: post := by rw [h1]; simp
  rw [e] at hn ⊢
  rw [find_at L pre post 0 hn]
  simp

theorem Steps.trans {prog : List (Instr σ)} {a b c : St σ} (h : Steps prog a b) (h' : Steps prog b c) : Steps prog a c := by
  induction h with
  | refl => exact h'
  | head e _ ih => exact .head e (ih h')

theorem Steps.one {prog : List (Instr σ)} {a b : St σ} (h : step prog a = some b) : Steps prog a b := .head h (.refl _)

section
variable {prog : List (Instr σ)} {pc : Nat} {a : Int} {stk : List Int} {m : σ}

theorem s_prim {g : σ → Int × σ} (h : At prog pc [.prim g]) : Steps prog ⟨pc, a, stk, m⟩ ⟨pc + 1, (g m).1, stk, (g m).2⟩ := .one (by simp only [step, h.get])
theorem s_un {f : Int → σ → Int × σ} (h : At prog pc [.un f]) : Steps prog ⟨pc, a, stk, m⟩ ⟨pc + 1, (f a m).1, stk, (f a m).2⟩ := .one (by simp only [step, h.get])
theorem s_push (h : At prog pc [.push]) : Steps prog ⟨pc, a, stk, m⟩ ⟨pc + 1, a, a :: stk, m⟩ := .one (by simp only [step, h.get])
theorem s_pop {f : Int → Int → σ → Int × σ} {v : Int} (h : At prog pc [.pop f]) : Steps prog ⟨pc, a, v :: stk, m⟩ ⟨pc + 1, (f a v m).1, stk, (f a v m).2⟩ := .one (by simp only [step, h.get])
theorem s_label {L : Lbl} (h : At prog pc [.label L]) : Steps prog ⟨pc, a, stk, m⟩ ⟨pc + 1, a, stk, m⟩ := .one (by simp only [step, h.get])
theorem s_j {L : Lbl} {q : Nat} (h : At prog pc [.j L]) (hq : find L prog 0 = some q) : Steps prog ⟨pc, a, stk, m⟩ ⟨q, a, stk, m⟩ := .one (by simp only [step, h.get, hq, Option.map_some])
theorem s_jz {L : Lbl} {q : Nat} (h : At prog pc [.jz L]) (ha : a = 0) (hq : find L prog 0 = some q) : Steps prog ⟨pc, a, stk, m⟩ ⟨q, a, stk, m⟩ :=
  .one (by simp only [step, h.get, if_pos ha, hq, Option.map_some])
theorem s_jnz {L : Lbl} {q : Nat} (h : At prog pc [.jnz L]) (ha : a ≠ 0) (hq : find L prog 0 = some q) : Steps prog ⟨pc, a, stk, m⟩ ⟨q, a, stk, m⟩ :=
  .one (by simp only [step, h.get, if_neg ha, hq, Option.map_some])
theorem s_z {L : Lbl} (h : At prog pc [.jnz L]) (ha : a = 0) : Steps prog ⟨pc, a, stk, m⟩ ⟨pc + 1, a, stk, m⟩ := .one (by simp only [step, h.get, if_pos ha])
theorem s_jeq {L : Lbl} {v : Int} {q : Nat} (h : At prog pc [.jeq v L]) (ha : a = v) (hq : find L prog 0 = some q) : Steps prog ⟨pc, a, stk, m⟩ ⟨q, a, stk, m⟩ :=
  .one (by simp only [step, h.get, if_pos ha, hq, Option.map_some])
theorem s_ne {L : Lbl} {v : Int} (h : At prog pc [.jeq v L]) (ha : a ≠ v) : Steps prog ⟨pc, a, stk, m⟩ ⟨pc + 1, a, stk, m⟩ := .one (by simp only [step, h.get, if_neg ha])
theorem s_nz {L : Lbl} (h : At prog pc [.jz L]) (ha : a ≠ 0) : Steps prog ⟨pc, a, stk, m⟩ ⟨pc + 1, a, stk, m⟩ := .one (by simp only [step, h.get, if_neg ha])
end

/-! ### Simulation -/

/-- What the machine does from `s` for an evaluation that ends with the given result: `fin` if there is a value. -/
def Land {α : Type} (prog : List (Instr σ)) (qr : Nat) (b d : Bool) (B C : Lbl) (s : St σ) (fin : α → σ → Prop) (stk : List Int) : R α → σ → Prop
  | .done a, m => fin a m
  | .brk, m => b = true ∧ ∀ q, find B prog 0 = some q → ∃ a, Steps prog s ⟨q, a, stk, m⟩
  | .cont, m => d = true ∧ ∀ q, find C prog 0 = some q → ∃ a, Steps prog s ⟨q, a, stk, m⟩
  | .ret v, m => ∃ stk', Steps prog s ⟨qr, v, stk', m⟩

theorem land_pre {α : Type} {prog : List (Instr σ)} {qr : Nat} {b d : Bool} {B C : Lbl} {s s1 : St σ} {fin1 fin : α → σ → Prop} {stk : List Int} {r : R α} {m : σ}
    (hs : Steps prog s s1) (hf : ∀ a m, fin1 a m → fin a m) (h : Land prog qr b d B C s1 fin1 stk r m) : Land prog qr b d B C s fin stk r m := by
  cases r with
  | done a => exact hf a m h
  | brk => exact ⟨h.1, fun q hq => let ⟨a, ha⟩ := h.2 q hq; ⟨a, hs.trans ha⟩⟩
  | cont => exact ⟨h.1, fun q hq => let ⟨a, ha⟩ := h.2 q hq; ⟨a, hs.trans ha⟩⟩
  | ret v => exact let ⟨k, hk⟩ := h; ⟨k, hs.trans hk⟩

theorem land_then {α β : Type} {prog : List (Instr σ)} {qr : Nat} {b b1 d d1 : Bool} {B C B1 C1 : Lbl} {s : St σ} {fin1 : α → σ → Prop} {fin : β → σ → Prop} {stk stk1 : List Int}
    {x : Option (R α × σ)} {f : α → σ → Option (R β × σ)} {r : R β} {m' : σ} (h : andThen x f = some (r, m'))
    (hx : ∀ r1 m1, x = some (r1, m1) → Land prog qr b1 d1 B1 C1 s fin1 stk1 r1 m1) (hb : b1 = true → b = true ∧ stk1 = stk ∧ B1 = B) (hd : d1 = true → d = true ∧ stk1 = stk ∧ C1 = C)
    (hf : ∀ a m1, fin1 a m1 → f a m1 = some (r, m') → Land prog qr b d B C s fin stk r m') : Land prog qr b d B C s fin stk r m' := by
  match x, hx, h with
  | some (.done a, m1), hx, h => exact hf a m1 (hx _ _ rfl) h
  | some (.brk, m1), hx, h =>
    simp only [andThen, Option.some.injEq, Prod.mk.injEq] at h
    obtain ⟨rfl, rfl⟩ := h
    have := hx _ _ rfl
    obtain ⟨h1, h2⟩ := this
    obtain ⟨hb1, rfl, rfl⟩ := hb h1
    exact ⟨hb1, h2⟩
  | some (.cont, m1), hx, h =>
    simp only [andThen, Option.some.injEq, Prod.mk.injEq] at h
    obtain ⟨rfl, rfl⟩ := h
    have := hx _ _ rfl
    obtain ⟨h1, h2⟩ := this
    obtain ⟨hb1, rfl, rfl⟩ := hd h1
    exact ⟨hb1, h2⟩
  | some (.ret v, m1), hx, h =>
    simp only [andThen, Option.some.injEq, Prod.mk.injEq] at h
    obtain ⟨rfl, rfl⟩ := h
    exact hx _ _ rfl

/-- The code `c` evaluates to a value. -/
def FinV (prog : List (Instr σ)) (s : St σ) (q : Nat) (stk : List Int) : Int → σ → Prop := fun v m => Steps prog s ⟨q, v, stk, m⟩
def FinU (prog : List (Instr σ)) (s : St σ) (q : Nat) (stk : List Int) : Unit → σ → Prop := fun _ m => ∃ a, Steps prog s ⟨q, a, stk, m⟩

structure Sim (prog : List (Instr σ)) (qr : Nat) (n : Nat) : Prop where
  e : ∀ e m r m', evalE n e m = some (r, m') → ∀ b d, CalmE b d e → ∀ k B C pc a stk, At prog pc (genE k B C e) →
    Land prog qr b d B C ⟨pc, a, stk, m⟩ (FinV prog ⟨pc, a, stk, m⟩ (pc + (genE k B C e).length) stk) stk r m'
  l : ∀ ss m r m', evalLast n ss m = some (r, m') → ∀ b d, CalmSS b d ss → ∀ k B C pc a stk, At prog pc (genSS k B C ss) →
    Land prog qr b d B C ⟨pc, a, stk, m⟩ (FinV prog ⟨pc, a, stk, m⟩ (pc + (genSS k B C ss).length) stk) stk r m'
  s : ∀ s m r m', execS n s m = some (r, m') → ∀ b d, CalmS b d s → ∀ k B C pc a stk, At prog pc (genS k B C s) →
    Land prog qr b d B C ⟨pc, a, stk, m⟩ (FinU prog ⟨pc, a, stk, m⟩ (pc + (genS k B C s).length) stk) stk r m'
  ss : ∀ ss m r m', execSS n ss m = some (r, m') → ∀ b d, CalmSS b d ss → ∀ k B C pc a stk, At prog pc (genSS k B C ss) →
    Land prog qr b d B C ⟨pc, a, stk, m⟩ (FinU prog ⟨pc, a, stk, m⟩ (pc + (genSS k B C ss).length) stk) stk r m'
  c : ∀ cs m r m', execC n cs m = some (r, m') → ∀ d, CalmC d cs → ∀ k i k' C pc a stk, At prog pc (genC k i k' C cs) →
    Land prog qr true d (.brk k) C ⟨pc, a, stk, m⟩ (FinU prog ⟨pc, a, stk, m⟩ (pc + (genC k i k' C cs).length) stk) stk r m'

end Toycc.Stex
