import Verif.Cg.Pieces
/-!
builtin_alloca, codegen.c:915-961. The numeric labels `1:` and `2:` of the assembler, which can be defined many times (`1b` is the nearest one before, `2f` the
nearest one after), are here two labels given from outside.
-/
namespace Toycc.Cg
open Toycc.Rv

/-- builtin_alloca, codegen.c:917-947: up to the loop. `off` is the offset of alloca_bottom. -/
def allocaHead (off : Int) : List Instr :=
  [.mv .t0 .a0, .addi .t0 .t0 7, .andi .t0 .t0 (-8), .mv .t2 .sp, .op .sub .sp .sp .t0, .mv .t3 .sp, .li .t5 off, .op .add .t5 .t5 .fp,
   .load .d false .t1 0 .t5, .op .sub .t4 .t1 .t2]

/-- The loop, codegen.c:949-957. -/
def allocaLoop (l1 l2 : Label) : List Instr :=
  [.label l1, .beqz .t4 l2, .load .b false .a0 0 .t2, .store .b .a0 0 .t3, .addi .t2 .t2 1, .addi .t3 .t3 1, .addi .t4 .t4 (-1), .j l1, .label l2]

/-- builtin_alloca, codegen.c:915-961. -/
def allocaCode (off : Int) (l1 l2 : Label) : List Instr :=
  allocaHead off ++ (allocaLoop l1 l2 ++ [.op .sub .a0 .t1 .t0, .store .d .a0 0 .t5])

/-- `memmove` of `k` bytes from `x` to `y`. -/
def moved (m : Mem) (x y : W) (k : Nat) : Mem := fun b => if (b - y).toNat < k then m (x + (b - y)) else m b

/-- The size rounded up to a multiple of 8. -/
def roundUp (n : W) : W := (n + 7) &&& BitVec.ofInt 64 (-8)

theorem roundUp_toNat (n : W) (h : n.toNat + 7 < 2 ^ 64) : (roundUp n).toNat = (n.toNat + 7) / 8 * 8 := by
  have h1 : roundUp n = ((n + 7) >>> 3) <<< 3 := by
    unfold roundUp
    rw [show BitVec.ofInt 64 (-8) = BitVec.allOnes 64 <<< 3 from by decide]
    apply BitVec.eq_of_getLsbD_eq
    intro i hi
    simp only [BitVec.getLsbD_and, BitVec.getLsbD_shiftLeft, BitVec.getLsbD_allOnes, BitVec.getLsbD_ushiftRight]
    by_cases h3 : i < 3
    · simp [h3]
    · simp [h3, hi, show 3 + (i - 3) = i by omega, show i - 3 < 64 by omega]
  have h2 : (n + 7).toNat = n.toNat + 7 := by
    rw [BitVec.toNat_add, show (7 : W).toNat = 7 from rfl]; omega
  rw [h1, BitVec.toNat_shiftLeft, BitVec.toNat_ushiftRight, h2, Nat.shiftLeft_eq, Nat.shiftRight_eq_div_pow]
  simp only [show (2 : Nat) ^ 3 = 8 from rfl]
  omega

/-- Registers other than the scratch ones. -/
def AllocaSame (s s' : St) : Prop := ∀ r, r ∉ [Reg.a0, .t0, .t1, .t2, .t3, .t4, .t5, .sp] → s'.r r = s.r r

theorem one_toNat : (1 : W).toNat = 1 := rfl
theorem zero_toNat : (0 : W).toNat = 0 := rfl
theorem add0 (x : W) : x + 0 = x := BitVec.add_zero x

theorem eq_of_sub0 {x y : W} (h : (x - y).toNat = 0) : x = y := by
  apply BitVec.eq_of_toNat_eq
  have := x.isLt
  have := y.isLt
  rw [BitVec.toNat_sub] at h
  omega

theorem moved_succ {m : Mem} {x y : W} {k : Nat} (h : (x - y).toNat + (k + 1) ≤ 2 ^ 64) :
    moved (writeN m y 1 (m x).toNat) (x + 1) (y + 1) k = moved m x y (k + 1) := by
  funext b
  have hx := x.isLt
  have hy := y.isLt
  have hb := b.isLt
  unfold moved
  have e1 : (b - (y + 1)).toNat = if b = y then 2 ^ 64 - 1 else (b - y).toNat - 1 := by
    simp only [BitVec.toNat_sub, BitVec.toNat_add, BitVec.toNat_ofNat, one_toNat, ← BitVec.toNat_inj]
    split <;> omega
  have e2 : x + 1 + (b - (y + 1)) = x + (b - y) := by
    apply BitVec.eq_of_toNat_eq
    simp only [BitVec.toNat_sub, BitVec.toNat_add, BitVec.toNat_ofNat, one_toNat]
    omega
  by_cases hby : b = y
  · subst b
    have e3 : (y - y).toNat = 0 := by simp
    have e4 : x + (y - y) = x := by simp
    rw [if_pos rfl] at e1
    rw [if_neg (by omega), if_pos (by omega), e4, writeN, e3, if_pos (by omega)]
    simp
  · rw [e1, if_neg hby, e2]
    have hne : (b - y).toNat ≠ 0 := by
      intro h
      apply hby
      exact eq_of_sub0 h
    have w1 : ∀ c : W, c ≠ y → writeN m y 1 (m x).toNat c = m c := by
      intro c hc
      unfold writeN
      rw [if_neg]
      intro h
      apply hc
      exact eq_of_sub0 (by omega)
    by_cases hk : (b - y).toNat < k + 1
    · rw [if_pos hk, if_pos (by omega), w1]
      intro e
      have := congrArg BitVec.toNat e
      simp only [BitVec.toNat_sub, BitVec.toNat_add] at this hk hne h
      omega
    · rw [if_neg hk, if_neg (by omega), w1 b hby]

theorem byte_write (m : Mem) (x y : W) : writeN m y 1 (extend false 1 (readN m x 1)).toNat = writeN m y 1 (m x).toNat := by
  funext b
  unfold writeN
  split
  · rename_i h
    rw [show (b - y).toNat = 0 by omega]
    apply BitVec.eq_of_toNat_eq
    have h1 : (extend false 1 (readN m x 1)).toNat % 256 = (m x).toNat := by
      have h2 : readN m x 1 = (m x).toNat := by
        simp [readN]
      rw [h2, extend, if_neg (by decide), BitVec.toNat_signExtend]
      have := (m x).isLt
      split <;> simp <;> omega
    simp only [Nat.pow_zero, Nat.div_one, BitVec.toNat_ofNat]
    have := (m x).isLt
    omega
  · rfl

theorem pred_word (k : Nat) (hk : k + 1 < 2 ^ 64) : BitVec.ofNat 64 (k + 1) + BitVec.ofInt 64 (-1) = BitVec.ofNat 64 k := by
  have h1 : BitVec.ofInt 64 (-1) = (-1 : W) := by decide
  have h2 : BitVec.ofNat 64 (k + 1) = BitVec.ofNat 64 k + 1 := by
    apply BitVec.eq_of_toNat_eq
    rw [BitVec.toNat_add, BitVec.toNat_ofNat, BitVec.toNat_ofNat, one_toNat]
    omega
  rw [h1, h2, BitVec.add_assoc, show (1 : W) + -1 = 0 from by decide, add0]

theorem succ_word (k : Nat) (hk : k + 1 < 2 ^ 64) : BitVec.ofNat 64 (k + 1) ≠ (0 : W) := by
  intro e
  have := congrArg BitVec.toNat e
  rw [zero_toNat, BitVec.toNat_ofNat] at this
  omega

theorem sub_step (x y : W) : x + 1 - (y + 1) = x - y := by
  apply BitVec.eq_of_toNat_eq
  have := x.isLt
  have := y.isLt
  simp only [BitVec.toNat_sub, BitVec.toNat_add, one_toNat]
  omega

/-- The loop moves `t4` bytes from `t2` to `t3`. -/
theorem loop_runs {P : Prog} {env : Env} {pc : Nat} {l1 l2 : Label} (hu : UniqueLabels P) (hc : CodeAt P pc (allocaLoop l1 l2)) :
    ∀ (k : Nat) (s : St), s.r .t4 = BitVec.ofNat 64 k → k < 2 ^ 64 → (s.r .t2 - s.r .t3).toNat + k ≤ 2 ^ 64 →
      ∃ s', Runs P env (pc, s) (pc + 9, s') ∧ s'.mem = moved s.mem (s.r .t2) (s.r .t3) k ∧
        ∀ r, r ∉ [Reg.a0, .t2, .t3, .t4] → s'.r r = s.r r := by
  have i0 : P[pc]? = some (.label l1) := hc.head
  have i1 : P[pc + 1]? = some (.beqz .t4 l2) := hc.tail.head
  have i7 : P[pc + 7]? = some (.j l1) := hc 7 (by show 7 < 9; decide)
  have i8 : P[pc + 8]? = some (.label l2) := hc 8 (by show 8 < 9; decide)
  have hb : CodeAt P (pc + 2) [.load .b false .a0 0 .t2, .store .b .a0 0 .t3, .addi .t2 .t2 1, .addi .t3 .t3 1, .addi .t4 .t4 (-1)] := by
    have : allocaLoop l1 l2 = [.label l1, .beqz .t4 l2] ++ ([.load .b false .a0 0 .t2, .store .b .a0 0 .t3, .addi .t2 .t2 1, .addi .t3 .t3 1, .addi .t4 .t4 (-1)] ++
      [.j l1, .label l2]) := rfl
    rw [this] at hc
    exact hc.right.left
  intro k
  induction k with
  | zero =>
    intro s h4 _ _
    refine ⟨s, ?_, ?_, fun r _ => rfl⟩
    · refine (Runs.one (step_exec i0 rfl)).trans ((Runs.one (step_beqz i1 (find_eq hu i8))).trans ?_)
      rw [if_pos (by rw [h4]; rfl)]
      exact Runs.one (step_exec i8 rfl)
    · funext b; simp [moved]
  | succ k ih =>
    intro s h4 hk hx
    have hne : s.r .t4 ≠ 0 := by
      rw [h4]
      exact succ_word k hk
    obtain ⟨s1, hs1, q2, q3, q4, m1, k1⟩ : ∃ s1, execL env [.load .b false .a0 0 .t2, .store .b .a0 0 .t3, .addi .t2 .t2 1, .addi .t3 .t3 1, .addi .t4 .t4 (-1)] s = some s1 ∧
        s1.r .t2 = s.r .t2 + 1 ∧ s1.r .t3 = s.r .t3 + 1 ∧ s1.r .t4 = BitVec.ofNat 64 k ∧ s1.mem = writeN s.mem (s.r .t3) 1 (s.mem (s.r .t2)).toNat ∧
        ∀ r, r ∉ [Reg.a0, .t2, .t3, .t4] → s1.r r = s.r r := by
      have e0 : BitVec.ofInt 64 0 = 0 := by decide
      have e1 : BitVec.ofInt 64 1 = 1 := by decide
      refine ⟨_, rfl, ?_, ?_, ?_, ?_, ?_⟩
      · simp only [r_mem, r_set_same, r_set_ne, ne_eq, reduceCtorEq, not_false_eq_true, e1]
      · simp only [r_mem, r_set_same, r_set_ne, ne_eq, reduceCtorEq, not_false_eq_true, e1]
      · simp only [r_mem, r_set_same, r_set_ne, ne_eq, reduceCtorEq, not_false_eq_true]
        rw [h4]
        exact pred_word k hk
      · simp only [mem_set, r_mem, r_set_same, r_set_ne, ne_eq, reduceCtorEq, not_false_eq_true, e0, add0, Width.bytes]
        apply byte_write
      · intro r hr
        simp only [List.mem_cons, List.not_mem_nil, or_false, not_or] at hr
        obtain ⟨a, b, c, d⟩ := hr
        simp only [r_mem, r_set_ne, ne_eq, a, b, c, d, not_false_eq_true]
    have hd : s1.r .t2 - s1.r .t3 = s.r .t2 - s.r .t3 := by
      rw [q2, q3]
      exact sub_step _ _
    obtain ⟨s', r1, r2, r3⟩ := ih s1 q4 (by omega) (by rw [hd]; omega)
    refine ⟨s', ?_, ?_, ?_⟩
    · refine (Runs.one (step_exec i0 rfl)).trans ((Runs.one (step_beqz i1 (find_eq hu i8))).trans ?_)
      rw [if_neg hne]
      refine (runs_execL hb hs1).trans ?_
      exact (Runs.one (step_j i7 (find_eq hu i0))).trans r1
    · rw [r2, m1, q2, q3]
      exact moved_succ hx
    · intro r hr
      rw [r3 r hr, k1 r hr]

/-- What builtin_alloca does: the bytes between sp and the old bottom are moved down, and the bottom is moved down. -/
theorem alloca_runs {P : Prog} {env : Env} {pc : Nat} {off : Int} {l1 l2 : Label} (hu : UniqueLabels P) (hc : CodeAt P pc (allocaCode off l1 l2)) (s : St)
    (bot : W) (hbot : readN s.mem (s.r .fp + BitVec.ofInt 64 off) 8 = bot.toNat)
    (hfit : (roundUp (s.r .a0)).toNat + (bot - s.r .sp).toNat ≤ 2 ^ 64) :
    ∃ s', Runs P env (pc, s) (pc + (allocaCode off l1 l2).length, s') ∧ s'.r .sp = s.r .sp - roundUp (s.r .a0) ∧ s'.r .a0 = bot - roundUp (s.r .a0) ∧
      s'.mem = writeN (moved s.mem (s.r .sp) (s.r .sp - roundUp (s.r .a0)) (bot - s.r .sp).toNat) (s.r .fp + BitVec.ofInt 64 off) 8 (bot - roundUp (s.r .a0)).toNat ∧
      AllocaSame s s' := by
  have e7 : BitVec.ofInt 64 7 = 7 := by decide
  have e0 : BitVec.ofInt 64 0 = 0 := by decide
  have hl : extend false 8 (readN s.mem (BitVec.ofInt 64 off + s.r .fp) 8) = bot := by
    rw [BitVec.add_comm, hbot]; simp only [extend, Bool.false_eq_true, if_false]; simp
  obtain ⟨N, hN⟩ : ∃ N, N = roundUp (s.r .a0) := ⟨_, rfl⟩
  have hN' : N = (s.r .a0 + 7) &&& BitVec.ofInt 64 (-8) := hN
  rw [← hN] at hfit ⊢
  obtain ⟨s1, hs1, v0, v1, v2, v3, v4, v5, vsp, vm, vk⟩ : ∃ s1, execL env (allocaHead off) s = some s1 ∧ s1.r .t0 = N ∧ s1.r .t1 = bot ∧ s1.r .t2 = s.r .sp ∧
      s1.r .t3 = s.r .sp - N ∧ s1.r .t4 = bot - s.r .sp ∧ s1.r .t5 = s.r .fp + BitVec.ofInt 64 off ∧ s1.r .sp = s.r .sp - N ∧ s1.mem = s.mem ∧
      ∀ r, r ∉ [Reg.a0, .t0, .t1, .t2, .t3, .t4, .t5, .sp] → s1.r r = s.r r := by
    refine ⟨_, rfl, ?_, ?_, ?_, ?_, ?_, ?_, ?_, ?_, ?_⟩
    · simp only [r_set_same, r_set_ne, ne_eq, reduceCtorEq, not_false_eq_true, mem_set, e7, hN']
    · simp only [r_set_same, r_set_ne, ne_eq, reduceCtorEq, not_false_eq_true, mem_set, e0, add0, Alu.eval, Width.bytes, hl]
    · simp only [r_set_same, r_set_ne, ne_eq, reduceCtorEq, not_false_eq_true, mem_set]
    · simp only [r_set_same, r_set_ne, ne_eq, reduceCtorEq, not_false_eq_true, mem_set, e7, hN', Alu.eval]
    · simp only [r_set_same, r_set_ne, ne_eq, reduceCtorEq, not_false_eq_true, mem_set, e0, add0, Alu.eval, Width.bytes, hl]
    · simp only [r_set_same, r_set_ne, ne_eq, reduceCtorEq, not_false_eq_true, mem_set, Alu.eval]
      exact BitVec.add_comm _ _
    · simp only [r_set_same, r_set_ne, ne_eq, reduceCtorEq, not_false_eq_true, mem_set, e7, hN', Alu.eval]
    · rfl
    · intro r hr
      simp only [List.mem_cons, List.not_mem_nil, or_false, not_or] at hr
      obtain ⟨h1, h2, h3, h4, h5, h6, h7, h8⟩ := hr
      simp only [r_set_ne, ne_eq, h1, h2, h3, h4, h5, h6, h7, h8, not_false_eq_true]
  have hd : (s1.r .t2 - s1.r .t3).toNat = N.toNat := by
    rw [v2, v3]
    congr 1
    apply BitVec.eq_of_toNat_eq
    have := (s.r .sp).isLt
    have := N.isLt
    simp only [BitVec.toNat_sub]
    omega
  obtain ⟨s2, r2, m2, k2⟩ := loop_runs hu hc.right.left (bot - s.r .sp).toNat s1 (by rw [v4, BitVec.ofNat_toNat, BitVec.setWidth_eq]) (bot - s.r .sp).isLt (by rw [hd]; exact hfit)
  obtain ⟨s3, hs3, a3, m3, k3⟩ : ∃ s3, execL env [.op .sub .a0 .t1 .t0, .store .d .a0 0 .t5] s2 = some s3 ∧ s3.r .a0 = s2.r .t1 - s2.r .t0 ∧
      s3.mem = writeN s2.mem (s2.r .t5) 8 (s2.r .t1 - s2.r .t0).toNat ∧ ∀ r, r ≠ .a0 → s3.r r = s2.r r := by
    refine ⟨_, rfl, ?_, ?_, ?_⟩
    · simp only [r_mem, r_set_same, ne_eq, reduceCtorEq, not_false_eq_true, Alu.eval]
    · simp only [r_set_same, r_set_ne, ne_eq, reduceCtorEq, not_false_eq_true, mem_set, e0, add0, Alu.eval, Width.bytes]
    · intro r hr
      simp only [r_mem, r_set_ne _ _ _ _ hr]
  have t1 : s2.r .t1 = bot := (k2 .t1 (by decide)).trans v1
  have t0 : s2.r .t0 = N := (k2 .t0 (by decide)).trans v0
  have t5 : s2.r .t5 = s.r .fp + BitVec.ofInt 64 off := (k2 .t5 (by decide)).trans v5
  refine ⟨s3, ?_, ?_, ?_, ?_, ?_⟩
  · have a := runs_execL (env := env) hc.left hs1
    have b := runs_execL (env := env) hc.right.right hs3
    exact a.trans (r2.trans b)
  · rw [k3 .sp (by decide), k2 .sp (by decide), vsp]
  · rw [a3, t1, t0]
  · rw [m3, m2, t1, t0, t5, vm, v2, v3]
  · intro r hr
    have hr' := hr
    simp only [List.mem_cons, List.not_mem_nil, or_false, not_or] at hr
    obtain ⟨h1, h2, h3, h4, h5, h6, h7, h8⟩ := hr
    rw [k3 r h1, k2 r (by simp [h1, h4, h5, h6]), vk r hr']

end Toycc.Cg
