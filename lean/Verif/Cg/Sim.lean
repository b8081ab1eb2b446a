import Verif.Cg.Pieces
/-!
The relation between C evaluation and the machine: what a register represents, where the stack is, what a call must do.
`World` collects the assumptions about the surroundings of the generated code.
-/
namespace Toycc.Cg
open Toycc.Rv

/-- Distance of a byte below the address `B` (0 is the byte just below `B`). -/
def idx (B b : W) : Nat := (B - 1 - b).toNat

/-- Machine state `s` corresponds to C memory `m` with `d` stack slots below `B` in use. -/
structure Match (E : CEnv) (B : W) (d : Nat) (m : Mem) (s : St) : Prop where
  sp : s.r .sp = B - BitVec.ofNat 64 (8 * d)
  fp : s.r .fp = E.fp
  mem : ∀ b, E.valid b = true → s.mem b = m b

/-- Bytes outside live objects and outside the unused part of the stack are unchanged. -/
def Keeps (E : CEnv) (B : W) (d : Nat) (mm mm' : Mem) : Prop :=
  ∀ b, E.valid b = false → ¬ (8 * d ≤ idx B b ∧ idx B b < 8 * E.room) → mm' b = mm b

/-- An argument register or stack slot `x` holds the argument `v` of type `t`: the callee may use only as many bytes as the
type has (at least the low 32 bits are set). -/
def ArgRep (t : Ty) (v : Int) (x : W) : Prop :=
  if t.size ≤ 4 then lo x = BitVec.ofInt 32 v else x = BitVec.ofInt 64 v

/-- The result register `x` of a function returning type `t` (RISC-V psABI: `int` is sign extended; for `unsigned int` only the
low half is relied upon, for narrower types only the bits of the type). -/
def RetRep (t : Ty) (v : Int) (x : W) : Prop :=
  match t with
  | .bool | .char _ | .short _ => x.setWidth t.bits = BitVec.ofInt t.bits v ∧ inRange t v = true
  | .int true => lo x = BitVec.ofInt 32 v ∧ inRange t v = true
  | .int false | .enum | .long _ | .ptr => x = BitVec.ofInt 64 v ∧ inRange t v = true
  | _ => True

/-- Where argument `i` is at the time of the call. -/
def argAt (s : St) (i : Nat) : W :=
  match argRegs[i]? with
  | some r => s.r r
  | none => BitVec.ofNat 64 (readN s.mem (s.r .sp + BitVec.ofNat 64 (8 * (i - 8))) 8)

/-- Assumptions about the surroundings of the generated code. -/
structure World (E : CEnv) (B : W) (env : Env) (P : Prog) : Prop where
  /-- the stack does not wrap around the address space, and holds no live object -/
  room : 8 * E.room < 2 ^ 64
  stack : ∀ b, idx B b < 8 * E.room → E.valid b = false
  /-- symbols are where they are -/
  sym : ∀ l, env.sym l = E.sym l
  labels : UniqueLabels P
  /-- calling conventions: a called function behaves as `E.call` says -/
  call : ∀ fa k ty vs m v m', E.call fa k ty vs m = some (v, m') → ∀ pc s, P[pc]? = some (Instr.jalr .t0) → s.r .t0 = fa →
    Match E B k m s → (∀ (i : Nat) (t : Ty) (x : Int), vs[i]? = some (t, x) → ArgRep t x (argAt s i)) →
    ∃ s', Runs P env (pc, s) (pc + 1, s') ∧ Match E B k m' s' ∧ RetRep ty v (s'.r .a0) ∧ Keeps E B k s.mem s'.mem

variable {E : CEnv} {B : W} {env : Env} {P : Prog}

theorem Keeps.refl {d mm} : Keeps E B d mm mm := fun _ _ _ => rfl

theorem Keeps.trans {d a b c} (h1 : Keeps E B d a b) (h2 : Keeps E B d b c) : Keeps E B d a c :=
  fun x hv hr => (h2 x hv hr).trans (h1 x hv hr)

theorem Keeps.mono {d d' a b} (hd : d ≤ d') (h : Keeps E B d' a b) : Keeps E B d a b :=
  fun x hv hr => h x hv (fun ⟨h1, h2⟩ => hr ⟨by omega, h2⟩)

/-- Stack slot number `k` (0 is the first one pushed). -/
def slot (B : W) (mm : Mem) (k : Nat) : W := BitVec.ofNat 64 (readN mm (B - BitVec.ofNat 64 (8 * (k + 1))) 8)

theorem idx_slot {k i : Nat} (hi : i < 8) (hk : 8 * (k + 1) < 2 ^ 64) :
    idx B (B - BitVec.ofNat 64 (8 * (k + 1)) + BitVec.ofNat 64 i) = 8 * k + 7 - i := by
  unfold idx
  have e : B - 1 - (B - BitVec.ofNat 64 (8 * (k + 1)) + BitVec.ofNat 64 i) = BitVec.ofNat 64 (8 * (k + 1) - 1 - i) := by
    apply BitVec.eq_of_toNat_eq
    have := B.isLt
    simp only [BitVec.toNat_sub, BitVec.toNat_add, BitVec.toNat_ofNat, BitVec.ofNat_eq_ofNat]
    omega
  rw [e, BitVec.toNat_ofNat]; omega

theorem slot_keeps (hw : World E B env P) {k d a b} (hk : k < d) (hd : k < E.room) (h : Keeps E B d a b) : slot B b k = slot B a k := by
  unfold slot
  congr 1
  apply readN_congr
  intro i hi
  have := idx_slot (B := B) (k := k) hi (by have := hw.room; omega)
  refine h _ (hw.stack _ ?_) ?_
  · omega
  · omega

theorem sub_8 (d : Nat) : B - BitVec.ofNat 64 (8 * d) - 8 = B - BitVec.ofNat 64 (8 * (d + 1)) := by
  apply BitVec.eq_of_toNat_eq
  simp only [BitVec.toNat_sub, BitVec.toNat_ofNat, BitVec.ofNat_eq_ofNat]
  have := B.isLt
  omega

theorem add_8 (d : Nat) : B - BitVec.ofNat 64 (8 * (d + 1)) + 8 = B - BitVec.ofNat 64 (8 * d) := by
  apply BitVec.eq_of_toNat_eq
  simp only [BitVec.toNat_add, BitVec.toNat_sub, BitVec.toNat_ofNat, BitVec.ofNat_eq_ofNat]
  have := B.isLt
  omega

theorem eq_add_of_sub {a b : W} : b = a + BitVec.ofNat 64 (b - a).toNat := by
  rw [BitVec.ofNat_toNat, BitVec.setWidth_eq, BitVec.add_comm, BitVec.sub_add_cancel]

/-- Pushing a register. -/
theorem sim_push (hw : World E B env P) {d m s pc} {r : Reg} (hr : r ≠ .sp) (hm : Match E B d m s) (hd : d < E.room)
    (hc : CodeAt P pc (pushI r)) :
    ∃ s', Runs P env (pc, s) (pc + 2, s') ∧ Match E B (d + 1) m s' ∧ Keeps E B d s.mem s'.mem ∧ slot B s'.mem d = s.r r ∧
      Same [.sp] s s' := by
  obtain ⟨s', h1, h2, h3, h4⟩ := exec_push env s r hr
  have hroom := hw.room
  have hsp : s'.r .sp = B - BitVec.ofNat 64 (8 * (d + 1)) := by rw [h3, hm.sp, sub_8]
  have hwr : ∀ b, (b - (B - BitVec.ofNat 64 (8 * (d + 1)))).toNat < 8 → 8 * d ≤ idx B b ∧ idx B b < 8 * (d + 1) := by
    intro b hb
    have h5 := idx_slot (B := B) (k := d) hb (by omega)
    rw [← eq_add_of_sub] at h5
    omega
  have hmem : s'.mem = writeN s.mem (B - BitVec.ofNat 64 (8 * (d + 1))) 8 (s.r r).toNat := by rw [h4, hm.sp, sub_8]
  refine ⟨s', runs_execL hc h1, ⟨hsp, ?_, ?_⟩, ?_, ?_, h2⟩
  · rw [h2 .fp (by decide), hm.fp]
  · intro b hv
    rw [hmem, writeN, if_neg, hm.mem b hv]
    intro hb
    have := hwr b hb
    have := hw.stack b (by omega)
    simp_all
  · intro b hv hn
    rw [hmem, writeN, if_neg]
    intro hb
    have := hwr b hb
    omega
  · rw [slot, hmem, readN_writeN _ _ _ _ (by omega) 8 (by omega), Nat.mod_eq_of_lt]
    · simp
    · have := (s.r r).isLt; omega

/-- Popping into a register. -/
theorem sim_pop {d m s pc} {r : Reg} (hr : r ≠ .sp) (hz : r ≠ .zero) (hf : r ≠ .fp) (hm : Match E B (d + 1) m s)
    (hc : CodeAt P pc (popI r)) :
    ∃ s', Runs P env (pc, s) (pc + 2, s') ∧ Match E B d m s' ∧ s'.mem = s.mem ∧ s'.r r = slot B s.mem d ∧ Same [.sp, r] s s' := by
  obtain ⟨s', h1, h2, h3, h4, h5⟩ := exec_pop env s r hr hz
  refine ⟨s', runs_execL hc h1, ⟨?_, ?_, ?_⟩, h5, ?_, h2⟩
  · rw [h3, hm.sp, add_8]
  · rw [h2 .fp (by simp [Ne.symm hf]), hm.fp]
  · intro b hv; rw [h5, hm.mem b hv]
  · rw [h4, hm.sp]; rfl

/-- A piece that leaves sp, fp and memory alone. -/
theorem sim_piece {d m s s' pc c} {L : List Reg} (hm : Match E B d m s) (hc : CodeAt P pc c) (he : execL env c s = some s')
    (hs : Same L s s') (h1 : Reg.sp ∉ L) (h2 : Reg.fp ∉ L) (hmem : s'.mem = s.mem) :
    Runs P env (pc, s) (pc + c.length, s') ∧ Match E B d m s' ∧ Keeps E B d s.mem s'.mem :=
  ⟨runs_execL hc he, ⟨by rw [hs _ h1, hm.sp], by rw [hs _ h2, hm.fp], fun b hb => by rw [hmem, hm.mem b hb]⟩,
    by rw [hmem]; exact Keeps.refl⟩

/-- Bytes written inside live objects. -/
theorem write_valid {a : W} {n : Nat} (hok : E.ok a n = true) {b : W} (hb : (b - a).toNat < n) : E.valid b = true := by
  have := ok_iff.mp hok _ hb
  rw [← eq_add_of_sub] at this
  exact this

/-- A successful evaluation of `c` at `pc`. -/
def Res (E : CEnv) (B : W) (env : Env) (P : Prog) (d : Nat) (pc len : Nat) (s : St) (v : Int) (f : Ext) (m' : Mem) : Prop :=
  ∃ s', Runs P env (pc, s) (pc + len, s') ∧ Match E B d m' s' ∧ Rep f v (s'.r .a0) ∧ Keeps E B d s.mem s'.mem

end Toycc.Cg
