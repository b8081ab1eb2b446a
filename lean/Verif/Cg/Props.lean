import Verif.Cg.ExprCall
import Verif.Cg.SimpleProof
import Verif.Cg.Total
import Verif.Cg.Labels
import Verif.Rv.Run
/-!
Properties of the code generated for expressions: C36 (bit-fields), C37 (conversions), C38 (values of expressions).
-/
namespace Toycc.Cg.Props
open Toycc.Rv Toycc.Cg

/-! ### C37: conversions between integer types -/

/-- Whatever the value, the instructions emitted for a conversion from `a` to `t` turn a register holding a value of type `a` into
one holding the converted value, and change no other register and no memory. -/
def CastRight (a t : Ty) : Prop :=
  ∀ (env : Env) (s : St) (v : Int), inRange a v = true → s.r .a0 = BitVec.ofInt 64 v →
    ∃ s', execL env (genCast a t) s = some s' ∧ s'.r .a0 = BitVec.ofInt 64 (convC t v) ∧ (∀ x, x ≠ .a0 → s'.r x = s.r x) ∧ s'.mem = s.mem

/-- The conversions for which toycc emits nothing although the value can change. -/
def castWrong (a t : Ty) : Bool :=
  match a, t with
  | .char true, .char false => true
  | .short true, .short false => true
  | .int true, .int false => true
  | .int true, .enum => true
  | .long _, .enum => true
  | .ptr, .enum => true
  | _, _ => false

/-- All integer and pointer types. -/
def scalars : List Ty :=
  [.bool, .char false, .char true, .short false, .short true, .int false, .int true, .long false, .long true, .enum, .ptr]

theorem scalar_mem {t : Ty} (h : t.scalar = true) : t ∈ scalars := by
  cases t <;> first | decide | (rename_i u; cases u <;> decide) | simp [Ty.scalar] at h

theorem castOk_of {a t : Ty} (ha : a.scalar = true) (ht : t.scalar = true) (h : castWrong a t = false) : castOk a t = true := by
  have key : ∀ a ∈ scalars, ∀ t ∈ scalars, castWrong a t = false → castOk a t = true := by decide
  exact key a (scalar_mem ha) t (scalar_mem ht) h

/-- A value that comes out wrong. -/
def castWitness : Ty → Int
  | .char _ => 200 | .short _ => 40000 | _ => 3000000000

/-- **C37.** Exactly which of the conversions between integer (and pointer) types are compiled correctly. -/
theorem cast_correct_iff_partial {a t : Ty} (ha : a.scalar = true) (ht : t.scalar = true) : CastRight a t ↔ castWrong a t = false := by
  constructor
  · intro h
    rcases hw : castWrong a t with _ | _
    · rfl
    exfalso
    have wit : ∀ v : Int, inRange a v = true → genCast a t = [] → BitVec.ofInt 64 v ≠ BitVec.ofInt 64 (convC t v) → False := by
      intro v hv hg hne
      obtain ⟨s', h1, h2, _⟩ := h ⟨fun _ => 0, fun _ => 0, fun _ => none, fun _ _ => none⟩ ⟨fun _ => BitVec.ofInt 64 v, fun _ => 0⟩ v hv rfl
      rw [hg] at h1
      simp only [execL, Option.some.injEq] at h1
      subst h1
      exact hne h2
    have key : ∀ a ∈ scalars, ∀ t ∈ scalars, castWrong a t = true → inRange a (castWitness a) = true ∧ genCast a t = [] ∧
      BitVec.ofInt 64 (castWitness a) ≠ BitVec.ofInt 64 (convC t (castWitness a)) := by decide
    obtain ⟨k1, k2, k3⟩ := key a (scalar_mem ha) t (scalar_mem ht) hw
    exact wit _ k1 k2 k3
  · intro h env s v hv hs
    obtain ⟨s', h1, h2, h3, h4⟩ := exec_cast env s a t (Or.inl ht)
    have hne : t ≠ .void := by intro e; subst e; simp [Ty.scalar] at ht
    have h5 := (castS_ok (castOk_of ha ht h) ((inV_scalar ha).mpr hv) hne).1
    have h6 := cast_correct h5 (X := s.r .a0) ⟨hs, range_lt ha hv⟩
    exact ⟨s', h1, by rw [h3]; exact h6.1, fun x hx => h2 x (by simpa using hx), h4⟩

/-- Both alternatives occur, with a value that is really converted: a negative int becomes a large unsigned char correctly; an
unsigned char is not brought into the range of signed char. -/
example : CastRight (.int false) (.char true) ∧ convC (.char true) (-3) = 253 ∧ ¬ CastRight (.char true) (.char false) :=
  ⟨(cast_correct_iff_partial rfl rfl).mpr rfl, by decide, fun h => absurd ((cast_correct_iff_partial rfl rfl).mp h) (by decide)⟩

/-! ### C36: bit-fields -/

/-- **C36** (store). The code of `s.f = v` for a field of `w` bits at bit `o` of a storage unit of type `t` at address `a`: it writes
nothing outside the unit, replaces the bits of the field by the low bits of `v`, and leaves the other bits of the unit alone. -/
theorem bitfield_store_partial (env : Env) (s : St) (t : Ty) (ht : t.scalar = true) (o w : Nat) (hw : w < 64) (how : o + w ≤ t.bits)
    (a : W) (ha : BitVec.ofNat 64 (readN s.mem (s.r .sp) 8) = a) :
    ∃ s', execL env (storeBits t t o w) s = some s' ∧ s'.r .sp = s.r .sp + 8 ∧ s'.r .a0 = s.r .a0 ∧
      (∀ b : W, ¬ (b - a).toNat < t.size → s'.mem b = s.mem b) ∧
      (∀ i, i < t.bits → ¬ (o ≤ i ∧ i < o + w) → (readN s'.mem a t.size).testBit i = (readN s.mem a t.size).testBit i) ∧
      (∀ i, i < w → (readN s'.mem a t.size).testBit (o + i) = (s.r .a0).getLsbD i) := by
  obtain ⟨s', h1, h2, h3, h4⟩ := exec_storeBits env s t ht o w
  rw [ha] at h4
  have hb : t.bits ≤ 64 := by rcases scalar_size ht with hs | hs | hs | hs <;> simp [Ty.bits, hs]
  have hsz : t.size < 2 ^ 64 := by rcases scalar_size ht with hs | hs | hs | hs <;> simp [hs]
  have hmg := merge_correct (v := ((s.r .a0).toNat : Int)) hw how hb (loadVal_mod ht s.mem a) (V := s.r .a0) (by
    have : (((s.r .a0).toNat : Int) % 2 ^ w) = (((s.r .a0).toNat % 2 ^ w : Nat) : Int) := by simp
    rw [this, Int.toNat_natCast])
  have hrd : readN s'.mem a t.size = mergeBits o w (readN s.mem a t.size) ((s.r .a0).toNat : Int) % 2 ^ t.bits := by
    rw [h4, readN_writeN _ _ _ _ hsz _ (Nat.le_refl _), pow256]; exact hmg
  refine ⟨s', h1, h3, h2 .a0 (by decide), ?_, ?_, ?_⟩
  · intro b hb; rw [h4, writeN, if_neg hb]
  · intro i hi hn
    rw [hrd, Nat.testBit_mod_two_pow, decide_eq_true hi, Bool.true_and, mergeBits_testBit, if_neg hn]
  · intro i hi
    rw [hrd, Nat.testBit_mod_two_pow, decide_eq_true (by omega), Bool.true_and, mergeBits_testBit, if_pos (by omega)]
    have : (((s.r .a0).toNat : Int) % 2 ^ w) = (((s.r .a0).toNat % 2 ^ w : Nat) : Int) := by simp
    rw [this, Int.toNat_natCast, Nat.testBit_mod_two_pow, BitVec.testBit_toNat, show o + i - o = i by omega, decide_eq_true hi, Bool.true_and]

/-- The code reading a bit-field of the unit at the address in a0. -/
def readField (t : Ty) (o w : Nat) : List Instr := genLoad t ++ extractBits t o w

/-- **C36** (read-back). After `s.f = v`, reading `s.f` gives `v` reduced to the width of the field: modulo `2^w` for unsigned
fields, to the two's complement range of `w` bits for signed ones. Excludes `_Bool` fields (see `bool_bitfield_reads_minus_one`). -/
theorem bitfield_read_back_partial (env : Env) (s : St) (t : Ty) (ht : t.scalar = true) (hnb : t ≠ .bool) (o w : Nat) (h0 : 0 < w) (hw : w < 64)
    (how : o + w ≤ t.bits) (v : Int) (hv : s.r .a0 = BitVec.ofInt 64 v)
    (s' : St) (hs' : execL env (storeBits t t o w) s = some s')
    (u : St) (hu : u.mem = s'.mem) (hua : u.r .a0 = BitVec.ofNat 64 (readN s.mem (s.r .sp) 8)) :
    ∃ u', execL env (readField t o w) u = some u' ∧ u'.mem = u.mem ∧
      u'.r .a0 = BitVec.ofInt 64 (wrapBits t w v) := by
  rw [wrapBits, if_neg hnb]
  obtain ⟨s2, h1, h2, h3, h4, h5, h6⟩ := bitfield_store_partial env s t ht o w hw how _ rfl
  rw [hs'] at h1
  cases h1
  obtain ⟨u1, l1, l2, l3, l4⟩ := exec_load env u t
  obtain ⟨u2, k1, k2, k3, k4⟩ := exec_extract env u1 t o w
  have hb : t.bits ≤ 64 := by rcases scalar_size ht with hs | hs | hs | hs <;> simp [Ty.bits, hs]
  refine ⟨u2, by rw [readField, execL_append, l1, Option.bind_some, k1], by rw [k4, l4], ?_⟩
  rw [k3, l3, hua, extractVal_eq h0 (by omega), field_congr how (loadVal_mod ht _ _)]
  rw [hu]
  have hval : readN s'.mem (BitVec.ofNat 64 (readN s.mem (s.r .sp) 8)) t.size / 2 ^ o % 2 ^ w = (v % 2 ^ w).toNat := by
    apply Nat.eq_of_testBit_eq
    intro i
    have e64 : (2 : Nat) ^ w ∣ 2 ^ 64 := Nat.pow_dvd_pow 2 (by omega)
    have hx : (s.r .a0).toNat % 2 ^ w = (v % 2 ^ w).toNat := by
      rw [hv, BitVec.toNat_ofInt]
      have h7 : ((v % ((2 ^ 64 : Nat) : Int)).toNat : Int) = v % ((2 ^ 64 : Nat) : Int) := Int.toNat_of_nonneg (Int.emod_nonneg _ (by simp))
      have h8 : (0 : Int) ≤ v % 2 ^ w := Int.emod_nonneg _ (by have := Int.pow_pos (n := 2) (m := w) (by decide); omega)
      apply Int.ofNat.inj
      show (((v % ((2 ^ 64 : Nat) : Int)).toNat % 2 ^ w : Nat) : Int) = ((v % 2 ^ w).toNat : Int)
      rw [Int.toNat_of_nonneg h8, Int.natCast_emod, h7]
      rw [Int.emod_emod_of_dvd _ (by exact_mod_cast e64)]
      simp
    rw [Nat.testBit_mod_two_pow, Nat.testBit_div_two_pow, ← hx, Nat.testBit_mod_two_pow, BitVec.testBit_toNat]
    by_cases hi : i < w
    · rw [Nat.add_comm i o, h6 i hi]
    · simp [hi]
  rw [hval]
  have hnn : ((v % 2 ^ w).toNat : Int) = v % 2 ^ w :=
    Int.toNat_of_nonneg (Int.emod_nonneg _ (by have := Int.pow_pos (n := 2) (m := w) (by decide); omega))
  rw [hnn]
  cases t.unsigned
  · simp only [Bool.false_eq_true, if_false]
    congr 1
    have := Int.emod_bmod v (2 ^ w)
    simpa using this
  · rfl

/-- A machine state with the unit at address 256, its address pushed at 512, and `v` in a0. -/
def bfState (unit v : Nat) : St :=
  ⟨fun r => match r with | .sp => 512 | .a0 => BitVec.ofNat 64 v | _ => 0, writeN (writeN (fun _ => 0) 256 8 unit) 512 8 256⟩

def nullEnv : Env := ⟨fun _ => 0, fun _ => 0, fun _ => none, fun _ _ => none⟩

/-- Non-vacuity: `struct { int a:3; int f:5; int c:8; } s; s.f = 27;` in a unit with other bits set: the neighbours keep their
value, the field reads back as -5. -/
example : ∃ s', execL nullEnv (storeBits (.int false) (.int false) 3 5) (bfState 0xabcd 27) = some s' ∧ readN s'.mem 256 4 = 0xabdd ∧
    readN s'.mem 260 4 = 0 ∧ wrapBits (.int false) 5 27 = -5 ∧
    ∃ u', execL nullEnv (readField (.int false) 3 5) (s'.set .a0 256) = some u' ∧ u'.r .a0 = BitVec.ofInt 64 (-5) := by
  refine ⟨(execL nullEnv (storeBits (.int false) (.int false) 3 5) (bfState 0xabcd 27)).get rfl, (Option.some_get _).symm, ?_, ?_, ?_, ?_⟩
  · decide +kernel
  · decide +kernel
  · decide +kernel
  · exact ⟨(execL nullEnv (readField (.int false) 3 5) _).get rfl, (Option.some_get _).symm, by decide +kernel⟩

/-- A violation of C36: the value of the assignment expression is the unreduced value. `s.f = 27` with a signed 5-bit field leaves
27 in a0; C prescribes -5. -/
theorem bitfield_assignment_value_wrong : ∃ s', execL nullEnv (storeBits (.int false) (.int false) 3 5) (bfState 0xabcd 27) = some s' ∧
    s'.r .a0 = BitVec.ofInt 64 27 ∧ wrapBits (.int false) 5 27 ≠ 27 := by
  obtain ⟨s', h1, _, h3, _⟩ := bitfield_store_partial nullEnv (bfState 0xabcd 27) (.int false) rfl 3 5 (by decide) (by decide) _ rfl
  exact ⟨s', h1, h3, by decide⟩

/-- A violation of C36: `_Bool b : 1` holding 1 reads as -1. -/
theorem bool_bitfield_reads_minus_one : ∃ u', execL nullEnv (readField .bool 0 1) ((bfState 1 0).set .a0 256) = some u' ∧
    u'.r .a0 = BitVec.ofInt 64 (-1) ∧ wrapBits .bool 1 1 = 1 :=
  ⟨(execL nullEnv (readField .bool 0 1) ((bfState 1 0).set .a0 256)).get rfl, (Option.some_get _).symm, by decide +kernel, by decide⟩

/-! ### C38: values of expressions -/

/-- **C38** for all expressions: whenever strict evaluation (C evaluation that refuses the known defects, Verif.Cg.Strict) gives a
value, C gives the same value and memory, and the generated code computes them, restores the stack pointer and frame pointer and
touches no byte other than the objects C allows and the free part of the stack. -/
theorem compiled_expression_strict {E : CEnv} {B : W} {env : Env} {P : Prog} (hw : World E B env P) {e : Expr} {gs gs' : GS} {c : List Instr}
    {m m' : Mem} {v : Int} {pc : Nat} {s : St} (hg : gen false e gs = some (c, gs')) (hev : evalS E false gs.depth e m = some (v, .full, m'))
    (hc : CodeAt P pc c) (hm : Match E B gs.depth m s) :
    evalC E false gs.depth e m = some (v, m') ∧
    ∃ s', Runs P env (pc, s) (pc + c.length, s') ∧ s'.r .a0 = BitVec.ofInt 64 v ∧ s'.r .sp = s.r .sp ∧ s'.r .fp = s.r .fp ∧
      (∀ b, E.valid b = true → s'.mem b = m' b) ∧
      (∀ b, E.valid b = false → ¬ (8 * gs.depth ≤ idx B b ∧ idx B b < 8 * E.room) → s'.mem b = s.mem b) := by
  refine ⟨evalS_evalC E e _ _ _ _ _ _ hev, ?_⟩
  obtain ⟨s', h1, h2, h3, h4⟩ := gen_good hw e false gs c gs' m v .full m' pc s hg hev hc hm
  exact ⟨s', h1, h3.1, by rw [h2.sp, hm.sp], by rw [h2.fp, hm.fp], h2.mem, h4⟩

/-- **C38** for the simple class: every expression of the class compiles, and its code computes exactly what C prescribes, whenever
C prescribes something (no undefined behaviour) and the stack is large enough. -/
theorem compiled_expression_value_partial {E : CEnv} {B : W} {env : Env} {P : Prog} (hw : World E B env P) (ht : E.CallsTyped)
    (e : Expr) (hs : simple false e = true) (hu : usable e = true) (gs : GS) (hr : gs.depth + need e ≤ E.room) :
    ∃ c gs', gen false e gs = some (c, gs') ∧ gs'.depth = gs.depth ∧
      ∀ m v m' pc s, evalC E false gs.depth e m = some (v, m') → CodeAt P pc c → Match E B gs.depth m s →
        ∃ s', Runs P env (pc, s) (pc + c.length, s') ∧ s'.r .a0 = BitVec.ofInt 64 v ∧ s'.r .sp = s.r .sp ∧ s'.r .fp = s.r .fp ∧
          (∀ b, E.valid b = true → s'.mem b = m' b) ∧
          (∀ b, E.valid b = false → ¬ (8 * gs.depth ≤ idx B b ∧ idx B b < 8 * E.room) → s'.mem b = s.mem b) := by
  obtain ⟨c, gs', hg⟩ := gen_total e false gs hs
  refine ⟨c, gs', hg, (gen_depth e _ _ _ _ hg).1, ?_⟩
  intro m v m' pc s hev hc hm
  obtain ⟨f, h1, h2⟩ := evalS_of_evalC ht e false _ _ _ _ hs hr hev
  obtain ⟨rfl, _⟩ := h2 hu
  exact (compiled_expression_strict hw hg h1 hc hm).2

/-- Surroundings without function calls: they exist for every program whose labels are unique. -/
theorem world_closed {E : CEnv} {B : W} {env : Env} {P : Prog} (h1 : 8 * E.room < 2 ^ 64) (h2 : ∀ b, idx B b < 8 * E.room → E.valid b = false)
    (h3 : ∀ l, env.sym l = E.sym l) (h4 : (labels P).Nodup) (h5 : ∀ a k t vs m, E.call a k t vs m = none) : World E B env P :=
  ⟨h1, h2, h3, unique_of_nodup h4, fun fa k ty vs m v m' h => by rw [h5] at h; simp at h⟩

/-- The code of a simple expression placed by itself meets the assumptions on the surroundings. -/
theorem world_of_expr {E : CEnv} {B : W} {env : Env} {e : Expr} {ad gs c gs'} (hg : gen ad e gs = some (c, gs'))
    (h1 : 8 * E.room < 2 ^ 64) (h2 : ∀ b, idx B b < 8 * E.room → E.valid b = false)
    (h3 : ∀ l, env.sym l = E.sym l) (h5 : ∀ a k t vs m, E.call a k t vs m = none) : World E B env c :=
  world_closed h1 h2 h3 (gen_fresh e _ _ _ _ hg).1 h5

/-! #### A concrete program: `x = y * 3 + (x < y ? 10L : 20L)` with `long x = 5, y = 7` at fp-8 and fp-16 -/

def exE : CEnv :=
  { fp := 1024, sym := fun _ => 0, valid := fun b => decide (1008 ≤ b.toNat ∧ b.toNat < 1024), call := fun _ _ _ _ _ => none, room := 16 }
def lng : Ty := .long false
def exX : Expr := .var lng (.loc (-8))
def exY : Expr := .var lng (.loc (-16))
def exExpr : Expr :=
  .assign lng exX (.bin .add lng (.bin .mul lng exY (.num lng 3)) (.cond lng (.bin .lt (.int false) exX exY) (.num lng 10) (.num lng 20)))
def exMem : Mem := writeN (writeN (fun _ => 0) 1016 8 5) 1008 8 7
def exSt (m : Mem) : St := ⟨fun r => match r with | .sp => 1008 | .fp => 1024 | _ => 0, m⟩

theorem ex_stack : ∀ b, idx 1008 b < 8 * exE.room → exE.valid b = false := by
  intro b h
  simp only [idx, exE, BitVec.toNat_sub, BitVec.toNat_ofNat, BitVec.ofNat_eq_ofNat] at h
  simp only [exE, decide_eq_false_iff_not]
  have := b.isLt
  omega

example : simple false exExpr = true ∧ usable exExpr = true ∧ need exExpr ≤ exE.room ∧ exE.CallsTyped ∧
    (evalC exE false 0 exExpr exMem).map (·.1) = some 31 ∧
    (∃ c gs', gen false exExpr ⟨0, 0⟩ = some (c, gs') ∧ World exE 1008 nullEnv c) ∧ Match exE 1008 0 exMem (exSt exMem) := by
  refine ⟨by decide, by decide, by decide, ?_, by decide +kernel, ?_, ?_⟩
  · intro a k ty vs m v m' h; simp [exE] at h
  · obtain ⟨c, gs', hg⟩ := gen_total exExpr false ⟨0, 0⟩ (by decide)
    exact ⟨c, gs', hg, world_of_expr hg (by decide) ex_stack (fun _ => rfl) (fun _ _ _ _ _ => rfl)⟩
  · exact ⟨by decide, rfl, fun _ _ => rfl⟩

/-! #### A program with a call: `long inc(long)` defined elsewhere at address 4096 -/

def incE : CEnv :=
  { exE with sym := fun l => if l = .sym "inc" then 4096 else 0,
             call := fun a _ t vs m => match vs with
               | [(.long false, x)] => if a = 4096 ∧ t = lng ∧ inRange lng (x + 1) then some (x + 1, m) else none
               | _ => none }
def incEnv : Env :=
  ⟨fun l => if l = .sym "inc" then 4096 else 0, fun _ => 0, fun _ => none, fun a s => if a = 4096 then some (s.set .a0 (s.r .a0 + 1)) else none⟩

theorem world_inc {P : Prog} (h : (labels P).Nodup) : World incE 1008 incEnv P := by
  refine ⟨by decide, ex_stack, fun _ => rfl, unique_of_nodup h, ?_⟩
  intro fa k ty vs m v m' hcall pc s hpc hfa hm harg
  simp only [incE] at hcall
  split at hcall
  case h_2 => simp at hcall
  rename_i x
  split at hcall
  case isFalse => simp at hcall
  rename_i hc
  obtain ⟨rfl, rfl, hr⟩ := hc
  simp only [Option.some.injEq, Prod.mk.injEq] at hcall
  obtain ⟨rfl, rfl⟩ := hcall
  have ha : s.r .a0 = BitVec.ofInt 64 x := by
    have := harg 0 lng x rfl
    simpa [ArgRep, lng, Ty.size, argAt, argRegs] using this
  refine ⟨(s.set .ra 0).set .a0 ((s.set .ra 0).r .a0 + 1), Runs.one ?_, ⟨?_, ?_, ?_⟩, ?_, ?_⟩
  · simp only [step, hpc, hfa, incEnv, if_true, Option.map_some]
  · rw [r_set_ne _ _ _ _ (by decide), r_set_ne _ _ _ _ (by decide)]; exact hm.sp
  · rw [r_set_ne _ _ _ _ (by decide), r_set_ne _ _ _ _ (by decide)]; exact hm.fp
  · exact hm.mem
  · rw [r_set_same _ _ _ (by decide), r_set_ne _ _ _ _ (by decide), ha]
    exact ⟨by rw [BitVec.ofInt_add]; rfl, hr⟩
  · exact fun _ _ _ => rfl

def callInc (e : Expr) : Expr := .call lng (.var .func (.glob "inc")) (.cons e .nil)
def incExpr : Expr := .assign lng exX (callInc (.bin .mul lng (callInc exY) (.num lng 2)))

/-- `x = inc(inc(y) * 2)` meets all assumptions of `compiled_expression_value_partial`. -/
example :
    let e := incExpr
    simple false e = true ∧ usable e = true ∧ need e ≤ incE.room ∧ incE.CallsTyped ∧
    (evalC incE false 0 e exMem).map (·.1) = some 17 ∧
    (∃ c gs', gen false e ⟨0, 0⟩ = some (c, gs') ∧ World incE 1008 incEnv c) := by
  refine ⟨by decide, by decide, by decide, ?_, by decide +kernel, ?_⟩
  · intro a k ty vs m v m' h _
    simp only [incE] at h
    split at h
    · split at h
      · rename_i hc
        simp only [Option.some.injEq, Prod.mk.injEq] at h
        rw [← h.1, hc.2.1]; exact hc.2.2
      · simp at h
    · simp at h
  · obtain ⟨c, gs', hg⟩ := gen_total incExpr false ⟨0, 0⟩ (by decide)
    exact ⟨c, gs', hg, world_inc (gen_fresh _ _ _ _ _ hg).1⟩

/-! #### Violations of C38: for each exclusion of the simple class, a program whose code does not compute the C value -/

/-- The generated code of a program without calls, run from the start, ends with a0 = `r`. -/
def Computes (e : Expr) (m : Mem) (r : W) : Prop :=
  ∃ c gs', gen false e ⟨0, 0⟩ = some (c, gs') ∧ ∃ s', Runs c nullEnv (0, exSt m) (c.length, s') ∧ s'.r .a0 = r

/-- Evaluation of `Computes`. -/
def computes (e : Expr) (m : Mem) (n : Nat) : Option W :=
  match gen false e ⟨0, 0⟩ with
  | some (c, _) => match runN c nullEnv n (0, exSt m) with
    | some (pc, s) => if pc = c.length then some (s.r .a0) else none
    | none => none
  | none => none

theorem computes_sound {e m n r} (h : computes e m n = some r) : Computes e m r := by
  unfold computes at h
  split at h
  case h_2 => simp at h
  rename_i c gs' hg
  split at h
  case h_2 => simp at h
  rename_i pc s hr
  split at h
  case isFalse => simp at h
  rename_i hp
  simp only [Option.some.injEq] at h
  subst hp
  exact ⟨c, gs', hg, s, runs_of_runN hr, h⟩

def u32 : Ty := .int true
def u64 : Ty := .long true
def varX (t : Ty) : Expr := .var t (.loc (-8))
def varY (t : Ty) : Expr := .var t (.loc (-16))

/-- `unsigned x = 2147483648u; x + 0u == x` is 1 in C; the code computes 0: 32-bit results are sign-extended, loads are not. -/
theorem unsigned_int_compare_wrong :
    let e := Expr.bin .eq (.int false) (.bin .add u32 (varX u32) (.num u32 0)) (varX u32)
    let m := writeN (fun _ => 0) 1016 4 2147483648
    (evalC exE false 0 e m).map (·.1) = some 1 ∧ Computes e m 0 :=
  ⟨by decide +kernel, computes_sound (n := 16) (by decide +kernel)⟩

/-- `unsigned long x = 1, y = 1ul << 63; x <= y` is 1 in C; the code computes 0: `<=` compares as signed. -/
theorem unsigned_long_le_wrong :
    let e := Expr.bin .le (.int false) (varX u64) (varY u64)
    let m := writeN (writeN (fun _ => 0) 1016 8 1) 1008 8 (2 ^ 63)
    (evalC exE false 0 e m).map (·.1) = some 1 ∧ Computes e m 0 :=
  ⟨by decide +kernel, computes_sound (n := 10) (by decide +kernel)⟩

/-- `unsigned char x = 200; (signed char)x` is -56 in C; the code computes 200. -/
theorem unsigned_char_cast_wrong :
    let e := Expr.cast (.char false) (varX (.char true))
    let m := writeN (fun _ => 0) 1016 1 200
    (evalC exE false 0 e m).map (·.1) = some (-56) ∧ Computes e m 200 :=
  ⟨by decide +kernel, computes_sound (n := 2) (by decide +kernel)⟩

/-- `unsigned char x = 255; (unsigned char)~x` is 0 in C, where `~x` is the int -256. toycc gives `~x` the type unsigned char, so the
cast emits nothing, and the code computes -256. -/
theorem narrow_complement_wrong :
    let e := Expr.cast (.char true) (.bitnot (varX (.char true)))
    let m := writeN (fun _ => 0) 1016 1 255
    (evalC exE false 0 e m).map (·.1) = some 0 ∧ Computes e m (BitVec.ofInt 64 (-256)) :=
  ⟨by decide +kernel, computes_sound (n := 3) (by decide +kernel)⟩

/-- `~0u == 0xffffffffu` is 1 in C; the code computes 0. -/
theorem unsigned_complement_wrong :
    let e := Expr.bin .eq (.int false) (.bitnot (.num u32 0)) (.num u32 4294967295)
    (evalC exE false 0 e (fun _ => 0)).map (·.1) = some 1 ∧ Computes e (fun _ => 0) 0 :=
  ⟨by decide +kernel, computes_sound (n := 9) (by decide +kernel)⟩

end Toycc.Cg.Props
