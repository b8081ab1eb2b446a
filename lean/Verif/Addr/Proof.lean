import Verif.Addr.Spec
import Verif.Rv.Lemmas
namespace Toycc.Addr
open Toycc.Rv

theorem hi_lo (pc : W) (v : Int) (f : BitVec 20) (h : hiField v = some f) :
    pc + (f ++ 0#12).signExtend 64 + (loField v).signExtend 64 = pc + BitVec.ofInt 64 v := by
  unfold hiField at h
  split at h <;> simp only [Option.some.injEq, reduceCtorEq] at h
  next hb =>
  subst h
  rw [BitVec.add_assoc]; congr 1
  have e1 : ((BitVec.ofInt 20 ((v + 2048) / 4096)) ++ 0#12).toInt = (v + 2048) / 4096 * 4096 := by
    rw [BitVec.toInt_append]
    simp [BitVec.toInt_ofInt, Int.bmod]
    omega
  have e2 : (loField v).toInt = v - (v + 2048) / 4096 * 4096 := by
    unfold loField
    rw [BitVec.toInt_ofInt]
    simp [Int.bmod]
    omega
  have s1 : ((BitVec.ofInt 20 ((v + 2048) / 4096)) ++ 0#12).signExtend 64 = BitVec.ofInt 64 ((v + 2048) / 4096 * 4096) := by
    rw [← e1]; rfl
  have s2 : (loField v).signExtend 64 = BitVec.ofInt 64 (v - (v + 2048) / 4096 * 4096) := by
    rw [← e2]; rfl
  rw [s1, s2, ← BitVec.ofInt_add]
  congr 1; omega

theorem ofInt_sub (x a : W) : a + BitVec.ofInt 64 ((x - a).toInt) = x := by
  rw [BitVec.ofInt_toInt]
  bv_omega

theorem links_iff (v : Int) : (∃ f, hiField v = some f) ↔ -(2 ^ 31) - 2 ^ 11 ≤ v ∧ v < 2 ^ 31 - 2 ^ 11 := by
  unfold hiField
  constructor
  · rintro ⟨f, h⟩
    split at h
    · omega
    · exact absurd h (by simp)
  · intro h
    exact ⟨_, if_pos (by omega)⟩

/-- The label of the block is the first of its name. -/
theorem hiOf_pre (l : Label) : ∀ (pre rest : List Line) (a : W), .label l ∉ pre →
    hiOf l (pre ++ .label l :: rest) a = relocAt rest (a + BitVec.ofNat 64 (bytes pre))
  | [], rest, a, _ => by simp [hiOf, bytes]
  | x :: pre, rest, a, h => by
    have hx : x ≠ .label l := fun e => h (by simp [e])
    have := hiOf_pre l pre rest (a + BitVec.ofNat 64 x.size) (fun m => h (List.mem_cons_of_mem _ m))
    rw [List.cons_append, hiOf, if_neg hx, this]
    congr 1
    simp only [bytes, List.map_cons, List.sum_cons, BitVec.ofNat_add, BitVec.add_assoc]

theorem step_hi_lo {bias a x : W} {f : BitVec 20} {v : Int} (hv : v = (x - a).toInt) (hf : hiField v = some f) :
    a + bias + (f ++ 0#12).signExtend 64 + (loField v).signExtend 64 = x + bias := by
  rw [hi_lo _ _ _ hf, hv]
  have := ofInt_sub x a
  generalize BitVec.ofInt 64 ((x - a).toInt) = d at this
  bv_omega

theorem set_set (s : St) (r : Reg) (x y : W) : (s.set r x).set r y = s.set r y := by
  cases s with
  | mk g m =>
    simp only [St.set, St.mk.injEq, and_true]
    funext z
    by_cases h : z = r <;> simp [h]

section
variable {L : Layout} {pre post : List Line} {bias : W} {call : St → Option St} {c : Nat} {n : String} {s : St}

/-- The address of the first instruction of the block. -/
abbrev here (L : Layout) (pre : List Line) : W := L.text + BitVec.ofNat 64 (bytes pre)

theorem run_relative (hl : .label (pcrel c) ∉ pre) (hn : Near (here L pre) (L.sym n)) :
    run L (pre ++ relative n c ++ post) bias call (relative n c) (here L pre) s = some (s.set .a0 (L.sym n + bias)) := by
  obtain ⟨f, hf⟩ := (links_iff _).2 hn
  have hr : hiOf (pcrel c) (pre ++ relative n c ++ post) L.text = some (.pcrel n, here L pre) := by
    have := hiOf_pre (pcrel c) pre ([.auipc (.pcrel n), .addi (pcrel c)] ++ post) L.text hl
    simpa [relative, relocAt] using this
  generalize pre ++ relative n c ++ post = t at hr ⊢
  simp only [relative, run, Layout.link, Option.bind_some, step, Line.size, Layout.value, hr, Option.map_some, BitVec.ofNat_eq_ofNat, BitVec.add_zero]
  rw [hf]
  simp only [Option.map_some, Option.bind_some]
  rw [r_set_same _ .a0 _ (by decide), set_set, step_hi_lo rfl hf]

theorem run_got (hl : .label (pcrel c) ∉ pre) (hn : Near (here L pre) (L.got n)) :
    run L (pre ++ gotRelative n c ++ post) bias call (gotRelative n c) (here L pre) s =
      some (s.set .a0 (BitVec.ofNat 64 (readN s.mem (L.got n + bias) 8))) := by
  obtain ⟨f, hf⟩ := (links_iff _).2 hn
  have hr : hiOf (pcrel c) (pre ++ gotRelative n c ++ post) L.text = some (.got n, here L pre) := by
    have := hiOf_pre (pcrel c) pre ([.auipc (.got n), .ld (pcrel c)] ++ post) L.text hl
    simpa [gotRelative, relocAt] using this
  generalize pre ++ gotRelative n c ++ post = t at hr ⊢
  simp only [gotRelative, run, Layout.link, Option.bind_some, step, Line.size, Layout.value, hr, Option.map_some, BitVec.ofNat_eq_ofNat, BitVec.add_zero]
  rw [hf]
  simp only [Option.map_some, Option.bind_some]
  rw [r_set_same _ .a0 _ (by decide), set_set, step_hi_lo rfl hf, mem_set]

theorem run_tls (hl : .label (pcrel c) ∉ pre) (hn : Near (here L pre) (L.gd n)) :
    run L (pre ++ tlsRelative n c ++ post) bias call (tlsRelative n c) (here L pre) s = call (s.set .a0 (L.gd n + bias)) := by
  obtain ⟨f, hf⟩ := (links_iff _).2 hn
  have hr : hiOf (pcrel c) (pre ++ tlsRelative n c ++ post) L.text = some (.tlsGd n, here L pre) := by
    have := hiOf_pre (pcrel c) pre ([.auipc (.tlsGd n), .addi (pcrel c), .callTls] ++ post) L.text hl
    simpa [tlsRelative, relocAt] using this
  generalize pre ++ tlsRelative n c ++ post = t at hr ⊢
  simp only [tlsRelative, run, Layout.link, Option.bind_some, step, Line.size, Layout.value, hr, Option.map_some, BitVec.ofNat_eq_ofNat, BitVec.add_zero]
  rw [hf]
  simp only [Option.map_some, Option.bind_some]
  rw [r_set_same _ .a0 _ (by decide), set_set, step_hi_lo rfl hf]
  cases call (s.set .a0 (L.gd n + bias)) <;> rfl

theorem run_tprel {t : List Line} {a : W} {f : BitVec 20} (hf : hiField (L.tpoff n) = some f) :
    run L t bias call [.auipc (.tprel n), .addTp n] a s = some (s.set .a0 (a + bias + BitVec.ofInt 64 (L.tpoff n))) := by
  simp only [run, Layout.link, Layout.value, hf, Option.map_some, Option.bind_some, step]
  rw [r_set_same _ .a0 _ (by decide), set_set, hi_lo _ _ _ hf]

end

/-- The labels `.L.pcrel%d` of a text are numbered from the counter on. -/
theorem emit_labels (fpic : Bool) : ∀ (l : List Item) (c : Nat), (∀ k, Item.mark k ∈ l → ∀ n, k ≠ pcrel n) →
    ∀ n, Line.label (pcrel n) ∈ emit fpic l c → c ≤ n
  | [], _, _, n, h => by simp [emit] at h
  | .code _ :: r, c, hm, n, h => by
    simp only [emit, List.mem_cons, reduceCtorEq, false_or] at h
    exact emit_labels fpic r c (fun k m => hm k (List.mem_cons_of_mem _ m)) n h
  | .mark l :: r, c, hm, n, h => by
    simp only [emit, List.mem_cons, Line.label.injEq] at h
    rcases h with h | h
    · exact absurd h.symm (hm l (by simp) n)
    · have := emit_labels fpic r (c + 1) (fun k m => hm k (List.mem_cons_of_mem _ m)) n h
      omega
  | .addr v :: r, c, hm, n, h => by
    simp only [emit, List.mem_append] at h
    have ih := emit_labels fpic r (genAddr fpic v c).2 (fun k m => hm k (List.mem_cons_of_mem _ m)) n
    have hc : c ≤ (genAddr fpic v c).2 := by unfold genAddr; repeat' split
                                             all_goals simp
    rcases h with h | h
    · unfold genAddr at h
      repeat' split at h
      all_goals simp [relative, gotRelative, tlsRelative, pcrel] at h
      all_goals omega
    · exact Nat.le_trans hc (ih h)

/-- The counter after a list of items. -/
def after (fpic : Bool) : List Item → Nat → Nat
  | [], c => c
  | .code _ :: r, c => after fpic r c
  | .mark _ :: r, c => after fpic r (c + 1)
  | .addr v :: r, c => after fpic r (genAddr fpic v c).2

theorem emit_append (fpic : Bool) : ∀ (l l' : List Item) (c : Nat), emit fpic (l ++ l') c = emit fpic l c ++ emit fpic l' (after fpic l c)
  | [], _, _ => rfl
  | .code _ :: r, l', c => by simp [emit, after, emit_append fpic r l' c]
  | .mark _ :: r, l', c => by simp [emit, after, emit_append fpic r l' (c + 1)]
  | .addr v :: r, l', c => by simp [emit, after, emit_append fpic r l']

/-- The labels before an item have smaller numbers. -/
theorem emit_lt (fpic : Bool) : ∀ (l : List Item) (c : Nat), (∀ k, Item.mark k ∈ l → ∀ n, k ≠ pcrel n) →
    ∀ n, Line.label (pcrel n) ∈ emit fpic l c → n < after fpic l c := by
  intro l
  induction l with
  | nil => intro c _ n h; simp [emit] at h
  | cons x r ih =>
    intro c hm n h
    have hm' : ∀ k, Item.mark k ∈ r → ∀ n, k ≠ pcrel n := fun k m => hm k (List.mem_cons_of_mem _ m)
    cases x with
    | code b =>
      simp only [emit, List.mem_cons, reduceCtorEq, false_or] at h
      exact ih c hm' n h
    | mark l =>
      simp only [emit, List.mem_cons, Line.label.injEq] at h
      rcases h with h | h
      · exact absurd h.symm (hm l (by simp) n)
      · exact ih (c + 1) hm' n h
    | addr v =>
      simp only [emit, List.mem_append] at h
      rcases h with h | h
      · have hn : n < (genAddr fpic v c).2 := by
          unfold genAddr at h ⊢
          repeat' split at h
          all_goals simp [relative, gotRelative, tlsRelative, pcrel] at h
          all_goals simp_all
        exact Nat.lt_of_lt_of_le hn (after_le r _)
      · exact ih _ hm' n h
where
  after_le {fpic : Bool} : ∀ (l : List Item) (c : Nat), c ≤ after fpic l c
  | [], _ => Nat.le_refl _
  | .code _ :: r, c => after_le r c
  | .mark _ :: r, c => Nat.le_trans (Nat.le_succ c) (after_le r (c + 1))
  | .addr v :: r, c => by
    refine Nat.le_trans ?_ (after_le r (genAddr fpic v c).2)
    unfold genAddr; repeat' split
    all_goals simp

end Toycc.Addr
