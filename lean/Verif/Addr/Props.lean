import Verif.Addr.Proof
/-!
C87: the address of a function or of an object with static or thread storage duration.
-/
namespace Toycc.Addr
open Toycc.Rv

section
variable {L : Layout} {p : Process} {bias : W} {defined : String → Prop} {call : W → St → Option St} {fpic : Bool} {pre post : List Item} {v : Ref} {c : Nat}

/-- The address of the code for the item behind `pre`. -/
abbrev place (L : Layout) (fpic : Bool) (pre : List Item) (c : Nat) : W := L.text + BitVec.ofNat 64 (bytes (emit fpic pre c))

/-- What the code for item `v` of the file `pre, v, post` does in the thread `tp`, `c` being the counter of count() at the beginning. -/
abbrev taken (L : Layout) (bias : W) (call : W → St → Option St) (fpic : Bool) (pre : List Item) (v : Ref) (post : List Item) (c : Nat) (tp : W) (s : St) : Option St :=
  run L (emit fpic (pre ++ .addr v :: post) c) bias (call tp) (genAddr fpic v (after fpic pre c)).1 (place L fpic pre c) s

theorem text_eq (hm : ∀ k, Item.mark k ∈ pre → ∀ n, k ≠ pcrel n) :
    emit fpic (pre ++ .addr v :: post) c =
      emit fpic pre c ++ (genAddr fpic v (after fpic pre c)).1 ++ emit fpic post (genAddr fpic v (after fpic pre c)).2 ∧
    .label (pcrel (after fpic pre c)) ∉ emit fpic pre c := by
  refine ⟨by rw [emit_append, emit, List.append_assoc], fun h => ?_⟩
  exact absurd (emit_lt fpic pre c hm _ h) (Nat.lt_irrefl _)

/-- C87. Wherever the linker puts the module and the loader loads it, wherever in the file the address is taken, and whatever surrounds it: the code leaves the
run-time address of the function or object in a0, for thread-local ones that of the current thread's object; memory and the other registers are as before
(with a call of __tls_get_addr: sp and fp). Left out: thread-local objects without -fPIC. -/
theorem C87_address_partial (hm : ∀ k, Item.mark k ∈ pre → ∀ n, k ≠ pcrel n) {s : St} (hld : Loaded L p bias defined s.mem)
    (hcall : TlsGetAddr L p bias call) (hdef : v.isFunc = true → v.isDef = true → defined v.name) (hpic : v.isTls = true → fpic = true)
    (hnear : Near (place L fpic pre c) (L.target fpic v)) (tp : W) :
    ∃ s', taken L bias call fpic pre v post c tp s = some s' ∧ s'.r .a0 = p.addr tp v ∧ s'.mem = s.mem ∧ s'.r .sp = s.r .sp ∧ s'.r .fp = s.r .fp ∧
      (v.isTls = false → ∀ x, x ≠ .a0 → s'.r x = s.r x) := by
  obtain ⟨et, hl⟩ := text_eq (v := v) (post := post) (c := c) (fpic := fpic) hm
  unfold taken
  rw [et]
  have got : Near (place L fpic pre c) (L.got v.name) → v.isTls = false → (genAddr fpic v (after fpic pre c)).1 = gotRelative v.name (after fpic pre c) →
      ∃ s', run L (emit fpic pre c ++ (genAddr fpic v (after fpic pre c)).1 ++ emit fpic post (genAddr fpic v (after fpic pre c)).2) bias (call tp)
        (genAddr fpic v (after fpic pre c)).1 (place L fpic pre c) s = some s' ∧ s'.r .a0 = p.addr tp v ∧ s'.mem = s.mem ∧ s'.r .sp = s.r .sp ∧
        s'.r .fp = s.r .fp ∧ (v.isTls = false → ∀ x, x ≠ .a0 → s'.r x = s.r x) := by
    intro hn ht e
    rw [e, run_got hl hn, hld.got]
    refine ⟨_, rfl, ?_, rfl, r_set_ne _ _ _ _ (by decide), r_set_ne _ _ _ _ (by decide), fun _ x hx => r_set_ne _ _ _ _ hx⟩
    rw [r_set_same _ .a0 _ (by decide), Process.addr, ht]
    simp
  by_cases hp : fpic = true
  · subst hp
    by_cases ht : v.isTls = true
    · have e : (genAddr true v (after true pre c)).1 = tlsRelative v.name (after true pre c) := by simp [genAddr, ht]
      rw [e, run_tls hl (by simpa [Layout.target, ht] using hnear)]
      obtain ⟨s', h1, h2, h3, h4, h5⟩ := hcall tp (s.set .a0 (L.gd v.name + bias)) v.name (r_set_same _ .a0 _ (by decide))
      refine ⟨s', h1, ?_, h3, ?_, ?_, fun h => absurd ht (by simp [h])⟩
      · rw [h2, Process.addr, ht]; rfl
      · rw [h4, r_set_ne _ _ _ _ (by decide)]
      · rw [h5, r_set_ne _ _ _ _ (by decide)]
    · have ht : v.isTls = false := by simpa using ht
      exact got (by simpa [Layout.target, ht] using hnear) ht (by simp [genAddr, ht])
  · have hp : fpic = false := by simpa using hp
    subst hp
    have ht : v.isTls = false := by
      cases h : v.isTls
      · rfl
      · exact absurd (hpic h) (by simp)
    by_cases hf : v.isFunc = true ∧ v.isDef = true
    · have e : (genAddr false v (after false pre c)).1 = relative v.name (after false pre c) := by simp [genAddr, ht, hf]
      rw [e, run_relative hl (by simpa [Layout.target, ht, hf] using hnear)]
      refine ⟨_, rfl, ?_, rfl, r_set_ne _ _ _ _ (by decide), r_set_ne _ _ _ _ (by decide), fun _ x hx => r_set_ne _ _ _ _ hx⟩
      rw [r_set_same _ .a0 _ (by decide), Process.addr, ht, ← hld.sym _ (hdef hf.1 hf.2)]
      rfl
    · refine got ?_ ht ?_
      · have : L.target false v = L.got v.name := by
          simp only [Layout.target, ht, Bool.false_eq_true, if_false, Bool.not_false, Bool.true_and]
          rw [if_neg (by simpa using hf)]
        rwa [this] at hnear
      · simp only [genAddr, ht, Bool.false_eq_true, if_false]
        by_cases h1 : v.isFunc = true
        · have h2 : v.isDef = false := by
            cases h : v.isDef
            · rfl
            · exact absurd ⟨h1, h⟩ hf
          simp [h1, h2]
        · simp [h1]

/-- C87, the linker: what is too far away is reported, never addressed wrongly; everything nearer links. -/
theorem C87_far (h : Hi) (x a : W) (t : List Line) (hv : L.value a h = (x - a).toInt) :
    (∃ i, L.link t (.auipc h) a = some i) ↔ Near a x := by
  simp only [Layout.link, hv, Near, ← links_iff]
  cases hiField ((x - a).toInt) <;> simp

/-- C87: for objects and functions that are not thread-local the code does exactly what the machine of C38 to C66 takes for the single instruction `la`. -/
theorem C87_la (hm : ∀ k, Item.mark k ∈ pre → ∀ n, k ≠ pcrel n) {s : St} (hld : Loaded L p bias defined s.mem) (hcall : TlsGetAddr L p bias call)
    (hdef : v.isFunc = true → v.isDef = true → defined v.name) (ht : v.isTls = false)
    (hnear : Near (place L fpic pre c) (L.target fpic v)) (tp : W) (env : Env) (henv : ∀ n, env.sym (.sym n) = p.glob n) :
    ∃ s', taken L bias call fpic pre v post c tp s = some s' ∧ exec env (.la .a0 (.sym v.name)) s = some (s.set .a0 (s'.r .a0)) ∧
      s'.mem = s.mem ∧ ∀ x, x ≠ .a0 → s'.r x = s.r x := by
  obtain ⟨s', h1, h2, h3, _, _, h6⟩ := C87_address_partial (post := post) hm hld hcall hdef (fun h => by simp [ht] at h) hnear tp
  refine ⟨s', h1, ?_, h3, h6 ht⟩
  rw [h2, Process.addr, ht]
  simp [exec, henv]

/-- What is wrong without -fPIC: the address of a thread-local object is computed from the pc instead of the thread pointer, so it is right exactly in a thread
whose thread pointer happens to be the address of the instruction. -/
theorem C87_tls_iff (htls : v.isTls = true) (hoff : -(2 ^ 31) - 2 ^ 11 ≤ L.tpoff v.name ∧ L.tpoff v.name < 2 ^ 31 - 2 ^ 11) (hl : LocalExec L p) (tp : W) (s : St) :
    ∃ s', taken L bias call false pre v post c tp s = some s' ∧ (s'.r .a0 = p.addr tp v ↔ tp = place L false pre c + bias) := by
  obtain ⟨f, hf⟩ := (links_iff _).2 hoff
  have e : (genAddr false v (after false pre c)).1 = [.auipc (.tprel v.name), .addTp v.name] := by simp [genAddr, htls]
  unfold taken
  rw [e, run_tprel hf]
  refine ⟨_, rfl, ?_⟩
  rw [r_set_same _ .a0 _ (by decide), Process.addr, htls, if_pos rfl, hl]
  generalize BitVec.ofInt 64 (L.tpoff v.name) = d
  generalize place L false pre c + bias = q
  constructor
  · intro h; exact ((BitVec.add_left_inj _).1 h).symm
  · intro h; rw [h]

/-- Violation: of two threads that take the address of the same thread-local object at the same place, one gets a wrong address. -/
theorem C87_tls_wrong (htls : v.isTls = true) (hoff : -(2 ^ 31) - 2 ^ 11 ≤ L.tpoff v.name ∧ L.tpoff v.name < 2 ^ 31 - 2 ^ 11) (hl : LocalExec L p)
    (tp₁ tp₂ : W) (h : tp₁ ≠ tp₂) (s : St) :
    ∃ tp s', (tp = tp₁ ∨ tp = tp₂) ∧ taken L bias call false pre v post c tp s = some s' ∧ s'.r .a0 ≠ p.addr tp v := by
  obtain ⟨s₁, h1, i1⟩ := C87_tls_iff (bias := bias) (call := call) (pre := pre) (post := post) (c := c) htls hoff hl tp₁ s
  obtain ⟨s₂, h2, i2⟩ := C87_tls_iff (bias := bias) (call := call) (pre := pre) (post := post) (c := c) htls hoff hl tp₂ s
  by_cases e : tp₁ = place L false pre c + bias
  · exact ⟨tp₂, s₂, .inr rfl, h2, fun w => h (e.trans (i2.1 w).symm)⟩
  · exact ⟨tp₁, s₁, .inl rfl, h1, fun w => e (i1.1 w)⟩

end

/-! ### The hypotheses can be met -/

def exL : Layout :=
  { text := 0x1000, sym := fun _ => 0x1800, got := fun _ => 0x12340, gd := fun _ => 0x12350, tpoff := fun _ => 16 }

def exP : Process := { glob := fun _ => 0x1800 + 0x5555000, tls := fun tp _ => tp + 16 }

def exCall : W → St → Option St := fun tp s => some (s.set .a0 (tp + 16))

def exM : Mem := writeN (fun _ => 0) (0x12340 + 0x5555000) 8 (0x1800 + 0x5555000)

theorem ex_loaded : Loaded exL exP 0x5555000 (fun _ => True) exM :=
  ⟨fun _ _ => rfl, fun _ => (by decide +kernel : readN exM (0x12340 + 0x5555000) 8 = (0x1800 + 0x5555000 : W).toNat)⟩

theorem ex_tls : TlsGetAddr exL exP 0x5555000 exCall :=
  fun tp s _ _ => ⟨_, rfl, r_set_same _ .a0 _ (by decide), rfl, r_set_ne _ _ _ _ (by decide), r_set_ne _ _ _ _ (by decide)⟩

/-- Two functions and two variables; the address of the second variable is taken behind other code, the slot of the table being above the text, and more than
2047 bytes beyond a multiple of 4096 from it. -/
def exPre : List Item := [.code 12, .addr ⟨"f", false, true, true⟩, .mark (.gen ".L.end" 1), .addr ⟨"x", false, false, true⟩, .code 2]

example (g : Reg → W) (tp : W) : ∃ s', taken exL 0x5555000 exCall false exPre ⟨"y", false, false, false⟩ [.code 4] 1 tp ⟨g, exM⟩ = some s' ∧
    s'.r .a0 = 0x1800 + 0x5555000 := by
  obtain ⟨s', h1, h2, _⟩ := C87_address_partial (L := exL) (p := exP) (bias := 0x5555000) (defined := fun _ => True) (call := exCall) (fpic := false) (pre := exPre)
    (post := [.code 4]) (v := ⟨"y", false, false, false⟩) (c := 1) (s := ⟨g, exM⟩) (by
      intro k hk n e
      simp only [exPre, List.mem_cons, reduceCtorEq, Item.mark.injEq, false_or, List.not_mem_nil, or_false] at hk
      rw [hk] at e
      simp [pcrel] at e) ex_loaded ex_tls (fun _ _ => trivial) (by simp) (by unfold Near; decide +kernel) tp
  exact ⟨s', h1, h2⟩

example : LocalExec exL exP := fun _ _ => rfl

/-- A distance whose lower 12 bits are taken for a negative number. -/
example : hiField 0x12fff = some 0x13 ∧ (loField 0x12fff).toInt = -1 := by decide

example : hiField (2 ^ 31 - 2048) = none ∧ hiField (2 ^ 31 - 2049) = some 0x7ffff := by decide

end Toycc.Addr
