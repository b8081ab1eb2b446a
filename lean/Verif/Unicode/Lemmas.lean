import Verif.Unicode.Model
/-! Helper lemmas about the UTF-8 model. -/
namespace Toycc.Unicode

theorem or_pow (i a b : Nat) (h : b < 2 ^ i) : (2 ^ i * a) ||| b = 2 ^ i * a + b :=
  (Nat.two_pow_add_eq_or_of_lt h a).symm

theorem or_c0 (x : Nat) (h : x < 64) : 0b11000000 ||| x = 192 + x := or_pow 6 3 x h
theorem or_80 (x : Nat) (h : x < 64) : 0b10000000 ||| x = 128 + x := or_pow 6 2 x h
theorem or_e0 (x : Nat) (h : x < 32) : 0b11100000 ||| x = 224 + x := or_pow 5 7 x h
theorem or_f0 (x : Nat) (h : x < 16) : 0b11110000 ||| x = 240 + x := or_pow 4 15 x h
theorem and_3f (x : Nat) : x &&& 0b00111111 = x % 64 := Nat.and_two_pow_sub_one_eq_mod x 6
theorem and_7 (x : Nat) : x &&& 0b111 = x % 8 := Nat.and_two_pow_sub_one_eq_mod x 3
theorem and_f (x : Nat) : x &&& 0b1111 = x % 16 := Nat.and_two_pow_sub_one_eq_mod x 4
theorem and_1f (x : Nat) : x &&& 0b11111 = x % 32 := Nat.and_two_pow_sub_one_eq_mod x 5
theorem shl6_or (c x : Nat) (h : x < 64) : (c <<< 6) ||| x = c * 64 + x := by
  rw [Nat.shiftLeft_eq, Nat.mul_comm]; exact or_pow 6 c x h
theorem shr6 (x : Nat) : x >>> 6 = x / 64 := Nat.shiftRight_eq_div_pow x 6
theorem shr12 (x : Nat) : x >>> 12 = x / 4096 := Nat.shiftRight_eq_div_pow x 12
theorem shr18 (x : Nat) : x >>> 18 = x / 262144 := Nat.shiftRight_eq_div_pow x 18

theorem byte_toNat (n : Nat) (h : n < 256) : (byte n).toNat = n := by
  simp [byte, UInt8.toNat_ofNat', Nat.mod_eq_of_lt h]

theorem byte_of_toNat (b : UInt8) : byte b.toNat = b := UInt8.ofNat_toNat

/-- The encoder in arithmetic form. -/
theorem encode_eq (c : Nat) (hc : c < 0x200000) : encode c =
    if c ≤ 0x7F then [byte c]
    else if c ≤ 0x7FF then [byte (192 + c / 64), byte (128 + c % 64)]
    else if c ≤ 0xFFFF then [byte (224 + c / 4096), byte (128 + c / 64 % 64), byte (128 + c % 64)]
    else [byte (240 + c / 262144), byte (128 + c / 4096 % 64), byte (128 + c / 64 % 64), byte (128 + c % 64)] := by
  unfold encode
  simp only [and_3f, shr6, shr12, shr18]
  have m : ∀ x, x % 64 < 64 := fun x => Nat.mod_lt _ (by omega)
  simp only [or_80 _ (m _)]
  split
  · rfl
  split
  · rw [or_c0 _ (by omega)]
  split
  · rw [or_e0 _ (by omega)]
  · rw [or_f0 _ (by omega)]

theorem cont_cons (n c : Nat) (b : UInt8) (q : List UInt8) (h1 : 128 ≤ b.toNat) (h2 : b.toNat < 192) :
    decodeCont (n + 1) c (b :: q) = decodeCont n (c * 64 + (b.toNat - 128)) q := by
  have e : b.toNat / 64 = 2 := by omega
  have e2 : b.toNat % 64 = b.toNat - 128 := by omega
  simp only [decodeCont, headByte, shr6, e, and_3f, e2, List.tail_cons]
  rw [shl6_or _ _ (by omega)]
  simp

theorem cont_inv (n c r : Nat) (p : List UInt8) (h : decodeCont (n + 1) c p = some r) :
    ∃ b q, p = b :: q ∧ 128 ≤ b.toNat ∧ b.toNat < 192 ∧ decodeCont n (c * 64 + (b.toNat - 128)) q = some r := by
  cases p with
  | nil => simp [decodeCont, headByte] at h
  | cons b q =>
    have h0 := h
    simp only [decodeCont, headByte, shr6] at h
    split at h
    · cases h
    · rename_i hb
      have h1 : 128 ≤ b.toNat ∧ b.toNat < 192 := by omega
      refine ⟨b, q, rfl, h1.1, h1.2, ?_⟩
      rw [← cont_cons n c b q h1.1 h1.2]; exact h0

theorem decode_encode (c : Nat) (hc : c < 0x200000) (rest : List UInt8) :
    decode (encode c ++ rest) = some (c, (encode c).length) := by
  rw [encode_eq c hc]
  split
  · rename_i h
    have := byte_toNat c (by omega)
    simp only [decode, List.cons_append, headByte, this]
    rw [if_pos (by omega)]; rfl
  split
  · have b0 := byte_toNat (192 + c / 64) (by omega)
    have b1 := byte_toNat (128 + c % 64) (by omega)
    simp only [decode, List.cons_append, List.nil_append, headByte, b0, List.tail_cons, and_1f]
    rw [if_neg (by omega), if_neg (by omega), if_neg (by omega), if_pos (by omega)]
    rw [cont_cons _ _ _ _ (by omega) (by omega), b1]
    simp only [decodeCont, Option.map_some, List.length_cons, List.length_nil]
    exact congrArg some (Prod.ext (by simp only []; omega) rfl)
  split
  · have b0 := byte_toNat (224 + c / 4096) (by omega)
    have b1 := byte_toNat (128 + c / 64 % 64) (by omega)
    have b2 := byte_toNat (128 + c % 64) (by omega)
    simp only [decode, List.cons_append, List.nil_append, headByte, b0, List.tail_cons, and_f]
    rw [if_neg (by omega), if_neg (by omega), if_pos (by omega)]
    rw [cont_cons _ _ _ _ (by omega) (by omega), cont_cons _ _ _ _ (by omega) (by omega), b1, b2]
    simp only [decodeCont, Option.map_some, List.length_cons, List.length_nil]
    exact congrArg some (Prod.ext (by simp only []; omega) rfl)
  · have b0 := byte_toNat (240 + c / 262144) (by omega)
    have b1 := byte_toNat (128 + c / 4096 % 64) (by omega)
    have b2 := byte_toNat (128 + c / 64 % 64) (by omega)
    have b3 := byte_toNat (128 + c % 64) (by omega)
    simp only [decode, List.cons_append, List.nil_append, headByte, b0, List.tail_cons, and_7]
    rw [if_neg (by omega), if_pos (by omega)]
    rw [cont_cons _ _ _ _ (by omega) (by omega), cont_cons _ _ _ _ (by omega) (by omega),
      cont_cons _ _ _ _ (by omega) (by omega), b1, b2, b3]
    simp only [decodeCont, Option.map_some, List.length_cons, List.length_nil]
    exact congrArg some (Prod.ext (by simp only []; omega) rfl)

/-- Complete description of a successful decoding. -/
theorem decode_inv (p : List UInt8) (c n : Nat) (h : decode p = some (c, n)) :
    (n = 1 ∧ c < 128 ∧ c = headByte p) ∨
    (∃ b0 b1 q, p = b0 :: b1 :: q ∧ n = 2 ∧ 192 ≤ b0.toNat ∧ b0.toNat < 224 ∧ 128 ≤ b1.toNat ∧ b1.toNat < 192 ∧
      c = (b0.toNat - 192) * 64 + (b1.toNat - 128)) ∨
    (∃ b0 b1 b2 q, p = b0 :: b1 :: b2 :: q ∧ n = 3 ∧ 224 ≤ b0.toNat ∧ b0.toNat < 240 ∧ 128 ≤ b1.toNat ∧ b1.toNat < 192 ∧
      128 ≤ b2.toNat ∧ b2.toNat < 192 ∧ c = ((b0.toNat - 224) * 64 + (b1.toNat - 128)) * 64 + (b2.toNat - 128)) ∨
    (∃ b0 b1 b2 b3 q, p = b0 :: b1 :: b2 :: b3 :: q ∧ n = 4 ∧ 240 ≤ b0.toNat ∧ 128 ≤ b1.toNat ∧ b1.toNat < 192 ∧
      128 ≤ b2.toNat ∧ b2.toNat < 192 ∧ 128 ≤ b3.toNat ∧ b3.toNat < 192 ∧
      c = ((b0.toNat % 8 * 64 + (b1.toNat - 128)) * 64 + (b2.toNat - 128)) * 64 + (b3.toNat - 128)) := by
  cases p with
  | nil => simp [decode, headByte] at h; left; simp [headByte]; omega
  | cons b0 q =>
    have hb : headByte (b0 :: q) = b0.toNat := rfl
    simp only [decode, List.tail_cons] at h
    by_cases hc0 : headByte (b0 :: q) < 128
    · rw [if_pos hc0] at h
      left; simp only [Option.some.injEq, Prod.mk.injEq] at h; omega
    rw [if_neg hc0] at h
    by_cases hc1 : headByte (b0 :: q) ≥ 0b11110000
    · rw [if_pos hc1] at h
      right; right; right
      simp only [Option.map_eq_some_iff, Prod.mk.injEq] at h
      obtain ⟨r, h, rfl, rfl⟩ := h
      obtain ⟨b1, q1, rfl, a1, a2, h⟩ := cont_inv _ _ _ _ h
      obtain ⟨b2, q2, rfl, a3, a4, h⟩ := cont_inv _ _ _ _ h
      obtain ⟨b3, q3, rfl, a5, a6, h⟩ := cont_inv _ _ _ _ h
      rw [hb] at h hc0 hc1
      simp only [decodeCont, Option.some.injEq, and_7] at h
      exact ⟨b0, b1, b2, b3, q3, rfl, rfl, by omega, a1, a2, a3, a4, a5, a6, by omega⟩
    rw [if_neg hc1] at h
    by_cases hc2 : headByte (b0 :: q) ≥ 0b11100000
    · rw [if_pos hc2] at h
      right; right; left
      simp only [Option.map_eq_some_iff, Prod.mk.injEq] at h
      obtain ⟨r, h, rfl, rfl⟩ := h
      obtain ⟨b1, q1, rfl, a1, a2, h⟩ := cont_inv _ _ _ _ h
      obtain ⟨b2, q2, rfl, a3, a4, h⟩ := cont_inv _ _ _ _ h
      rw [hb] at h hc0 hc1
      simp only [decodeCont, Option.some.injEq, and_f] at h
      exact ⟨b0, b1, b2, q2, rfl, rfl, by omega, by omega, a1, a2, a3, a4, by omega⟩
    rw [if_neg hc2] at h
    by_cases hc3 : headByte (b0 :: q) ≥ 0b11000000
    · rw [if_pos hc3] at h
      right; left
      simp only [Option.map_eq_some_iff, Prod.mk.injEq] at h
      obtain ⟨r, h, rfl, rfl⟩ := h
      obtain ⟨b1, q1, rfl, a1, a2, h⟩ := cont_inv _ _ _ _ h
      rw [hb] at h hc0 hc1
      simp only [decodeCont, Option.some.injEq, and_1f] at h
      exact ⟨b0, b1, q1, rfl, rfl, by omega, by omega, a1, a2, by omega⟩
    · rw [if_neg hc3] at h; cases h

theorem decode_pos (p : List UInt8) (c n : Nat) (h : decode p = some (c, n)) : 1 ≤ n ∧ n ≤ 4 := by
  rcases decode_inv p c n h with ⟨h, _⟩ | ⟨_, _, _, _, h, _⟩ | ⟨_, _, _, _, _, h, _⟩ | ⟨_, _, _, _, _, _, h, _⟩ <;> omega

theorem decode_len (p : List UInt8) (c n : Nat) (h : decode p = some (c, n)) (hp : p ≠ []) : n ≤ p.length := by
  rcases decode_inv p c n h with ⟨h, _⟩ | ⟨_, _, _, rfl, h, _⟩ | ⟨_, _, _, _, rfl, h, _⟩ | ⟨_, _, _, _, _, rfl, h, _⟩
  · have := List.length_pos_iff.mpr hp; omega
  all_goals simp only [List.length_cons]; omega

theorem encode_len_pos (c : Nat) : 1 ≤ (encode c).length ∧ (encode c).length ≤ 4 := by
  unfold encode
  split
  · simp
  split
  · simp
  split <;> simp

theorem decode_lt (p : List UInt8) (c n : Nat) (h : decode p = some (c, n)) : c < 0x200000 := by
  rcases decode_inv p c n h with ⟨_, h, _⟩ | ⟨b0, b1, _, _, _, _, _, _, _, h⟩ | ⟨b0, b1, b2, _, _, _, _, _, _, _, _, _, h⟩ |
    ⟨b0, b1, b2, b3, _, _, _, _, _, _, _, _, _, _, h⟩
  all_goals omega

theorem inRange_iff (pairs : List (Nat × Nat)) (hp : ∀ q ∈ pairs, q.1 ≠ 0xFFFFFFFF) (c : Nat) :
    inRange (pairs.flatMap (fun q => [q.1, q.2]) ++ [0xFFFFFFFF]) c = some (decide (∃ q ∈ pairs, q.1 ≤ c ∧ c ≤ q.2)) := by
  induction pairs with
  | nil => simp [inRange]
  | cons q r ih =>
    have h1 := hp q (List.mem_cons_self)
    have h2 := ih (fun x hx => hp x (List.mem_cons_of_mem _ hx))
    simp only [List.flatMap_cons, List.cons_append, List.nil_append, inRange, if_neg h1]
    by_cases e : q.1 ≤ c ∧ c ≤ q.2
    · simp [e]
    · rw [if_neg e, h2]; simp [e]

/-- Membership in one of the closed ranges. -/
def InRanges (pairs : List (Nat × Nat)) (c : Nat) : Bool := pairs.any (fun q => decide (q.1 ≤ c) && decide (c ≤ q.2))

/-- The bounds of a flat table as pairs. -/
def pairUp : List Nat → List (Nat × Nat)
  | a :: b :: r => if a = 0xFFFFFFFF then [] else (a, b) :: pairUp r
  | _ => []

/-- A flat table is properly terminated. -/
def Terminated : List Nat → Bool
  | [] => false
  | [a] => a == 0xFFFFFFFF
  | a :: _ :: r => a == 0xFFFFFFFF || Terminated r

theorem inRange_pairs (t : List Nat) (h : Terminated t = true) (c : Nat) : inRange t c = some (InRanges (pairUp t) c) := by
  fun_induction inRange t c with
  | case1 => simp [Terminated] at h
  | case2 => simp [pairUp, InRanges]
  | case3 a c h' => simp [Terminated] at h; exact absurd h h'
  | case4 b r c => simp [pairUp, InRanges]
  | case5 a b r c h1 h2 => simp [pairUp, InRanges, h1, h2]
  | case6 a b r c h1 h2 ih =>
    rw [ih (by simpa [Terminated, h1] using h)]
    simp only [pairUp, if_neg h1, InRanges, List.any_cons]
    have : (decide (a ≤ c) && decide (c ≤ b)) = false := by
      simp only [Bool.and_eq_false_iff, decide_eq_false_iff_not]; omega
    simp [this]

/-- Two range lists agree at `c` if they agree at the largest boundary not above `c`:
`bs` contains all boundaries of both. -/
theorem inRanges_step (pairs : List (Nat × Nat)) (c c' : Nat) (hle : c' ≤ c)
    (hb : ∀ q ∈ pairs, (q.1 ≤ c' ∨ c < q.1) ∧ (q.2 < c' ∨ c ≤ q.2)) : InRanges pairs c = InRanges pairs c' := by
  unfold InRanges
  induction pairs with
  | nil => rfl
  | cons q r ih =>
    simp only [List.any_cons]
    rw [ih (fun x hx => hb x (List.mem_cons_of_mem _ hx))]
    congr 1
    have := hb q List.mem_cons_self
    have e1 : (q.1 ≤ c) ↔ (q.1 ≤ c') := by omega
    have e2 : (c ≤ q.2) ↔ (c' ≤ q.2) := by omega
    simp [e1, e2]

/-- All points where a range list can change value. -/
def bounds (pairs : List (Nat × Nat)) : List Nat := pairs.flatMap (fun q => [q.1, q.2 + 1])

/-- The largest element of `bs` that is at most `c` (0 if none). -/
def floorIn : List Nat → Nat → Nat
  | [], _ => 0
  | b :: r, c => if b ≤ c then max b (floorIn r c) else floorIn r c

theorem floorIn_le (bs : List Nat) (c : Nat) : floorIn bs c ≤ c := by
  induction bs with
  | nil => simp [floorIn]
  | cons b r ih => simp only [floorIn]; split <;> omega

theorem floorIn_max (bs : List Nat) (c b : Nat) (hb : b ∈ bs) (h : b ≤ c) : b ≤ floorIn bs c := by
  induction bs with
  | nil => simp at hb
  | cons x r ih =>
    simp only [floorIn]
    rcases List.mem_cons.mp hb with e | e
    · subst e; simp [h]; omega
    · have := ih e; split <;> omega

theorem floorIn_mem (bs : List Nat) (c : Nat) : floorIn bs c = 0 ∨ floorIn bs c ∈ bs := by
  induction bs with
  | nil => simp [floorIn]
  | cons x r ih =>
    simp only [floorIn]
    split
    · rcases ih with h | h
      · right; rw [h]; simp
      · right
        rcases Nat.le_total x (floorIn r c) with h' | h'
        · rw [Nat.max_eq_right h']; exact List.mem_cons_of_mem _ h
        · rw [Nat.max_eq_left h']; exact List.mem_cons_self
    · rcases ih with h | h
      · exact Or.inl h
      · exact Or.inr (List.mem_cons_of_mem _ h)

theorem inRanges_floor (pairs : List (Nat × Nat)) (bs : List Nat) (hbs : ∀ b ∈ bounds pairs, b ∈ bs) (c : Nat) :
    InRanges pairs c = InRanges pairs (floorIn bs c) := by
  apply inRanges_step _ _ _ (floorIn_le bs c)
  intro q hq
  have h1 : q.1 ∈ bs := hbs _ (List.mem_flatMap.mpr ⟨q, hq, by simp⟩)
  have h2 : q.2 + 1 ∈ bs := hbs _ (List.mem_flatMap.mpr ⟨q, hq, by simp⟩)
  refine ⟨?_, ?_⟩
  · rcases Nat.lt_or_ge c q.1 with h | h
    · exact Or.inr h
    · exact Or.inl (floorIn_max _ _ _ h1 h)
  · rcases Nat.lt_or_ge q.2 c with h | h
    · left; have := floorIn_max _ _ _ h2 h; omega
    · exact Or.inr h

end Toycc.Unicode
