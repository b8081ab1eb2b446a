import Verif.Source.Model
import Verif.Source.Spec
import Verif.Common
import Verif.Unicode.Props
/-! Helper lemmas: the in-place loops compute the text-to-text functions. -/
namespace Toycc.Source
open Toycc.Unicode

theorem write_append (out m tail w : List UInt8) (h : w.length ≤ m.length) :
    write (out ++ (m ++ tail)) out.length w = .ok (out ++ w ++ (m.drop w.length ++ tail)) := by
  induction w generalizing out m with
  | nil => simp [write]
  | cons b w ih =>
    cases m with
    | nil => simp at h
    | cons x m =>
      simp only [write]
      rw [if_pos (by simp)]
      have e : (out ++ (x :: m ++ tail)).set out.length b = (out ++ [b]) ++ (m ++ tail) := by simp
      rw [e]
      have := ih (out ++ [b]) m (by simpa using h)
      simp only [List.length_append, List.length_singleton] at this
      rw [this]
      simp

theorem get_at (out mid : List UInt8) (c : UInt8) (tail : List UInt8) :
    (out ++ (mid ++ c :: tail))[out.length + mid.length]? = some c := by
  simp

theorem get_at1 (out mid : List UInt8) (c d : UInt8) (tail : List UInt8) :
    (out ++ (mid ++ c :: d :: tail))[out.length + mid.length + 1]? = some d := by
  rw [List.getElem?_append_right (by omega), List.getElem?_append_right (by omega)]
  have : out.length + mid.length + 1 - out.length - mid.length = 1 := by omega
  rw [this]; rfl

theorem get_off (out mid tail : List UInt8) (k : Nat) :
    (out ++ (mid ++ tail))[out.length + mid.length + k]? = tail[k]? := by
  rw [List.getElem?_append_right (by omega), List.getElem?_append_right (by omega)]
  congr 1; omega

/-! ### newlines -/

theorem canonLoop_spec (text : List UInt8) (h0 : ∀ c ∈ text, c ≠ 0) (out mid junk : List UInt8) :
    ∃ junk', canonLoop (out ++ (mid ++ (text ++ 0 :: junk))) (out.length + mid.length) out.length
      = .ok (out ++ (Spec.newlines text ++ 0 :: junk')) := by
  fun_induction Spec.newlines text generalizing out mid junk with
  | case1 r ih =>
    have ih := ih (fun c hc => h0 c (by simp [hc]))
    rw [canonLoop.eq_def]
    simp only [List.cons_append]
    rw [get_at]
    simp only [get_at1]
    have hw := write_append out (mid ++ [13, 10]) (r ++ 0 :: junk) [LF] (by simp)
    rw [show out ++ (mid ++ 13 :: 10 :: (r ++ 0 :: junk)) = out ++ (mid ++ [13, 10] ++ (r ++ 0 :: junk)) by simp]
    rw [if_neg (by decide), if_pos (by rfl)]
    split
    · rename_i e he; rw [hw] at he; cases he
    · rename_i b' he; rw [hw] at he; cases he
      rw [if_pos (by rfl)]
      obtain ⟨j', hj⟩ := ih (out ++ [LF]) ((mid ++ [13, 10]).drop 1) junk
      refine ⟨j', ?_⟩
      have hl : (out ++ [LF]).length + ((mid ++ [13, 10]).drop 1).length = out.length + mid.length + 2 := by
        simp; omega
      rw [hl] at hj
      simp only [List.length_append, List.length_singleton, List.length_cons, List.length_nil] at hj ⊢
      simp only [Nat.zero_add] at hj ⊢
      rw [hj]; simp [LF]
  | case2 r hr ih =>
    have ih := ih (fun c hc => h0 c (by simp [hc]))
    rw [canonLoop.eq_def]
    simp only [List.cons_append]
    rw [get_at]
    obtain ⟨d, t, hd⟩ : ∃ d t, r ++ 0 :: junk = d :: t := by
      cases r with
      | nil => exact ⟨_, _, rfl⟩
      | cons d r => exact ⟨_, _, rfl⟩
    have hdn : d ≠ 10 := by
      cases r with
      | nil => simp at hd; rw [← hd.1]; decide
      | cons a b => simp at hd; rintro rfl; exact hr b (by rw [hd.1])
    simp only [hd, get_at1]
    have hw := write_append out (mid ++ [13]) (r ++ 0 :: junk) [LF] (by simp)
    rw [show out ++ (mid ++ [13] ++ (r ++ 0 :: junk)) = out ++ (mid ++ 13 :: (r ++ 0 :: junk)) by simp] at hw
    rw [if_neg (by decide), if_pos (by rfl)]
    split
    · rename_i e he; rw [hw] at he; cases he
    · rename_i b' he; rw [hw] at he; cases he
      rw [if_neg (by exact hdn)]
      obtain ⟨j', hj⟩ := ih (out ++ [LF]) ((mid ++ [13]).drop 1) junk
      refine ⟨j', ?_⟩
      have hl : (out ++ [LF]).length + ((mid ++ [13]).drop 1).length = out.length + mid.length + 1 := by
        simp; omega
      rw [hl] at hj
      simp only [List.length_append, List.length_singleton, List.length_cons, List.length_nil] at hj ⊢
      simp only [Nat.zero_add] at hj ⊢
      rw [hj]; simp [LF]
  | case3 c r hc1 hc2 ih =>
    have ih := ih (fun c hc => h0 c (by simp [hc]))
    have hc0 := h0 c (by simp)
    have hc13 : c ≠ 13 := hc2
    rw [canonLoop.eq_def]
    simp only [List.cons_append]
    rw [get_at]
    have hw := write_append out (mid ++ [c]) (r ++ 0 :: junk) [c] (by simp)
    rw [show out ++ (mid ++ c :: (r ++ 0 :: junk)) = out ++ (mid ++ [c] ++ (r ++ 0 :: junk)) by simp]
    simp only
    rw [if_neg hc0, if_neg (by exact hc13)]
    split
    · rename_i e he; rw [hw] at he; cases he
    · rename_i b' he; rw [hw] at he; cases he
      obtain ⟨j', hj⟩ := ih (out ++ [c]) ((mid ++ [c]).drop 1) junk
      refine ⟨j', ?_⟩
      have hl : (out ++ [c]).length + ((mid ++ [c]).drop 1).length = out.length + mid.length + 1 := by
        simp; omega
      rw [hl] at hj
      simp only [List.length_append, List.length_singleton, List.length_cons, List.length_nil] at hj ⊢
      simp only [Nat.zero_add] at hj ⊢
      rw [hj]; simp
  | case4 =>
    rw [canonLoop.eq_def]
    simp only [List.nil_append]
    rw [get_at]
    have hw := write_append out (mid ++ [0]) junk [0] (by simp)
    simp only
    rw [if_pos (by decide)]
    rw [show out ++ (mid ++ 0 :: junk) = out ++ (mid ++ [0] ++ junk) by simp, hw]
    exact ⟨(mid ++ [0]).drop 1 ++ junk, by simp⟩

/-! ### splices -/

theorem spliceLoop_spec (n : Nat) (text : List UInt8) (h0 : ∀ c ∈ text, c ≠ 0) (out mid junk : List UInt8)
    (hn : 2 * n ≤ mid.length) :
    ∃ junk', spliceLoop (out ++ (mid ++ (text ++ 0 :: junk))) (out.length + mid.length) out.length n
      = .ok (out ++ (Spec.splice n text ++ 0 :: junk')) := by
  fun_induction Spec.splice n text generalizing out mid junk with
  | case1 n r ih =>
    obtain ⟨j', hj⟩ := ih (fun c hc => h0 c (by simp [hc])) out (mid ++ [92, 10]) junk (by simp; omega)
    refine ⟨j', ?_⟩
    rw [spliceLoop.eq_def]
    simp only [List.cons_append]
    rw [get_at]
    simp only [get_at1]
    rw [if_neg (by decide), if_pos ⟨rfl, rfl⟩]
    simp only [List.length_append, List.length_cons, List.length_nil, List.append_assoc, List.cons_append, List.nil_append] at hj
    exact hj
  | case2 n r ih =>
    have ih := ih (fun c hc => h0 c (by simp [hc]))
    rw [spliceLoop.eq_def]
    simp only [List.cons_append]
    rw [get_at]
    have hw := write_append out (mid ++ [10]) (r ++ 0 :: junk) (LF :: List.replicate n LF) (by simp; omega)
    rw [show out ++ (mid ++ 10 :: (r ++ 0 :: junk)) = out ++ (mid ++ [10] ++ (r ++ 0 :: junk)) by simp]
    simp only
    rw [if_neg (by decide), if_neg (by simp [BSL]), if_pos (by rfl)]
    split
    · rename_i e he; rw [hw] at he; cases he
    · rename_i b' he; rw [hw] at he; cases he
      obtain ⟨j', hj⟩ := ih (out ++ LF :: List.replicate n LF)
        ((mid ++ [10]).drop (LF :: List.replicate n LF).length) junk (by omega)
      refine ⟨j', ?_⟩
      have hl : (out ++ LF :: List.replicate n LF).length +
          ((mid ++ [10]).drop (LF :: List.replicate n LF).length).length = out.length + mid.length + 1 := by
        simp; omega
      rw [hl] at hj
      have hl2 : (out ++ LF :: List.replicate n LF).length = out.length + 1 + n := by simp; omega
      rw [hl2] at hj
      rw [hj]; simp [LF]
  | case3 n c r hc1 hc2 ih =>
    have ih := ih (fun c hc => h0 c (by simp [hc]))
    have hc0 := h0 c (by simp)
    rw [spliceLoop.eq_def]
    simp only [List.cons_append]
    rw [get_at]
    have hw := write_append out (mid ++ [c]) (r ++ 0 :: junk) [c] (by simp)
    have hns : ¬ (c = BSL ∧ (out ++ (mid ++ c :: (r ++ 0 :: junk)))[out.length + mid.length + 1]? = some LF) := by
      rintro ⟨rfl, h2⟩
      cases r with
      | nil => simp only [List.nil_append, get_at1] at h2; exact absurd h2 (by decide)
      | cons d r =>
        simp only [List.cons_append, get_at1] at h2
        cases h2
        exact hc1 r rfl rfl
    simp only
    rw [if_neg hc0, if_neg hns, if_neg (by exact hc2)]
    rw [show out ++ (mid ++ c :: (r ++ 0 :: junk)) = out ++ (mid ++ [c] ++ (r ++ 0 :: junk)) by simp]
    split
    · rename_i e he; rw [hw] at he; cases he
    · rename_i b' he; rw [hw] at he; cases he
      obtain ⟨j', hj⟩ := ih (out ++ [c]) ((mid ++ [c]).drop 1) junk (by simp; omega)
      refine ⟨j', ?_⟩
      have hl : (out ++ [c]).length + ((mid ++ [c]).drop 1).length = out.length + mid.length + 1 := by
        simp; omega
      rw [hl] at hj
      simp only [List.length_append, List.length_singleton, List.length_cons, List.length_nil] at hj ⊢
      simp only [Nat.zero_add] at hj ⊢
      rw [hj]; simp
  | case4 n =>
    rw [spliceLoop.eq_def]
    simp only [List.nil_append]
    rw [get_at]
    have hw := write_append out (mid ++ [0]) junk (List.replicate n LF ++ [0]) (by simp; omega)
    simp only
    rw [if_pos (by decide)]
    rw [show out ++ (mid ++ 0 :: junk) = out ++ (mid ++ [0] ++ junk) by simp, hw]
    exact ⟨_, by simp [LF]; rfl⟩

/-! ### universal character names -/

theorem hexVal_eq (b : UInt8) : Spec.hexVal b = if isXDigit b then some (fromHex b) else none := by
  have : ∀ b : UInt8, Spec.hexVal b = if isXDigit b then some (fromHex b) else none := by
    decide +kernel
  exact this b

theorem fromHex_lt (b : UInt8) (h : isXDigit b = true) : fromHex b < 16 := by
  have : ∀ b : UInt8, isXDigit b = true → fromHex b < 16 := by decide +kernel
  exact this b h

theorem shl_or (c v : Nat) (h : v < 16) : (c <<< 4) ||| v = c * 16 + v := by
  rw [← Nat.shiftLeft_add_eq_or_of_lt (by simpa using h), Nat.shiftLeft_eq]

theorem readUniversal_spec (len c : Nat) (pre text junk : List UInt8) :
    readUniversal (pre ++ (text ++ 0 :: junk)) pre.length len c =
      .ok (if text.length < len then 0 else (Spec.hexNum c (text.take len)).getD 0) := by
  induction len generalizing c pre text with
  | zero => simp [readUniversal, Spec.hexNum]
  | succ len ih =>
    cases text with
    | nil => simp [readUniversal, show isXDigit 0 = false by decide]
    | cons b text =>
      simp only [readUniversal]
      rw [show (pre ++ (b :: text ++ 0 :: junk))[pre.length]? = some b by simp]
      simp only
      by_cases hb : isXDigit b = true
      · rw [if_pos hb, shl_or _ _ (fromHex_lt b hb)]
        have := ih (c * 16 + fromHex b) (pre ++ [b]) text
        simp only [List.append_assoc, List.cons_append, List.nil_append, List.length_append,
          List.length_cons, List.length_nil, Nat.zero_add] at this
        rw [List.cons_append, this]
        simp [Spec.hexNum, hexVal_eq, hb]
      · rw [if_neg hb]
        simp [Spec.hexNum, hexVal_eq, hb]

theorem readUniversal_ucn (len : Nat) (pre text junk : List UInt8) :
    readUniversal (pre ++ (text ++ 0 :: junk)) pre.length len 0 = .ok ((Spec.ucnValue len text).getD 0) ∧
    (∀ v, Spec.ucnValue len text = some v → v ≠ 0 ∧ len ≤ text.length) := by
  rw [readUniversal_spec]
  unfold Spec.ucnValue
  split
  · simp
  · split
    · rename_i v hv; simp [hv]; omega
    · rename_i h
      constructor
      · cases hx : Spec.hexNum 0 (text.take len) with
        | none => rfl
        | some v => cases v with
          | zero => rfl
          | succ v => exact absurd hx (h v)
      · simp

theorem encode_len_le (u : Nat) : (encode u).length ≤ 4 := by
  unfold encode; split
  · simp
  · split
    · simp
    · split <;> simp

/-- One copied byte. -/
theorem ucn_copy1 (c : UInt8) (r out mid junk : List UInt8) (res : List UInt8)
    (ih : ∀ (out mid junk : List UInt8),
      ∃ junk', ucnLoop (out ++ (mid ++ (r ++ 0 :: junk))) (out.length + mid.length) out.length
        = .ok (out ++ (res ++ 0 :: junk'))) :
    ∃ b', write (out ++ (mid ++ c :: (r ++ 0 :: junk))) out.length [c] = .ok b' ∧
      ∃ junk', ucnLoop b' (out.length + mid.length + 1) (out.length + 1) = .ok (out ++ (c :: res ++ 0 :: junk')) := by
  have hw := write_append out (mid ++ [c]) (r ++ 0 :: junk) [c] (by simp)
  rw [show out ++ (mid ++ [c] ++ (r ++ 0 :: junk)) = out ++ (mid ++ c :: (r ++ 0 :: junk)) by simp] at hw
  refine ⟨_, hw, ?_⟩
  obtain ⟨j', hj⟩ := ih (out ++ [c]) ((mid ++ [c]).drop 1) junk
  refine ⟨j', ?_⟩
  have hl : (out ++ [c]).length + ((mid ++ [c]).drop 1).length = out.length + mid.length + 1 := by
    simp; omega
  rw [hl] at hj
  simp only [List.length_append, List.length_singleton, List.length_cons, List.length_nil] at hj ⊢
  simp only [Nat.zero_add] at hj ⊢
  rw [hj]; simp

theorem getLast_tail {c : UInt8} {r : List UInt8} (h : (c :: r).getLast? ≠ some 92) : r.getLast? ≠ some 92 := by
  cases r with
  | nil => simp
  | cons a b => simpa using h

theorem getLast_drop (k : Nat) {r : List UInt8} (h : r.getLast? ≠ some 92) : (r.drop k).getLast? ≠ some 92 := by
  rw [List.getLast?_drop]; split
  · simp
  · exact h

/-- The common step for `\\u` and `\\U`. -/
theorem ucn_step (d : UInt8) (hd : d = 0x75 ∨ d = 0x55) (r : List UInt8) (out mid junk : List UInt8)
    (res : List UInt8) (len : Nat) (hlen : len = if d = 0x75 then 4 else 8)
    (ih : match Spec.ucnValue len r with
      | some v => ∃ res', res = encode v ++ res' ∧ ∀ (out mid junk : List UInt8),
          ∃ junk', ucnLoop (out ++ (mid ++ (r.drop len ++ 0 :: junk))) (out.length + mid.length) out.length
            = .ok (out ++ (res' ++ 0 :: junk'))
      | none => ∃ res', res = 92 :: res' ∧ ∀ (out mid junk : List UInt8),
          ∃ junk', ucnLoop (out ++ (mid ++ (d :: r ++ 0 :: junk))) (out.length + mid.length) out.length
            = .ok (out ++ (res' ++ 0 :: junk'))) :
    ∃ junk', ucnLoop (out ++ (mid ++ (92 :: d :: r ++ 0 :: junk))) (out.length + mid.length) out.length
        = .ok (out ++ (res ++ 0 :: junk')) := by
  rw [ucnLoop.eq_def]
  simp only [List.cons_append]
  rw [get_at]
  simp only [get_at1]
  rw [if_neg (by decide), if_pos (by rfl), if_pos hd]
  have hr := readUniversal_ucn len (out ++ (mid ++ [92, d])) r junk
  have e1 : out ++ (mid ++ [92, d]) ++ (r ++ 0 :: junk) = out ++ (mid ++ 92 :: d :: (r ++ 0 :: junk)) := by simp
  have e2 : (out ++ (mid ++ [92, d])).length = out.length + mid.length + 2 := by simp; omega
  rw [e1, e2] at hr
  rw [← hlen, hr.1]
  cases hv : Spec.ucnValue len r with
  | some v =>
    rw [hv] at ih
    obtain ⟨res', rfl, ih⟩ := ih
    obtain ⟨hv0, hvl⟩ := hr.2 v hv
    simp only [Option.getD_some]
    rw [if_pos hv0]
    have h4 : 4 ≤ len := by rw [hlen]; split <;> omega
    have hel := encode_len_le v
    have hw := write_append out (mid ++ 92 :: d :: r.take len) (r.drop len ++ 0 :: junk) (encode v)
      (by simp; omega)
    rw [show out ++ (mid ++ 92 :: d :: r.take len ++ (r.drop len ++ 0 :: junk))
        = out ++ (mid ++ 92 :: d :: (r ++ 0 :: junk)) by
      simp only [List.append_assoc, List.cons_append]
      rw [← List.append_assoc (r.take len), List.take_append_drop]] at hw
    split
    · rename_i e he; rw [hw] at he; cases he
    · rename_i b' he; rw [hw] at he; cases he
      obtain ⟨j', hj⟩ := ih (out ++ encode v) ((mid ++ 92 :: d :: r.take len).drop (encode v).length) junk
      refine ⟨j', ?_⟩
      have hl : (out ++ encode v).length + ((mid ++ 92 :: d :: r.take len).drop (encode v).length).length
          = out.length + mid.length + 2 + len := by
        simp; omega
      rw [hl, List.length_append] at hj
      rw [hj]; simp
  | none =>
    rw [hv] at ih
    obtain ⟨res', rfl, ih⟩ := ih
    simp only [Option.getD_none, ne_eq, not_true_eq_false, ↓reduceIte]
    obtain ⟨b', hw, j', hj⟩ := ucn_copy1 92 (d :: r) out mid junk res' ih
    simp only [List.cons_append] at hw
    split
    · rename_i e he; rw [hw] at he; cases he
    · rename_i b' he; rw [hw] at he; cases he
      exact ⟨j', hj⟩

theorem ucnLoop_spec (text : List UInt8) (h0 : ∀ c ∈ text, c ≠ 0) (hb : text.getLast? ≠ some 92)
    (out mid junk : List UInt8) :
    ∃ junk', ucnLoop (out ++ (mid ++ (text ++ 0 :: junk))) (out.length + mid.length) out.length
      = .ok (out ++ (Spec.ucn text ++ 0 :: junk')) := by
  fun_induction Spec.ucn text generalizing out mid junk with
  | case1 =>
    rw [ucnLoop.eq_def]
    simp only [List.nil_append]
    rw [get_at]
    have hw := write_append out (mid ++ [0]) junk [0] (by simp)
    simp only
    rw [if_pos (by decide)]
    rw [show out ++ (mid ++ 0 :: junk) = out ++ (mid ++ [0] ++ junk) by simp, hw]
    exact ⟨(mid ++ [0]).drop 1 ++ junk, by simp⟩
  | case2 r v hv ih =>
    apply ucn_step 0x75 (Or.inl rfl) r out mid junk _ 4 rfl
    rw [hv]
    exact ⟨_, rfl, fun o m j => ih (fun c hc => h0 c (by simp [List.mem_of_mem_drop hc]))
      (getLast_drop 4 (getLast_tail (getLast_tail hb))) o m j⟩
  | case3 r hv ih =>
    apply ucn_step 0x75 (Or.inl rfl) r out mid junk _ 4 rfl
    rw [hv]
    exact ⟨_, rfl, fun o m j => ih (fun c hc => h0 c (by simp at hc; simp [hc])) (getLast_tail hb) o m j⟩
  | case4 r v hv ih =>
    apply ucn_step 0x55 (Or.inr rfl) r out mid junk _ 8 rfl
    rw [hv]
    exact ⟨_, rfl, fun o m j => ih (fun c hc => h0 c (by simp [List.mem_of_mem_drop hc]))
      (getLast_drop 8 (getLast_tail (getLast_tail hb))) o m j⟩
  | case5 r hv ih =>
    apply ucn_step 0x55 (Or.inr rfl) r out mid junk _ 8 rfl
    rw [hv]
    exact ⟨_, rfl, fun o m j => ih (fun c hc => h0 c (by simp at hc; simp [hc])) (getLast_tail hb) o m j⟩
  | case6 c r hc1 hc2 ih =>
    have ih := ih (fun c hc => h0 c (by simp [hc])) (getLast_tail (getLast_tail hb))
    rw [ucnLoop.eq_def]
    simp only [List.cons_append]
    rw [get_at]
    simp only [get_at1]
    rw [if_neg (by decide), if_pos (by rfl), if_neg (by rintro (h | h); exact hc1 h; exact hc2 h)]
    have hw := write_append out (mid ++ [92]) (c :: (r ++ 0 :: junk)) [92] (by simp)
    rw [show out ++ (mid ++ [92] ++ c :: (r ++ 0 :: junk)) = out ++ (mid ++ 92 :: c :: (r ++ 0 :: junk)) by simp] at hw
    split
    · rename_i e he; rw [hw] at he; cases he
    · rename_i b' he; rw [hw] at he; cases he
      have hl : out.length + mid.length + 1 = (out ++ [92]).length + ((mid ++ [92]).drop 1).length := by
        simp; omega
      rw [show [(92 : UInt8)].length = 1 from rfl]
      rw [hl, get_at]
      simp only
      have hw2 := write_append (out ++ [92]) ((mid ++ [92]).drop 1 ++ [c]) (r ++ 0 :: junk) [c] (by simp)
      rw [show out ++ [92] ++ (List.drop 1 (mid ++ [92]) ++ [c] ++ (r ++ 0 :: junk)) =
        out ++ [92] ++ (List.drop 1 (mid ++ [92]) ++ c :: (r ++ 0 :: junk)) by simp] at hw2
      rw [show (out ++ [(92 : UInt8)]).length = out.length + 1 from by simp] at hw2
      split
      · rename_i e he; rw [hw2] at he; cases he
      · rename_i b' he; rw [hw2] at he; cases he
        obtain ⟨j', hj⟩ := ih (out ++ [92, c]) ((((mid ++ [92]).drop 1) ++ [c]).drop 1) junk
        refine ⟨j', ?_⟩
        have hl3 : (out ++ [92, c]).length + ((((mid ++ [92]).drop 1) ++ [c]).drop 1).length
            = out.length + mid.length + 2 := by simp; omega
        rw [hl3] at hj
        rw [show (out ++ [92, c]).length = out.length + 2 from by simp] at hj
        simp only [List.append_assoc, List.cons_append, List.nil_append] at hj ⊢
        exact hj
  | case7 c r hc1 hc2 hc3 ih =>
    have ih := ih (fun c hc => h0 c (by simp [hc])) (getLast_tail hb)
    have hc0 := h0 c (by simp)
    have hcb : c ≠ BSL := by
      rintro rfl
      cases r with
      | nil => exact hb rfl
      | cons d r => exact hc3 d r rfl rfl
    rw [ucnLoop.eq_def]
    simp only [List.cons_append]
    rw [get_at]
    simp only
    rw [if_neg hc0, if_neg hcb]
    obtain ⟨b', hw, j', hj⟩ := ucn_copy1 c r out mid junk _ ih
    split
    · rename_i e he; rw [hw] at he; cases he
    · rename_i b' he; rw [hw] at he; cases he
      exact ⟨j', hj⟩

end Toycc.Source
