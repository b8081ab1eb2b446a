import Verif.Lex.LitProps
import Verif.Lex.Props
/-!
A token is read from its own bytes: what follows matters only through the first byte after it.
-/
namespace Toycc.Lex
open Toycc.Unicode

/-- What follows an escape may be changed if it still begins with the same byte, or with a quote. -/
theorem escape_follow (h : Host) (e b r r' : List UInt8) (v : Int) (hx : Escape h e (b ++ r) v) (hb : b ≠ []) : Escape h e (b ++ r') v := by
  have hd : ∀ base, (∀ d q, b ++ r = d :: q → isDigitOf base d = false) → ∀ d q, b ++ r' = d :: q → isDigitOf base d = false := by
    intro base hh d q e
    cases b with
    | nil => exact absurd rfl hb
    | cons x b =>
      simp only [List.cons_append, List.cons.injEq] at e
      exact hh d (b ++ r) (by rw [← e.1]; rfl)
  cases hx with
  | simple x w _ hm => exact .simple x w _ hm
  | oct _ _ h1 h2 h3 h4 => exact .oct e _ h1 h2 h3 (h4.imp_right (hd 8))
  | hex ds _ h1 h2 h3 h4 => exact .hex ds _ h1 h2 (hd 16 h3) h4
  | other x _ h1 h2 h3 => exact .other x _ h1 h2 h3

theorem escape_quote (h : Host) (e b r : List UInt8) (v : Int) (hx : Escape h e b v) : Escape h e (b ++ 0x22 :: r) v := by
  have hd : ∀ base, isDigitOf base 0x22 = false → (∀ d q, b = d :: q → isDigitOf base d = false) → ∀ d q, b ++ 0x22 :: r = d :: q → isDigitOf base d = false := by
    intro base h0 hh d q e
    cases b with
    | nil => simp only [List.nil_append, List.cons.injEq] at e; rw [← e.1]; exact h0
    | cons x b =>
      simp only [List.cons_append, List.cons.injEq] at e
      exact hh d b (by rw [← e.1])
  cases hx with
  | simple x w _ hm => exact .simple x w _ hm
  | oct _ _ h1 h2 h3 h4 => exact .oct e _ h1 h2 h3 (h4.imp_right (hd 8 (by decide)))
  | hex ds _ h1 h2 h3 h4 => exact .hex ds _ h1 h2 (hd 16 (by decide) h3) h4
  | other x _ h1 h2 h3 => exact .other x _ h1 h2 h3

theorem narrow_local (h : Host) (k : Nat) (p : List UInt8) (us : List Nat) (hn : narrowLoop h k p = .ok us)
    (body r r2 : List UInt8) (hb : Body body) (hp : p = body ++ 0x22 :: r) (hk : k = body.length) : narrowLoop h k (body ++ 0x22 :: r2) = .ok us := by
  fun_induction narrowLoop h k p generalizing us body r with
  | case1 => rw [narrowLoop.eq_def, if_pos rfl]; exact hn
  | case2 => cases hn
  | case3 => cases hn
  | case4 => cases hn
  | case5 k hk0 r0 v n hre us' hrec ih =>
    cases hn
    obtain ⟨e, r', e1, e2, he⟩ := readEscaped_sound h r0 v n hre
    cases hb with
    | nil => simp at hp
    | plain c b h1 h2 h3 _ => simp only [List.cons_append, List.cons.injEq] at hp; exact absurd hp.1.symm h3
    | esc c b hb' =>
      simp only [List.cons_append, List.cons.injEq, true_and] at hp
      obtain ⟨b', g1, g2, g3, g4⟩ := escape_inside h c b r e r' v hb' (by rw [← e1, hp]; rfl) he
      have hd : r0.drop n = b' ++ 0x22 :: r := by rw [e1, e2, List.drop_left, g2]
      have hl : b.length + 1 = e.length + b'.length := by
        have := congrArg List.length g1; simpa using this
      have i := ih us' hrec b' r g3 hd (by simp at hk; omega)
      have hre2 : readEscaped h (c :: b ++ 0x22 :: r2) = .ok (v, n) :=
        (C18_escapes h _ v n).mpr ⟨e, b' ++ 0x22 :: r2, by rw [g1, List.append_assoc], e2, escape_quote h e b' r2 v g4⟩
      rw [narrowLoop.eq_def, if_neg hk0]
      simp only [List.cons_append, if_true]
      have hre2 : readEscaped h (c :: (b ++ 0x22 :: r2)) = .ok (v, n) := hre2
      rw [hre2]
      simp only
      have hdr : (c :: (b ++ 0x22 :: r2)).drop n = b' ++ 0x22 :: r2 := by
        rw [← List.cons_append, g1, List.append_assoc, e2, List.drop_left]
      rw [hdr, i]
  | case6 => cases hn
  | case7 k hk0 c r0 hc us' hrec ih =>
    cases hn
    cases hb with
    | nil => simp at hk; exact absurd hk hk0
    | plain c' b h1 h2 h3 hb' =>
      simp only [List.cons_append, List.cons.injEq] at hp
      have i := ih us' hrec b r hb' hp.2 (by simp at hk; omega)
      rw [narrowLoop.eq_def, if_neg hk0]
      simp only [List.cons_append]
      rw [if_neg h3, i, hp.1]
    | esc c' b hb' => simp only [List.cons_append, List.cons.injEq] at hp; exact absurd hp.1 hc

theorem decode_follow (b : UInt8) (t s : List UInt8) (c n : Nat) (h : decode (b :: t) = some (c, n)) (hn : n ≤ (b :: t).length) : decode (b :: t ++ s) = some (c, n) := by
  rw [← h]
  have hh : headByte (b :: t ++ s) = headByte (b :: t) := rfl
  have ht : (b :: t ++ s).tail = t ++ s := rfl
  have ht' : (b :: t).tail = t := rfl
  unfold decode at h ⊢
  simp only [hh, ht, ht'] at h ⊢
  simp only [List.length_cons] at hn
  split at h
  · rename_i h1; rw [if_pos h1, if_pos h1]
  · rename_i h1
    rw [if_neg h1, if_neg h1]
    split at h
    · rename_i h2
      rw [if_pos h2, if_pos h2]
      cases hc : decodeCont 3 (headByte (b :: t) &&& 0b111) t with
      | none => rw [hc] at h; cases h
      | some x => rw [hc] at h; cases h; rw [cont_prefix _ _ _ _ (by omega), hc]
    · rename_i h2
      rw [if_neg h2, if_neg h2]
      split at h
      · rename_i h3
        rw [if_pos h3, if_pos h3]
        cases hc : decodeCont 2 (headByte (b :: t) &&& 0b1111) t with
        | none => rw [hc] at h; cases h
        | some x => rw [hc] at h; cases h; rw [cont_prefix _ _ _ _ (by omega), hc]
      · rename_i h3
        rw [if_neg h3, if_neg h3]
        split at h
        · rename_i h4
          rw [if_pos h4, if_pos h4]
          cases hc : decodeCont 1 (headByte (b :: t) &&& 0b11111) t with
          | none => rw [hc] at h; cases h
          | some x => rw [hc] at h; cases h; rw [cont_prefix _ _ _ _ (by omega), hc]
        · cases h

/-- A character decoded from the bytes of `s` is decoded whatever follows. -/
theorem decode_local (s r r' : List UInt8) (c n : Nat) (h : decode (s ++ r) = some (c, n)) (hs : s ≠ []) (hn : n ≤ s.length) : decode (s ++ r') = some (c, n) := by
  cases s with
  | nil => exact absurd rfl hs
  | cons b t => exact decode_follow b t r' c n (decode_prefix b t r c n h hn) hn

theorem utf16_local (h : Host) (k : Nat) (p : List UInt8) (us : List Nat) (hn : utf16Loop h k p = .ok us)
    (body r r2 : List UInt8) (hb : Body body) (hp : p = body ++ 0x22 :: r) (hk : k = body.length) : utf16Loop h k (body ++ 0x22 :: r2) = .ok us := by
  fun_induction utf16Loop h k p generalizing us body r with
  | case1 => rw [utf16Loop.eq_def, if_pos rfl]; exact hn
  | case2 => cases hn
  | case3 => cases hn
  | case4 => cases hn
  | case5 k hk0 r0 v n hre us' hrec ih =>
    cases hn
    obtain ⟨e, r', e1, e2, he⟩ := readEscaped_sound h r0 v n hre
    cases hb with
    | nil => simp at hp
    | plain c b h1 h2 h3 _ => simp only [List.cons_append, List.cons.injEq] at hp; exact absurd hp.1.symm h3
    | esc c b hb' =>
      simp only [List.cons_append, List.cons.injEq, true_and] at hp
      obtain ⟨b', g1, g2, g3, g4⟩ := escape_inside h c b r e r' v hb' (by rw [← e1, hp]; rfl) he
      have hd : r0.drop n = b' ++ 0x22 :: r := by rw [e1, e2, List.drop_left, g2]
      have hl : b.length + 1 = e.length + b'.length := by
        have := congrArg List.length g1; simpa using this
      have i := ih us' hrec b' r g3 hd (by simp at hk; omega)
      have hre2 : readEscaped h (c :: b ++ 0x22 :: r2) = .ok (v, n) :=
        (C18_escapes h _ v n).mpr ⟨e, b' ++ 0x22 :: r2, by rw [g1, List.append_assoc], e2, escape_quote h e b' r2 v g4⟩
      rw [utf16Loop.eq_def, if_neg hk0]
      simp only [List.cons_append, if_true]
      have hre2 : readEscaped h (c :: (b ++ 0x22 :: r2)) = .ok (v, n) := hre2
      rw [hre2]
      simp only
      have hdr : (c :: (b ++ 0x22 :: r2)).drop n = b' ++ 0x22 :: r2 := by
        rw [← List.cons_append, g1, List.append_assoc, e2, List.drop_left]
      rw [hdr, i]
  | case6 => cases hn
  | case7 => cases hn
  | case8 k hk0 c r0 hc v n hd us' hrec ih =>
    cases hn
    have hne : body ≠ [] := by rintro rfl; exact hk0 hk
    have hh : body.head? ≠ some 92 := by
      cases body with
      | nil => simp
      | cons x b => simp only [List.cons_append, List.cons.injEq] at hp; simp only [List.head?_cons, ne_eq, Option.some.injEq]; rw [← hp.1]; exact hc
    rw [hp] at hd
    obtain ⟨d1, d2, d3⟩ := decode_inside body r v n hb hne hh hd
    have hdrop : (c :: r0).drop n = body.drop n ++ 0x22 :: r := by
      rw [hp, List.drop_append_of_le_length d1]
    have i := ih us' hrec (body.drop n) r d3 hdrop (by simp; omega)
    have hd2 := decode_local body _ (0x22 :: r2) v n hd hne d1
    cases body with
    | nil => exact absurd rfl hne
    | cons x b =>
      simp only [List.cons_append, List.cons.injEq] at hp hd2
      rw [utf16Loop.eq_def, if_neg hk0]
      simp only [List.cons_append]
      rw [if_neg (by rw [← hp.1]; exact hc)]
      split
      · rename_i hx; rw [hd2] at hx; cases hx
      · rename_i v' n' hx
        rw [hd2] at hx
        cases hx
        have : (x :: (b ++ 0x22 :: r2)).drop n = (x :: b).drop n ++ 0x22 :: r2 := by
          rw [← List.cons_append, List.drop_append_of_le_length d1]
        rw [this, i]

theorem utf32_local (h : Host) (k : Nat) (p : List UInt8) (us : List Nat) (hn : utf32Loop h k p = .ok us)
    (body r r2 : List UInt8) (hb : Body body) (hp : p = body ++ 0x22 :: r) (hk : k = body.length) : utf32Loop h k (body ++ 0x22 :: r2) = .ok us := by
  fun_induction utf32Loop h k p generalizing us body r with
  | case1 => rw [utf32Loop.eq_def, if_pos rfl]; exact hn
  | case2 => cases hn
  | case3 => cases hn
  | case4 => cases hn
  | case5 k hk0 r0 v n hre us' hrec ih =>
    cases hn
    obtain ⟨e, r', e1, e2, he⟩ := readEscaped_sound h r0 v n hre
    cases hb with
    | nil => simp at hp
    | plain c b h1 h2 h3 _ => simp only [List.cons_append, List.cons.injEq] at hp; exact absurd hp.1.symm h3
    | esc c b hb' =>
      simp only [List.cons_append, List.cons.injEq, true_and] at hp
      obtain ⟨b', g1, g2, g3, g4⟩ := escape_inside h c b r e r' v hb' (by rw [← e1, hp]; rfl) he
      have hd : r0.drop n = b' ++ 0x22 :: r := by rw [e1, e2, List.drop_left, g2]
      have hl : b.length + 1 = e.length + b'.length := by
        have := congrArg List.length g1; simpa using this
      have i := ih us' hrec b' r g3 hd (by simp at hk; omega)
      have hre2 : readEscaped h (c :: b ++ 0x22 :: r2) = .ok (v, n) :=
        (C18_escapes h _ v n).mpr ⟨e, b' ++ 0x22 :: r2, by rw [g1, List.append_assoc], e2, escape_quote h e b' r2 v g4⟩
      rw [utf32Loop.eq_def, if_neg hk0]
      simp only [List.cons_append, if_true]
      have hre2 : readEscaped h (c :: (b ++ 0x22 :: r2)) = .ok (v, n) := hre2
      rw [hre2]
      simp only
      have hdr : (c :: (b ++ 0x22 :: r2)).drop n = b' ++ 0x22 :: r2 := by
        rw [← List.cons_append, g1, List.append_assoc, e2, List.drop_left]
      rw [hdr, i]
  | case6 => cases hn
  | case7 => cases hn
  | case8 k hk0 c r0 hc v n hd us' hrec ih =>
    cases hn
    have hne : body ≠ [] := by rintro rfl; exact hk0 hk
    have hh : body.head? ≠ some 92 := by
      cases body with
      | nil => simp
      | cons x b => simp only [List.cons_append, List.cons.injEq] at hp; simp only [List.head?_cons, ne_eq, Option.some.injEq]; rw [← hp.1]; exact hc
    rw [hp] at hd
    obtain ⟨d1, d2, d3⟩ := decode_inside body r v n hb hne hh hd
    have hdrop : (c :: r0).drop n = body.drop n ++ 0x22 :: r := by
      rw [hp, List.drop_append_of_le_length d1]
    have i := ih us' hrec (body.drop n) r d3 hdrop (by simp; omega)
    have hd2 := decode_local body _ (0x22 :: r2) v n hd hne d1
    cases body with
    | nil => exact absurd rfl hne
    | cons x b =>
      simp only [List.cons_append, List.cons.injEq] at hp hd2
      rw [utf32Loop.eq_def, if_neg hk0]
      simp only [List.cons_append]
      rw [if_neg (by rw [← hp.1]; exact hc)]
      split
      · rename_i hx; rw [hd2] at hx; cases hx
      · rename_i v' n' hx
        rw [hd2] at hx
        cases hx
        have : (x :: (b ++ 0x22 :: r2)).drop n = (x :: b).drop n ++ 0x22 :: r2 := by
          rw [← List.cons_append, List.drop_append_of_le_length d1]
        rw [this, i]

/-- A string literal is read whatever follows it. -/
theorem string_local (h : Host) (skip : Nat) (el : Elem) (s r r' : List UInt8) (k : Kind) (n : Nat) (pl : Payload)
    (hr : readString h skip el (s ++ r) = .ok (.tok k n pl)) (hn : n = skip + 1 + s.length) : readString h skip el (s ++ r') = .ok (.tok k n pl) := by
  unfold readString at hr ⊢
  split at hr
  · cases hr
  rename_i k0 hk
  obtain ⟨body, r0, hp, hkb, hb⟩ := (C19_string_end _ k0).mp hk
  have hs : n = skip + 1 + k0 + 1 → s = body ++ [0x22] ∧ r = r0 := by
    intro e
    have hl : s.length = (body ++ [0x22]).length := by simp; omega
    rw [show body ++ 0x22 :: r0 = (body ++ [0x22]) ++ r0 from by simp] at hp
    exact List.append_inj hp hl
  split at hr
  · cases hr
  rename_i us hus
  simp only [Except.ok.injEq, Piece.tok.injEq] at hr
  obtain ⟨rfl, hn2, rfl⟩ := hr
  obtain ⟨rfl, rfl⟩ := hs hn2.symm
  have e1 : stringEnd (body ++ [0x22] ++ r') = .ok k0 := (C19_string_end _ _).mpr ⟨body, r', by simp, hkb, hb⟩
  rw [e1]
  simp only
  have e2 : body ++ [0x22] ++ r' = body ++ 0x22 :: r' := by simp
  rw [e2]
  rw [hp] at hus
  cases el <;> simp only at hus ⊢
  · rw [narrow_local h k0 _ us hus body r r' hb rfl hkb]; simp only [hn2]
  · rw [utf16_local h k0 _ us hus body r r' hb rfl hkb]; simp only [hn2]
  · rw [utf32_local h k0 _ us hus body r r' hb rfl hkb]; simp only [hn2]
  · rw [utf32_local h k0 _ us hus body r r' hb rfl hkb]; simp only [hn2]

theorem findIdx_local (s r r' : List UInt8) (f : UInt8 → Bool) (i : Nat) (h : (s ++ r).findIdx? f = some i) (hi : i < s.length) : (s ++ r').findIdx? f = some i := by
  rw [List.findIdx?_append] at h ⊢
  cases hs : s.findIdx? f with
  | some j => rw [hs] at h; simpa using h
  | none =>
    rw [hs] at h
    simp only [Option.none_or, Option.map_eq_some_iff] at h
    obtain ⟨j, _, rfl⟩ := h
    omega

theorem readChar_local (h : Host) (skip : Nat) (s r r' : List UInt8) (v : Int) (n : Nat) (hr : readChar h skip (s ++ r) = .ok (v, n)) (hn : n = skip + 1 + s.length) :
    readChar h skip (s ++ r') = .ok (v, n) := by
  cases s with
  | nil =>
    exfalso
    unfold readChar at hr
    split at hr
    · cases hr
    · simp only [List.length_nil] at hn
      split at hr
      · split at hr
        · cases hr
        · split at hr
          · cases hr
          · cases hr; omega
      · split at hr
        · cases hr
        · split at hr
          · cases hr
          · cases hr; omega
  | cons c s =>
    unfold readChar at hr ⊢
    simp only [List.cons_append, List.length_cons] at hr hn ⊢
    split at hr
    · rename_i hc
      rw [if_pos hc]
      split at hr
      · cases hr
      · rename_i v' n' he
        split at hr
        · cases hr
        · rename_i i hi
          have hr := Except.ok.inj hr
          simp only [Prod.mk.injEq] at hr
          obtain ⟨rfl, hn'⟩ := hr
          obtain ⟨e, r0, e1, e2, hx⟩ := readEscaped_sound h _ _ _ he
          have hl : n' + i < s.length := by omega
          have hle : e.length ≤ s.length := by omega
          obtain ⟨b, hb⟩ : ∃ b, s = e ++ b := ⟨s.drop e.length, by
            have := congrArg (List.take e.length) e1
            rw [List.take_append_of_le_length hle, List.take_left] at this
            rw [← this]
            rw [show (List.take e.length s).length = e.length from by simp; omega, List.take_append_drop]⟩
          subst hb
          rw [List.append_assoc] at e1
          have e1 := List.append_cancel_left e1
          subst e1
          have hbne : b ≠ [] := by rintro rfl; simp at hl; omega
          have hx2 := escape_follow h e b r r' v' hx hbne
          have he2 : readEscaped h (e ++ b ++ r') = .ok (v', n') := (C18_escapes h _ _ _).mpr ⟨e, b ++ r', by simp, e2, hx2⟩
          rw [he2]
          simp only
          rw [e2] at hi ⊢
          rw [List.append_assoc, List.drop_left] at hi ⊢
          rw [findIdx_local b r r' _ i hi (by simp at hl; omega)]
          simp only
          rw [← e2, hn']
    · rename_i hc
      rw [if_neg hc]
      split at hr
      · cases hr
      · rename_i v' n' hd
        split at hr
        · cases hr
        · rename_i i hi
          have hr := Except.ok.inj hr
          simp only [Prod.mk.injEq] at hr
          obtain ⟨rfl, hn'⟩ := hr
          have hl : n' + i < (c :: s).length := by simp; omega
          have hd2 := decode_local (c :: s) r r' v' n' hd (by simp) (by omega)
          rw [show c :: (s ++ r') = c :: s ++ r' from rfl, hd2]
          simp only
          rw [show c :: (s ++ r) = c :: s ++ r from rfl, List.drop_append_of_le_length (by omega)] at hi
          rw [List.drop_append_of_le_length (by omega), findIdx_local _ r r' _ i hi (by simp only [List.length_drop]; omega)]
          simp only
          rw [hn']

theorem char_local (h : Host) (skip : Nat) (ty : Elem) (pb : Bool) (s r r' : List UInt8) (k : Kind) (n : Nat) (pl : Payload)
    (hr : charTok h skip ty pb (s ++ r) = .ok (.tok k n pl)) (hn : n = skip + 1 + s.length) : charTok h skip ty pb (s ++ r') = .ok (.tok k n pl) := by
  unfold charTok at hr ⊢
  split at hr
  · cases hr
  · rename_i v n' hc
    have : n' = n := by cases hr; rfl
    subst this
    rw [readChar_local h skip s r r' v n' hc hn]
    exact hr

end Toycc.Lex
