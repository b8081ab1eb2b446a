import Verif.Pp.Hide
/-! Termination of macro expansion (C22): the order. The working list of `preprocess2` is, at any time, a stack of
replacement lists; each is given a *level*, a set of macro names hidden in all its tokens, and the levels grow strictly
from the bottom to the top of the stack. The measure is the number of tokens at each size of level, compared from the
smallest size on. -/
namespace Toycc.Pp
open Toycc.Lex (Kind asc)

/-- `a` is smaller than `b` at the first of the indices below `K` at which they differ. -/
def Lt (K : Nat) (a b : Nat → Nat) : Prop := ∃ c, c < K ∧ (∀ c', c' < c → a c' ≤ b c') ∧ a c < b c

theorem lt_acc (K : Nat) : ∀ a, Acc (Lt K) a := by
  induction K with
  | zero => intro a; exact ⟨_, fun b ⟨c, hc, _⟩ => absurd hc (Nat.not_lt_zero _)⟩
  | succ K ih =>
    have key : ∀ n, ∀ f : Nat → Nat, ∀ a : Nat → Nat, a 0 = n → (fun c => a (c + 1)) = f → Acc (Lt (K + 1)) a := by
      intro n
      induction n using Nat.strongRecOn with
      | ind n ihn =>
        intro f
        induction ih f with
        | intro f _ ihf =>
          intro a ha hf
          refine ⟨_, fun b ⟨c, hc, hle, hlt⟩ => ?_⟩
          match c, hc, hle, hlt with
          | 0, _, _, hlt => exact ihn (b 0) (by omega) _ b rfl rfl
          | c + 1, hc, hle, hlt =>
            have h0 := hle 0 (by omega)
            by_cases hb : b 0 < n
            · exact ihn (b 0) hb _ b rfl rfl
            · refine ihf (fun c => b (c + 1)) ?_ b (by omega) rfl
              subst hf
              exact ⟨c, by omega, fun c' hc' => hle (c' + 1) (by omega), hlt⟩
    intro a
    exact key _ _ a rfl rfl

theorem Lt.of_le {K : Nat} {a b d : Nat → Nat} (h : ∀ c, a c ≤ b c) (hl : Lt K b d) : Lt K a d := by
  obtain ⟨c, h1, h2, h3⟩ := hl
  exact ⟨c, h1, fun c' hc' => Nat.le_trans (h c') (h2 c' hc'), Nat.lt_of_le_of_lt (h c) h3⟩

/-! ### Levels -/

/-- What matters of a token: kind, spelling and hide set. -/
abbrev Core := Kind × Bytes × List Bytes
def core (t : PTok) : Core := (t.kind, t.text, t.hs)

/-- The names of `S` are hidden in the token, or the token can neither be expanded nor end a list of arguments. -/
def Lv (S : List Bytes) (c : Core) : Prop := (∀ n ∈ S, n ∈ c.2.2) ∨ (c.1 ≠ .ident ∧ c.2.1 ≠ asc ")")

/-- A list of tokens with their levels. -/
structure Levels (U : List Bytes) (zs : List (Core × List Bytes)) : Prop where
  lv : ∀ z ∈ zs, Lv z.2 z.1
  nodup : ∀ z ∈ zs, z.2.Nodup
  sub : ∀ z ∈ zs, ∀ n ∈ z.2, n ∈ U
  mono : zs.Pairwise fun a b => ∀ n ∈ b.2, n ∈ a.2

/-- The number of tokens whose level has `c` elements. -/
def cnt (zs : List (Core × List Bytes)) (c : Nat) : Nat := zs.countP fun z => z.2.length == c

theorem cnt_sublist {a b : List (Core × List Bytes)} (h : a.Sublist b) (c : Nat) : cnt a c ≤ cnt b c := h.countP_le

theorem cnt_append (a b : List (Core × List Bytes)) (c : Nat) : cnt (a ++ b) c = cnt a c + cnt b c := List.countP_append

theorem cnt_cons (z : Core × List Bytes) (b : List (Core × List Bytes)) (c : Nat) :
    cnt (z :: b) c = cnt b c + if z.2.length = c then 1 else 0 := by
  unfold cnt
  rw [List.countP_cons]
  by_cases h : z.2.length = c <;> simp [h]

theorem Levels.sublist {U : List Bytes} {a b : List (Core × List Bytes)} (h : Levels U b) (hs : a.Sublist b) : Levels U a :=
  ⟨fun z hz => h.lv z (hs.subset hz), fun z hz => h.nodup z (hs.subset hz), fun z hz => h.sub z (hs.subset hz),
   h.mono.sublist hs⟩

theorem nodup_len {S U : List Bytes} (hn : S.Nodup) (hs : ∀ n ∈ S, n ∈ U) : S.length ≤ U.length := by
  induction S generalizing U with
  | nil => simp
  | cons a S ih =>
    have ha : a ∈ U := hs a (by simp)
    have h1 : (U.erase a).length = U.length - 1 := List.length_erase_of_mem ha
    have h2 : 0 < U.length := List.length_pos_of_mem ha
    have hna : a ∉ S := (List.nodup_cons.mp hn).1
    have := ih (U := U.erase a) (List.nodup_cons.mp hn).2 (fun n hm => by
      refine (List.mem_erase_of_ne ?_).mpr (hs n (by simp [hm]))
      intro e; subst e; exact hna hm)
    simp only [List.length_cons]
    omega

/-- The list without its first token is smaller. -/
theorem lt_tail {U : List Bytes} {z : Core × List Bytes} {zs : List (Core × List Bytes)} (h : Levels U (z :: zs)) :
    Lt (U.length + 1) (cnt zs) (cnt (z :: zs)) := by
  have := nodup_len (h.nodup z (by simp)) (h.sub z (by simp))
  refine ⟨z.2.length, by omega, fun c _ => cnt_sublist (List.sublist_cons_self _ _) c, ?_⟩
  rw [cnt_cons]; simp

/-- A part of the rest of the list is smaller. -/
theorem lt_part {U : List Bytes} {z : Core × List Bytes} {zs a : List (Core × List Bytes)} (h : Levels U (z :: zs))
    (ha : ∀ c, cnt a c ≤ cnt zs c) : Lt (U.length + 1) (cnt a) (cnt (z :: zs)) := (lt_tail h).of_le ha

/-- **The step.** Tokens up to one of level `S` are replaced by tokens that have, besides the names of `S`, one more
name in their hide sets. -/
theorem replace_levels {U : List Bytes} {front : List (Core × List Bytes)} {z : Core × List Bytes}
    {zs : List (Core × List Bytes)} (h : Levels U (front ++ z :: zs)) (f : Bytes) (hf : f ∈ U) (hfs : f ∉ z.2)
    (B : List Core) (hB : ∀ b ∈ B, Lv (f :: z.2) b) :
    Levels U (B.map (fun b => (b, f :: z.2)) ++ zs) ∧
      Lt (U.length + 1) (cnt (B.map (fun b => (b, f :: z.2)) ++ zs)) (cnt (front ++ z :: zs)) := by
  have hz := h.sublist (List.sublist_append_right front (z :: zs))
  have hm := List.pairwise_cons.mp hz.mono
  constructor
  · constructor
    · intro w hw
      rcases List.mem_append.mp hw with hw | hw
      · obtain ⟨b, hb, rfl⟩ := List.mem_map.mp hw
        exact hB b hb
      · exact hz.lv w (by simp [hw])
    · intro w hw
      rcases List.mem_append.mp hw with hw | hw
      · obtain ⟨b, hb, rfl⟩ := List.mem_map.mp hw
        exact List.nodup_cons.mpr ⟨hfs, hz.nodup z (by simp)⟩
      · exact hz.nodup w (by simp [hw])
    · intro w hw
      rcases List.mem_append.mp hw with hw | hw
      · obtain ⟨b, hb, rfl⟩ := List.mem_map.mp hw
        intro n hn
        rcases List.mem_cons.mp hn with rfl | hn
        · exact hf
        · exact hz.sub z (by simp) n hn
      · exact hz.sub w (by simp [hw])
    · rw [List.pairwise_append]
      refine ⟨?_, hm.2, ?_⟩
      · rw [List.pairwise_map]
        exact List.pairwise_of_forall_mem_list fun _ _ _ _ n hn => hn
      · intro a ha b hb n hn
        obtain ⟨x, hx, rfl⟩ := List.mem_map.mp ha
        exact List.mem_cons_of_mem _ (hm.1 b hb n hn)
  · have hlen := nodup_len (hz.nodup z (by simp)) (hz.sub z (by simp))
    have hc0 : ∀ c, c ≤ z.2.length → cnt (B.map (fun b => (b, f :: z.2))) c = 0 := by
      intro c hc
      unfold cnt
      rw [List.countP_eq_zero]
      intro w hw
      obtain ⟨b, hb, rfl⟩ := List.mem_map.mp hw
      simp only [List.length_cons, beq_iff_eq]
      omega
    refine ⟨z.2.length, by omega, fun c hc => ?_, ?_⟩
    · rw [cnt_append, cnt_append, hc0 c (by omega), cnt_cons]; omega
    · rw [cnt_append, cnt_append, hc0 _ (Nat.le_refl _), cnt_cons]; simp; omega

end Toycc.Pp
