import Verif.Report.Model
/-! Property C65: error reports terminate and show the line. -/
namespace Toycc.Report
open Toycc.Unicode

/-- `l` is the line of `buf` that contains offset `pos`: a maximal newline-free stretch around it. -/
def IsLineAt (buf : List UInt8) (pos : Nat) (l : List UInt8) : Prop :=
  ∃ a b, buf = a ++ l ++ b ∧ (a = [] ∨ a.getLast? = some 10) ∧ (b = [] ∨ b.head? = some 10) ∧ 10 ∉ l ∧
    a.length ≤ pos ∧ pos ≤ a.length + l.length

theorem backLoop_le (r : List UInt8) : (backLoop r).1 ≤ r.length := by
  induction r with
  | nil => simp [backLoop]
  | cons b r ih => unfold backLoop; split <;> simp <;> omega

theorem backLoop_spec (r : List UInt8) :
    10 ∉ r.take (backLoop r).1 ∧ (r.drop (backLoop r).1 = [] ∨ (r.drop (backLoop r).1).head? = some 10) := by
  induction r with
  | nil => simp [backLoop]
  | cons b r ih =>
    unfold backLoop
    split
    · rename_i h; simp [h]
    · rename_i h
      simp only [List.take_succ_cons, List.drop_succ_cons, List.mem_cons, not_or]
      exact ⟨⟨fun e => h e.symm, ih.1⟩, ih.2⟩

theorem fwdLoop_spec (r : List UInt8) :
    10 ∉ r.take (fwdLoop r) ∧ (r.drop (fwdLoop r) = [] ∨ (r.drop (fwdLoop r)).head? = some 10) := by
  induction r with
  | nil => simp [fwdLoop]
  | cons b r ih =>
    unfold fwdLoop
    split
    · rename_i h; simp [h]
    · rename_i h
      simp only [List.take_succ_cons, List.drop_succ_cons, List.mem_cons, not_or]
      exact ⟨⟨fun e => h e.symm, ih.1⟩, ih.2⟩

/-- The line printed by the report at `pos`. -/
def lineAt (buf : List UInt8) (pos : Nat) : List UInt8 :=
  let start := pos - (backLoop (buf.take pos).reverse).1
  (buf.drop start).take (pos + fwdLoop (buf.drop pos) - start)

def startAt (buf : List UInt8) (pos : Nat) : Nat := pos - (backLoop (buf.take pos).reverse).1

theorem back_le (buf : List UInt8) (pos : Nat) : (backLoop (buf.take pos).reverse).1 ≤ pos := by
  have := backLoop_le (buf.take pos).reverse
  simp at this; omega

theorem take_split (buf : List UInt8) (pos : Nat) (hp : pos ≤ buf.length) :
    buf.take pos = buf.take (startAt buf pos) ++ ((buf.drop (startAt buf pos)).take (pos - startAt buf pos)) ∧
    10 ∉ (buf.drop (startAt buf pos)).take (pos - startAt buf pos) ∧
    (buf.take (startAt buf pos) = [] ∨ (buf.take (startAt buf pos)).getLast? = some 10) := by
  have hb := back_le buf pos
  obtain ⟨h1, h2⟩ := backLoop_spec (buf.take pos).reverse
  have e1 : (buf.take pos).reverse.take (backLoop (buf.take pos).reverse).1 =
      ((buf.drop (startAt buf pos)).take (pos - startAt buf pos)).reverse := by
    rw [List.take_reverse]
    congr 1
    rw [List.drop_take]
    congr 1
    · unfold startAt; simp; omega
    · congr 1; unfold startAt; simp; omega
  have e2 : (buf.take pos).reverse.drop (backLoop (buf.take pos).reverse).1 = (buf.take (startAt buf pos)).reverse := by
    rw [List.drop_reverse]
    congr 1
    rw [List.take_take]
    congr 1
    unfold startAt; simp; omega
  rw [e1] at h1
  rw [e2] at h2
  refine ⟨?_, by simpa using h1, ?_⟩
  · rw [← List.take_add, show startAt buf pos + (pos - startAt buf pos) = pos from by unfold startAt; omega]
  · rcases h2 with h | h
    · left; simpa using h
    · right; simpa using h

theorem lineAt_spec (buf : List UInt8) (pos : Nat) (hp : pos ≤ buf.length) : IsLineAt buf pos (lineAt buf pos) := by
  obtain ⟨s1, s2, s3⟩ := take_split buf pos hp
  obtain ⟨f1, f2⟩ := fwdLoop_spec (buf.drop pos)
  have hst : startAt buf pos ≤ pos := by unfold startAt; omega
  have hline : lineAt buf pos = (buf.drop (startAt buf pos)).take (pos - startAt buf pos) ++
      (buf.drop pos).take (fwdLoop (buf.drop pos)) := by
    have : lineAt buf pos = (buf.drop (startAt buf pos)).take ((pos - startAt buf pos) + fwdLoop (buf.drop pos)) := by
      unfold lineAt
      show (buf.drop (startAt buf pos)).take _ = _
      congr 1
      show pos + fwdLoop (buf.drop pos) - startAt buf pos = _
      omega
    rw [this, List.take_add, List.drop_drop, show startAt buf pos + (pos - startAt buf pos) = pos from by omega]
  refine ⟨buf.take (startAt buf pos), (buf.drop pos).drop (fwdLoop (buf.drop pos)), ?_, s3, f2, ?_, ?_, ?_⟩
  · rw [hline, ← List.append_assoc, ← s1, List.append_assoc, List.take_append_drop, List.take_append_drop]
  · rw [hline]; simp only [List.mem_append, not_or]; exact ⟨s2, f1⟩
  · simp; omega
  · rw [hline]; simp; omega

theorem startAt_inner (buf : List UInt8) (pos q : Nat) (hp : pos ≤ buf.length) (h1 : startAt buf pos ≤ q) (h2 : q ≤ pos) :
    startAt buf q = startAt buf pos := by
  obtain ⟨s1, s2, s3⟩ := take_split buf pos hp
  obtain ⟨t1, t2, t3⟩ := take_split buf q (by omega)
  have hq : startAt buf q ≤ q := by unfold startAt; omega
  have hnl : ∀ i, startAt buf pos ≤ i → i < pos → buf[i]? ≠ some 10 := by
    intro i hi hi' e
    apply s2
    rw [List.mem_iff_getElem?]
    refine ⟨i - startAt buf pos, ?_⟩
    rw [List.getElem?_take, if_pos (by omega), List.getElem?_drop, show startAt buf pos + (i - startAt buf pos) = i from by omega, e]
  have hnl' : ∀ i, startAt buf q ≤ i → i < q → buf[i]? ≠ some 10 := by
    intro i hi hi' e
    apply t2
    rw [List.mem_iff_getElem?]
    refine ⟨i - startAt buf q, ?_⟩
    rw [List.getElem?_take, if_pos (by omega), List.getElem?_drop, show startAt buf q + (i - startAt buf q) = i from by omega, e]
  have last : ∀ s, s ≤ buf.length → (buf.take s = [] ∨ (buf.take s).getLast? = some 10) → s = 0 ∨ buf[s - 1]? = some 10 := by
    intro s hs h
    rcases h with h | h
    · left
      have := congrArg List.length h
      simp at this; rcases this with h | h
      · exact h
      · subst h; simp at hs; exact hs
    · right
      rw [List.getLast?_eq_getElem?, List.getElem?_take] at h
      simp only [List.length_take] at h
      rw [show min s buf.length - 1 = s - 1 from by omega] at h
      split at h
      · exact h
      · cases h
  have hp' : startAt buf pos ≤ pos := by unfold startAt; omega
  have l1 := last _ (by omega) s3
  have l2 := last _ (by omega) t3
  rcases Nat.lt_trichotomy (startAt buf q) (startAt buf pos) with h | h | h
  · rcases l1 with e | e
    · omega
    · exact absurd e (hnl' _ (by omega) (by omega))
  · exact h
  · rcases l2 with e | e
    · omega
    · exact absurd e (hnl _ (by omega) (by omega))

theorem verrorAt_eq (buf : List UInt8) (same : Bool) (lineNo pos : Nat) :
    verrorAt buf same lineNo pos = .line lineNo (lineAt buf pos) ::
      match displayWidth (buf.drop (startAt buf pos)) (pos - startAt buf pos) with
      | .ok w => [.caret (w + (backLoop (buf.take pos).reverse).2 * 7)]
      | .error rest =>
        if same then
          if buf.length - rest.length < pos then
            verrorAt buf same (1 + (buf.take (buf.length - rest.length)).count 10) (buf.length - rest.length) else []
        else [.foreign] := by
  rw [verrorAt.eq_def]
  dsimp only
  congr 1
  split
  · rename_i w h
    have h' : displayWidth (buf.drop (startAt buf pos)) (pos - startAt buf pos) = .ok w := h
    rw [h']
  · rename_i rest h
    have h' : displayWidth (buf.drop (startAt buf pos)) (pos - startAt buf pos) = .error rest := h
    rw [h']
    dsimp only
    split
    · split <;> rfl
    · rfl

/-- **C65** (partial: locations inside the current file) A report ends after at most one nested report. It prints the
line containing the position, with the given number; when the text before the position on that line is not UTF-8 it
prints the same line once more, for the offset of the first bad byte sequence; and then one caret line.
Missing: locations in another file (`C65_violated`). -/
theorem C65_report_partial (buf : List UInt8) (lineNo pos : Nat) (hp : pos ≤ buf.length) :
    ∃ l, IsLineAt buf pos l ∧
      ((∃ pad, verrorAt buf true lineNo pos = [.line lineNo l, .caret pad]) ∨
       (∃ q pad, q < pos ∧ IsLineAt buf q l ∧ decode (buf.drop q) = none ∧
         verrorAt buf true lineNo pos = [.line lineNo l, .line (1 + (buf.take q).count 10) l, .caret pad])) := by
  refine ⟨lineAt buf pos, lineAt_spec buf pos hp, ?_⟩
  have hst : startAt buf pos ≤ pos := by unfold startAt; omega
  rw [verrorAt_eq]
  cases hd : displayWidth (buf.drop (startAt buf pos)) (pos - startAt buf pos) with
  | ok w => left; exact ⟨_, rfl⟩
  | error rest =>
    right
    obtain ⟨k, h1, h2, w, h3⟩ := displayWidth_error _ _ _ hd
    have hq : buf.length - rest.length = startAt buf pos + k := by
      rw [h2]; simp; omega
    have hin := startAt_inner buf pos (startAt buf pos + k) hp (by omega) (by omega)
    have hl : lineAt buf (startAt buf pos + k) = lineAt buf pos := by
      have a1 := lineAt_spec buf pos hp
      have a2 := lineAt_spec buf (startAt buf pos + k) (by omega)
      -- both lines start at the same offset and are maximal
      have e1 : ∀ p, p ≤ buf.length → lineAt buf p = (buf.drop (startAt buf p)).take (p + fwdLoop (buf.drop p) - startAt buf p) :=
        fun _ _ => rfl
      obtain ⟨_, s2, _⟩ := take_split buf pos hp
      have hf : ∀ (r : List UInt8) (m : Nat), m ≤ r.length → 10 ∉ r.take m → fwdLoop r = m + fwdLoop (r.drop m) := by
        intro r m
        induction m generalizing r with
        | zero => simp
        | succ m ih =>
          intro hm hn
          cases r with
          | nil => simp at hm
          | cons b r =>
            simp only [List.take_succ_cons, List.mem_cons, not_or] at hn
            simp only [fwdLoop, List.drop_succ_cons]
            rw [if_neg (fun e => hn.1 e.symm), ih r (by simpa using hm) hn.2]; omega
      rw [e1 pos hp, e1 _ (by omega), hin]
      congr 1
      have := hf (buf.drop (startAt buf pos + k)) (pos - (startAt buf pos + k)) (by simp; omega) (by
        intro hm
        apply s2
        rw [List.mem_iff_getElem?] at hm ⊢
        obtain ⟨i, hi⟩ := hm
        rw [List.getElem?_take] at hi
        split at hi
        · rw [List.getElem?_drop] at hi
          refine ⟨k + i, ?_⟩
          rw [List.getElem?_take, if_pos (by omega), List.getElem?_drop, ← hi]
          congr 1; omega
        · cases hi)
      rw [List.drop_drop, show startAt buf pos + k + (pos - (startAt buf pos + k)) = pos from by omega] at this
      omega
    have hlast : decode (buf.drop (startAt buf pos + k)) = none := by
      have aux : ∀ (p : List UInt8) (len : Nat) (rest : List UInt8), displayWidth p len = .error rest → decode rest = none := by
        intro p len
        fun_induction displayWidth p len with
        | case1 => intro rest h; cases h
        | case2 p len hl hd => intro rest h; cases h; exact hd
        | case3 p len hl c n hd e he ih => intro rest h; cases h; exact ih _ he
        | case4 => intro rest h; cases h
      have := aux _ _ _ hd
      rw [h2, List.drop_drop] at this; exact this
    refine ⟨startAt buf pos + k, w + (backLoop (buf.take (startAt buf pos + k)).reverse).2 * 7, by omega, ?_, hlast, ?_⟩
    · rw [← hl]; exact lineAt_spec buf _ (by omega)
    · simp only [if_true]
      rw [hq, if_pos (by omega), verrorAt_eq, hin, show startAt buf pos + k - startAt buf pos = k from by omega, h3, hl]

example : verrorAt [0x61, 10, 0x62, 0xFF, 0x63, 0x64, 10, 0x65] true 2 5 =
    [.line 2 [0x62, 0xFF, 0x63, 0x64], .line 2 [0x62, 0xFF, 0x63, 0x64], .caret 1] := by decide +kernel

/-- error_at's own line number is right. -/
theorem C65_line_number (buf : List UInt8) (pos : Nat) (hp : pos ≤ buf.length) :
    ∃ l evs, IsLineAt buf pos l ∧ errorAt buf pos = .line (1 + (buf.take pos).count 10) l :: evs := by
  obtain ⟨l, h, h1 | h2⟩ := C65_report_partial buf (1 + (buf.take pos).count 10) pos hp
  · obtain ⟨pad, h1⟩ := h1; exact ⟨l, _, h, h1⟩
  · obtain ⟨q, pad, _, _, _, h2⟩ := h2; exact ⟨l, _, h, h2⟩

/-- **C65** is violated for a token of a file that is not the one being tokenised: invalid UTF-8 before it on its line
makes error_at compare and walk pointers of two different buffers. -/
theorem C65_violated : verrorAt [0xFF, 0x61] false 1 1 = [.line 1 [0xFF, 0x61], .foreign] := by decide +kernel

end Toycc.Report
