import Verif.Unicode.Props
/-! Model of error reporting: verror_at (utils.c:35-66), error_at (tokenize.c:14-30), with display_width and
decode_utf8 (unicode.c), which call error_at again on invalid UTF-8. -/
namespace Toycc.Report
open Toycc.Unicode

/-- What is written to stderr: the `file:line:` header with the source line (utils.c:54-57), and the caret line with
its padding (utils.c:62-65). `foreign`: error_at walks from the start of another buffer (undefined behaviour). -/
inductive Event where
  | line (no : Nat) (text : List UInt8)
  | caret (pad : Nat)
  | foreign
  deriving DecidableEq, Repr

/-- utils.c:39-46, walking back over the reversed text before `loc`: distance to the line start and tabs met. -/
def backLoop : List UInt8 → Nat × Nat
  | [] => (0, 0)
  | b :: r => if b = 10 then (0, 0) else ((backLoop r).1 + 1, (backLoop r).2 + if b = 9 then 1 else 0)

/-- utils.c:48-51: distance to the end of the line. -/
def fwdLoop : List UInt8 → Nat
  | [] => 0
  | b :: r => if b = 10 then 0 else fwdLoop r + 1

theorem displayWidth_error (p : List UInt8) (len : Nat) (rest : List UInt8) (h : displayWidth p len = .error rest) :
    ∃ k, k < len ∧ rest = p.drop k ∧ (∃ w, displayWidth p k = .ok w) := by
  fun_induction displayWidth p len generalizing rest with
  | case1 => cases h
  | case2 p len hl hd =>
    cases h
    exact ⟨0, by omega, rfl, 0, by rw [displayWidth.eq_def]; rfl⟩
  | case3 p len hl c n hd e he ih =>
    cases h
    obtain ⟨k, h1, h2, w, h3⟩ := ih e he
    have := decode_pos _ _ _ hd
    refine ⟨n + k, by omega, by rw [h2, List.drop_drop], charWidth c + w, ?_⟩
    rw [displayWidth.eq_def, if_neg (by omega)]
    split
    · rename_i hx; rw [hd] at hx; cases hx
    · rename_i c' n' hx
      rw [hd] at hx
      simp only [Option.some.injEq, Prod.mk.injEq] at hx
      obtain ⟨rfl, rfl⟩ := hx
      rw [show n + k - n = k from by omega, h3]
  | case4 => cases h

/-- verror_at, utils.c:35-66, at offset `pos` of the NUL-terminated buffer `buf`; a decoding error at offset `q` runs
error_at (tokenize.c:14-30), which recomputes the line number in `current_file` and calls verror_at again, then exits.
`same`: the buffer is that of `current_file`. The formatted message and the file name are not modelled. The nested
call is made on text before `pos`, so the recursion is on `pos`. -/
def verrorAt (buf : List UInt8) (same : Bool) (lineNo pos : Nat) : List Event :=
  let back := backLoop (buf.take pos).reverse
  let start := pos - back.1
  let stop := pos + fwdLoop (buf.drop pos)
  .line lineNo ((buf.drop start).take (stop - start)) ::
    match _h : displayWidth (buf.drop start) (pos - start) with
    | .ok w => [.caret (w + back.2 * 7)]
    | .error rest =>
      if same then
        let q := buf.length - rest.length
        if _hq : q < pos then verrorAt buf same (1 + (buf.take q).count 10) q else []
      else [.foreign]
termination_by pos

/-- error_at, tokenize.c:14-30: the location is in `current_file`. -/
def errorAt (buf : List UInt8) (pos : Nat) : List Event := verrorAt buf true (1 + (buf.take pos).count 10) pos

end Toycc.Report
