import Verif.Src.MacCall
import Verif.Pp.Incl
/-! What preprocess2 does with a line, and the macros of two states. -/
namespace Toycc.Src
open Toycc.Lex (asc Kind IntConst)
open Toycc.Pp (PTok Bytes Steps)
open Toycc.Parse (Tok P)

/-- Every macro of `D` is one of `D'`, and every other name too. -/
structure Defs.Le (D D' : Defs) : Prop where
  obj : ∀ s b, D.obj s b → D'.obj s b
  fn : ∀ s ps va b, D.fn s ps va b → D'.fn s ps va b
  free : ∀ s, D.free s → D'.free s

theorem Stop.mono {D D' : Defs} (h : D.Le D') {H : List String} {t : Tok} (hs : Stop D H t) : Stop D' H t := fun s e => (hs s e).imp (h.free s) id

theorem Expand.mono {D D' : Defs} (hD : D.Le D') {H : List String} {ts us : List Tok} {z : Bool} (h : Expand D H ts us z) : Expand D' H ts us z := by
  induction h with
  | nil => exact .nil
  | keep a _ ih => exact .keep (a.mono hD) ih
  | bare a b c d _ ih => exact .bare a b (hD.fn _ _ _ _ c) d ih
  | replace a b c _ _ ih1 ih2 => exact .replace a b (hD.obj _ _ c) ih1 ih2
  | call a b c d e f _ g i _ _ iha ih1 ih2 => exact .call a b (hD.fn _ _ _ _ c) d e f iha (fun x hx u hu => (g x hx u hu).mono hD) i ih1 ih2
  | callV a b c d e f k l _ _ g gy i _ _ iha ihw ih1 ih2 =>
    exact .callV a b (hD.fn _ _ _ _ c) d e f k l iha ihw (fun x hx u hu => (g x hx u hu).mono hD) (fun u hu => (gy u hu).mono hD) i ih1 ih2

theorem isMacro_lookup {st st' : Pp.St} {s : String} {b : List Tok} {m : Pp.Macro} (e : Pp.lookup st' (asc s) = Pp.lookup st (asc s)) (h : IsMacro st s b m) : IsMacro st' s b m :=
  ⟨by rw [e]; exact h.found, h.handler, h.name, h.body⟩

theorem obj_lookup {st st' : Pp.St} {s : String} {b : List Tok} (e : Pp.lookup st' (asc s) = Pp.lookup st (asc s)) (h : (defsOf st).obj s b) : (defsOf st').obj s b := by
  obtain ⟨m, h1, h2⟩ := h
  exact ⟨m, isMacro_lookup e h1, h2⟩

theorem fn_lookup {st st' : Pp.St} {s : String} {ps : List String} {va : Option String} {b : List Tok} (e : Pp.lookup st' (asc s) = Pp.lookup st (asc s)) (h : (defsOf st).fn s ps va b) : (defsOf st').fn s ps va b := by
  obtain ⟨m, h1, h2⟩ := h
  exact ⟨m, isMacro_lookup e h1, h2⟩

theorem defsOf_le {st st' : Pp.St} (e : ∀ x, Pp.lookup st' x = Pp.lookup st x) : (defsOf st).Le (defsOf st') where
  obj _ _ h := obj_lookup (e _) h
  fn _ _ _ _ h := fn_lookup (e _) h
  free _ h := (e _).trans h

section
variable {env : Pp.Env} {st : Pp.St} (hstrict : env.strict = false)
include hstrict

theorem hid_all {D : Defs} {ts : List Tok} {ps : List PTok} (ha : All ts ps) (hh : ∀ p ∈ ps, p.hs = []) : Each (HidT D []) ts ps := by
  induction ha with
  | nil => exact .nil
  | cons h _ ih =>
    refine .cons ⟨h, (fun s hs => by cases hs), .inr fun s _ hs => ?_⟩ (ih fun q hq => hh q (List.mem_cons_of_mem _ hq))
    rw [hh _ List.mem_cons_self] at hs; cases hs

/-- A list of its own. -/
theorem expand_pp {ts us : List Tok} {z : Bool} (h : Expand (defsOf st) [] ts us z) {ps : List PTok} {e : PTok} (ha : All ts ps) (hh : ∀ p ∈ ps, p.hs = []) (he : e.isEof = true) :
    ∃ out e' pre N, (∀ n, N ≤ n → Pp.pp env n false st (ps ++ [e]) = .ok (st, out ++ [e'], pre)) ∧ All us out ∧ e'.isEof = true := by
  obtain ⟨out, pre, o', h1, ⟨k, N, h2⟩, -⟩ := (expand_sem hstrict h).2.1 false ps [e] none (hid_all hstrict ha hh) (fun x e => by cases e) (by simp)
  obtain ⟨b, sp, hu⟩ := upd_cons o' e []
  have he' : ({ e with bol := b, sp := sp } : PTok).isEof = true := he
  refine ⟨out, { e with bol := b, sp := sp }, if out.any (·.own) then pre else pre ++ [], N + 1 + k, fun n hn => ?_, h1.all fun _ _ h => h.1, he'⟩
  obtain ⟨m, rfl⟩ : ∃ m, n = m + 1 + k := ⟨n - 1 - k, by omega⟩
  have := h2 (m + 1) (by omega)
  rw [hu, Pp.pp, he'] at this
  exact this

/-- Lines of a file. -/
theorem line_steps {ts us : List Tok} (h : Expand (defsOf st) [] ts us true) {ps rest : List PTok} (ha : All ts ps) (hh : ∀ p ∈ ps, p.hs = []) (hr : rest ≠ []) :
    ∃ out, All us out ∧ Steps env st (ps ++ rest) out st rest := by
  obtain ⟨out, pre, o', h1, ⟨k, N, h2⟩, -, h4, -⟩ := (expand_sem hstrict h).2.1 true ps rest none (hid_all hstrict ha hh) (fun x e => by cases e) hr
  rw [h4 rfl] at h2
  refine ⟨out, h1.all fun _ _ h => h.1, k, N, fun n hn => ?_⟩
  have := h2 n hn
  unfold Pp.ppO
  replace this : Pp.pp env (n + k) true st (ps ++ rest) = (Pp.pp env n true st rest).map (addTo out pre) := this
  rw [this]
  cases Pp.pp env n true st rest with
  | error e => rfl
  | ok r => rfl

end

end Toycc.Src
