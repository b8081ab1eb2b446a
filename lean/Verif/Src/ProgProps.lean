import Verif.Src.ProgSim
import Verif.Whole.Props
/-!
C73: a program of several functions, as it is written, does on the machine what C prescribes.

Vocabulary of the statement (Verif.Src.ProgSpec): `callsX Xe Y sym lo hi it D valid a t vs m` is the result of calling the function at address `a` with arguments `vs` in C, in a program
of the functions `Xe` and of functions `Y` defined elsewhere, when the bytes `valid` are live and hold `m`; `none` when the behaviour is undefined, when it depends on
the addresses of local variables or on indeterminate values, and when calls are nested more than `D` deep or a call needs more than `it` iterations or gotos. Nothing in it is about
hidden variables, frames that contain them, or the stack.
-/
namespace Toycc.Src.Props
open Toycc.Rv Toycc.Cg Toycc.Low Toycc.Src
open Toycc.Stm (Out Res Tgt End)
open Toycc.Frame hiding St
open Toycc.Whole (Func Loaded ExtOk parseFns emitFns CodeOf emitted_code intVar)

/-- Parameters are below the frame address. -/
theorem neg_of {P : Prog} {g : Func} (hw : Whole.Wf g) {pos : Nat} (h : CodeOf P g pos) {fr : Frame} (hl : g.lay = some fr) : ∀ p ∈ g.slots fr, p.2 ≤ 0 := by
  obtain ⟨fr', pro, _, _, _, _, _, h1, h2, _⟩ := h
  rw [Whole.lay_of h1] at hl
  cases hl
  refine (Whole.enter (env := Cg.Props.nullEnv) hw.few hw.scalar h2 (vs := g.params.map fun _ => 0) (s := ⟨fun _ => 0, fun _ => 0⟩) (by simp) ?_).1
  intro i t v e1 e2
  have hi : i < 8 := by
    have := (List.getElem?_eq_some_iff.mp e1).1
    have := hw.few
    omega
  obtain ⟨r, hr⟩ := Whole.argReg_lt hi
  refine ⟨r, hr, ?_⟩
  rw [List.getElem?_map, e1, Option.map_some] at e2
  cases e2
  have : (⟨fun _ => 0, fun _ => 0⟩ : St).r r = 0 := by unfold St.r; split <;> rfl
  rw [this]
  unfold ArgRep
  split <;> rfl

/-- **C73**. `Fs` are the function definitions of a file as the parser rewrites them, in order; `es` are those that are emitted, `P` is the emitted text. `Xe` are the emitted functions as
they are written. Suppose C says that calling `f` of `Xe` with arguments `vs` when the live objects hold `m` yields `v` and leaves `m'`, with calls nested at most `D` deep. Then the machine,
entering at the label of `f` with the arguments where the calling convention puts them and a return address that leads to `t`, comes to `t`; the stack pointer and the frame pointer are as
before, `v` is in a0, live objects hold `m'`, and of the other bytes at most those of the free part of the stack have changed. The free part of the stack needs `(D + 1) * C` slots, where
`C` is what one call needs.

Missing: programs that run forever through calls; more than 8 parameters; parameters or results that are structures or floating-point numbers; variadic functions; functions with hidden
variables narrower than 8 bytes (made for `a ?: b` on a narrow type). -/
theorem C73_program_partial {Fs : List Func} {uid uid' : Nat} {ps es : List (Func × Stm.Stmt)} {gs gs' : GS} {P : Prog}
    (hp : parseFns uid Fs = some (ps, uid')) (hs : Stm.PartOf es ps) (he : emitFns es gs = some (P, gs')) (hd : gs.depth = 0)
    (hn : (Fs.map (·.name)).Nodup) (hw : ∀ f ∈ Fs, Whole.Wf f)
    {Xe : List XFunc} (hlow : Xe.mapM XFunc.low = some (es.map (·.1))) (hx : ∀ f ∈ Xe, f.Wf)
    {env : Env} {sym : Label → W} {X : Whole.Ext} {Y : ExtX} {R C : Nat} (hload : Loaded P env sym (es.map (·.1))) (hext : ExtOk env X) (hY : ExtSim Y X R) (hR : R ≤ C)
    (hC : ∀ g ∈ es.map (·.1), ∀ fr, g.lay = some fr → Func.bytes fr / 8 + g.temps ≤ C)
    {D it lo hi room : Nat} {sp : W} {valid : W → Bool} (hroom : (D + 1) * C ≤ room) (hlo : lo + 8 * room ≤ sp.toNat) (hhi : sp.toNat ≤ hi)
    (hst : ∀ b, idx sp b < 8 * room → valid b = false)
    {f : XFunc} (hf : f ∈ Xe) {vs : List Int} {m m' : Mem} {v : Int}
    (hc : callsX Xe Y sym lo hi it D valid (sym (.sym f.name)) f.ret.low ((f.params.map (·.low)).zip vs) m = some (v, m'))
    {s : St} (hsp : s.r .sp = sp) (hm : ∀ b, valid b = true → s.mem b = m b)
    (ha : ∀ (i : Nat) (t : CTy) (x : Int), f.params[i]? = some t → vs[i]? = some x → ArgRep t.low x (argAt s i)) {t : Nat} (hra : env.index (s.r .ra) = some t) :
    ∃ pos, find P (.sym f.name) = some pos ∧ ∃ s', Runs P env (pos, s) (t, s') ∧ s'.r .sp = s.r .sp ∧ s'.r .fp = s.r .fp ∧
      (∀ b, valid b = true → s'.mem b = m' b) ∧ RetRep f.ret.low v (s'.r .a0) ∧
      ∀ b, valid b = false → ¬ idx sp b < 8 * room → s'.mem b = s.mem b := by
  obtain ⟨hu, hes, _⟩ := emitted_code hp hs he hd hn hw
  have hwf : ∀ g ∈ es.map (·.1), Whole.Wf g := by
    intro g hg
    obtain ⟨p, h, rfl⟩ := List.mem_map.mp hg
    exact hw _ (hes p h).1
  have st : Setup Xe (es.map (·.1)) Y X R C := by
    refine ⟨hlow, hx, hwf, ?_, hY, ?_, hC, hR⟩
    · intro g hg fr hl
      obtain ⟨p, h, rfl⟩ := List.mem_map.mp hg
      obtain ⟨pos, hpos⟩ := (hes p h).2
      exact neg_of (hwf _ hg) hpos hl
    · intro valid room fa ty vs m v m' h hs
      exact (hext valid room fa ty vs m v m' h).2.1 hs
  obtain ⟨m1', e1, e2, _⟩ := calls_sim st D 0 (it + D) sp sp valid valid room (Nat.le_refl _) (by omega) hlo hhi hst (fun _ h => h) _ _ _ m m v m' 0 (Nat.le_refl _) (fun _ _ => rfl) hc
  obtain ⟨g, hg, hfl⟩ := low_mem hlow f hf
  obtain ⟨_, _, _, _, _, _, hgeq⟩ := low_eq hfl
  have hname : g.name = f.name := by rw [hgeq]
  have hret : g.ret = f.ret.low := by rw [hgeq]
  have hpar : g.params = f.params.map (·.low) := by rw [hgeq]
  have hcall : Whole.call (es.map (·.1)) X sym (it + D) sp valid room g vs m = some (v, m1') := by
    unfold Whole.call
    rw [hname, hret, hpar]
    exact e1
  have hsp' := sp.isLt
  obtain ⟨pos, q1, s', q2, q3, q4, q5, q6, q7⟩ := Whole.Props.C66_program_partial hp hs he hd hn hw hload hext (by omega) hst hg hcall hsp hm (by
    intro i t x h1 h2
    rw [hpar, List.getElem?_map, Option.map_eq_some_iff] at h1
    obtain ⟨t', h1, rfl⟩ := h1
    exact ha i t' x h1 h2) hra
  rw [hname] at q1
  rw [hret] at q6
  exact ⟨pos, q1, s', q2, q3, q4, fun b hb => (q5 b hb).trans (e2 b hb), q6, q7⟩

end Toycc.Src.Props
