import Verif.Src.Spec
import Verif.Low.All
/-! A body and what the parser makes of it do the same, up to the hidden variables. -/
namespace Toycc.Src
open Toycc.Rv Toycc.Cg Toycc.Low
open Toycc.Stm hiding exec

section
variable (S E : CEnv) (tmp : Nat → Int) (d : Nat) (rt : CTy)

def EOk (c : SExpr) (x : Expr) : Prop :=
  ∀ m m1 v m', Agree S tmp m m1 → evalX S false c m = some (v, m') → ∃ m1', evalC E false d x m1 = some (v, m1') ∧ Agree S tmp m' m1'

def IOk (is : List XI) (es : List Expr) : Prop :=
  ∀ m m1 m', Agree S tmp m m1 → evIs S is m = some m' → ∃ m1', evList (evC E d) es m1 = some m1' ∧ Agree S tmp m' m1'

def COk (c : Option SExpr) (x : Option Expr) : Prop :=
  ∀ m m1 v m', Agree S tmp m m1 → evCondX S c m = some (v, m') → ∃ m1', evCond (evC E d) x m1 = some (v, m1') ∧ Agree S tmp m' m1'

/-- Conversion to the types is the same. -/
def TEq (t t' : Ty) : Prop := ∀ v, convC t v = convC t' v

inductive Down : XStmt → SStmt → Prop where
  | skip : Down .skip .skip
  | seq {a b a' b'} : Down a a' → Down b b' → Down (.seq a b) (.seq a' b')
  | items {is es} : IOk S E tmp d is es → Down (.items is) (chain es)
  | ifs {c x a b a' b'} : EOk S E tmp d c x → Down a a' → Down b b' → Down (.ifs c a b) (.ifs x a' b')
  | loop {is es c x inc y b b'} : IOk S E tmp d is es → COk S E tmp d c x → IOk S E tmp d (inc.toList.map .expr) (Option.toList y) →
      Down b b' → Down (.loop is c inc b) (.loop es x y b')
  | doW {b b' c x} : EOk S E tmp d c x → Down b b' → Down (.doW b c) (.doW b' x)
  | switch {c x b b'} : EOk S E tmp d c x → TEq (swTy c) (promote x.ty) → Down b b' → Down (.switch c b) (.switch x b')
  | case {lo hi s s'} : Down s s' → Down (.case lo hi s) (.case lo hi s')
  | dflt {s s'} : Down s s' → Down (.dflt s) (.dflt s')
  | label {n s s'} : Down s s' → Down (.label n s) (.label n s')
  | goto {n} : Down (.goto n) (.goto n)
  | brk : Down .brk .brk
  | cont : Down .cont .cont
  | retN : Down (.ret none) (.ret none)
  | ret {e x} : EOk S E tmp d (.cast rt e) x → Down (.ret (some e)) (.ret (some x))

/-- The results: the source program is undefined, or both do the same. -/
def RR {α : Type} (r r' : Res α) : Prop :=
  match r with
  | .stuck => True
  | .timeout => r' = .timeout
  | .done o m => ∃ m1, r' = .done o m1 ∧ Agree S tmp m m1

variable {S E tmp d rt}

theorem IOk.nil : IOk S E tmp d [] [] := fun m m1 m' ha h => by cases h; exact ⟨m1, rfl, ha⟩

theorem chain_has (t : Ty) (g : Tgt) : ∀ es, (chain es).has t g = false
  | [] => rfl
  | e :: r => by simp only [chain, SStmt.has, chain_has t g r, Bool.or_false]

theorem TEq.holds {t t' : Ty} (h : TEq t t') (lo hi v : Int) : caseHolds t lo hi v = caseHolds t' lo hi v := by
  unfold caseHolds
  rw [h lo, h hi]

theorem Down.has {x s} (h : Down S E tmp d rt x s) {t t' : Ty} (ht : TEq t t') (g : Tgt) : x.has t g = s.has t' g := by
  induction h generalizing g with
  | items _ => rw [chain_has]; rfl
  | seq _ _ ia ib => simp only [XStmt.has, SStmt.has, ia, ib]
  | ifs _ _ _ ia ib => simp only [XStmt.has, SStmt.has, ia, ib]
  | loop _ _ _ _ ih => simp only [XStmt.has, SStmt.has, ih]
  | doW _ _ ih => simp only [XStmt.has, SStmt.has, ih]
  | switch _ _ _ ih => cases g <;> simp only [XStmt.has, SStmt.has, ih]
  | case _ ih => cases g <;> simp only [XStmt.has, SStmt.has, ih, ht.holds]
  | dflt _ ih => simp only [XStmt.has, SStmt.has, ih]
  | label _ ih => simp only [XStmt.has, SStmt.has, ih]
  | _ => rfl

theorem chain_exec (ev : Ev) (n : Nat) (t : Ty) : ∀ es m, Stm.exec ev n t none (chain es) m = match evList ev es m with
    | some m => .done .normal m
    | none => .stuck
  | [], m => by rw [chain, Stm.exec.eq_def]; rfl
  | e :: r, m => by
    rw [chain, Stm.exec.eq_def]
    dsimp only
    rw [Stm.exec.eq_def]
    dsimp only [evList]
    cases ev .value e m with
    | none => rfl
    | some p =>
      dsimp only [Res.andThen, Option.bind_some]
      exact chain_exec ev n t r p.2

theorem chain_skip (ev : Ev) (n : Nat) (t : Ty) (g : Tgt) : ∀ es m, Stm.exec ev n t (some g) (chain es) m = .done .normal m
  | [], m => by rw [chain, Stm.exec.eq_def]
  | e :: r, m => by
    rw [chain, Stm.exec.eq_def]
    dsimp only
    rw [if_neg (by simp [SStmt.has])]
    exact chain_skip ev n t g r m

theorem RR.andThen {r r' : Res Out} {f f' : Mem → Res Out} (h : RR S tmp r r') (hf : ∀ m m1, Agree S tmp m m1 → RR S tmp (f m) (f' m1)) :
    RR S tmp (r.andThen f) (r'.andThen f') := by
  cases r with
  | stuck => trivial
  | timeout => cases h; exact rfl
  | done o m =>
    obtain ⟨m1, rfl, ha⟩ := h
    cases o with
    | normal => exact hf m m1 ha
    | _ => exact ⟨m1, rfl, ha⟩

theorem RR.iter {r r' : Res Out} {f f' : Mem → Res Out} (h : RR S tmp r r') (hf : ∀ m m1, Agree S tmp m m1 → RR S tmp (f m) (f' m1)) :
    RR S tmp (iterC f r) (iterC f' r') := by
  cases r with
  | stuck => trivial
  | timeout => cases h; exact rfl
  | done o m =>
    obtain ⟨m1, rfl, ha⟩ := h
    cases o with
    | normal => exact hf m m1 ha
    | cont => exact hf m m1 ha
    | _ => exact ⟨m1, rfl, ha⟩

theorem RR.catch {r r' : Res Out} (h : RR S tmp r r') : RR S tmp (catchBrk r) (catchBrk r') := by
  cases r with
  | stuck => trivial
  | timeout => cases h; exact rfl
  | done o m =>
    obtain ⟨m1, rfl, ha⟩ := h
    cases o <;> exact ⟨m1, rfl, ha⟩

theorem sim : ∀ (n : Nat) {x s}, Down S E tmp d rt x s → ∀ t t', TEq t t' → ∀ en m m1, Agree S tmp m m1 →
    RR S tmp (execX S rt n t en x m) (Stm.exec (evC E d) n t' en s m1) := by
  intro n
  induction n using Nat.strongRecOn with
  | _ n ih =>
  intro x s h
  induction h with
  | skip => intro t t' ht en m m1 ha; rw [execX.eq_def, Stm.exec.eq_def]; exact ⟨m1, rfl, ha⟩
  | goto => intro t t' ht en m m1 ha; rw [execX.eq_def, Stm.exec.eq_def]; exact ⟨m1, rfl, ha⟩
  | brk => intro t t' ht en m m1 ha; rw [execX.eq_def, Stm.exec.eq_def]; exact ⟨m1, rfl, ha⟩
  | cont => intro t t' ht en m m1 ha; rw [execX.eq_def, Stm.exec.eq_def]; exact ⟨m1, rfl, ha⟩
  | retN => intro t t' ht en m m1 ha; rw [execX.eq_def, Stm.exec.eq_def]; exact ⟨m1, rfl, ha⟩
  | @ret e x he =>
    intro t t' ht en m m1 ha
    rw [execX.eq_def, Stm.exec.eq_def]
    dsimp only
    cases hv : evalX S false (.cast rt e) m with
    | none => trivial
    | some p =>
      obtain ⟨m1', h1, h2⟩ := he m m1 p.1 p.2 ha hv
      simp only [evC, h1]
      exact ⟨m1', rfl, h2⟩
  | @items is es hi =>
    intro t t' ht en m m1 ha
    rw [execX.eq_def]
    dsimp only
    cases en with
    | none =>
      rw [chain_exec]
      dsimp only
      cases hv : evIs S is m with
      | none => trivial
      | some m' =>
        obtain ⟨m1', h1, h2⟩ := hi m m1 m' ha hv
        rw [h1]
        exact ⟨m1', rfl, h2⟩
    | some g => rw [chain_skip]; exact ⟨m1, rfl, ha⟩
  | @seq a b a' b' da db ia ib =>
    intro t t' ht en m m1 ha
    rw [execX.eq_def, Stm.exec.eq_def]
    dsimp only
    cases en with
    | none => exact (ia t t' ht none m m1 ha).andThen fun m m1 ha => ib t t' ht none m m1 ha
    | some g =>
      dsimp only
      rw [da.has ht g]
      split
      · exact (ia t t' ht (some g) m m1 ha).andThen fun m m1 ha => ib t t' ht none m m1 ha
      · exact ib t t' ht (some g) m m1 ha
  | @ifs c x a b a' b' he da db ia ib =>
    intro t t' ht en m m1 ha
    rw [execX.eq_def, Stm.exec.eq_def]
    dsimp only
    cases en with
    | none =>
      dsimp only
      cases hv : evalX S false c m with
      | none => trivial
      | some p =>
        obtain ⟨m1', h1, h2⟩ := he m m1 p.1 p.2 ha hv
        simp only [evC, h1]
        split
        · exact ia t t' ht none _ _ h2
        · exact ib t t' ht none _ _ h2
    | some g =>
      dsimp only
      rw [da.has ht g]
      split
      · exact ia t t' ht (some g) _ _ ha
      · exact ib t t' ht (some g) _ _ ha
  | @loop is es c x inc y b b' hi hc hy db ib =>
    intro t t' ht en m m1 ha
    rw [execX.eq_def, Stm.exec.eq_def]
    dsimp only
    cases n with
    | zero => exact rfl
    | succ n =>
      dsimp only
      have hnext : ∀ m m1, Agree S tmp m m1 → RR S tmp
          (match evIs S (inc.toList.map .expr) m with
            | some m => execX S rt n t none (.loop [] c inc b) m
            | none => .stuck)
          (match evList (evC E d) y.toList m1 with
            | some m => Stm.exec (evC E d) n t' none (.loop [] x y b') m
            | none => .stuck) := by
        intro m m1 ha
        cases hv : evIs S (inc.toList.map .expr) m with
        | none => trivial
        | some m' =>
          obtain ⟨m1', h1, h2⟩ := hy m m1 m' ha hv
          rw [h1]
          exact ih n (Nat.lt_succ_self n) (.loop .nil hc hy db) t t' ht none m' m1' h2
      cases en with
      | none =>
        dsimp only
        cases hv : evIs S is m with
        | none => trivial
        | some m' =>
          obtain ⟨m1', h1, h2⟩ := hi m m1 m' ha hv
          rw [h1]
          dsimp only
          cases hw : evCondX S c m' with
          | none => trivial
          | some p =>
            obtain ⟨m2', k1, k2⟩ := hc m' m1' p.1 p.2 h2 hw
            rw [k1]
            dsimp only
            split
            · exact (ib t t' ht none _ _ k2).iter hnext
            · exact ⟨m2', rfl, k2⟩
      | some g => exact (ib t t' ht (some g) _ _ ha).iter hnext
  | @doW b b' c x he db ib =>
    intro t t' ht en m m1 ha
    rw [execX.eq_def, Stm.exec.eq_def]
    dsimp only
    cases n with
    | zero => exact rfl
    | succ n =>
      dsimp only
      refine (ib t t' ht en _ _ ha).iter ?_
      intro m m1 ha
      cases hv : evalX S false c m with
      | none => trivial
      | some p =>
        obtain ⟨m1', h1, h2⟩ := he m m1 p.1 p.2 ha hv
        simp only [evC, h1]
        split
        · exact ih n (Nat.lt_succ_self n) (.doW he db) t t' ht none _ _ h2
        · exact ⟨m1', rfl, h2⟩
  | @switch c x b b' he hty db ib =>
    intro t t' ht en m m1 ha
    rw [execX.eq_def, Stm.exec.eq_def]
    dsimp only
    cases en with
    | none =>
      dsimp only
      cases hv : evalX S false c m with
      | none => trivial
      | some p =>
        obtain ⟨m1', h1, h2⟩ := he m m1 p.1 p.2 ha hv
        simp only [evC, h1]
        rw [db.has hty, db.has hty]
        split
        · exact (ib _ _ hty _ _ _ h2).catch
        · split
          · exact (ib _ _ hty _ _ _ h2).catch
          · exact ⟨m1', rfl, h2⟩
    | some g => exact (ib _ _ hty _ _ _ ha).catch
  | @case lo hi s s' ds is =>
    intro t t' ht en m m1 ha
    rw [execX.eq_def, Stm.exec.eq_def]
    dsimp only
    cases en with
    | none => exact is t t' ht none _ _ ha
    | some g =>
      cases g with
      | case v =>
        dsimp only
        rw [ht.holds]
        split
        · exact is t t' ht none _ _ ha
        · exact is t t' ht _ _ _ ha
      | _ => exact is t t' ht _ _ _ ha
  | @dflt s s' ds is =>
    intro t t' ht en m m1 ha
    rw [execX.eq_def, Stm.exec.eq_def]
    dsimp only
    split
    · exact is t t' ht none _ _ ha
    · exact is t t' ht _ _ _ ha
  | @label n s s' ds is =>
    intro t t' ht en m m1 ha
    rw [execX.eq_def, Stm.exec.eq_def]
    dsimp only
    split
    · exact is t t' ht none _ _ ha
    · exact is t t' ht _ _ _ ha

theorem sim_run : ∀ (n : Nat) {x s}, Down S E tmp d rt x s → ∀ en m m1, Agree S tmp m m1 →
    RR S tmp (runX S rt n en x m) (Stm.run (evC E d) n en s m1) := by
  intro n
  induction n with
  | zero =>
    intro x s h en m m1 ha
    rw [runX.eq_def, Stm.run.eq_def]
    have := sim 0 h .void .void (fun _ => rfl) en m m1 ha
    revert this
    cases execX S rt 0 .void en x m with
    | stuck => intro _; trivial
    | timeout => intro e; rw [e]; exact rfl
    | done o m' =>
      rintro ⟨m1', e, h2⟩
      rw [e]
      cases o with
      | normal => exact ⟨m1', rfl, h2⟩
      | ret v => exact ⟨m1', rfl, h2⟩
      | goto l => exact rfl
      | _ => trivial
  | succ n ih =>
    intro x s h en m m1 ha
    rw [runX.eq_def, Stm.run.eq_def]
    have := sim (n + 1) h .void .void (fun _ => rfl) en m m1 ha
    revert this
    cases execX S rt (n + 1) .void en x m with
    | stuck => intro _; trivial
    | timeout => intro e; rw [e]; exact rfl
    | done o m' =>
      rintro ⟨m1', e, h2⟩
      rw [e]
      cases o with
      | normal => exact ⟨m1', rfl, h2⟩
      | ret v => exact ⟨m1', rfl, h2⟩
      | goto l =>
        dsimp only
        rw [h.has (t' := .void) (fun _ => rfl)]
        split
        · exact ih h _ _ _ h2
        · trivial
      | _ => trivial
end
end Toycc.Src
