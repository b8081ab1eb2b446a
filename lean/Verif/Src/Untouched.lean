import Verif.Src.Spec
/-! What is not an object of the program is not changed. -/
namespace Toycc.Src
open Toycc.Rv Toycc.Cg Toycc.Low
open Toycc.Stm (Out Res Tgt End iterC catchBrk)

/-- Called functions change only objects of the program. -/
def Frames (S : CEnv) : Prop := ∀ a k ty vs m v m', S.call a k ty vs m = some (v, m') → ∀ b, S.valid b = false → m' b = m b

/-- Byte `b` is as in `m`. -/
def Keep {α : Type} (b : W) (m : Mem) (o : Option (α × Mem)) : Prop := ∀ p, o = some p → p.2 b = m b

variable {S : CEnv} {b : W} {m : Mem}

theorem Keep.none {α : Type} : Keep (α := α) b m none := fun _ h => by cases h
theorem Keep.some {α : Type} {v : α} {m1 : Mem} (h : m1 b = m b) : Keep b m (some (v, m1)) := fun _ e => by cases e; exact h
theorem Keep.bind {α β : Type} {o : Option (α × Mem)} {f : α × Mem → Option (β × Mem)} (h : Keep b m o) (hf : ∀ v m1, m1 b = m b → Keep b m (f (v, m1))) :
    Keep b m (o.bind f) := by
  intro p e
  cases o with
  | none => cases e
  | some q => exact hf q.1 q.2 (h q rfl) p e
theorem Keep.skip {α β : Type} {o : Option α} {f : α → Option (β × Mem)} (hf : ∀ x, Keep b m (f x)) : Keep b m (o.bind f) := by
  intro p e
  cases o with
  | none => cases e
  | some q => exact hf q p e
theorem Keep.map {α β : Type} {o : Option α} {f : α → β} {m1 : Mem} (h : m1 b = m b) : Keep b m (o.map fun x => (f x, m1)) := by
  intro p e
  cases o with
  | none => cases e
  | some q => cases e; exact h
theorem Keep.ite {α : Type} {c : Prop} [Decidable c] {x y : Option (α × Mem)} (hx : Keep b m x) (hy : Keep b m y) : Keep b m (if c then x else y) := by
  split
  · exact hx
  · exact hy
theorem Keep.of {α : Type} {m1 : Mem} {o : Option (α × Mem)} (h : Keep b m1 o) (e : m1 b = m b) : Keep b m o := fun p hp => (h p hp).trans e

theorem writeN_keep {a : W} {n x : Nat} (hok : S.ok a n = true) (hb : S.valid b = false) : writeN m a n x b = m b := by
  unfold writeN
  split
  · rename_i h
    exfalso
    unfold CEnv.ok at hok
    rw [List.all_eq_true] at hok
    have := hok _ (List.mem_range.mpr h)
    have e : a + BitVec.ofNat 64 (b - a).toNat = b := by
      rw [BitVec.ofNat_toNat, BitVec.setWidth_eq, BitVec.add_comm, BitVec.sub_add_cancel]
    rw [e, hb] at this
    cases this
  · rfl

theorem copyC_keep {a src : W} {n : Nat} {m' : Mem} (h : copyC S n m a src = some m') (hb : S.valid b = false) : m' b = m b := by
  unfold copyC at h
  split at h
  · rename_i hc
    cases h
    simp only [Bool.and_eq_true] at hc
    have := writeN_keep (m := m) (x := 0) hc.1.1 hb
    unfold writeN at this
    dsimp only
    split
    · rename_i hlt
      exfalso
      have hok := hc.1.1
      unfold CEnv.ok at hok
      rw [List.all_eq_true] at hok
      have := hok _ (List.mem_range.mpr hlt)
      have e : a + BitVec.ofNat 64 (b - a).toNat = b := by
        rw [BitVec.ofNat_toNat, BitVec.setWidth_eq, BitVec.add_comm, BitVec.sub_add_cancel]
      rw [e, hb] at this
      cases this
    · rfl
  · cases h

theorem assignC_keep {bf : Option (Field × Nat × Nat)} {t : Ty} {a : W} {v : Int} (hb : S.valid b = false) : Keep b m (assignC S bf t a v m) := by
  have ws : ∀ (c : Bool) (n x : Nat) (w : Int), Keep b m (if (c && S.ok a n) = true then Option.some (w, writeN m a n x) else Option.none) := by
    intro c n x w p e
    split at e
    · rename_i hc
      cases e
      rw [Bool.and_eq_true] at hc
      exact writeN_keep hc.2 hb
    · cases e
  cases bf with
  | some q => exact ws _ _ _ _
  | none =>
    cases t with
    | struc n =>
      intro p e
      simp only [assignC, Option.map_eq_some_iff] at e
      obtain ⟨m', h, rfl⟩ := e
      exact copyC_keep h hb
    | _ => first | exact ws _ _ _ _ | (intro p e; cases e)

theorem storeL_keep {t : CTy} {bits : Option (Nat × Nat)} {a : W} {v : Int} {m1 : Mem} (hb : S.valid b = false) (h : m1 b = m b) : Keep b m (storeL S t bits a v m1) :=
  (assignC_keep hb).of h

mutual
theorem evalX_keep (hS : Frames S) (hb : S.valid b = false) : ∀ (e : SExpr) (ad : Bool) (m : Mem), Keep b m (evalX S ad e m)
  | .num _ _, ad, m => by
    rw [evalX]; exact .ite .none (.some rfl)
  | .var _ _, ad, m => by
    rw [evalX]; exact .skip fun a => .ite (.some rfl) (.map rfl)
  | .member e _ _ _, ad, m => by
    rw [evalX]; exact .bind (evalX_keep hS hb e true m) fun a m1 h => .ite (.some h) (.map h)
  | .deref e, ad, m => by
    rw [evalX]; exact .skip fun _ => .skip fun _ => .bind (evalX_keep hS hb e false m) fun a m1 h => .ite (.some h) (.map h)
  | .addr e, ad, m => by
    rw [evalX]; exact .ite .none (evalX_keep hS hb e true m)
  | .bin _ l r, ad, m => by
    rw [evalX]
    exact .ite .none (.skip fun _ => .skip fun _ => .ite
      (.bind (evalX_keep hS hb l false m) fun _ m1 h => .bind ((evalX_keep hS hb r false m1).of h) fun _ _ h => .map h)
      (.bind (evalX_keep hS hb r false m) fun _ m1 h => .bind ((evalX_keep hS hb l false m1).of h) fun _ _ h => .map h))
  | .neg e, ad, m => by
    rw [evalX]; exact .ite .none (.skip fun _ => .skip fun _ => .bind (evalX_keep hS hb e false m) fun _ _ h => .map h)
  | .not e, ad, m => by
    rw [evalX]; exact .ite .none (.bind (evalX_keep hS hb e false m) fun _ _ h => .some h)
  | .bitnot e, ad, m => by
    rw [evalX]; exact .ite .none (.skip fun _ => .skip fun _ => .bind (evalX_keep hS hb e false m) fun _ _ h => .some h)
  | .assign l r, ad, m => by
    rw [evalX]
    exact .skip fun _ => .ite .none (.bind (evalX_keep hS hb l true m) fun _ m1 h => .bind ((evalX_keep hS hb r false m1).of h) fun _ _ h => storeL_keep hb h)
  | .opAssign _ l r, ad, m => by
    rw [evalX]
    exact .ite .none (.skip fun _ => .skip fun _ => .bind (evalX_keep hS hb l true m) fun _ m1 h => .bind ((evalX_keep hS hb r false m1).of h) fun _ _ h =>
      .skip fun _ => .skip fun _ => storeL_keep hb h)
  | .pre _ l, ad, m => by
    rw [evalX]
    exact .ite .none (.skip fun _ => .bind (evalX_keep hS hb l true m) fun _ m1 h => .skip fun _ => .skip fun _ => storeL_keep hb h)
  | .post _ l, ad, m => by
    rw [evalX]
    exact .ite .none (.skip fun _ => .bind (evalX_keep hS hb l true m) fun _ m1 h => .skip fun _ => .skip fun _ =>
      .bind (storeL_keep hb h) fun _ _ h => .some h)
  | .comma l r, ad, m => by
    rw [evalX]; exact .bind (evalX_keep hS hb l false m) fun _ m1 h => (evalX_keep hS hb r ad m1).of h
  | .cast _ e, ad, m => by
    rw [evalX]; exact .ite .none (.bind (evalX_keep hS hb e false m) fun _ _ h => .some h)
  | .cond c t e, ad, m => by
    rw [evalX]
    exact .ite .none (.skip fun _ => .skip fun _ => .skip fun _ => .bind (evalX_keep hS hb c false m) fun _ m1 h =>
      .ite (.bind ((evalX_keep hS hb t false m1).of h) fun _ _ h => .some h) (.bind ((evalX_keep hS hb e false m1).of h) fun _ _ h => .some h))
  | .elvis x y, ad, m => by
    rw [evalX]
    exact .ite .none (.skip fun _ => .skip fun _ => .skip fun _ => .bind (evalX_keep hS hb x false m) fun _ m1 h =>
      .ite (.bind (.some h) fun _ _ h => .some h) (.bind ((evalX_keep hS hb y false m1).of h) fun _ _ h => .some h))
  | .logand l r, ad, m => by
    rw [evalX]
    exact .ite .none (.bind (evalX_keep hS hb l false m) fun _ m1 h => .ite (.some h) (.bind ((evalX_keep hS hb r false m1).of h) fun _ _ h => .some h))
  | .logor l r, ad, m => by
    rw [evalX]
    exact .ite .none (.bind (evalX_keep hS hb l false m) fun _ m1 h => .ite (.some h) (.bind ((evalX_keep hS hb r false m1).of h) fun _ _ h => .some h))
  | .call f as, ad, m => by
    rw [evalX]
    exact .ite .none (.skip fun _ => .skip fun _ => .bind (evalArgsX_keep hS hb as m) fun _ m1 h => .bind ((evalX_keep hS hb f false m1).of h) fun _ m2 h p e =>
      (hS _ _ _ _ _ _ _ e b hb).trans h)
theorem evalArgsX_keep (hS : Frames S) (hb : S.valid b = false) : ∀ (l : SArgs) (m : Mem), Keep b m (evalArgsX S l m)
  | .nil, m => by rw [evalArgsX]; exact .some rfl
  | .cons _ e r, m => by
    rw [evalArgsX]
    exact .bind (evalArgsX_keep hS hb r m) fun _ m1 h => .bind ((evalX_keep hS hb e false m1).of h) fun _ _ h => .some h
end

theorem evI_keep (hS : Frames S) (hb : S.valid b = false) {i : XI} {m' : Mem} (h : evI S i m = some m') : m' b = m b := by
  cases i with
  | expr e =>
    simp only [evI, Option.map_eq_some_iff] at h
    obtain ⟨p, hp, rfl⟩ := h
    exact evalX_keep hS hb e false m p hp
  | var => simp only [evI] at h; cases h; rfl
  | ini t off e =>
    simp only [evI] at h
    split at h
    · rename_i hok
      rw [Option.map_eq_some_iff] at h
      obtain ⟨p, hp, rfl⟩ := h
      exact (evalX_keep hS hb _ false _ p hp).trans (writeN_keep hok hb)
    · cases h

theorem evIs_keep (hS : Frames S) (hb : S.valid b = false) : ∀ {l : List XI} {m m' : Mem}, evIs S l m = some m' → m' b = m b
  | [], m, m', h => by simp only [evIs] at h; cases h; rfl
  | i :: r, m, m', h => by
    simp only [evIs, Option.bind_eq_some_iff] at h
    obtain ⟨m1, h1, h2⟩ := h
    exact (evIs_keep hS hb h2).trans (evI_keep hS hb h1)

theorem evCondX_keep (hS : Frames S) (hb : S.valid b = false) (c : Option SExpr) : Keep b m (evCondX S c m) := by
  cases c with
  | none => exact .some rfl
  | some e => exact evalX_keep hS hb e false m

/-- The same for the outcome of a statement. -/
def KeepR {α : Type} (b : W) (m : Mem) (r : Res α) : Prop := ∀ o m', r = .done o m' → m' b = m b

theorem KeepR.timeout {α : Type} : KeepR (α := α) b m .timeout := fun _ _ h => by cases h
theorem KeepR.stuck {α : Type} : KeepR (α := α) b m .stuck := fun _ _ h => by cases h
theorem KeepR.done {α : Type} {o : α} {m1 : Mem} (h : m1 b = m b) : KeepR b m (.done o m1) := fun _ _ e => by cases e; exact h
theorem KeepR.of {α : Type} {m1 : Mem} {r : Res α} (h : KeepR b m1 r) (e : m1 b = m b) : KeepR b m r := fun o m' hp => (h o m' hp).trans e
theorem KeepR.andThen {r : Res Out} {f : Mem → Res Out} (h : KeepR b m r) (hf : ∀ m1, m1 b = m b → KeepR b m (f m1)) : KeepR b m (r.andThen f) := by
  cases r with
  | timeout => exact .timeout
  | stuck => exact .stuck
  | done o m1 => cases o <;> first | exact hf m1 (h _ _ rfl) | exact .done (h _ _ rfl)
theorem KeepR.iter {r : Res Out} {f : Mem → Res Out} (h : KeepR b m r) (hf : ∀ m1, m1 b = m b → KeepR b m (f m1)) : KeepR b m (iterC f r) := by
  cases r with
  | timeout => exact .timeout
  | stuck => exact .stuck
  | done o m1 => cases o <;> first | exact hf m1 (h _ _ rfl) | exact .done (h _ _ rfl)
theorem KeepR.catch {r : Res Out} (h : KeepR b m r) : KeepR b m (catchBrk r) := by
  cases r with
  | timeout => exact .timeout
  | stuck => exact .stuck
  | done o m1 => cases o <;> exact .done (h _ _ rfl)
theorem KeepR.ite {α : Type} {c : Prop} [Decidable c] {x y : Res α} (hx : KeepR b m x) (hy : KeepR b m y) : KeepR b m (if c then x else y) := by
  split
  · exact hx
  · exact hy

theorem execX_keep (hS : Frames S) (hb : S.valid b = false) (rt : CTy) : ∀ (n : Nat) (s : XStmt) (t : Ty) (en : Option Tgt) (m : Mem), KeepR b m (execX S rt n t en s m) := by
  intro n
  induction n with
  | zero => ?_
  | succ n ihn => ?_
  all_goals
    intro s
    induction s with
    | skip => intro t en m; rw [execX]; exact .done rfl
    | goto => intro t en m; rw [execX]; exact .done rfl
    | brk => intro t en m; rw [execX]; exact .done rfl
    | cont => intro t en m; rw [execX]; exact .done rfl
    | seq x y ix iy =>
      intro t en m
      cases en with
      | none => rw [execX]; exact .andThen (ix _ _ _) fun m1 h => (iy _ _ _).of h
      | some g => rw [execX]; exact .ite (.andThen (ix _ _ _) fun m1 h => (iy _ _ _).of h) (iy _ _ _)
    | items is =>
      intro t en m
      cases en with
      | none =>
        rw [execX]
        cases h : evIs S is m with
        | none => exact .stuck
        | some m1 => exact .done (evIs_keep hS hb h)
      | some g => rw [execX]; exact .done rfl
    | ifs c x y ix iy =>
      intro t en m
      cases en with
      | none =>
        rw [execX]
        cases h : evalX S false c m with
        | none => exact .stuck
        | some p => exact .ite ((ix _ _ _).of (evalX_keep hS hb c false m p h)) ((iy _ _ _).of (evalX_keep hS hb c false m p h))
      | some g => rw [execX]; exact .ite (ix _ _ _) (iy _ _ _)
    | loop i c inc body ib =>
      intro t en m
      first
      | (rw [execX]; exact .timeout)
      | (have next : ∀ m1 : Mem, KeepR b m1 (match evIs S (inc.toList.map .expr) m1 with
            | some m => execX S rt n t none (.loop [] c inc body) m
            | none => Res.stuck) := by
          intro m1
          cases h : evIs S (inc.toList.map .expr) m1 with
          | none => exact .stuck
          | some m2 => exact (ihn _ _ _ _).of (evIs_keep hS hb h)
         cases en with
         | none =>
          rw [execX]
          cases h : evIs S i m with
          | none => exact .stuck
          | some m1 =>
            dsimp only
            cases h2 : evCondX S c m1 with
            | none => exact .stuck
            | some p =>
              have e := (evCondX_keep hS hb c p h2).trans (evIs_keep hS hb h)
              exact .ite (.iter ((ib _ _ _).of e) fun m1 h => (next m1).of h) (.done e)
         | some g => rw [execX]; exact .iter (ib _ _ _) fun m1 h => (next m1).of h)
    | doW body c ib =>
      intro t en m
      first
      | (rw [execX]; exact .timeout)
      | (rw [execX]
         refine .iter (ib _ _ _) fun m1 h => ?_
         cases h2 : evalX S false c m1 with
         | none => exact .stuck
         | some p =>
          have e := (evalX_keep hS hb c false m1 p h2).trans h
          exact .ite ((ihn _ _ _ _).of e) (.done e))
    | switch c body ib =>
      intro t en m
      cases en with
      | none =>
        rw [execX]
        cases h : evalX S false c m with
        | none => exact .stuck
        | some p =>
          have e := evalX_keep hS hb c false m p h
          exact .ite (.catch ((ib _ _ _).of e)) (.ite (.catch ((ib _ _ _).of e)) (.done e))
      | some g => rw [execX]; exact .catch (ib _ _ _)
    | case lo hi s ih =>
      intro t en m
      rw [execX.eq_def]
      dsimp only
      split
      · exact .ite (ih _ _ _) (ih _ _ _)
      · exact ih _ _ _
    | dflt s ih => intro t en m; rw [execX]; exact .ite (ih _ _ _) (ih _ _ _)
    | label l s ih => intro t en m; rw [execX]; exact .ite (ih _ _ _) (ih _ _ _)
    | ret e =>
      intro t en m
      cases e with
      | none => rw [execX]; exact .done rfl
      | some e =>
        rw [execX]
        cases h : evalX S false (.cast rt e) m with
        | none => exact .stuck
        | some p => exact .done (evalX_keep hS hb _ false m p h)

theorem runX_keep (hS : Frames S) (hb : S.valid b = false) (rt : CTy) (body : XStmt) : ∀ (n : Nat) (en : Option Tgt) (m : Mem), KeepR b m (runX S rt n en body m) := by
  intro n
  induction n with
  | zero => ?_
  | succ n ih => ?_
  all_goals
    intro en m
    have h := fun n => execX_keep hS hb rt n body .void en m
    rw [runX.eq_def]
    split
    · exact .timeout
    · rename_i he; exact .done (h _ _ _ he)
    · rename_i he; exact .done (h _ _ _ he)
    · rename_i he
      first
      | exact .timeout
      | exact .ite ((ih _ _).of (h _ _ _ he)) .stuck
    · exact .stuck

end Toycc.Src
