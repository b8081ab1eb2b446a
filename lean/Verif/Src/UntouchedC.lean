import Verif.Src.Untouched
import Verif.Whole.Prog
/-! The same for compiled functions. -/
namespace Toycc.Src
open Toycc.Rv Toycc.Cg
open Toycc.Stm (Out Res Tgt End iterC catchBrk SStmt evC evList evCond run)
open Toycc.Whole (Func envOf inObjs envOf_call envOf_valid envOf_fp)

variable {S : CEnv} {b : W} {m : Mem}

mutual
theorem evalC_keep (hS : Frames S) (hb : S.valid b = false) : ∀ (e : Expr) (ad : Bool) (d : Nat) (m : Mem), Keep b m (evalC S ad d e m)
  | .null, ad, d, m => by rw [evalC]; exact .ite .none (.some rfl)
  | .num _ _, ad, d, m => by rw [evalC]; exact .ite .none (.some rfl)
  | .neg _ e, ad, d, m => by
    rw [evalC]; exact .ite .none (.bind (evalC_keep hS hb e false d m) fun _ _ h => .skip fun _ => .some h)
  | .var _ _, ad, d, m => by
    rw [evalC]; exact .skip fun _ => .ite (.some rfl) (.skip fun _ => .some rfl)
  | .member _ e, ad, d, m => by
    rw [evalC]; exact .bind (evalC_keep hS hb e true d m) fun _ _ h => .ite (.some h) (.skip fun _ => .some h)
  | .deref _ e, ad, d, m => by
    rw [evalC]; exact .bind (evalC_keep hS hb e false d m) fun _ _ h => .ite (.some h) (.skip fun _ => .some h)
  | .addr e, ad, d, m => by rw [evalC]; exact .ite .none (evalC_keep hS hb e true d m)
  | .assign _ l r, ad, d, m => by
    rw [evalC]
    exact .ite .none (.bind (evalC_keep hS hb l true d m) fun _ m1 h => .bind ((evalC_keep hS hb r false (d + 1) m1).of h) fun _ _ h => (assignC_keep hb).of h)
  | .comma l r, ad, d, m => by
    rw [evalC]; exact .bind (evalC_keep hS hb l false d m) fun _ m1 h => (evalC_keep hS hb r ad d m1).of h
  | .cast _ e, ad, d, m => by rw [evalC]; exact .ite .none (.bind (evalC_keep hS hb e false d m) fun _ _ h => .some h)
  | .memzero off n, ad, d, m => by
    rw [evalC]
    refine .ite .none ?_
    intro p e
    dsimp only at e
    split at e
    · rename_i hok; cases e; exact writeN_keep hok hb
    · cases e
  | .cond _ c x y, ad, d, m => by
    rw [evalC]
    exact .ite .none (.bind (evalC_keep hS hb c false d m) fun _ m1 h => .ite ((evalC_keep hS hb x false d m1).of h) ((evalC_keep hS hb y false d m1).of h))
  | .not e, ad, d, m => by rw [evalC]; exact .ite .none (.bind (evalC_keep hS hb e false d m) fun _ _ h => .some h)
  | .bitnot e, ad, d, m => by rw [evalC]; exact .ite .none (.bind (evalC_keep hS hb e false d m) fun _ _ h => .some h)
  | .logand l r, ad, d, m => by
    rw [evalC]
    exact .ite .none (.bind (evalC_keep hS hb l false d m) fun _ m1 h => .ite (.some h) (.bind ((evalC_keep hS hb r false d m1).of h) fun _ _ h => .some h))
  | .logor l r, ad, d, m => by
    rw [evalC]
    exact .ite .none (.bind (evalC_keep hS hb l false d m) fun _ m1 h => .ite (.some h) (.bind ((evalC_keep hS hb r false d m1).of h) fun _ _ h => .some h))
  | .bin _ _ l r, ad, d, m => by
    rw [evalC]
    exact .ite .none (.bind (evalC_keep hS hb r false d m) fun _ m1 h => .bind ((evalC_keep hS hb l false (d + 1) m1).of h) fun _ _ h => .skip fun _ => .some h)
  | .vlaPtr _, ad, d, m => by rw [evalC]; exact .ite (.some rfl) .none
  | .call _ f as, ad, d, m => by
    rw [evalC]
    exact .ite .none (.bind (evalArgsC_keep hS hb as _ m) fun _ m1 h => .bind ((evalC_keep hS hb f false _ m1).of h) fun _ m2 h p e =>
      (hS _ _ _ _ _ _ _ e b hb).trans h)
theorem evalArgsC_keep (hS : Frames S) (hb : S.valid b = false) : ∀ (l : Exprs) (d : Nat) (m : Mem), Keep b m (evalArgsC S d l m)
  | .nil, d, m => by rw [evalArgsC]; exact .some rfl
  | .cons e r, d, m => by
    rw [evalArgsC]
    exact .bind (evalArgsC_keep hS hb r d m) fun _ m1 h => .bind ((evalC_keep hS hb e false _ m1).of h) fun _ _ h => .some h
end

theorem evList_keep (hS : Frames S) (hb : S.valid b = false) {d : Nat} : ∀ {l : List Expr} {m m' : Mem}, evList (evC S d) l m = some m' → m' b = m b
  | [], m, m', h => by simp only [evList] at h; cases h; rfl
  | e :: r, m, m', h => by
    simp only [evList, Option.bind_eq_some_iff] at h
    obtain ⟨p, h1, h2⟩ := h
    exact (evList_keep hS hb h2).trans (evalC_keep hS hb e false d m p h1)

theorem evCond_keep (hS : Frames S) (hb : S.valid b = false) {d : Nat} (c : Option Expr) : Keep b m (evCond (evC S d) c m) := by
  cases c with
  | none => exact .some rfl
  | some e => exact evalC_keep hS hb e false d m

theorem exec_keep (hS : Frames S) (hb : S.valid b = false) {d : Nat} : ∀ (n : Nat) (s : SStmt) (t : Ty) (en : Option Tgt) (m : Mem),
    KeepR b m (Stm.exec (evC S d) n t en s m) := by
  intro n
  induction n with
  | zero => ?_
  | succ n ihn => ?_
  all_goals
    intro s
    induction s with
    | skip => intro t en m; rw [Stm.exec]; exact .done rfl
    | goto => intro t en m; rw [Stm.exec]; exact .done rfl
    | brk => intro t en m; rw [Stm.exec]; exact .done rfl
    | cont => intro t en m; rw [Stm.exec]; exact .done rfl
    | seq x y ix iy =>
      intro t en m
      cases en with
      | none => rw [Stm.exec]; exact .andThen (ix _ _ _) fun m1 h => (iy _ _ _).of h
      | some g => rw [Stm.exec]; exact .ite (.andThen (ix _ _ _) fun m1 h => (iy _ _ _).of h) (iy _ _ _)
    | expr e =>
      intro t en m
      rw [Stm.exec]
      cases h : evC S d .value e m with
      | none => exact .stuck
      | some p => exact .done (evalC_keep hS hb e false d m p h)
    | ifs c x y ix iy =>
      intro t en m
      cases en with
      | none =>
        rw [Stm.exec]
        cases h : evC S d .test c m with
        | none => exact .stuck
        | some p => exact .ite ((ix _ _ _).of (evalC_keep hS hb c false d m p h)) ((iy _ _ _).of (evalC_keep hS hb c false d m p h))
      | some g => rw [Stm.exec]; exact .ite (ix _ _ _) (iy _ _ _)
    | loop i c inc body ib =>
      intro t en m
      first
      | (rw [Stm.exec]; exact .timeout)
      | (have next : ∀ m1 : Mem, KeepR b m1 (match evList (evC S d) inc.toList m1 with
            | some m => Stm.exec (evC S d) n t none (.loop [] c inc body) m
            | none => Res.stuck) := by
          intro m1
          cases h : evList (evC S d) inc.toList m1 with
          | none => exact .stuck
          | some m2 => exact (ihn _ _ _ _).of (evList_keep hS hb h)
         cases en with
         | none =>
          rw [Stm.exec]
          cases h : evList (evC S d) i m with
          | none => exact .stuck
          | some m1 =>
            dsimp only
            cases h2 : evCond (evC S d) c m1 with
            | none => exact .stuck
            | some p =>
              have e := (evCond_keep hS hb c p h2).trans (evList_keep hS hb h)
              exact .ite (.iter ((ib _ _ _).of e) fun m1 h => (next m1).of h) (.done e)
         | some g => rw [Stm.exec]; exact .iter (ib _ _ _) fun m1 h => (next m1).of h)
    | doW body c ib =>
      intro t en m
      first
      | (rw [Stm.exec]; exact .timeout)
      | (rw [Stm.exec]
         refine .iter (ib _ _ _) fun m1 h => ?_
         cases h2 : evC S d .test c m1 with
         | none => exact .stuck
         | some p =>
          have e := (evalC_keep hS hb c false d m1 p h2).trans h
          exact .ite ((ihn _ _ _ _).of e) (.done e))
    | switch c body ib =>
      intro t en m
      cases en with
      | none =>
        rw [Stm.exec]
        cases h : evC S d .switch c m with
        | none => exact .stuck
        | some p =>
          have e := evalC_keep hS hb c false d m p h
          exact .ite (.catch ((ib _ _ _).of e)) (.ite (.catch ((ib _ _ _).of e)) (.done e))
      | some g => rw [Stm.exec]; exact .catch (ib _ _ _)
    | case lo hi s ih =>
      intro t en m
      rw [Stm.exec.eq_def]
      dsimp only
      split
      · exact .ite (ih _ _ _) (ih _ _ _)
      · exact ih _ _ _
    | dflt s ih => intro t en m; rw [Stm.exec]; exact .ite (ih _ _ _) (ih _ _ _)
    | label l s ih => intro t en m; rw [Stm.exec]; exact .ite (ih _ _ _) (ih _ _ _)
    | ret e =>
      intro t en m
      cases e with
      | none => rw [Stm.exec]; exact .done rfl
      | some e =>
        rw [Stm.exec]
        cases h : evC S d .ret e m with
        | none => exact .stuck
        | some p => exact .done (evalC_keep hS hb _ false d m p h)

theorem run_keep (hS : Frames S) (hb : S.valid b = false) {d : Nat} (body : SStmt) : ∀ (n : Nat) (en : Option Tgt) (m : Mem), KeepR b m (run (evC S d) n en body m) := by
  intro n
  induction n with
  | zero => ?_
  | succ n ih => ?_
  all_goals
    intro en m
    have h := fun n => exec_keep hS hb (d := d) n body .void en m
    rw [run.eq_def]
    split
    · exact .timeout
    · rename_i he; exact .done (h _ _ _ he)
    · rename_i he; exact .done (h _ _ _ he)
    · rename_i he
      first
      | exact .timeout
      | exact .ite ((ih _ _).of (h _ _ _ he)) .stuck
    · exact .stuck

/-- Calls of the functions of a program change only live bytes. -/
theorem envOf_frames {F : List Func} {X : Whole.Ext} {sym : Label → W} (hwf : ∀ f ∈ F, Whole.Wf f)
    (hX : ∀ valid room fa ty vs m v m', X valid room fa ty vs m = some (v, m') → ∀ b, valid b = false → m' b = m b) :
    ∀ (n : Nat) (fp B : W) (valid : W → Bool) (room : Nat), Frames (envOf F X sym n fp B valid room) := by
  intro n
  induction n with
  | zero => ?_
  | succ n ih => ?_
  all_goals
    intro fp B valid room a k ty vs m v m' h b hb
    rw [envOf_valid] at hb
    rcases envOf_call h with ⟨_, h⟩ | ⟨f, n', fr, h1, h2, h3, _, _, _, hcl⟩
    · exact hX _ _ _ _ _ _ _ _ h b hb
    · first
      | (cases h2; done)
      | (have h2' : n' = n := by omega
         subst h2'
         clear h
         have h := Whole.indep_all hcl (fun _ => 0)
         split at h
         · rename_i e mt hrun
           rw [Option.map_eq_some_iff] at h
           obtain ⟨w, _, h⟩ := h
           cases h
           dsimp only
           rw [envOf_fp]
           split
           · rfl
           · rename_i hno
             have hno : inObjs (B - BitVec.ofNat 64 (8 * k) - 8 - 8) (f.objs fr) b = false := by simpa using hno
             have := run_keep (ih (B - BitVec.ofNat 64 (8 * k) - 8 - 8) (B - BitVec.ofNat 64 (8 * (k + Func.bytes fr / 8)))
               (fun b => valid b || inObjs (B - BitVec.ofNat 64 (8 * k) - 8 - 8) (f.objs fr) b) (room - (k + Func.bytes fr / 8))) (b := b) (by
               rw [envOf_valid]; show (valid b || _) = false; rw [hb, hno]; rfl) _ _ _ _ _ _ hrun
             rw [this, envOf_fp]
             have hl : Frame.layout f.frame = .ok fr := by
               unfold Func.lay at h3
               cases hx : Frame.layout f.frame with
               | error e => rw [hx] at h3; cases h3
               | ok x => rw [hx] at h3; cases h3; rfl
             rw [Whole.bind_keep (hwf f (Whole.find_fn h1).1) hl hno, hno]
             rfl
         · cases h)

end Toycc.Src
