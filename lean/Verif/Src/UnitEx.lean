import Verif.Src.UnitProps
import Verif.Src.ProgEx
/-! An example for C74: the file

`int total; typedef long num; long f(long); num f(num n) { long y = 0; if (n) { y += n; y += f(n - 1); } return y; }` -/
namespace Toycc.Src.Props.Ex74
open Toycc.Rv Toycc.Cg Toycc.Low Toycc.Src
open Toycc.Parse (Tok Tree)
open Toycc.Frame hiding St
open Toycc.Whole (Func)
open Toycc.Src.Props.Ex73 (lg f fr P env)

def val0 (_ : Sc) (_ : Tree TN) : Option Int := none

def bodyText : List Tok := [.p .lbrace, .kw "long", .ident "y", .p .eq, .num 0, .p .semi, .kw "if", .p .lpar, .ident "n", .p .rpar, .p .lbrace, .ident "y", .p .pluseq,
  .ident "n", .p .semi, .ident "y", .p .pluseq, .ident "f", .p .lpar, .ident "n", .p .minus, .num 1, .p .rpar, .p .semi, .p .rbrace, .kw "return", .ident "y", .p .semi, .p .rbrace]

def text : List Tok := [.kw "int", .ident "total", .p .semi, .kw "typedef", .kw "long", .ident "num", .p .semi, .kw "long", .ident "f", .p .lpar, .kw "long", .p .rpar, .p .semi,
  .ident "num", .ident "f", .p .lpar, .ident "num", .ident "n", .p .rpar] ++ bodyText

/-! In the function as it is read, `n` is variable 0, `__alloca_size__` 1, and `y` 2. -/
def n : SExpr := .var lg (.loc 0)
def y : SExpr := .var lg (.loc 2)
def rec1 : SExpr := .call (.var (.func lg) (.glob "f")) (.cons lg (.bin .sub n (.num (.int false) 1)) .nil)
def body : XStmt :=
  .seq (.items [.ini lg 2 (.num (.int false) 0)])
    (.seq (.ifs n (.seq (.items [.expr (.opAssign .add y n)]) (.seq (.items [.expr (.opAssign .add y rec1)]) .skip)) .skip) (.seq (.ret (some y)) .skip))
def d : Def := ⟨"f", lg, [lg], body⟩

/-- Its frame is that of the example for C73. -/
theorem fn : d.fn = some f := by
  have h : d.raw.lay = some fr := by decide +kernel
  unfold Def.fn
  rw [h]
  rfl

def sc1 : Sc := (⟨[[]], 0, [[]]⟩ : Sc).push "total" (.var (.int false) (.glob "total"))
def sc2 : Sc := sc1.push "num" (.typ lg)
def sc3 : Sc := sc2.push "f" (.func lg [lg])
/-- The scopes of the body. -/
def sc4 : Sc := ((({ sc3.enter with next := 0 }.newVar num "n" lg).newVar num "__alloca_size__" (.ptr (.char false))).push "__func__"
  (.var (.arr (.char false) 2) (.glob ("f" ++ ".__func__")))).push "__FUNCTION__" (.var (.arr (.char false) 2) (.glob ("f" ++ ".__FUNCTION__")))
def sc5 : Sc := sc4.enter.newVar num "y" lg

theorem written : Written num val0 sc4 bodyText body sc5.leave := by
  have vn : ∀ a : Sc, a = sc5 ∨ a = sc5.enter → a.find "n" = some (.var lg (.loc 0)) := by rintro a (rfl | rfl) <;> decide
  have vy : ∀ a : Sc, a = sc5 ∨ a = sc5.enter → a.find "y" = some (.var lg (.loc 2)) := by rintro a (rfl | rfl) <;> decide
  have vf : sc5.enter.find "f" = some (.func lg [lg]) := by decide
  have tn : ∀ a : Sc, a = sc5 ∨ a = sc5.enter → (PO a).isType (.ident "n") = false := by rintro a (rfl | rfl) <;> decide
  have ty : ∀ a : Sc, a = sc5 ∨ a = sc5.enter → (PO a).isType (.ident "y") = false := by rintro a (rfl | rfl) <;> decide
  have tf : (PO sc5.enter).isType (.ident "f") = false := by decide
  refine ⟨.decl [.ini lg 2 (.num (.int false) 0)] (.stmt (.ifs n (.block (.stmt (.expr (.opAssign .add y n)) (.stmt (.expr (.opAssign .add y rec1)) .nil)))) (.stmt (.ret (some y)) .nil)),
    ?_, .decl (.stmt (.ifs (.block (.stmt (.expr _) (.stmt (.expr _) .nil)))) (.stmt (.ret _) .nil))⟩
  have hd : BlockDecl num val0 sc4.enter [.kw "long", .ident "y", .p .eq, .num 0, .p .semi] [.ini lg 2 (.num (.int false) 0)] sc5 :=
    .vars (.vars (ts := [.kw "long"]) (ds := [⟨0, "y", [], some [.num 0]⟩]) (.spec (.base .long))
      (.cons (by decide) (by simp) (.some (Parse.derives_of_print _ (t := .num 0) trivial rfl (by decide)) (.int (by decide) (by decide)) rfl) (.nil _)))
  have h1 : (words num val0).expr sc5 [.ident "n"] n sc5 := ⟨.ident "n", Parse.derives_of_print _ (tn _ (.inl rfl)) rfl (by decide), .var (vn _ (.inl rfl)), rfl⟩
  have h2 : (words num val0).expr sc5.enter [.ident "y", .p .pluseq, .ident "n"] (.opAssign .add y n) sc5.enter :=
    ⟨.assign (some .add) (.ident "y") (.ident "n"), Parse.derives_of_print _ ⟨rfl, ty _ (.inr rfl), tn _ (.inr rfl)⟩ rfl (by decide), .opAssign .add (.var (vy _ (.inr rfl))) (.var (vn _ (.inr rfl))), rfl⟩
  have h3 : (words num val0).expr sc5.enter [.ident "y", .p .pluseq, .ident "f", .p .lpar, .ident "n", .p .minus, .num 1, .p .rpar] (.opAssign .add y rec1) sc5.enter :=
    ⟨.assign (some .add) (.ident "y") (.call (.ident "f") (.cons (.bin .sub (.ident "n") (.num 1)) .nil)), Parse.derives_of_print _ ⟨rfl, ty _ (.inr rfl), tf, ⟨tn _ (.inr rfl), trivial⟩, trivial⟩ rfl (by decide),
      .opAssign .add (.var (vy _ (.inr rfl))) (.call vf (.cons (.bin (.var (vn _ (.inr rfl))) (.int (by decide) (by decide)) (.sub _ _)) .nil)), rfl⟩
  have h4 : (words num val0).expr sc5 [.ident "y"] y sc5 := ⟨.ident "y", Parse.derives_of_print _ (ty _ (.inl rfl)) rfl (by decide), .var (vy _ (.inl rfl)), rfl⟩
  have hb : Stx.Stmt (words num val0) ⟨Sc.enter, Sc.leave⟩ sc5 (.block (.stmt (.expr (.opAssign .add y n)) (.stmt (.expr (.opAssign .add y rec1)) .nil)))
      [.p .lbrace, .ident "y", .p .pluseq, .ident "n", .p .semi, .ident "y", .p .pluseq, .ident "f", .p .lpar, .ident "n", .p .minus, .num 1, .p .rpar, .p .semi, .p .rbrace] sc5 :=
    Stx.Stmt.block (W := words num val0) (Z := ⟨Sc.enter, Sc.leave⟩) (a := sc5) (b := sc5.enter) (.stmt (.expr h2) (.stmt (.expr h3) (.nil _)))
  exact .block (.decl hd (.stmt (.ifs h1 hb) (.stmt (.ret (.some h4)) (.nil _))))

theorem isFile : IsFile val0 text [d] := by
  refine .vars (ts := [.kw "int"]) (ds := [⟨0, "total", [], none⟩]) (b := sc1) (.spec (.base .int)) ?_ (.cons rfl (by decide) (by simp) (.nil _)) ?_
  · intro d hd r ps e; rw [List.mem_singleton.mp hd] at e; cases e
  refine .typedef (ts := [.kw "long"]) (ds := [⟨0, "num", [], none⟩]) (b := sc2) (.spec (.base .long)) ?_ (.cons rfl (by simp) (.nil _)) ?_
  · intro d hd r ps e; rw [List.mem_singleton.mp hd] at e; cases e
  refine .proto (ts := [.kw "long"]) (pts := [.kw "long", .p .rpar]) (ps := [(lg, none)]) (b := sc3) 0 (.base .long)
    (.list (ts := [.kw "long"]) (.mk (ts := [.kw "long"]) 0 none [] (.base .long) (by simp) (by decide) (.same (by intro b n e; cases e))) .nil) (.first (by decide)) ?_
  refine .func (ts := [.ident "num"]) (pts := [.ident "num", .ident "n", .p .rpar]) (ps := [(lg, some "n")]) (b := sc3) (c := sc4) (bts := bodyText) (t := lg) (d := sc5.leave) (r := []) 0
    (.name (by decide)) (.list (ts := [.ident "num", .ident "n"]) (.mk (ts := [.ident "num"]) (t := lg) 0 (some "n") [] (.name (by decide)) (by simp) (by decide) (.same (by intro b n e; cases e))) .nil)
    (.again (by decide)) (by simp) (.mk (.cons .nil)) written (.nil _ _)

/-- What the file is compiled to. -/
theorem compiled : ∃ M, ∀ n, M ≤ n → compileUnit val0 n text = some P := by
  obtain ⟨M, a, o, ok, hr⟩ := unit_read val0 isFile start rfl rfl start_ok
  refine ⟨M, fun n hn => ?_⟩
  have he : emitted o [(Ex73.g, Ex73.st)] = [(Ex73.g, Ex73.st)] := by
    have h1 : (Ex73.g, Ex73.st) ∈ emitted o [(Ex73.g, Ex73.st)] := emitted_mem (by simp) List.mem_cons_self (ok.listed d (by simp))
    have h2 := emitted_nodup (ps := [(Ex73.g, Ex73.st)]) ok.order
    have h3 : ∀ p ∈ emitted o [(Ex73.g, Ex73.st)], p = (Ex73.g, Ex73.st) := fun p hp => List.mem_singleton.mp (mem_emitted hp).1
    revert h1 h2 h3
    generalize emitted o [(Ex73.g, Ex73.st)] = l
    intro h1 h2 h3
    match l with
    | [] => cases h1
    | [p] => rw [h3 p List.mem_cons_self]
    | p :: q :: r =>
      have e1 := h3 p List.mem_cons_self
      have e2 := h3 q (List.mem_cons_of_mem _ List.mem_cons_self)
      rw [e1, e2] at h2
      simp at h2
  have h1 : [d].mapM Def.fn = some [f] := by rw [List.mapM_cons, fn]; rfl
  have h2 : [f].mapM XFunc.low = some [Ex73.g] := by rw [List.mapM_cons, Ex73.low]; rfl
  obtain ⟨gs', h3⟩ := Ex73.emit
  unfold compileUnit
  rw [hr n n hn hn]
  have h0 : ([d].reverse ++ start.defs).reverse = [d] := rfl
  simp only [Except.toOption, Option.bind_eq_bind, Option.bind_some, h0, h1, h2, Ex73.parse, he, h3]

/-- All hypotheses of `C74_file_partial` are met: the file compiles to `P`, and for every `k` below a million the function, called with `k` and enough stack, returns with the sum of the
numbers up to `k`. -/
theorem runs : (∃ M, ∀ n, M ≤ n → compileUnit val0 n text = some P) ∧
    ∀ (k : Nat), k < 1000000 → ∀ (s : St), 2000 * (k + 2) ≤ (s.r .sp).toNat → s.r .a0 = BitVec.ofNat 64 k → s.r .ra = BitVec.ofNat 64 (4096 + P.length) →
      ∃ pos s', find P (.sym "f") = some pos ∧ Runs P env (pos, s) (P.length, s') ∧ s'.r .a0 = BitVec.ofNat 64 (Ex73.sum k) := by
  refine ⟨compiled, ?_⟩
  obtain ⟨Q, ⟨M, hQ⟩, h⟩ := C74_file_partial val0 isFile (Xs := [f]) (by rw [List.mapM_cons, fn]; rfl) (Gs := [Ex73.g]) (by rw [List.mapM_cons, Ex73.low]; rfl)
    (fun f hf => by rw [List.mem_singleton.mp hf]; exact Ex73.wf) (fun f hf => by rw [List.mem_singleton.mp hf]; exact Ex73.wf_low)
  obtain ⟨M', hP⟩ := compiled
  have e := (hQ (max M M') (by omega)).symm.trans (hP (max M M') (by omega))
  cases e
  intro k hk s hsp ha hra
  have hlen := Ex73.short
  have hlt := (s.r .sp).isLt
  have hfree : Ex73.Free 0 (s.r .sp).toNat (fun _ => false) (k + 1) := by
    refine ⟨List.range (16 * (k + 1) + 1), List.nodup_range, by simp, fun i hi => ⟨?_, fun _ _ _ => rfl⟩⟩
    have := List.mem_range.mp hi
    omega
  have hc := Ex73.sum_call (fun _ => 4096) (fun _ _ _ _ _ => none) 0 (s.r .sp).toNat 0 hlt k (fun _ => false) s.mem (by omega) hfree
  obtain ⟨pos, h1, s', h2, _, _, _, h5, _⟩ := h (X := fun _ _ _ _ _ _ => none) (R := 0) (C := 10) (Y := fun _ _ _ _ _ => none) Ex73.loaded (by intro _ _ _ _ _ _ _ _ h; cases h)
    ⟨fun _ _ _ _ _ _ _ h => (by cases h), fun _ _ _ _ _ _ _ h => (by cases h), fun _ _ _ _ _ _ _ _ h => (by cases h)⟩
    (by decide) Ex73.needs (D := k + 1) (it := 0) (lo := 0) (hi := (s.r .sp).toNat) (room := (k + 2) * 10) (sp := s.r .sp) (valid := fun _ => false) (Nat.le_refl _) (by omega)
    (Nat.le_refl _) (fun _ _ => rfl) f (List.mem_singleton.mpr rfl) (vs := [(k : Int)]) hc rfl
    (by intro b hb; cases hb) (by
      intro i t x h1 h2
      match i with
      | 0 =>
        cases h1; cases h2
        show ArgRep (.long false) (k : Int) (s.r .a0)
        rw [ha]
        simp [ArgRep, Ty.size]
      | i + 1 => simp [f] at h1) (t := P.length) (by
      rw [hra]
      have e : (BitVec.ofNat 64 (4096 + P.length)).toNat = 4096 + P.length := by rw [BitVec.toNat_ofNat]; omega
      simp only [env, e]
      rw [if_pos (by omega), Nat.add_sub_cancel_left])
  refine ⟨pos, s', h1, h2, ?_⟩
  have := h5.1
  rw [BitVec.ofInt_natCast] at this
  exact this

/-- `C74_variables` and `C74_places` for it: `n` is at -40, `y` at -24. -/
example : localsS d.body = [(lg, 2), (lg, 0), (lg, 2), (lg, 0), (lg, 2), (lg, 0), (lg, 2)] ∧ d.named = [lg, .ptr (.char false), lg] ∧
    f.body = relS (fun n => if n = 0 then -40 else if n = 2 then -24 else 0) d.body := ⟨rfl, rfl, rfl⟩

end Toycc.Src.Props.Ex74
