import Verif.Src.Props
import Verif.Src.TextProof
import Verif.Stx.Props
/-!
C72 from the tokens of the body (Verif.Src.TextSpec): the parsers of statements, expressions and declarations, the rewriting of compound assignments and implicit
conversions, and the code generator, one after the other.
-/
namespace Toycc.Src.Props
open Toycc.Rv Toycc.Cg Toycc.Low Toycc.Src
open Toycc.Stm hiding exec
open Toycc.Stm.Props (Covered Room Returns compile_total compile_labels)
open Toycc.Parse (Tok P Tree)
open Toycc.Low.Props (exC exTmp sx)

/-- A block is read as what is written, with the scopes after it, whatever follows. -/
theorem C72_read_partial (off : Nat → Int) (val : Sc → Tree TN → Option Int) {a b : Sc} {ts : List Tok} {x : XStmt} (h : Written off val a ts x b) (r : List Tok) :
    ∃ s M, body s = some x ∧ ∀ n, M ≤ n → Stx.stmt (parser off val) n a (ts ++ r) = .ok (s, b, r) := by
  obtain ⟨s, h1, h2⟩ := h
  have hb := isBody (.block h2)
  obtain ⟨M, hM⟩ := Stx.Props.C69_statement_partial (parser off val) (types_parser off val) a b (.block s) ts r (words_read off val h1) (body_plain hb)
    (fun h => by cases h)
  exact ⟨.block s, M, hb, hM⟩

/-- A text is the text of one body. -/
theorem C72_text_unique (off : Nat → Int) (val : Sc → Tree TN → Option Int) {a b b' : Sc} {ts : List Tok} {x x' : XStmt} (h : Written off val a ts x b)
    (h' : Written off val a ts x' b') : x = x' ∧ b = b' := by
  obtain ⟨s, M, h1, h2⟩ := C72_read_partial off val h []
  obtain ⟨s', M', h1', h2'⟩ := C72_read_partial off val h' []
  have e := Except.ok.inj ((h2 (max M M') (by omega)).symm.trans (h2' (max M M') (by omega)))
  simp only [Prod.mk.injEq] at e
  obtain ⟨rfl, rfl, -⟩ := e
  exact ⟨Option.some.inj (h1.symm.trans h1'), rfl⟩

/-- An expression is accepted exactly when it means something in the scopes; in particular a call needs as many arguments as there are parameters. -/
theorem C72_meaning (a : Sc) (e : Tree TN) (x : SExpr) : resolve a e = some x ↔ Means a e x := ⟨resolve_means, means_resolve⟩

/-- In the list `s` of declarations, the latest first, the latest one of `x` is `b`. -/
def Latest (s : List (String × Bind)) (x : String) (b : Bind) : Prop := ∃ l r, s = l ++ (x, b) :: r ∧ ∀ p ∈ l, p.1 ≠ x

/-- A name stands for its latest declaration in the innermost scope that declares it (C11 6.2.1p4). -/
theorem C72_innermost (a : Sc) (x : String) (b : Bind) :
    a.find x = some b ↔ ∃ inner s outer, a.scopes = inner ++ s :: outer ∧ (∀ s' ∈ inner, ∀ p ∈ s', p.1 ≠ x) ∧ Latest s x b := by
  have hl : ∀ (s : List (String × Bind)), s.lookup x = some b ↔ Latest s x b := by
    intro s
    rw [List.lookup_eq_some_iff]
    constructor
    · rintro ⟨l, r, e, h⟩
      exact ⟨l, r, e, fun p hp e' => by have := h p hp; simp [e'] at this⟩
    · rintro ⟨l, r, e, h⟩
      exact ⟨l, r, e, fun p hp => by have := h p hp; simpa using this.symm⟩
  have hn : ∀ (s : List (String × Bind)), s.lookup x = none ↔ ∀ p ∈ s, p.1 ≠ x := by
    intro s
    rw [List.lookup_eq_none_iff]
    constructor
    · intro h p hp e; have := h p hp; simp [e] at this
    · intro h p hp; have := h p hp; simpa using this.symm
  unfold Sc.find
  rw [List.findSome?_eq_some_iff]
  constructor
  · rintro ⟨i, s, o, e, h1, h2⟩
    exact ⟨i, s, o, e, fun s' hs => (hn s').mp (h2 s' hs), (hl s).mp h1⟩
  · rintro ⟨i, s, o, e, h1, h2⟩
    exact ⟨i, s, o, e, (hl s).mpr h2, fun s' hs => (hn s').mpr (h1 s' hs)⟩

example : (⟨[[], [("x", .val 1)], [("y", .val 3), ("x", .val 2)]], 0, []⟩ : Sc).find "x" = some (.val 1) := by decide

/-- From tokens to assembly: function, parser.c:1439-1512 (the body), then codegen. `n` bounds the recursion of the parser of statements. -/
noncomputable def compileText (off tmp : Nat → Int) (val : Sc → Tree TN → Option Int) (rt : CTy) (fn : String) (uid : Nat) (gs : GS) (k n : Nat) (a : Sc)
    (ts : List Tok) : Option (List Instr × Nat × GS) :=
  match Stx.stmt (parser off val) n a ts with
  | .ok (s, _, _) => do
    let x ← body s
    let (st, _) ← trS tmp rt x k
    compileBody fn uid st gs
  | .error _ => none

variable {S E : CEnv} {tmp : Nat → Int} {N : Nat}

/-- **C72**, from the tokens. `ts` is the text of the typed body `x`; what the parser makes of `x` is `st`, with hidden variables up to `k'`. Then the text is
accepted, and the machine does with its code what C prescribes for `x`. -/
theorem C72_text_partial (off : Nat → Int) (val : Sc → Tree TN → Option Int) {a b : Sc} {ts : List Tok} {x : XStmt} (hts : Written off val a ts x b) (r : List Tok)
    (H : Hidden S E tmp N) (hS : S.CallsTyped) (hE : E.CallsTyped) {B : W} {env : Env} {P : Prog} (hw : World E B env P)
    (hv : ∀ b, E.valid b = true → S.valid b = true ∨ ∃ k, (b - (S.fp + BitVec.ofInt 64 (tmp k))).toNat < 8)
    (rt : CTy) (hx : x.typed rt = true) {k k' : Nat} {st : SStmt} (hst : trS tmp rt x k = some (st, k')) (hN : k' ≤ N) (hcov : Covered st)
    (fn : String) (uid : Nat) (gs : GS) (hr : Room E gs.depth st) :
    ∃ M code uid' gs', (∀ n, M ≤ n → compileText off tmp val rt fn uid gs k n a (ts ++ r) = some (code, uid', gs')) ∧
      ∀ (m : Mem) (pc : Nat) (s : St), CodeAt P pc code → s.r .sp = B - BitVec.ofNat 64 (8 * gs.depth) → s.r .fp = E.fp →
        (∀ b, S.valid b = true → s.mem b = m b) →
        (∀ n e m', runX S rt n none x m = .done e m' →
          ∃ s', Runs P env (pc, s) (pc + code.length, s') ∧ s'.r .sp = s.r .sp ∧ s'.r .fp = s.r .fp ∧
            (∀ b, S.valid b = true → s'.mem b = m' b) ∧
            (∀ b, E.valid b = false → ¬ (8 * gs.depth ≤ idx B b ∧ idx B b < 8 * E.room) → s'.mem b = s.mem b) ∧
            Returns fn e (s'.r .a0)) ∧
        ((∀ n, runX S rt n none x m = .timeout) → ∀ k, ∃ c, StepN P env k (pc, s) c) := by
  obtain ⟨s, M, h1, h2⟩ := C72_read_partial off val hts r
  obtain ⟨st', k'', e, g⟩ := C72_body_partial H hS hE hw hv rt x hx k
  have e' := Option.some.inj (hst.symm.trans e)
  simp only [Prod.mk.injEq] at e'
  obtain ⟨rfl, rfl⟩ := e'
  obtain ⟨code, uid', gs', c1, c2⟩ := g hN hcov fn uid gs hr
  refine ⟨M, code, uid', gs', fun n hn => ?_, c2⟩
  unfold compileText
  rw [h2 n hn]
  simp only [h1, hst, c1, Option.bind_eq_bind, Option.bind_some]

/-! ### Example: `{ long y = 0; while (x) { y += x; x--; } return y; }` -/

def exSc : Sc := ⟨[[("x", .var (.long false) (.loc (-8)))]], 0, []⟩
def exOff (_ : Nat) : Int := -16
def exVal0 (_ : Sc) (_ : Tree TN) : Option Int := none
def exSc1 : Sc := exSc.enter.newVar exOff "y" (.long false)
def exText : List Tok := [.p .lbrace, .kw "long", .ident "y", .p .eq, .num 0, .p .semi, .kw "while", .p .lpar, .ident "x", .p .rpar, .p .lbrace, .ident "y", .p .pluseq,
  .ident "x", .p .semi, .ident "x", .p .dec, .p .semi, .p .rbrace, .kw "return", .ident "y", .p .semi, .p .rbrace]

theorem exText_written : Written exOff exVal0 exSc exText exB exSc1.leave := by
  have vx : ∀ a : Sc, a = exSc1 ∨ a = exSc1.enter → a.find "x" = some (.var (.long false) (.loc (-8))) := by
    rintro a (rfl | rfl) <;> decide
  have vy : ∀ a : Sc, a = exSc1 ∨ a = exSc1.enter → a.find "y" = some (.var (.long false) (.loc (-16))) := by
    rintro a (rfl | rfl) <;> decide
  have tx : ∀ a : Sc, a = exSc1 ∨ a = exSc1.enter → (PO a).isType (.ident "x") = false := by
    rintro a (rfl | rfl) <;> decide
  have ty : ∀ a : Sc, a = exSc1 ∨ a = exSc1.enter → (PO a).isType (.ident "y") = false := by
    rintro a (rfl | rfl) <;> decide
  refine ⟨.decl [.ini (.long false) (-16) (.num (.int false) 0)] (.stmt (.whileS sx (.block (.stmt (.expr eAdd) (.stmt (.expr eDec) .nil)))) (.stmt (.ret (some sy)) .nil)),
    ?_, .decl (.stmt (.while (.block (.stmt (.expr _) (.stmt (.expr _) .nil)))) (.stmt (.ret _) .nil))⟩
  have hd : BlockDecl exOff exVal0 exSc.enter [.kw "long", .ident "y", .p .eq, .num 0, .p .semi] [.ini (.long false) (-16) (.num (.int false) 0)] exSc1 :=
    .vars (.vars (ts := [.kw "long"]) (ds := [⟨0, "y", [], some [.num 0]⟩]) (.spec (.base .long))
      (.cons (by decide) (by simp) (.some (Parse.derives_of_print _ (t := .num 0) trivial rfl (by decide)) (.int (by decide) (by decide)) rfl) (.nil _)))
  have h1 : (words exOff exVal0).expr exSc1 [.ident "x"] sx exSc1 := ⟨.ident "x", Parse.derives_of_print _ (tx _ (.inl rfl)) rfl (by decide), .var (vx _ (.inl rfl)), rfl⟩
  have h2 : (words exOff exVal0).expr exSc1.enter [.ident "y", .p .pluseq, .ident "x"] eAdd exSc1.enter :=
    ⟨.assign (some .add) (.ident "y") (.ident "x"), Parse.derives_of_print _ ⟨rfl, ty _ (.inr rfl), tx _ (.inr rfl)⟩ rfl (by decide), .opAssign .add (.var (vy _ (.inr rfl))) (.var (vx _ (.inr rfl))), rfl⟩
  have h3 : (words exOff exVal0).expr exSc1.enter [.ident "x", .p .dec] eDec exSc1.enter :=
    ⟨.postdec (.ident "x"), Parse.derives_of_print _ (tx _ (.inr rfl)) rfl (by decide), .postdec (.var (vx _ (.inr rfl))), rfl⟩
  have h4 : (words exOff exVal0).expr exSc1 [.ident "y"] sy exSc1 := ⟨.ident "y", Parse.derives_of_print _ (ty _ (.inl rfl)) rfl (by decide), .var (vy _ (.inl rfl)), rfl⟩
  have hb : Stx.Stmt (words exOff exVal0) ⟨Sc.enter, Sc.leave⟩ exSc1 (.block (.stmt (.expr eAdd) (.stmt (.expr eDec) .nil)))
      [.p .lbrace, .ident "y", .p .pluseq, .ident "x", .p .semi, .ident "x", .p .dec, .p .semi, .p .rbrace] exSc1 :=
    Stx.Stmt.block (W := words exOff exVal0) (Z := ⟨Sc.enter, Sc.leave⟩) (a := exSc1) (b := exSc1.enter) (.stmt (.expr h2) (.stmt (.expr h3) (.nil _)))
  exact .block (.decl hd (.stmt (.whileS h1 hb) (.stmt (.ret (.some h4)) (.nil _))))

/-- The text is compiled, and its code returns 2 + 1. -/
example : ∃ M code uid' gs' s', (∀ n, M ≤ n → compileText exOff exTmp exVal0 (.int false) "f" 0 ⟨0, 0⟩ 0 n exSc (exText ++ [.ident "g"]) = some (code, uid', gs')) ∧
    Runs code Cg.Props.nullEnv (0, Cg.Props.exSt exMem) (code.length, s') ∧ s'.r .a0 = 3 := by
  obtain ⟨code, uid', gs', h, -⟩ := compile_total exTr_covered "f" 0 ⟨0, 0⟩
  have hw : World exC 1008 Cg.Props.nullEnv code :=
    Cg.Props.world_closed (by decide) ex_stack (fun _ => rfl) (compile_labels h).1 (fun _ _ _ _ _ => rfl)
  obtain ⟨M, code', uid2, gs2, c, g⟩ := C72_text_partial exOff exVal0 exText_written [.ident "g"] Low.Props.ex_hidden Low.Props.ex_typed Low.Props.ex_typedC hw
    Low.Props.ex_cover (.int false) exB_typed (k := 0) (st := exTr.1) (k' := exTr.2) exTr_eq (by rw [exTr_two]; decide) exTr_covered "f" 0 ⟨0, 0⟩ exTr_room
  have : some (code, uid', gs') = some (code', uid2, gs2) := by
    obtain ⟨s, M2, h1, h2⟩ := C72_read_partial exOff exVal0 exText_written [.ident "g"]
    have := c (max M M2) (by omega)
    unfold compileText at this
    rw [h2 _ (by omega)] at this
    simp only [h1, Option.bind_eq_bind, Option.bind_some] at this
    rw [exTr_eq] at this
    exact h.symm.trans this
  cases this
  obtain ⟨s', r, -, -, -, -, ha⟩ := (g exMem 0 (Cg.Props.exSt exMem) (codeAt_self code) (by decide) rfl (fun _ _ => rfl)).1 _ _ _ exB_run
  exact ⟨M, code, uid', gs', s', c, by rw [Nat.zero_add] at r; exact r, ha⟩

end Toycc.Src.Props
