import Verif.Src.IfToks
/-!
C76: the value of the controlling expression of #if and #elif.

Vocabulary (Verif.Src.IfSpec, Verif.Src.CharsScan, Verif.Parse.Spec): `All ts line`: the preprocessing tokens `line` are spelled like the tokens `ts`. `Reads`: `defined` is evaluated. `Expands D us ws`: with
the macros `D` the tokens `us` become `ws`; `defsOf st`: the macros of a state (Verif.Src.MacSpec). `zeroed`: identifiers that are left become 0. `IfText e s`: the tokens `s` are a conditional-expression with the tree `e`. `ifVal e` is its value in the arithmetic of
intmax_t. `Pp.Val env st line v st` (Verif.Pp.CondSpec): the line has the value `v` and the state is not changed, whatever follows the line and whatever sections are open.
-/
namespace Toycc.Src.Props
open Toycc.Src
open Toycc.Lex (asc IntConst)
open Toycc.Pp (PTok Bytes)
open Toycc.Parse (Tok P Tree BOp Derives)

/-- **C76**. The value of the controlling expression of `#if` and `#elif` is the one that C prescribes: `defined` is evaluated, macros are expanded, the names that are left are 0,
and the result is evaluated in the arithmetic of intmax_t. Missing (and false, see `C76_int_wrong` and `C76_unsigned_wrong`): expressions in which the value of a part does not fit in
the type that the part has outside of #if; constants of unsigned types. Missing: the operators # and ##, and hidden names in arguments of macros, `__LINE__` and the like on the line. -/
theorem C76_value_partial {e : Tree Empty} {s : List Tok} {v : Int} (hd : IfText e s) (hs : Signed e) (hf : Fits e) (hv : ifVal e = some v) :
    ∃ K, ∀ k, K ≤ k → ∀ (env : Pp.Env) (st : Pp.St) (line : List PTok) (ts us ws : List Tok), env.constExpr = constExpr k → env.strict = false →
      All ts line → (∀ p ∈ line, p.bol = false ∧ p.hs = []) →
      Reads (fun x => (Pp.lookup st (asc x)).isSome) ts us → Expands (defsOf st) us ws → zeroed ws = s →
      Pp.Val env st line v st := by
  obtain ⟨K, hK⟩ := const_all hd hs hf hv
  refine ⟨K, fun k hk env st line ts us ws he hst ha hl hr hx hz => ?_⟩
  subst hz
  refine val_all hst (fun ps x h1 h2 => ?_) ?_ ha hl hr hx
  · rw [he]; exact hK k hk ps x h1 h2
  · rintro rfl
    obtain ⟨a, r, h, -⟩ := (Parse.derives_G ifO ifO_good (Parse.good_sign ifO ifO_good) hd).first.head
    cases h

/-- **C76**, with C21: whether the group after `#if` is taken. -/
theorem C76_holds_partial {e : Tree Empty} {s : List Tok} {v : Int} (hd : IfText e s) (hs : Signed e) (hf : Fits e) (hv : ifVal e = some v) :
    ∃ K, ∀ k, K ≤ k → ∀ (env : Pp.Env) (st : Pp.St) (d : Pp.Dir) (ts us ws : List Tok), env.constExpr = constExpr k → env.strict = false → d.name.is "if" = true →
      All ts d.line → (∀ p ∈ d.line, p.bol = false ∧ p.hs = []) →
      Reads (fun x => (Pp.lookup st (asc x)).isSome) ts us → Expands (defsOf st) us ws → zeroed ws = s →
      Pp.Holds env st d (v != 0) st := by
  obtain ⟨K, hK⟩ := C76_value_partial hd hs hf hv
  exact ⟨K, fun k hk env st d ts us ws h1 h0 h2 h3 h4 h5 h6 h7 => .ifE v st h2 (hK k hk env st d.line ts us ws h1 h0 h3 h4 h5 h6 h7)⟩

theorem lookup_add (st : Pp.St) (m : Pp.Macro) (x : Bytes) : Pp.lookup (Pp.addMacro st m) x = if m.name = x then some m else Pp.lookup st x := by
  unfold Pp.lookup Pp.addMacro
  rw [List.find?_cons]
  by_cases h : m.name = x
  · simp [h]
  · have : (m.name == x) = false := by simpa using h
    simp only [this, h, if_false]
    congr 1
    generalize st.macros = l
    induction l with
    | nil => rfl
    | cons p l ih =>
      rw [List.filter_cons, List.find?_cons]
      by_cases hp : p.1 = x
      · have h2 : (p.1 != m.name) = true := by simpa [hp] using fun e => h e.symm
        rw [if_pos h2, List.find?_cons]
        simp [hp]
      · have h1 : (p.1 == x) = false := by simpa using hp
        split
        · rw [List.find?_cons, h1]; exact ih
        · rw [h1]; exact ih

/-- The state after a `#define` line (`Pp.Text.define`): the name is that of an object-like macro with the replacement list that was written, and other names are what they were. -/
theorem C76_define {s : String} {b : List Tok} {m : PTok} {bs : List PTok} (hm : m.text = asc s) (ha : All b bs) (hh : ∀ p ∈ bs, p.hs = []) (st : Pp.St) :
    (defsOf (Pp.addMacro st { name := m.text, objlike := true, body := bs.map Pp.ownTok ++ [Pp.lineEnd] })).obj s b ∧
    ∀ x, asc x ≠ asc s → Pp.lookup (Pp.addMacro st { name := m.text, objlike := true, body := bs.map Pp.ownTok ++ [Pp.lineEnd] }) (asc x) = Pp.lookup st (asc x) := by
  refine ⟨⟨_, ⟨by rw [lookup_add, if_pos hm], rfl, hm, bs.map Pp.ownTok, Pp.lineEnd, rfl, rfl, ha.map fun p => ⟨rfl, rfl, rfl⟩, ?_⟩, rfl⟩, fun x hx => ?_⟩
  · intro p hp
    obtain ⟨u, hu, rfl⟩ := List.mem_map.mp hp
    exact hh u hu
  · rw [lookup_add, if_neg (by rw [hm]; exact fun e => hx e.symm)]

/-! ### Example -/

def ifEnv : Pp.Env := { Pp.exEnv with constExpr := constExpr 200 }

/-- `defined(N) && N * 2 == 6 && !defined M || int` -/
def exIfTree : Tree Empty := .bin .lor (.bin .land (.bin .land (.num 1) (.bin .eq (.bin .mul (.num 3) (.num 2)) (.num 6))) (.un .not (.num 0))) (.num 0)

def exIfText : List Tok := [.num 1, .p .ampamp, .num 3, .p .star, .num 2, .p .eqeq, .num 6, .p .ampamp, .p .bang, .num 0, .p .barbar, .num 0]

theorem exIf_derives : IfText exIfTree exIfText := Parse.derives_of_print ifO (by simp [exIfTree, Tree.Ok]) (by decide +kernel) (by decide)

theorem exIf_val : ifVal exIfTree = some 1 := by decide

theorem exIf_fits : Signed exIfTree ∧ Fits exIfTree := by
  refine ⟨by simp [exIfTree, Signed], ?_⟩
  have small : ∀ {e : Tree Empty} {w : Int}, ifVal e = some w → -(2 ^ 31) ≤ w ∧ w < 2 ^ 31 → Small e := by
    intro e w h hw
    refine .inr fun v hv => ?_
    rw [h] at hv; cases hv; exact hw
  have num : ∀ n : Int, 0 ≤ n ∧ n < 7 → Fits (.num n) := by
    intro n hn
    refine small (w := n) ?_ (by omega)
    unfold ifVal intmax
    rw [if_pos (by omega)]
  refine ⟨⟨⟨num _ (by decide), fun _ => ⟨small (w := 1) (by decide) (by decide), ⟨small (w := 6) (by decide) (by decide), num _ (by decide), num _ (by decide)⟩, num _ (by decide)⟩⟩,
    fun _ => ⟨small (w := 1) (by decide) (by decide), num _ (by decide)⟩⟩, fun h => ?_⟩
  exact absurd h (by decide)

/-- The tokens of the line. -/
def exIfLine : List Tok := [.ident "defined", .p .lpar, .ident "N", .p .rpar, .p .ampamp, .ident "N", .p .star, .num 2, .p .eqeq, .num 6, .p .ampamp, .p .bang, .ident "defined", .ident "M", .p .barbar, .kw "int"]

/-- The state after `#define N 3`. -/
def exIfState : Pp.St := Pp.addMacro {} { name := asc "N", objlike := true, body := [Pp.ft "3" .ppNum false].map Pp.ownTok ++ [Pp.lineEnd] }

/-- The value of the line is 1, whatever the line looks like as long as it has these tokens. -/
example : ∃ K, ∀ k, K ≤ k → ∀ (env : Pp.Env) (line : List PTok), env.constExpr = constExpr k → env.strict = false → All exIfLine line → (∀ p ∈ line, p.bol = false ∧ p.hs = []) → Pp.Val env exIfState line 1 exIfState := by
  obtain ⟨K, hK⟩ := C76_value_partial exIf_derives exIf_fits.1 exIf_fits.2 exIf_val
  refine ⟨K, fun k hk env line he hst ha hl => hK k hk env exIfState line exIfLine
    [.num 1, .p .ampamp, .ident "N", .p .star, .num 2, .p .eqeq, .num 6, .p .ampamp, .p .bang, .num 0, .p .barbar, .kw "int"]
    [.num 1, .p .ampamp, .num 3, .p .star, .num 2, .p .eqeq, .num 6, .p .ampamp, .p .bang, .num 0, .p .barbar, .kw "int"] he hst ha hl ?_ ?_ rfl⟩
  · have h1 : (Pp.lookup exIfState (asc "N")).isSome = true := by decide +kernel
    have h2 : (Pp.lookup exIfState (asc "M")).isSome = false := by decide +kernel
    have r0 := Reads.nil (isMacro := fun x => (Pp.lookup exIfState (asc x)).isSome)
    have r1 := Reads.defd (t := .ident "M") (.inl rfl) (.keep (t := .p .barbar) (by decide) (.keep (t := .kw "int") (by decide) r0))
    rw [h2] at r1
    have r2 := Reads.defp (t := .ident "N") (.inl rfl) (.keep (t := .p .ampamp) (by decide) (.keep (t := .ident "N") (by decide) (.keep (t := .p .star) (by decide)
      (.keep (t := .num 2) (by decide) (.keep (t := .p .eqeq) (by decide) (.keep (t := .num 6) (by decide) (.keep (t := .p .ampamp) (by decide) (.keep (t := .p .bang) (by decide) r1))))))))
    rw [h1] at r2
    exact r2
  · have hi : (defsOf exIfState).free "int" := by show Pp.lookup exIfState (asc "int") = none; decide +kernel
    have hN : (defsOf exIfState).obj "N" [.num 3] := by
      refine (C76_define (s := "N") (b := [.num 3]) (m := Pp.ft "N" .ident false) (bs := [Pp.ft "3" .ppNum false]) rfl (.cons ⟨.int ?_, by decide, by decide, fun h => by cases h⟩ .nil) ?_ {}).1
      · exact ⟨.decimal, [], asc "3", [], false, false, by decide, by decide, ⟨by decide, by decide +kernel, by decide, by decide⟩, by decide, by decide +kernel, by decide +kernel⟩
      · intro p hp
        rw [List.mem_singleton] at hp
        subst hp; rfl
    have x0 : Expand (defsOf exIfState) [] [.kw "int"] [.kw "int"] true := .keep (fun s h => by
      rcases h with h | h
      · cases h
      · cases h; exact .inl hi) .nil
    have x3 : Expand (defsOf exIfState) ["N"] [.num 3] [.num 3] true := .keep (fun s h => by rcases h with h | h <;> cases h) .nil
    have kp : ∀ {t : Tok} {ts us z}, (∀ s, ¬ (t = .ident s ∨ t = .kw s)) → Expand (defsOf exIfState) [] ts us z → Expand (defsOf exIfState) [] (t :: ts) (t :: us) (lastOf ts true z) :=
      fun h => .keep fun s hs => absurd hs (h s)
    have x4 := Expand.replace (t := .ident "N") (ts := [.p .star, .num 2, .p .eqeq, .num 6, .p .ampamp, .p .bang, .num 0, .p .barbar, .kw "int"]) (us := [.num 3]) (.inl rfl) (by simp) hN x3 (kp (by simp) (kp (by simp) (kp (by simp) (kp (by simp) (kp (by simp) (kp (by simp) (kp (by simp) (kp (by simp) x0))))))))
    exact ⟨_, kp (t := .num 1) (by simp) (kp (t := .p .ampamp) (by simp) x4)⟩

/-- The same computed from the characters. -/
example : Pp.outTexts ifEnv 60 "#define N 3\n#if defined(N) && N * 2 == 6 && !defined M || int\nyes\n#else\nno\n#endif\n" = some [asc "yes", []] := by decide +kernel

/-- `0x7fffffff + 1 > 0` is true in the arithmetic of intmax_t, but toycc computes in int. -/
theorem C76_int_wrong :
    ifVal (.bin .gt (.bin .add (.num 0x7fffffff) (.num 1)) (.num 0)) = some 1 ∧
    Pp.outTexts ifEnv 60 "#if 0x7fffffff + 1 > 0\nyes\n#else\nno\n#endif\n" = some [asc "no", []] := by
  refine ⟨by decide, by decide +kernel⟩

/-- `0xffffffff` has the type intmax_t in #if, and is greater than -1; toycc compares as unsigned int. -/
theorem C76_unsigned_wrong : Pp.outTexts ifEnv 60 "#if -1 < 0xffffffff\nyes\n#else\nno\n#endif\n" = some [asc "no", []] := by decide +kernel

end Toycc.Src.Props
