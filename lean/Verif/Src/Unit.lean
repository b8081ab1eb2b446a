import Verif.Src.Text
import Verif.Src.ProgSpec
/-!
Whole files from their tokens: the loop of parser (parser/parser.c:1592-1625), function definitions and prototypes (function, func_params), typedefs and
variables of file scope, and the order in which functions are emitted. Left out (the outcome is an error): storage classes other than typedef,
initialisers of variables of file scope, parameters that are functions or have type void, variadic functions, and what Verif.Src.Text leaves out.
-/
namespace Toycc.Src
open Toycc.Cg Toycc.Low Toycc.Rv
open Toycc.Parse (Tok P Tree)
open Toycc.Stx (SErr skip)
open Toycc.Frame (Frame)

/-! ### Variables of a function -/

/-- `align` of struct Type, type.c:3-73, 250-273; structures do not occur. -/
def CTy.align : CTy → Nat
  | .arr b _ => CTy.align b
  | .struc _ | .func _ => 1
  | t => t.size

/-- new_var, parser/scope.c:107-117: a variable of a type. -/
def varOf (t : CTy) : Frame.Var :=
  ⟨match t with
    | .struc _ => .agg
    | _ => .int, t.size, CTy.align t⟩

mutual
/-- The types of the hidden variables made for an expression, in the order in which they are made: to_assign makes a pointer (parser/parser.c:380, 428, 489),
conditional a variable of the type of its first operand (parser/parser.c:982-985). -/
def hidX : SExpr → List CTy
  | .num _ _ | .var _ _ => []
  | .member e _ _ _ | .deref e | .addr e | .neg e | .not e | .bitnot e | .cast _ e => hidX e
  | .bin _ l r | .assign l r | .comma l r | .logand l r | .logor l r => hidX l ++ hidX r
  | .opAssign _ l r => hidX l ++ hidX r ++ [.ptr .void]
  | .pre _ l | .post _ l => hidX l ++ [.ptr .void]
  | .cond c t e => hidX c ++ hidX t ++ hidX e
  | .elvis a b => hidX a ++ (((tr (fun _ => 0) a 0).map (·.1.ty)).getD .void :: hidX b)
  | .call f as => hidX f ++ hidAs as
def hidAs : SArgs → List CTy
  | .nil => []
  | .cons _ e r => hidX e ++ hidAs r
end

def hids (e : SExpr) : List (Frame.Var × Bool) := (hidX e).map fun t => (varOf t, true)

def hidO : Option SExpr → List (Frame.Var × Bool)
  | none => []
  | some e => hids e

/-- The variables made for an item; `true` marks hidden ones. A variable is made before its initialiser is read (declaration, declarator.c:893-970). -/
def madeI : XI → List (Frame.Var × Bool)
  | .expr e => hids e
  | .var t => [(varOf t, false)]
  | .ini t _ e => (varOf t, false) :: hids e

/-- The variables made for a statement, in the order of the text. -/
def made : XStmt → List (Frame.Var × Bool)
  | .seq a b => made a ++ made b
  | .items is => is.flatMap madeI
  | .ifs c a b => hids c ++ made a ++ made b
  | .loop init c inc b => init.flatMap madeI ++ hidO c ++ hidO inc ++ made b
  | .doW b c => made b ++ hids c
  | .switch c b => hids c ++ made b
  | .case _ _ s | .dflt s | .label _ s => made s
  | .ret e => hidO e
  | .skip | .goto _ | .brk | .cont => []

/-! While a body is read, a variable is named by its number in the list of named variables (in the compiler: by the address of its struct Obj). When the
frame has been laid out it is named by its offset. -/

mutual
def relE (g : Int → Int) : SExpr → SExpr
  | .num t v => .num t v
  | .var t (.loc n) => .var t (.loc (g n))
  | .var t (.vla n) => .var t (.vla (g n))
  | .var t (.glob x) => .var t (.glob x)
  | .member e t o b => .member (relE g e) t o b
  | .deref e => .deref (relE g e)
  | .addr e => .addr (relE g e)
  | .bin op l r => .bin op (relE g l) (relE g r)
  | .neg e => .neg (relE g e)
  | .not e => .not (relE g e)
  | .bitnot e => .bitnot (relE g e)
  | .assign l r => .assign (relE g l) (relE g r)
  | .opAssign op l r => .opAssign op (relE g l) (relE g r)
  | .pre up l => .pre up (relE g l)
  | .post up l => .post up (relE g l)
  | .comma l r => .comma (relE g l) (relE g r)
  | .cast t e => .cast t (relE g e)
  | .cond c t e => .cond (relE g c) (relE g t) (relE g e)
  | .elvis a b => .elvis (relE g a) (relE g b)
  | .logand l r => .logand (relE g l) (relE g r)
  | .logor l r => .logor (relE g l) (relE g r)
  | .call f as => .call (relE g f) (relAs g as)
def relAs (g : Int → Int) : SArgs → SArgs
  | .nil => .nil
  | .cons t e r => .cons t (relE g e) (relAs g r)
end

def relI (g : Int → Int) : XI → XI
  | .expr e => .expr (relE g e)
  | .var t => .var t
  | .ini t n e => .ini t (g n) (relE g e)

def relS (g : Int → Int) : XStmt → XStmt
  | .seq a b => .seq (relS g a) (relS g b)
  | .items is => .items (is.map (relI g))
  | .ifs c a b => .ifs (relE g c) (relS g a) (relS g b)
  | .loop init c inc b => .loop (init.map (relI g)) (c.map (relE g)) (inc.map (relE g)) (relS g b)
  | .doW b c => .doW (relS g b) (relE g c)
  | .switch c b => .switch (relE g c) (relS g b)
  | .case lo hi s => .case lo hi (relS g s)
  | .dflt s => .dflt (relS g s)
  | .label n s => .label n (relS g s)
  | .ret e => .ret (e.map (relE g))
  | .skip => .skip
  | .goto n => .goto n
  | .brk => .brk
  | .cont => .cont

/-- Positions of the variables with a name, in the order in which they are made. -/
def XFunc.vis (f : XFunc) : List Nat := ((List.range f.others.length).filter fun i => (f.others[i]?.map (·.2)) == some false).reverse

/-- The offset of named variable number `n`. The parameters come first, the last one before the others (create_param_lvars, parser/parser.c:1390-1400), then
`__alloca_size__`, then the variables of the body. -/
def XFunc.spot (f : XFunc) (fr : Frame) (n : Int) : Int :=
  let p := f.params.length
  let i := n.toNat
  if i < p then (fr.offs[f.others.length + (p - 1 - i)]?).getD 0
  else if i = p then (fr.offs[f.others.length - 1]?).getD 0
  else (fr.offs[(f.vis[i - p - 1]?).getD 0]?).getD 0

/-- A function definition as it is read. -/
structure Def where
  name : String
  ret : CTy
  params : List CTy
  body : XStmt

/-- The variables of the function (function, parser/parser.c:1476-1509), latest first. -/
def Def.raw (d : Def) : XFunc := ⟨d.name, d.ret, d.params, (made d.body).reverse ++ [(⟨.int, 8, 8⟩, true)], d.body⟩

/-- The function after assign_lvar_offsets. -/
def Def.fn (d : Def) : Option XFunc := do
  let fr ← d.raw.lay
  some { d.raw with body := relS (d.raw.spot fr) d.body }

/-! ### Parameters -/

/-- func_params, declarator.c:689-706: an array parameter becomes a pointer. -/
def adj : CTy → CTy
  | .arr t _ => .ptr t
  | t => t

/-- The name in a declarator, if there is one, declarator.c:833-838. -/
def optName : List Tok → Option String × List Tok
  | .ident x :: r => (some x, r)
  | ts => (none, ts)

/-- One parameter, declarator.c:685-709. -/
def parm (a : Sc) (ts : List Tok) : Except SErr ((CTy × Option String) × List Tok) := do
  let (t, ts) ← declspec a ts
  let (u, r) ← dims (ptrs (stars ts).1 t) (optName (stars ts).2).2
  if u = .void then .error .other else .ok ((adj u, (optName (stars ts).2).1), r)

/-- The loop of func_params, declarator.c:678-711. -/
def parms (a : Sc) : Nat → Bool → List Tok → Except SErr (List (CTy × Option String) × List Tok)
  | 0, _, _ => .error .fuel
  | n + 1, first, ts =>
    match ts with
    | .p .rpar :: r => .ok ([], r)
    | ts => do
      let ts ← if first then .ok ts else skip ts (.p .comma)
      let (p, ts) ← parm a ts
      let (ps, ts) ← parms a n false ts
      .ok (p :: ps, ts)

/-- `void )`, declarator.c:669-672. -/
def isVoid : List Tok → Option (List Tok)
  | .kw s :: .p .rpar :: r => if s = "void" then some r else none
  | _ => none

/-- func_params, declarator.c:667-718, after the parenthesis. -/
def funcParams (a : Sc) (ts : List Tok) : Except SErr (List (CTy × Option String) × List Tok) :=
  match isVoid ts with
  | some r => .ok ([], r)
  | none => parms a (ts.length + 1) true ts

/-! ### Functions -/

/-- The numbers of variables. -/
def num (n : Nat) : Int := n

def tys (ps : List (CTy × Option String)) : List CTy := ps.map (·.1)

/-- create_param_lvars, parser/parser.c:1390-1400; `none`: the diagnostic for a missing name. -/
def parmVars (a : Sc) : List (CTy × Option String) → Option Sc
  | [] => some a
  | (t, x) :: r => do
    let a ← parmVars a r
    let x ← x
    some (a.newVar num x t)

/-- The scopes in which the body is read, parser/parser.c:1475-1507: parameters, `__alloca_size__`, `__func__` and `__FUNCTION__`. The literals of the latter have
labels `.L..N` in the compiler. -/
def bodySc (a : Sc) (f : String) (ps : List (CTy × Option String)) : Option Sc := do
  let a ← parmVars { a.enter with next := 0 } ps
  let a := a.newVar num "__alloca_size__" (.ptr (.char false))
  let a := a.push "__func__" (.var (.arr (.char false) (f.utf8ByteSize + 1)) (.glob (f ++ ".__func__")))
  some (a.push "__FUNCTION__" (.var (.arr (.char false) (f.utf8ByteSize + 1)) (.glob (f ++ ".__FUNCTION__"))))

/-- What has been read: scopes, function definitions (latest first), names of functions in the order of their first declarations (latest first), as in the list
of globals. -/
structure USt where
  sc : Sc
  defs : List Def
  order : List String

/-- find_func, parser/scope.c:69-82, where there is only the outermost scope: the type with which the function is known. -/
def known (a : Sc) (f : String) : Option (CTy × List CTy) :=
  match a.find f with
  | some (.func r ps) => some (r, ps)
  | _ => none

/-- The first part of function, parser/parser.c:1450-1461: a function not known yet becomes a global; the type of its result. -/
def declareT (st : USt) (f : String) (t : CTy) (ps : List CTy) : CTy × USt :=
  match known st.sc f with
  | some (rt, _) => (rt, st)
  | none => (t, { st with sc := st.sc.push f (.func t ps), order := f :: st.order })

/-- function, parser/parser.c:1439-1512, from the name on; `t` is the type of the result. A known function keeps its type, and the type of the result used in the
body is that one (parser/parser.c:1149-1152). The count of variables begins again in each function (init_locals, parser/scope.c). -/
noncomputable def functionT (val : Sc → Tree TN → Option Int) (n : Nat) (st : USt) (t : CTy) (f : String) (ts : List Tok) : Except SErr (USt × List Tok) := do
  let (ps, ts) ← funcParams st.sc ts
  let (rt, st) := declareT st f t (tys ps)
  match ts with
  | .p .semi :: r => .ok (st, r)
  | .p .lbrace :: r =>
    if st.defs.any (·.name = f) then .error .other
    else
      match bodySc st.sc f ps with
      | none => .error .ident
      | some a => do
        let (s, b, r) ← Stx.stmt (parser num val) n a (.p .lbrace :: r)
        match body s with
        | none => .error .other
        | some x => .ok ({ st with sc := { b.leave with next := 0 }, defs := ⟨f, rt, tys ps, x⟩ :: st.defs }, r)
  | _ => .error .skip

/-- global_variable, parser/parser.c:1514-1544, without initialisers. -/
def globalsT (t : CTy) : Nat → Bool → Sc → List Tok → Except SErr (Sc × List Tok)
  | 0, _, _, _ => .error .fuel
  | n + 1, first, a, ts =>
    match ts with
    | .p .semi :: r => .ok (a, r)
    | ts => do
      let ts ← if first then .ok ts else skip ts (.p .comma)
      let (x, u, ts) ← declr t ts
      if u = .void then .error .other else globalsT t n false (a.push x (.var u (.glob x))) ts

/-- is_function, parser/parser.c:1379-1388, for the declarators covered: name and tokens after the parenthesis. -/
def isFunction (ts : List Tok) : Option (String × List Tok) :=
  match (stars ts).2 with
  | .ident x :: .p .lpar :: r => some (x, r)
  | _ => none

/-- A declaration of file scope that is not a typedef, parser/parser.c:1609-1617. -/
noncomputable def extT (val : Sc → Tree TN → Option Int) (n : Nat) (st : USt) (ts : List Tok) : Except SErr (USt × List Tok) := do
  let (t, a, ts) ← specT val st.sc ts
  let st := { st with sc := a }
  match isFunction ts with
  | some (f, r) => functionT val n st (ptrs (stars ts).1 t) f r
  | none => do
    let (a, r) ← globalsT t (ts.length + 1) true st.sc ts
    .ok ({ st with sc := a }, r)

/-- One round of the loop of parser, parser/parser.c:1598-1617. -/
noncomputable def itemT (val : Sc → Tree TN → Option Int) (n : Nat) (st : USt) (ts : List Tok) : Except SErr (USt × List Tok) :=
  match ts with
  | .kw s :: r =>
    if s = "typedef" then do
      let (t, a, r) ← specT val st.sc r
      let (_, a, r) ← typedefLoop t (r.length + 1) true a r
      .ok ({ st with sc := a }, r)
    else extT val n st ts
  | ts => extT val n st ts

/-- parser, parser/parser.c:1592-1625; `n` bounds the declarations and the recursion of the parser of statements. -/
noncomputable def unitT (val : Sc → Tree TN → Option Int) (m : Nat) : Nat → USt → List Tok → Except SErr USt
  | 0, _, _ => .error .fuel
  | n + 1, st, ts =>
    match ts with
    | [] => .ok st
    | ts => do
      let (st, ts) ← itemT val m st ts
      unitT val m n st ts

/-- The scopes at the beginning: those of declare_builtin_functions, declarator.c:992-1002, are not modelled. -/
def start : USt := ⟨⟨[[]], 0, [[]]⟩, [], []⟩

/-- The functions to be emitted, in order: all, since none is static (mark_live, parser/parser.c:1425-1437, 1618-1620), in the order of the list of globals
(emit_text, codegen.c:2012-2017). -/
def emitted (order : List String) (ps : List (Whole.Func × Stm.Stmt)) : List (Whole.Func × Stm.Stmt) :=
  order.filterMap fun f => ps.find? (fun p => p.1.name == f)

/-- A file from its tokens to the text section: parser and codegen. -/
noncomputable def compileUnit (val : Sc → Tree TN → Option Int) (n : Nat) (ts : List Tok) : Option (List Instr) := do
  let st ← (unitT val n n start ts).toOption
  let U ← st.defs.reverse.mapM Def.fn
  let Fs ← U.mapM XFunc.low
  let (ps, _) ← Whole.parseFns 0 Fs
  let (P, _) ← Whole.emitFns (emitted st.order ps) ⟨0, 0⟩
  some P

end Toycc.Src
