import Verif.HashMap.Model
/-!
Model of scopes (parser/scope.c) and of the places where the parser opens and closes them, enters names in them and looks names up.

A translation unit is reduced to the sequence of what concerns names: uses, declarations, tags, blocks, parameter lists, ... in the order in which
the parser meets them (types, expressions and values are left out). Declarations of objects, typedef names and enumeration constants carry
an arbitrary number that identifies them. A struct or union type is identified by its address: a counter stands for calloc.
-/
namespace Toycc.Scope
open Toycc.HashMap (Key Map)

/-- What an identifier of the ordinary name space stands for. -/
inductive Ident where
  /-- object, typedef name or enumeration constant -/
  | obj (id : Nat)
  /-- function; all declarations of a function denote the symbol of that name -/
  | fn
  /-- `__func__` and the like, declared by the compiler in every function -/
  | impl (name : Key)
  deriving DecidableEq, Repr

/-- struct Scope, scope.h. The values of `vars` are pointers to fresh `struct VarScope`; they are represented by what they describe. -/
structure Scope where
  vars : Map Ident
  tags : Map Nat

inductive SErr where
  /-- the hash table aborts -/
  | map (e : HashMap.Fail)
  /-- null pointer: leave_scope at file scope -/
  | null
  deriving DecidableEq, Repr

/-- hashmap_get/hashmap_get2 -/
def mget {V : Type} (m : Map V) (k : Key) : Except SErr (Option V) := (HashMap.get m k).mapError SErr.map
/-- hashmap_put/hashmap_put2 -/
def mput {V : Type} (m : Map V) (k : Key) (v : V) : Except SErr (Map V) := (HashMap.put m k v).mapError SErr.map

/-- enter_scope, scope.c:35-41 -/
def enterScope (s : List Scope) : List Scope := ⟨Map.new, Map.new⟩ :: s

/-- leave_scope, scope.c:43-46 -/
def leaveScope : List Scope → Except SErr (List Scope)
  | [] => .error .null
  | _ :: s => .ok s

/-- find_var, scope.c:48-57 -/
def findVar : List Scope → Key → Except SErr (Option Ident)
  | [], _ => .ok none
  | sc :: s, x => do
    match ← mget sc.vars x with
    | some v => .ok (some v)
    | none => findVar s x

/-- find_tag, scope.c:59-67 -/
def findTag : List Scope → Key → Except SErr (Option Nat)
  | [], _ => .ok none
  | sc :: s, x => do
    match ← mget sc.tags x with
    | some v => .ok (some v)
    | none => findTag s x

/-- find_func, scope.c:69-82: is the name bound to a function in the outermost scope? -/
def findFunc : List Scope → Key → Except SErr Bool
  | [], _ => .error .null
  | [sc], x => do
    match ← mget sc.vars x with
    | some .fn => .ok true
    | _ => .ok false
  | _ :: sc :: s, x => findFunc (sc :: s) x

/-- push_scope, scope.c:98-104 -/
def pushScope : List Scope → Key → Ident → Except SErr (List Scope)
  | [], _, _ => .error .null
  | sc :: s, x, v => do
    let m ← mput sc.vars x v
    .ok ({ sc with vars := m } :: s)

/-- push_tag_scope, scope.c:93-96 -/
def pushTag : List Scope → Key → Nat → Except SErr (List Scope)
  | [], _, _ => .error .null
  | sc :: s, x, v => do
    let m ← mput sc.tags x v
    .ok ({ sc with tags := m } :: s)

/-- overwrite_tag, scope.c:84-91: the type found in the current scope (whose contents are replaced). -/
def overwriteTag : List Scope → Key → Except SErr (Option Nat)
  | [], _ => .error .null
  | sc :: _, x => mget sc.tags x

mutual
/-- What the parser meets. -/
inductive Item where
  /-- an identifier in an expression or the name of a type -/
  | use (x : Key)
  /-- the end of the declarator (before the initialiser) of an object or typedef name, or an enumeration constant -/
  | decl (x : Key) (id : Nat)
  /-- a variable the parser makes up: its name is empty or starts with a dot -/
  | temp (x : Key)
  /-- the end of the declarator of a function that is only declared -/
  | fdecl (x : Key)
  /-- the end of the declarator of a function, its parameters and its body -/
  | fdef (x : Key) (params : List (Key × Nat)) (variadic : Bool) (body : Items)
  /-- the name of a parameter in a parameter list -/
  | param (x : Key) (id : Nat)
  /-- a parameter list -/
  | proto (body : Items)
  /-- `struct x` or `union x` not followed by `{` or `;` -/
  | tagRef (x : Key)
  /-- `struct x;` -/
  | tagFwd (x : Key)
  /-- `struct x { ... }` -/
  | tagDef (x : Option Key) (body : Items)
  /-- `enum x` not followed by `{` -/
  | enumRef (x : Key)
  /-- `enum x { ... }` -/
  | enumDef (x : Option Key) (body : Items)
  /-- `{ ... }`, also in a statement expression -/
  | block (body : Items)
  /-- `for (...) ...` -/
  | forS (body : Items)
  /-- `if`, `switch`, `while`, `do` statements -/
  | sel (body : Items)
inductive Items where
  | nil
  | cons (i : Item) (r : Items)
end

/-- What a use of a name was resolved to. -/
inductive Res where
  | var (i : Option Ident)
  | tag (t : Option Nat)
  deriving DecidableEq, Repr

/-- The scopes, the number of types allocated, and the uses resolved so far. -/
structure St where
  scopes : List Scope
  next : Nat
  log : List Res

/-- Initially: the file scope, scope.c:33. -/
def St.init : St := ⟨[⟨Map.new, Map.new⟩], 0, []⟩

/-- Several push_scope in a row. -/
def pushAll : List Scope → List (Key × Ident) → Except SErr (List Scope)
  | s, [] => .ok s
  | s, (x, v) :: r => do pushAll (← pushScope s x v) r

def key (s : String) : Key := s.toList.map fun c => c.toNat.toUInt8

/-- The names declared by the compiler in every function, parser.c:1488-1504. -/
def implNames (variadic : Bool) : List (Key × Ident) :=
  (if variadic then [(key "__va_area__", .impl (key "__va_area__"))] else []) ++
  [(key "__alloca_size__", .impl (key "__alloca_size__")), (key "__func__", .impl (key "__func__")),
   (key "__FUNCTION__", .impl (key "__FUNCTION__"))]

/-- The part of function(), parser.c:1446-1467, that concerns names: the function is entered in the current scope unless the outermost scope has
a function of that name. -/
def declFunc (s : List Scope) (x : Key) : Except SErr (List Scope) := do
  if ← findFunc s x then .ok s else pushScope s x .fn

/-- struct_union_decl, declarator.c:133-145: a tag not followed by `{`. -/
def refTag (st : St) (x : Key) : Except SErr St := do
  match ← findTag st.scopes x with
  | some t => .ok { st with next := st.next + 1, log := st.log ++ [.tag (some t)] }
  | none => do
    let s ← pushTag st.scopes x st.next
    .ok { scopes := s, next := st.next + 1, log := st.log ++ [.tag (some st.next)] }

mutual
/-- The effect of one item on the scopes. -/
def item : Item → St → Except SErr St
  /- primary, parser.c:255-280, and find_typedef, declarator.c:351-360. Simplification: an undeclared identifier is recorded instead of reported. -/
  | .use x, st => do
    let v ← findVar st.scopes x
    .ok { st with log := st.log ++ [.var v] }
  /- declaration, declarator.c:936, 947 (new_lvar) and 914-915 (static), global_variable, parser.c:1528, parse_typedef, declarator.c:985,
  enum_specifier, declarator.c:289-291 -/
  | .decl x id, st => do
    let s ← pushScope st.scopes x (.obj id)
    .ok { st with scopes := s }
  /- new_lvar(""), new_anon_gvar -/
  | .temp x, st => do
    let s ← pushScope st.scopes x (.impl x)
    .ok { st with scopes := s }
  /- function, parser.c:1446-1471 -/
  | .fdecl x, st => do
    let s ← declFunc st.scopes x
    .ok { st with scopes := s }
  /- function, parser.c:1446-1508; create_param_lvars, parser.c:1390-1400, enters the last parameter first -/
  | .fdef x ps variadic body, st => do
    let s ← declFunc st.scopes x
    let s ← pushAll (enterScope s) (ps.reverse.map fun p => (p.1, .obj p.2))
    let s ← pushAll s (implNames variadic)
    let st ← items body { st with scopes := enterScope s }
    let s ← leaveScope st.scopes
    let s ← leaveScope s
    .ok { st with scopes := s }
  /- func_params, declarator.c:667-718: names of parameters are kept in the type, in no scope -/
  | .param _ _, st => .ok st
  | .proto body, st => items body st
  | .tagRef x, st => refTag st x
  | .tagFwd x, st => refTag st x
  /- struct_union_decl, declarator.c:147-166 -/
  | .tagDef x body, st => do
    let addr := st.next
    let st ← items body { st with next := st.next + 1 }
    match x with
    | none => .ok st
    | some x => do
      match ← overwriteTag st.scopes x with
      | some t => .ok { st with log := st.log ++ [.tag (some t)] }
      | none => do
        let s ← pushTag st.scopes x addr
        .ok { st with scopes := s, log := st.log ++ [.tag (some addr)] }
  /- enum_specifier, declarator.c:262-271. Simplification: an unknown tag is recorded instead of reported; the check that the tag is that of an
  enumeration is left out. -/
  | .enumRef x, st => do
    let t ← findTag st.scopes x
    .ok { st with log := st.log ++ [.tag t] }
  /- enum_specifier, declarator.c:273-297 -/
  | .enumDef x body, st => do
    let addr := st.next
    let st ← items body { st with next := st.next + 1 }
    match x with
    | none => .ok st
    | some x => do
      let s ← pushTag st.scopes x addr
      .ok { st with scopes := s, log := st.log ++ [.tag (some addr)] }
  /- compound_stmt, parser.c:1547-1589 -/
  | .block body, st => do
    let st ← items body { st with scopes := enterScope st.scopes }
    let s ← leaveScope st.scopes
    .ok { st with scopes := s }
  /- stmt, parser.c:1236-1271 -/
  | .forS body, st => do
    let st ← items body { st with scopes := enterScope st.scopes }
    let s ← leaveScope st.scopes
    .ok { st with scopes := s }
  /- stmt, parser.c:1157-1195, 1273-1322: no scope is opened -/
  | .sel body, st => items body st
/-- Items in order. -/
def items : Items → St → Except SErr St
  | .nil, st => .ok st
  | .cons i r, st => do items r (← item i st)
end

/-- A translation unit. Simplification: the built-in `alloca` (declare_builtin_functions) is left out. -/
def unit (is : Items) : Except SErr (List Res) := do
  let st ← items is St.init
  .ok st.log

end Toycc.Scope
