import Verif.Init.Global
import Verif.Util.Props
/-!
What codegen prints for the objects and functions of a translation unit, line by line (codegen.c:1891-1952, 2010-2029, 2196-2209), and how global_variable
(parser/parser.c:1514-1544) makes the objects from declarations. The instructions of a function are given (they are the subject of other properties).
-/
namespace Toycc.Asm
open Toycc.Init (Item Reloc emit)

/-- The sections named by emit_data and emit_text. -/
inductive Sec where
  | text | data | bss | tdata | tbss
  deriving DecidableEq, Repr

/-- The lines printed. `.file` and `.loc` lines and comments are left out. -/
inductive Line where
  | loc (s : String)
  | glob (s : String)
  | comm (s : String) (size align : Int)
  | sect (s : Sec)
  | typ (s : String) (fn : Bool)
  | size (s : String) (n : Int)
  | align (k : Nat)
  | label (s : String)
  | item (i : Item)
  | zero (n : Int)
  | code (bs : List (BitVec 8))

/-- struct Obj, toycc.h:276-311, for globals. `init` is `init_data` (as a buffer) with `rel`; `code` stands for the machine code of the body of a function. -/
structure Obj where
  name : String
  isFn : Bool := false
  isDef : Bool := true
  isStatic : Bool := true
  tentative : Bool := false
  tls : Bool := false
  live : Bool := false
  size : Int := 0
  align : Int := 1
  init : Option ((Nat → BitVec 8) × List Reloc) := none
  code : List (BitVec 8) := []

/-- `.local` or `.global`, codegen.c:1897-1900, 2024-2027. -/
def bind (o : Obj) : Line := if o.isStatic then .loc o.name else .glob o.name

/-- One round of the loop of emit_data, codegen.c:1893-1951. `none`: llog2 reports an error. -/
def objLines (fcommon : Bool) (o : Obj) : Option (List Line) :=
  if o.isFn || !o.isDef then some []
  else if fcommon && o.tentative then some [bind o, .comm o.name o.size o.align]
  else
    match Util.llog2 o.align with
    | none => none
    | some k =>
      match o.init with
      | some (buf, rels) =>
        some ([bind o, .sect (if o.tls then .tdata else .data), .typ o.name false, .size o.name o.size, .align k, .label o.name] ++
          (emit o.size.toNat buf rels 0).map .item)
      | none => some [bind o, .sect (if o.tls then .tbss else .bss), .align k, .label o.name, .zero o.size]

/-- emit_data, codegen.c:1891-1952. -/
def emitData (fcommon : Bool) (objs : List Obj) : Option (List Line) := (objs.mapM (objLines fcommon)).map List.flatten

/-- One round of the loop of emit_text, codegen.c:2012-2028 and what follows. -/
def fnLines (o : Obj) : List Line :=
  if o.isFn && o.isDef && o.live then [.sect .text, .typ o.name true, bind o, .label o.name, .code o.code] else []

/-- codegen, codegen.c:2196-2209. -/
def codegen (fcommon : Bool) (objs : List Obj) : Option (List Line) :=
  (emitData fcommon objs).map fun l => l ++ objs.flatMap fnLines

/-! ### Declarations of file scope -/

/-- struct VarAttr, declarator.h, as far as objects of file scope are concerned; declspec accepts at most one of static and extern. -/
structure Attr where
  isStatic : Bool := false
  isExtern : Bool := false
  tls : Bool := false
  align : Int := 0

/-- One round of the loop of global_variable, parser/parser.c:1518-1542, with new_gvar, parser/scope.c:129-139: the object made for a declarator of a type with
size `size` and alignment `al`; `init` is the result of gvar_initializer, if there is an initialiser. -/
def globalVariable (attr : Attr) (name : String) (size al : Int) (init : Option ((Nat → BitVec 8) × List Reloc)) : Obj :=
  { name := name, size := size, align := if attr.align ≠ 0 then attr.align else al,
    isDef := !attr.isExtern, isStatic := attr.isStatic, tls := attr.tls, init := init,
    tentative := init.isNone && !attr.isExtern && !attr.tls }

end Toycc.Asm
