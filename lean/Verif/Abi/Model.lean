/-!
What a compiled function does to the registers its caller relies on: prologue and epilogue of emit_text (codegen.c:2031-2187), and calls between functions.
The code between prologue and epilogue is any sequence of pieces of straight code, calls of compiled functions and calls of functions compiled elsewhere.
Simplified: addresses are integers without wrap-around, memory consists of doublewords, and the sequence is that of one execution. The registers s1-s11 occur nowhere in codegen.c.
-/
namespace Toycc.Abi

/-- `fs`, `ft`: the registers fs0-fs11 and ft0-ft11. -/
structure St where
  sp : Int
  fp : Int
  ra : Int
  fs : Nat → Int
  ft : Nat → Int
  mem : Int → Int

inductive Reg where
  | ra | fp
  deriving DecidableEq

inductive Instr where
  | addSp (k : Int)
  | push (r : Reg)
  | pop (r : Reg)
  | mvFpSp
  | mvSpFp
  | save (i : Nat)       -- fsgnj.d ft, fs, fs
  | restore (i : Nat)    -- fsgnj.d fs, ft, ft
  deriving DecidableEq

def St.get (s : St) : Reg → Int
  | .ra => s.ra
  | .fp => s.fp

def St.set (s : St) : Reg → Int → St
  | .ra, v => { s with ra := v }
  | .fp, v => { s with fp := v }

/-- The instructions, with __push and __pop (codegen.c:72-101). -/
def step (s : St) : Instr → St
  | .addSp k => { s with sp := s.sp + k }
  | .push r => { s with sp := s.sp - 8, mem := fun a => if a = s.sp - 8 then s.get r else s.mem a }
  | .pop r => { s.set r (s.mem s.sp) with sp := s.sp + 8 }
  | .mvFpSp => { s with fp := s.sp }
  | .mvSpFp => { s with sp := s.fp }
  | .save i => { s with ft := fun j => if j = i then s.fs i else s.ft j }
  | .restore i => { s with fs := fun j => if j = i then s.ft i else s.fs j }

def exec (s : St) (c : List Instr) : St := c.foldl step s

/-- codegen.c:2034-2075 (pushes and saves at 2065-2075); `va` is va_size. -/
def prologue (va : Nat) : List Instr := (if va = 0 then [] else [.addSp (-va)]) ++ [.push .ra, .push .fp, .mvFpSp] ++ (List.range 12).map .save

/-- codegen.c:2166-2187, up to `ret`. -/
def epilogue (va : Nat) : List Instr := (List.range 12).map .restore ++ [.mvSpFp, .pop .fp, .pop .ra] ++ (if va = 0 then [] else [.addSp va])

mutual
/-- An activation of a compiled function. -/
inductive Fn where
  | mk (va : Nat) (body : Body)
/-- What happens between prologue and epilogue: `code`, instructions without calls; `call`, a call of a compiled function from the place `site`; `lib`, of another function. -/
inductive Body where
  | nil
  | code (g : St → St) (r : Body)
  | call (site : Int) (f : Fn) (r : Body)
  | lib (site : Int) (g : St → St) (r : Body)
end

mutual
/-- The state when the activation has reached `ret`. `none`: some call did not return to its place. -/
def run : Fn → St → Option St
  | .mk va b, s => (runBody b (exec s (prologue va))).map (exec · (epilogue va))
def runBody : Body → St → Option St
  | .nil, s => some s
  | .code g r, s => runBody r (g s)
  | .call site f r, s => match run f { s with ra := site } with
    | none => none
    | some s1 => if s1.ra = site then runBody r s1 else none
  | .lib site g r, s => if (g { s with ra := site }).ra = site then runBody r (g { s with ra := site }) else none
end

end Toycc.Abi
