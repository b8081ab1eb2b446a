/-!
Long double expressions: the register stack fs0-fs11 of codegen.c and the calls of the soft-float routines.
-/
namespace Toycc.Ld

abbrev W := BitVec 64

/-- A long double: low and high half. -/
structure LD where
  lo : W
  hi : W
  deriving DecidableEq, Repr

inductive Arith where
  | add | sub | mul | div
  deriving DecidableEq, Repr

inductive Rel where
  | eq | ne | lt | le
  deriving DecidableEq, Repr

/-- The routines of libgcc that are called: conversions from integers (I32F128, I64F128, U32F128, U64F128,
codegen.c:514-528), arithmetic (1459-1480), comparisons (1481-1496), the test of cmp_zero (626-633), conversions to
integers (codegen.c:551-559). -/
inductive Routine where
  | floatsi | floatdi | floatunsi | floatundi
  | arith (o : Arith)
  | rel (o : Rel)
  | fixsi | fixdi | fixunssi | fixunsdi
  deriving DecidableEq, Repr

/-- Which conversion a cast from (to) an integer type uses. -/
inductive IntTy where
  | i32 | i64 | u32 | u64
  deriving DecidableEq, Repr

/-- Rows i32, i64, u32, u64 of cast_matrix, column f128, codegen.c:570-586. -/
def IntTy.float : IntTy → Routine
  | .i32 => .floatsi
  | .i64 => .floatdi
  | .u32 => .floatunsi
  | .u64 => .floatundi

/-- Row f128 of cast_matrix, columns i32, i64, u32, u64, codegen.c:585. -/
def IntTy.fix : IntTy → Routine
  | .i32 => .fixsi
  | .i64 => .fixdi
  | .u32 => .fixunssi
  | .u64 => .fixunsdi

mutual
/-- An expression of type long double. Simplified: variables are at a known address; integer operands are constants or
come from long doubles; calls of C functions are not included. -/
inductive LE where
  | lit (v : LD)
  | var (addr : W)
  | ofInt (t : IntTy) (i : IE)
  | neg (e : LE)
  | bin (o : Arith) (l r : LE)
/-- An expression of an integer type that contains long doubles. -/
inductive IE where
  | num (v : W)
  | rel (o : Rel) (l r : LE)
  | toInt (t : IntTy) (e : LE)
  | isZero (e : LE)
end

/-- The instructions emitted. Registers `a0`.. and `fs0`.. by number. `shl63`: `li t0, -1; slli t0, t0, 63`. -/
inductive Instr where
  | li (a : Nat) (v : W)
  | la (addr : W)                    -- the address of a variable into a0
  | fmvDX (fs a : Nat)               -- fmv.d.x fs, a
  | fmvXD (a fs : Nat)               -- fmv.x.d a, fs
  | fld (fs off : Nat)               -- fld fs, off(a0)
  | call (r : Routine)
  | shl63
  | xorT0 (a : Nat)                  -- xor a, a, t0
  | seqz | snez | slti (n : Int)     -- on a0
  | trunc (unsigned : Bool)          -- slli a0, a0, 32; srai or srli a0, a0, 32
  deriving DecidableEq, Repr

/-- The diagnostics of __push_ld and __pop_ld. -/
inductive LErr where
  | tooDeep | empty
  deriving DecidableEq, Repr

abbrev Gen := Except LErr (List Instr × Nat)

/-- __push_ld, codegen.c:118-126: `sp` is ld_sp. -/
def pushLd (sp : Nat) : Gen :=
  if sp + 2 ≥ 12 then .error .tooDeep else .ok ([.fmvDX sp 0, .fmvDX (sp + 1) 1], sp + 2)

/-- __pop_ld, codegen.c:128-136. -/
def popLd (sp : Nat) : Gen :=
  if sp < 2 then .error .empty else .ok ([.fmvXD (sp - 1) (sp - 1), .fmvXD (sp - 2) (sp - 2)], sp - 2)

/-- __load_ld, codegen.c:150-158. -/
def loadLd (sp : Nat) : Gen :=
  if sp + 2 ≥ 12 then .error .tooDeep else .ok ([.fld sp 0, .fld (sp + 1) 8], sp + 2)

/-- Emit one piece after another. -/
def seq (a : Gen) (f : Nat → Gen) : Gen :=
  match a with
  | .error e => .error e
  | .ok (c, sp) => match f sp with
    | .error e => .error e
    | .ok (c', sp') => .ok (c ++ c', sp')

def emit (c : List Instr) (sp : Nat) : Gen := .ok (c, sp)

/-- What follows the call of a comparison, codegen.c:1483-1496. -/
def Rel.post : Rel → Instr
  | .eq => .seqz
  | .ne => .snez
  | .lt => .slti 0
  | .le => .slti 1

/-- What follows the call of a conversion to an integer, codegen.c:551-559: TOI32, TOU32 or nothing. -/
def IntTy.post : IntTy → List Instr
  | .i32 => [.trunc false]
  | .u32 => [.trunc true]
  | _ => []

mutual
/-- gen_expr on a long double, codegen.c:964-1499; `sp` is ld_sp. Literals 1004-1010, negation 1029-1034, variables
(gen_addr and load, 1047-1050 and 397-399), casts (588-612), binary operators (1450-1480). -/
def gen : LE → Nat → Gen
  | .lit v, sp => seq (emit [.li 0 v.lo, .li 1 v.hi] sp) pushLd
  | .var a, sp => seq (emit [.la a] sp) loadLd
  | .ofInt t i, sp => seq (genI i sp) fun sp => seq (emit [.call t.float] sp) pushLd
  | .neg e, sp => seq (gen e sp) fun sp => emit [.shl63, .xorT0 (sp + 1)] sp
  | .bin o l r, sp => seq (gen l sp) fun sp => seq (gen r sp) fun sp => seq (popLd sp) fun sp => seq (popLd sp) fun sp =>
      seq (emit [.call (.arith o)] sp) pushLd
/-- gen_expr on an integer expression: constants 1012-1014, comparisons 1450-1497, casts 588-612, `!` 1166-1169 with
cmp_zero 626-633. -/
def genI : IE → Nat → Gen
  | .num v, sp => emit [.li 0 v] sp
  | .rel o l r, sp => seq (gen l sp) fun sp => seq (gen r sp) fun sp => seq (popLd sp) fun sp => seq (popLd sp) fun sp =>
      emit [.call (.rel o), o.post] sp
  | .toInt t e, sp => seq (gen e sp) fun sp => seq (popLd sp) fun sp => emit (.call t.fix :: t.post) sp
  | .isZero e, sp => seq (gen e sp) fun sp => seq (popLd sp) fun sp => emit [.li 2 0, .li 3 0, .call (.rel .ne), .seqz] sp
end

/-- A call as the routine sees it: the argument registers a0-a3. -/
structure Call where
  routine : Routine
  a0 : W
  a1 : W
  a2 : W
  a3 : W
  deriving DecidableEq, Repr

/-- Registers, the doublewords in memory, and the calls made so far. -/
structure State where
  a : Nat → W
  fs : Nat → W
  t0 : W
  mem : W → W
  log : List Call

/-- The routines: what a call returns in a0 and a1, and what it leaves in the other argument registers. They keep
the fs registers (callee-saved in the ABI). -/
structure Lib where
  ret : Call → W × W
  junk : Call → Nat → W

/-- One instruction. -/
def step (L : Lib) (s : State) : Instr → State
  | .li i v => { s with a := fun j => if j = i then v else s.a j }
  | .la v => { s with a := fun j => if j = 0 then v else s.a j }
  | .fmvDX f i => { s with fs := fun j => if j = f then s.a i else s.fs j }
  | .fmvXD i f => { s with a := fun j => if j = i then s.fs f else s.a j }
  | .fld f off => { s with fs := fun j => if j = f then s.mem (s.a 0 + BitVec.ofNat 64 off) else s.fs j }
  | .call r =>
    let c : Call := ⟨r, s.a 0, s.a 1, s.a 2, s.a 3⟩
    { s with a := fun j => if j = 0 then (L.ret c).1 else if j = 1 then (L.ret c).2 else L.junk c j
             t0 := L.junk c 100
             log := s.log ++ [c] }
  | .shl63 => { s with t0 := BitVec.ofInt 64 (-1) <<< 63 }
  | .xorT0 i => { s with a := fun j => if j = i then s.a i ^^^ s.t0 else s.a j }
  | .seqz => { s with a := fun j => if j = 0 then (if s.a 0 = 0 then 1 else 0) else s.a j }
  | .snez => { s with a := fun j => if j = 0 then (if s.a 0 = 0 then 0 else 1) else s.a j }
  | .slti n => { s with a := fun j => if j = 0 then (if (s.a 0).toInt < n then 1 else 0) else s.a j }
  | .trunc u => { s with a := fun j => if j = 0 then (if u then (s.a 0 <<< 32) >>> 32 else (s.a 0 <<< 32).sshiftRight 32) else s.a j }

def exec (L : Lib) (s : State) (c : List Instr) : State := c.foldl (step L) s

end Toycc.Ld
