import Verif.Common
/-
Model of hashmap.c (open-addressing hash table with linear probing and tombstones).

Simplifications: `int` counters (`used`, `capacity`, `nkeys`) are unbounded naturals; keys are byte
lists (the C code stores a pointer and a length; the pointed-to bytes never change afterwards);
a stored value is an arbitrary `V` and "no entry" (NULL result) is `none`.
Failed `assert`, `unreachable()` and an (impossible) out-of-range bucket access are distinct outcomes.
-/
namespace Toycc.HashMap

abbrev Key := List UInt8

/-- A bucket: `key == NULL`, `key == TOMBSTONE`, or a live entry.
hashmap.c:12-13, hashmap.h (struct HashEntry). -/
inductive Slot (V : Type) where
  | empty
  | tomb
  | full (k : Key) (v : V)
  deriving DecidableEq, Repr

/-- Ways in which an operation can abort the compiler. -/
inductive Fail where
  /-- `unreachable()` at hashmap.c:81, 117 -/
  | unreachable
  /-- `assert(map2.used == nkeys)` hashmap.c:61 -/
  | assertUsed
  /-- a rehash inside a rehash; the C code would recurse. Proved impossible. -/
  | nestedRehash
  /-- bucket index out of range (includes a zero capacity). Proved impossible. -/
  | oob
  deriving DecidableEq, Repr

/-- struct HashMap: `buckets == NULL` is the empty list; `capacity` is the length. -/
structure Map (V : Type) where
  buckets : List (Slot V)
  used : Nat
  deriving DecidableEq, Repr

/-- `calloc(1, sizeof(struct HashMap))` / zero-initialised static map. -/
def Map.new {V : Type} : Map V := ⟨[], 0⟩

/-- fnv_hash, hashmap.c:15-26 (unsigned 64-bit arithmetic). -/
def fnvHash64 (s : Key) : UInt64 :=
  s.foldl (fun h c => (h * 0x100000001b3) ^^^ c.toUInt64) 0xcbf29ce484222325

/-- The hash as a number. -/
def fnvHash (s : Key) : Nat := (fnvHash64 s).toNat

/-- Bucket index of probe `i`: `(hash + i) % capacity`, hashmap.c:73, 97.
The C sum wraps at 2^64; since the capacity is always `16 * 2^k` this does not matter
(see `probe_wrap_harmless` in Props). -/
def probe (cap h i : Nat) : Nat := (h + i) % cap

/-- get_entry's loop, hashmap.c:72-81: `n` iterations left, probe number `i`. -/
def findLoop {V : Type} (b : List (Slot V)) (h : Nat) (key : Key) : Nat → Nat → Except Fail (Option Nat)
  | 0, _ => .error .unreachable
  | n + 1, i =>
    match b[probe b.length h i]? with
    | none => .error .oob
    | some (.full k _) =>
        if k = key then .ok (some (probe b.length h i)) else findLoop b h key n (i + 1)
    | some .tomb => findLoop b h key n (i + 1)
    | some .empty => .ok none

/-- get_entry, hashmap.c:65-82: the index of the entry found, if any. -/
def getEntry {V : Type} (m : Map V) (key : Key) : Except Fail (Option Nat) :=
  if m.buckets = [] then .ok none
  else findLoop m.buckets (fnvHash key) key m.buckets.length 0

/-- hashmap_get2 / hashmap_get, hashmap.c:120-124, 139-142. -/
def get {V : Type} (m : Map V) (key : Key) : Except Fail (Option V) :=
  match getEntry m key with
  | .error e => .error e
  | .ok none => .ok none
  | .ok (some j) =>
    match m.buckets[j]? with
    | some (.full _ v) => .ok (some v)
    | _ => .error .oob

/-- hashmap_delete2 / hashmap_delete, hashmap.c:132-137, 149-152. -/
def delete {V : Type} (m : Map V) (key : Key) : Except Fail (Map V) :=
  match getEntry m key with
  | .error e => .error e
  | .ok none => .ok m
  | .ok (some j) => .ok { m with buckets := m.buckets.set j .tomb }

/-- The probing loop of get_or_insert_entry, hashmap.c:96-117: the index to write and whether
`used` is incremented. -/
def insLoop {V : Type} (b : List (Slot V)) (h : Nat) (key : Key) : Nat → Nat → Except Fail (Nat × Bool)
  | 0, _ => .error .unreachable
  | n + 1, i =>
    match b[probe b.length h i]? with
    | none => .error .oob
    | some (.full k _) =>
        if k = key then .ok (probe b.length h i, false) else insLoop b h key n (i + 1)
    | some .tomb => .ok (probe b.length h i, false)
    | some .empty => .ok (probe b.length h i, true)

/-- get_or_insert_entry from line 94 on, followed by `ent->val = val` of hashmap_put2
(hashmap.c:94-117, 128-129). -/
def putRaw {V : Type} (m : Map V) (key : Key) (v : V) : Except Fail (Map V) :=
  match insLoop m.buckets (fnvHash key) key m.buckets.length 0 with
  | .error e => .error e
  | .ok (j, fresh) =>
    .ok { buckets := m.buckets.set j (.full key v), used := if fresh then m.used + 1 else m.used }

/-- "usage exceeds 70%": hashmap.c:90. -/
def overHigh {V : Type} (m : Map V) : Bool := decide (m.used * 100 / m.buckets.length ≥ 70)

/-- Number of live entries, hashmap.c:40-43. -/
def liveCount {V : Type} : List (Slot V) → Nat
  | [] => 0
  | .full _ _ :: r => liveCount r + 1
  | _ :: r => liveCount r

/-- The capacity-doubling loop, hashmap.c:45-47 (`cap > 0` is asserted at 48). -/
def newCap (nkeys cap : Nat) : Nat :=
  if h : cap ≠ 0 ∧ nkeys * 100 / cap ≥ 50 then newCap nkeys (cap * 2) else cap
termination_by nkeys * 100 + 1 - cap
decreasing_by
  have h1 : cap * 50 ≤ nkeys * 100 := by
    have := Nat.mul_le_of_le_div cap 50 (nkeys * 100) h.2
    omega
  omega

/-- One `hashmap_put2(&map2, ...)` of rehash (hashmap.c:58). The watermark test of line 90 is kept;
if it fired the C code would start a nested rehash. -/
def putInRehash {V : Type} (m : Map V) (key : Key) (v : V) : Except Fail (Map V) :=
  if overHigh m then .error .nestedRehash else putRaw m key v

/-- The copying loop, hashmap.c:55-59. -/
def copyLive {V : Type} : List (Slot V) → Map V → Except Fail (Map V)
  | [], m2 => .ok m2
  | .full k v :: r, m2 =>
    match putInRehash m2 k v with
    | .error e => .error e
    | .ok m2' => copyLive r m2'
  | _ :: r, m2 => copyLive r m2

/-- rehash, hashmap.c:37-63. -/
def rehash {V : Type} (m : Map V) : Except Fail (Map V) :=
  let nkeys := liveCount m.buckets
  let cap := newCap nkeys m.buckets.length
  match copyLive m.buckets ⟨List.replicate cap .empty, 0⟩ with
  | .error e => .error e
  | .ok m2 => if m2.used = nkeys then .ok m2 else .error .assertUsed

/-- hashmap_put2 / hashmap_put, hashmap.c:84-93, 126-130, 144-147. -/
def put {V : Type} (m : Map V) (key : Key) (v : V) : Except Fail (Map V) :=
  if m.buckets = [] then putRaw ⟨List.replicate 16 .empty, m.used⟩ key v
  else if overHigh m then
    match rehash m with
    | .error e => .error e
    | .ok m2 => putRaw m2 key v
  else putRaw m key v

/-- A client operation that changes the map. -/
inductive Op (V : Type) where
  | put (k : Key) (v : V)
  | del (k : Key)
  deriving DecidableEq, Repr

def step {V : Type} (m : Map V) : Op V → Except Fail (Map V)
  | .put k v => put m k v
  | .del k => delete m k

/-- A history of operations, from the map `m`. -/
def run {V : Type} (m : Map V) : List (Op V) → Except Fail (Map V)
  | [] => .ok m
  | o :: os =>
    match step m o with
    | .error e => .error e
    | .ok m' => run m' os

end Toycc.HashMap
