import Verif.Basic

/-
The memory allocator and the output string, zzzjson.h:430-612, at the level of
machine addresses and 32-bit sizes. `Verif/Heap.lean` uses a more abstract view of
the same functions (fresh blocks, sizes without bound); this module models the
arithmetic.

Addresses are natural numbers below 2^64, `0` is the null pointer. The memory
obtained from `malloc` is a list of live blocks. Structs are kept in one map per
struct type, keyed by their address; bytes in another map. A write of bytes over a
struct destroys the struct. The layout is the one of a 64-bit machine:
`sizeof(struct zj_aNode) = 24`, `sizeof(zj_Allocator) = 16`,
`sizeof(struct zj_string) = 24`. Alignment is not checked by the accesses.
-/

namespace ZJ.Alloc

/-- Conversion to `zj_Size`, i.e. `uint32_t` (zzzjson.h:36-38). -/
def w32 (n : Nat) : Nat := n % 4294967296

/-- A range of addresses: first address, number of bytes. -/
abbrev Block := Nat × Nat

/-- zzzjson.h:431-440 `struct zj_aNode`. -/
structure ANode where
  data : Nat
  sizeOf : Nat
  pos : Nat
  next : Nat
deriving DecidableEq, Repr

/-- zzzjson.h:444-478 `struct zj_Allocator` (the fields). -/
structure Alc where
  root : Nat
  end_ : Nat
deriving DecidableEq, Repr

/-- zzzjson.h:547-556 `struct zj_string`. -/
structure SStr where
  data : Nat
  pos : Nat
  sizeOf : Nat
  a : Nat
deriving DecidableEq, Repr

/-- The memory of the program. -/
structure Mem where
  /-- blocks obtained from `malloc` and not freed -/
  live : List Block
  /-- structs, by address -/
  an : Nat → Option ANode
  al : Nat → Option Alc
  ss : Nat → Option SStr
  /-- bytes that were written -/
  bytes : Nat → Option Byte
  /-- number of calls of `malloc` so far; `AllocMemoryCount` of zzzjson.h:87 without wrap-around -/
  calls : Nat
  /-- number of calls of `free` so far; `FreeMemoryCount` of zzzjson.h:87 without wrap-around -/
  frees : Nat

/-- The memory at the start of the program. -/
def Mem.init : Mem where
  live := []
  an := fun _ => none
  al := fun _ => none
  ss := fun _ => none
  bytes := fun _ => none
  calls := 0
  frees := 0

/-- The C library's `malloc` is an unknown: given the number of the call, the live
blocks and the size it returns an address or fails. -/
abbrev Env := Nat → List Block → Nat → Option Nat

/-- `[p, p+n)` lies in a live block. -/
def inLive (m : Mem) (p n : Nat) : Bool :=
  m.live.any fun b => decide (b.1 ≤ p) && decide (p + n ≤ b.1 + b.2)

/-- `[q, q+k)` and `[p, p+n)` have an address in common. -/
def hits (q k p n : Nat) : Bool := decide (q < p + n) && decide (p < q + k)

/-- Forget every struct and byte in `[p, p+n)`. -/
def Mem.wipe (m : Mem) (p n : Nat) : Mem :=
  { m with
    an := fun q => if hits q 24 p n then none else m.an q
    al := fun q => if hits q 16 p n then none else m.al q
    ss := fun q => if hits q 24 p n then none else m.ss q
    bytes := fun q => if hits q 1 p n then none else m.bytes q }

/-- zzzjson.h:80 `zj_new` (zzzjson.h:88-90 with the counters): the parameter is a `zj_Size`, so the size is cut to 32
bits. The new memory is uninitialised. `0` is returned on failure. -/
def zjNew (E : Env) (m : Mem) (size : Nat) : Nat × Mem :=
  match E m.calls m.live (w32 size) with
  | some p => (p, { m.wipe p (w32 size) with live := (p, w32 size) :: m.live, calls := m.calls + 1 })
  | none => (0, { m with calls := m.calls + 1 })

/-- zzzjson.h:81 `zj_free` (zzzjson.h:91 with the counter): only the address of a live block may be freed (or null).
What was in the block is gone. -/
def zjFree (m : Mem) (p : Nat) : Res Mem :=
  if p = 0 then .ok { m with frees := m.frees + 1 }
  else match m.live.find? fun b => b.1 == p with
    | some b => .ok { m.wipe b.1 b.2 with live := m.live.erase b, frees := m.frees + 1 }
    | none => .ub .badFree

/-- Reading a struct. -/
def rdAN (m : Mem) (p : Nat) : Res ANode :=
  if p = 0 then .ub .nullDeref
  else match m.an p with
    | some n => .ok n
    | none => .ub .wild

def rdAl (m : Mem) (p : Nat) : Res Alc :=
  if p = 0 then .ub .nullDeref
  else match m.al p with
    | some n => .ok n
    | none => .ub .wild

def rdStr (m : Mem) (p : Nat) : Res SStr :=
  if p = 0 then .ub .nullDeref
  else match m.ss p with
    | some n => .ok n
    | none => .ub .wild

/-- Writing a whole struct: the place must be in live memory; whatever else was
there is destroyed. -/
def wrAN (m : Mem) (p : Nat) (n : ANode) : Res Mem :=
  if p = 0 then .ub .nullDeref
  else if inLive m p 24 then
    .ok { m.wipe p 24 with an := fun q => if q = p then some n else (m.wipe p 24).an q }
  else .ub .wild

def wrAl (m : Mem) (p : Nat) (n : Alc) : Res Mem :=
  if p = 0 then .ub .nullDeref
  else if inLive m p 16 then
    .ok { m.wipe p 16 with al := fun q => if q = p then some n else (m.wipe p 16).al q }
  else .ub .wild

def wrStr (m : Mem) (p : Nat) (n : SStr) : Res Mem :=
  if p = 0 then .ub .nullDeref
  else if inLive m p 24 then
    .ok { m.wipe p 24 with ss := fun q => if q = p then some n else (m.wipe p 24).ss q }
  else .ub .wild

/-- `memcpy(p, s, s.length)` from bytes given by the caller. -/
def poke (m : Mem) (p : Nat) (s : Bytes) : Res Mem :=
  if s = [] then .ok m
  else if inLive m p s.length then
    .ok { m.wipe p s.length with
      bytes := fun q => if p ≤ q ∧ q < p + s.length then s[q - p]? else m.bytes q }
  else .ub .oob

/-- The `n` bytes from `p` on. -/
def peek (m : Mem) (p n : Nat) : Res Bytes :=
  if n = 0 then .ok []
  else if inLive m p n then
    match (List.range n).mapM fun i => m.bytes (p + i) with
    | some s => .ok s
    | none => .ub .uninit
  else .ub .oob

/-! ### The settings -/

/-- The settings of the allocator, zzzjson.h:50-59: `chunk` is `zj_ALLOCATOR_INIT_MEMSIZE`,
`delta` is `zj_DELTA`. The user can define both before including the header. -/
class Knobs where
  chunk : Nat
  delta : Nat

export Knobs (chunk delta)

/-- The values of zzzjson.h:51 and :57. -/
@[reducible] def Knobs.default : Knobs := ⟨4096, 2⟩

variable [Knobs]

/-! ### The allocator -/

/-- zzzjson.h:481-495 `zj_NewAllocator`: one block for the struct, the first node
and `chunk` bytes of data (zzzjson.h:56-58). -/
def newAllocator (E : Env) (m : Mem) : Res (Nat × Mem) := do
  let (p, m) := zjNew E m (16 + 24 + chunk)
  let m ← wrAl m p ⟨p + 16, p + 16⟩
  let m ← wrAN m (p + 16) ⟨p + 16 + 24, chunk, 0, 0⟩
  pure (p, m)

/-- zzzjson.h:455-464, the C++ constructor, on an object at address `self`. -/
def construct (E : Env) (m : Mem) (self : Nat) : Res Mem := do
  let (p, m) := zjNew E m (24 + chunk)
  let m ← wrAl m self ⟨p, p⟩
  wrAN m p ⟨p + 24, chunk, 0, 0⟩

/-- The loop of zzzjson.h:501-505 and 467-471: frees a chain of nodes. -/
def freeChain : Nat → Mem → Nat → Res Mem
  | 0, _, _ => .timeout
  | fuel + 1, m, next =>
    if next = 0 then .ok m
    else do
      let n ← rdAN m next
      let m ← zjFree m next
      freeChain fuel m n.next

/-- zzzjson.h:498-508 `zj_ReleaseAllocator`. -/
def release (fuel : Nat) (m : Mem) (a : Nat) : Res Mem := do
  let al ← rdAl m a
  let root ← rdAN m al.root
  let m ← freeChain fuel m root.next
  zjFree m a

/-- zzzjson.h:465-472, the C++ destructor. -/
def destruct (fuel : Nat) (m : Mem) (self : Nat) : Res Mem := do
  let al ← rdAl m self
  freeChain fuel m al.root

/-- zzzjson.h:511-524 `zj_allocatorAppendChild`. -/
def appendChild (E : Env) (m : Mem) (a size : Nat) : Res Mem := do
  let (p, m) := zjNew E m (24 + size)
  let m ← wrAN m p ⟨p + 24, size, 0, 0⟩
  let al ← rdAl m a
  let e ← rdAN m al.end_
  let m ← wrAN m al.end_ { e with next := p }
  wrAl m a { al with end_ := p }

/-- zzzjson.h:534-535 `while (size > s) s *= zj_Delta;` on 32 bits. -/
def growTo : Nat → Nat → Nat → Res Nat
  | 0, _, _ => .timeout
  | fuel + 1, s, size => if size > s then growTo fuel (w32 (s * delta)) size else .ok s

/-- zzzjson.h:527-542 `zj_allocatorAlloc`. -/
def alloc (E : Env) (fuel : Nat) (m : Mem) (a size : Nat) : Res (Nat × Mem) := do
  let al ← rdAl m a
  let cur ← rdAN m al.end_
  let (p, m) ← (if w32 (cur.pos + size) > cur.sizeOf then do
      let s ← growTo fuel (w32 (cur.sizeOf * delta)) size
      let m ← appendChild E m a s
      let al ← rdAl m a
      pure (al.end_, m)
    else pure (al.end_, m))
  let cur ← rdAN m p
  let m ← wrAN m p { cur with pos := w32 (cur.pos + size) }
  pure (cur.data + cur.pos, m)

/-! ### The output string -/

/-- zzzjson.h:561-570 `zj_newString`. -/
def newString (E : Env) (fuel : Nat) (m : Mem) (a init : Nat) : Res (Nat × Mem) := do
  let (s, m) ← alloc E fuel m a (w32 (24 + init))
  let m ← wrStr m s ⟨s + 24, 0, init, a⟩
  pure (s, m)

/-- zzzjson.h:573 `zj_reset`. -/
def reset (m : Mem) (s : Nat) : Res Mem := do
  let z ← rdStr m s
  wrStr m s { z with pos := 0 }

/-- Lines 584-587 and 598-601: a new data area of `ns` bytes, and the old content
copied into it. -/
def regrow (E : Env) (fuel : Nat) (m : Mem) (s ns : Nat) : Res Mem := do
  let z ← rdStr m s
  let (d, m) ← alloc E fuel m z.a ns
  let z ← rdStr m s
  let old ← peek m z.data z.pos
  let m ← wrStr m s { z with data := d, sizeOf := ns }
  poke m d old

/-- zzzjson.h:576-590 `zj_appendStr`, the source given as bytes. -/
def appendStr (E : Env) (fuel : Nat) (m : Mem) (s : Nat) (src : Bytes) : Res Mem := do
  let z ← rdStr m s
  let m ← (if w32 (z.pos + src.length) > z.sizeOf then do
      let ns ← growTo fuel (w32 (z.sizeOf * delta)) (w32 (z.pos + src.length))
      regrow E fuel m s ns
    else pure m)
  let z ← rdStr m s
  let m ← poke m (z.data + z.pos) src
  wrStr m s { z with pos := w32 (z.pos + src.length) }

/-- zzzjson.h:593-604 `zj_appendChar`. -/
def appendChar (E : Env) (fuel : Nat) (m : Mem) (s : Nat) (c : Byte) : Res Mem := do
  let z ← rdStr m s
  let m ← (if w32 (z.pos + 1) > z.sizeOf then regrow E fuel m s (w32 (z.sizeOf * delta))
    else pure m)
  let z ← rdStr m s
  let m ← poke m (z.data + z.pos) [c]
  wrStr m s { z with pos := w32 (z.pos + 1) }

end ZJ.Alloc
