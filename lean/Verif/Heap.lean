import Verif.Lex

/-
Memory of the library: tree nodes, handles, byte buffers, output strings.

Simplifications (see DESIGN.md):
* nodes (`struct zj_node`), handles (`zj_Value`) and byte blocks live in three
  separate maps from addresses; an allocation takes the next unused address of
  its map. That distinct allocations do not overlap is proved for the real
  allocator in `Verif/Alloc.lean`; `log` records the sizes requested here so that
  the two models can be connected.
* lengths are natural numbers (uint32_t in the code) and malloc does not fail.
-/

namespace ZJ

/-- Addresses are numbers. -/
macro "Addr" : term => `(Nat)

/-- A static literal (without its NUL), none of which is longer than `false`. -/
structure Lit where
  bytes : Bytes
  short : bytes.length ≤ 5 := by decide
deriving DecidableEq, Repr

/-- A `const char *` into a byte block, or to one of the static literals
`zj_strTrue`, `zj_strFalse`, `zj_strNull` (zzzjson.h:351-353). -/
inductive SPtr where
  | buf (b : Addr) (off : Nat)
  | lit (s : Lit)
deriving DecidableEq, Repr

/-- `p + k` -/
def SPtr.add : SPtr → Nat → SPtr
  | .buf b off, k => .buf b (off + k)
  | .lit s, k => .lit ⟨s.bytes.drop k, by have := s.short; simp; omega⟩

/-- The union `Value` of a node (zzzjson.h:624-629). -/
inductive UVal where
  | node (p : Option Addr)
  | str (p : SPtr)
deriving DecidableEq, Repr

/-- zzzjson.h:40-47 `zj_JSONType`. -/
inductive JType where
  | bool | array | object | string | null | number
deriving DecidableEq, Repr

/-- zzzjson.h:615-642 `struct zj_node`. A field is `none` until it is first
written. A pointer field holds `some none` for the null pointer. `owner` is the
allocator the node came from (not a field of the C struct). -/
structure Node where
  owner : Nat
  type : Option JType := none
  key : Option (Option SPtr) := none
  keyLen : Option Nat := none
  value : Option UVal := none
  len : Option Nat := none
  next : Option (Option Addr) := none
  prev : Option (Option Addr) := none
  father : Option (Option Addr) := none
  end_ : Option (Option Addr) := none
deriving DecidableEq, Repr

/-- zzzjson.h:645-745 `zj_Value`: the handle given to the user. -/
structure Val where
  n : Option Addr
  a : Nat
deriving DecidableEq, Repr

/-- A block of bytes: `size` bytes of which the first `data.length` have been
written. `owner = none`: memory of the caller. `slack` = number of readable bytes
behind the block (rest of the malloc'ed chunk it lies in). -/
structure Buf where
  owner : Option Nat
  size : Nat
  slack : Nat
  data : Bytes
deriving DecidableEq, Repr

/-- zzzjson.h:547-556 `struct zj_string`: `hdr` is the block that holds the struct
itself (and the first data area), `data` the block `Data` points into. -/
structure ZStr where
  a : Nat
  hdr : Addr
  data : Addr
  pos : Nat
  sizeOf : Nat
deriving DecidableEq, Repr

/-- A call of `zj_NewAllocator` that returned allocator `A`, of `zj_allocatorAlloc(A, size)`
or of `zj_ReleaseAllocator(A)`. -/
inductive Ev where
  | new (A : Nat)
  | alloc (A size : Nat)
  | release (A : Nat)
deriving DecidableEq, Repr

/-- The memory settings a program is compiled with (zzzjson.h:49-70): `zj_DELTA`, by which memory
grows, `zj_STRING_INIT_MEMSIZE` and `zj_STRING_CACHE_INIT_MEMSIZE`, the first sizes of output
strings. (`zj_ALLOCATOR_INIT_MEMSIZE` concerns chunks, see `Verif/Alloc.lean`.) The documentation
asks for a `zj_DELTA` above 1 (READMECHN.md:3962). -/
structure Cfg where
  delta : Nat := 2
  str : Nat := 1024
  cache : Nat := 128
  delta_gt : 2 ≤ delta := by decide
  str_pos : 1 ≤ str := by decide
  cache_pos : 1 ≤ cache := by decide

structure St where
  nodes : Addr → Option Node
  vals : Addr → Option Val
  bufs : Addr → Option Buf
  /-- next unused address of each map -/
  nn : Nat
  nv : Nat
  nb : Nat
  /-- allocators: `true` while live; `na` is the next unused number -/
  allocs : Nat → Bool
  na : Nat
  /-- calls of the allocator functions so far, latest first -/
  log : List Ev
  /-- zzzjson.h:558 `zj_stringCache` -/
  cache : Option ZStr
  /-- environment: how many bytes behind block `b` lie in the same chunk -/
  slack : Nat → Nat
  /-- environment: the memory settings -/
  cfg : Cfg

/-- Start of the program. -/
def St.init (slack : Nat → Nat) (cfg : Cfg := {}) : St where
  nodes := fun _ => none
  vals := fun _ => none
  bufs := fun _ => none
  nn := 0
  nv := 0
  nb := 0
  allocs := fun _ => false
  na := 0
  log := []
  cache := none
  slack := slack
  cfg := cfg

/-- Point update of a map. -/
def upd {α : Type} (m : Nat → α) (a : Nat) (x : α) : Nat → α := fun b => if b = a then x else m b

@[simp] theorem upd_same {α : Type} (m : Nat → α) (a : Nat) (x : α) : upd m a x a = x := by
  simp [upd]
theorem upd_ne {α : Type} (m : Nat → α) {a b : Nat} (x : α) (h : b ≠ a) : upd m a x b = m b := by
  simp [upd, h]

/-- Computations on the state. -/
def M (α : Type) := St → Res (α × St)

instance : Monad M where
  pure a := fun st => .ok (a, st)
  bind x f := fun st =>
    match x st with
    | .ok (a, st') => f a st'
    | .ub u => .ub u
    | .timeout => .timeout

namespace M

@[simp] theorem pure_run {α} (a : α) (st : St) : (pure a : M α) st = .ok (a, st) := rfl

theorem bind_run {α β} (x : M α) (f : α → M β) (st : St) :
    (x >>= f) st = match x st with
      | .ok (a, st') => f a st'
      | .ub u => .ub u
      | .timeout => .timeout := rfl

theorem bind_ok {α β} {x : M α} {f : α → M β} {st st' : St} {a : α} (h : x st = .ok (a, st')) :
    (x >>= f) st = f a st' := by rw [bind_run, h]

theorem bind_ub {α β} {x : M α} {f : α → M β} {st : St} {u : UB} (h : x st = .ub u) :
    (x >>= f) st = .ub u := by rw [bind_run, h]

end M

/-- A computation that does not touch the state. -/
def lift {α} (r : Res α) : M α := fun st =>
  match r with
  | .ok a => .ok (a, st)
  | .ub u => .ub u
  | .timeout => .timeout

def fail {α} (u : UB) : M α := fun _ => .ub u

/-- Use of the value of a field. -/
def fld {α} : Option α → M α
  | some a => pure a
  | none => fail .uninit

/-- Use of a pointer. -/
def deref : Option Addr → M Addr
  | some a => pure a
  | none => fail .nullDeref

def rdNode (a : Addr) : M Node := fun st =>
  match st.nodes a with
  | some n => .ok (n, st)
  | none => .ub .wild

def modNode (a : Addr) (f : Node → Node) : M Unit := fun st =>
  match st.nodes a with
  | some n => .ok ((), { st with nodes := upd st.nodes a (some (f n)) })
  | none => .ub .wild

def rdVal (v : Addr) : M Val := fun st =>
  match st.vals v with
  | some x => .ok (x, st)
  | none => .ub .wild

/-- `v->N = p` -/
def setValN (v : Addr) (p : Option Addr) : M Unit := fun st =>
  match st.vals v with
  | some x => .ok ((), { st with vals := upd st.vals v (some { x with n := p }) })
  | none => .ub .wild

/-! ### Allocation (zzzjson.h:527-542, here only the bookkeeping of addresses) -/

/-- Request of `size` bytes from allocator `A`: recorded in the log. -/
def request (A size : Nat) : M Unit := fun st =>
  if st.allocs A then .ok ((), { st with log := .alloc A size :: st.log }) else .ub .wild

/-- `zj_allocatorAlloc(A, sizeof(struct zj_node))`; all fields unset. -/
def newNode (A : Nat) : M Addr := do
  request A 72
  fun st => .ok (st.nn, { st with nodes := upd st.nodes st.nn (some { owner := A }), nn := st.nn + 1 })

/-- `zj_allocatorAlloc(A, sizeof(zj_Value))` with both fields filled in
(zzzjson.h:748-762 `zj_NewValue`, `zj_innerNewValue`). -/
def newVal (A : Nat) (n : Option Addr) : M Addr := do
  request A 16
  fun st => .ok (st.nv, { st with vals := upd st.vals st.nv (some ⟨n, A⟩), nv := st.nv + 1 })

/-- `zj_allocatorAlloc(A, size)` for bytes, of which the first ones are filled
with `data` right away. -/
def newBuf (A size : Nat) (data : Bytes) : M Addr := do
  request A size
  fun st =>
    if data.length ≤ size then
      .ok (st.nb, { st with
        bufs := upd st.bufs st.nb (some ⟨some A, size, st.slack st.nb, data⟩), nb := st.nb + 1 })
    else .ub .oob

/-- zzzjson.h:481-495 `zj_NewAllocator` (see `Verif/Alloc.lean` for the chunks). -/
def newAllocator : M Nat := fun st =>
  .ok (st.na, { st with allocs := upd st.allocs st.na true, na := st.na + 1, log := .new st.na :: st.log })

/-- zzzjson.h:498-508 `zj_ReleaseAllocator`: everything allocated from `A` is gone. -/
def releaseAllocator (A : Nat) : M Unit := fun st =>
  if st.allocs A then
    .ok ((), { st with
      allocs := upd st.allocs A false
      nodes := fun a => (st.nodes a).bind fun n => if n.owner = A then none else some n
      vals := fun a => (st.vals a).bind fun v => if v.a = A then none else some v
      bufs := fun a => (st.bufs a).bind fun b => if b.owner = some A then none else some b
      log := .release A :: st.log })
  else .ub .badFree

/-! ### Reading text -/

/-- The bytes readable through a pointer: those written so far, and the total
number of readable bytes. -/
def view (p : SPtr) : M (Bytes × Nat) := fun st =>
  match p with
  | .lit s => .ok ((s.bytes ++ [0], s.bytes.length + 1), st)
  | .buf b off =>
    match st.bufs b with
    | some bf => .ok ((bf.data.drop off, bf.size + bf.slack - off), st)
    | none => .ub .wild

/-- The source operand of `memcpy(_, p, len)`. -/
def readN (p : SPtr) (len : Nat) : M Bytes := fun st =>
  match p with
  | .lit s =>
    if len ≤ s.bytes.length + 1 then .ok ((s.bytes ++ [0]).take len, st) else .ub .oob
  | .buf b off =>
    match st.bufs b with
    | some bf =>
      if len = 0 then .ok ([], st)
      else if bf.size < off + len then .ub .oob
      else if bf.data.length < off + len then .ub .uninit
      else .ok ((bf.data.drop off).take len, st)
    | none => .ub .wild

/-- Length of the C string starting at the beginning of `s` (`strlen`, zzzjson.h:368). -/
def strLenLoop : Bytes → Nat → Res Nat
  | [], _ => .ub .oob
  | c :: r, n => if c = 0 then .ok n else strLenLoop r (n + 1)

def strLen (s : Bytes) : Res Nat := strLenLoop s 0

/-! ### Fields of nodes -/

def nType (a : Addr) : M JType := do fld (← rdNode a).type
def nKey (a : Addr) : M (Option SPtr) := do fld (← rdNode a).key
def nKeyLen (a : Addr) : M Nat := do fld (← rdNode a).keyLen
def nLen (a : Addr) : M Nat := do fld (← rdNode a).len
def nNext (a : Addr) : M (Option Addr) := do fld (← rdNode a).next
def nPrev (a : Addr) : M (Option Addr) := do fld (← rdNode a).prev
def nFather (a : Addr) : M (Option Addr) := do fld (← rdNode a).father
def nEnd (a : Addr) : M (Option Addr) := do fld (← rdNode a).end_

/-- `a->Value.Node` -/
def nNode (a : Addr) : M (Option Addr) := do
  match ← fld (← rdNode a).value with
  | .node p => pure p
  | .str _ => fail .badUnion

/-- `a->Value.Str` -/
def nStr (a : Addr) : M SPtr := do
  match ← fld (← rdNode a).value with
  | .str p => pure p
  | .node _ => fail .badUnion

def setType (a : Addr) (x : JType) : M Unit := modNode a fun n => { n with type := some x }
def setKey (a : Addr) (x : Option SPtr) : M Unit := modNode a fun n => { n with key := some x }
def setKeyLen (a : Addr) (x : Nat) : M Unit := modNode a fun n => { n with keyLen := some x }
def setNodeP (a : Addr) (x : Option Addr) : M Unit := modNode a fun n => { n with value := some (.node x) }
def setStrP (a : Addr) (x : SPtr) : M Unit := modNode a fun n => { n with value := some (.str x) }
def setLen (a : Addr) (x : Nat) : M Unit := modNode a fun n => { n with len := some x }
def setNext (a : Addr) (x : Option Addr) : M Unit := modNode a fun n => { n with next := some x }
def setPrev (a : Addr) (x : Option Addr) : M Unit := modNode a fun n => { n with prev := some x }
def setFather (a : Addr) (x : Option Addr) : M Unit := modNode a fun n => { n with father := some x }
def setEnd (a : Addr) (x : Option Addr) : M Unit := modNode a fun n => { n with end_ := some x }

/-- Decrement of a `zj_Size` (uint32_t). -/
def dec32 (n : Nat) : Nat := if n = 0 then 2 ^ 32 - 1 else n - 1

/-! ### Output strings (zzzjson.h:561-612) -/

/-- zzzjson.h:561-570 `zj_newString`: one block for the struct (24 bytes) and the
data behind it. The block of the model is the data area (the struct is the `ZStr`). -/
def newString (A init : Nat) : M ZStr := do
  request A (24 + init)
  fun st => .ok (⟨A, st.nb, st.nb, 0, init⟩, { st with
    bufs := upd st.bufs st.nb (some ⟨some A, init, st.slack st.nb, []⟩), nb := st.nb + 1 })

/-- The settings. -/
def getCfg : M Cfg := fun st => .ok (st.cfg, st)

/-- `zj_newString` with a first size from the settings, as it is called at zzzjson.h:1275, 1392
and 1738. -/
def newOut (A : Nat) (size : Cfg → Nat) : M ZStr := do newString A (size (← getCfg))

/-- `src_s *= zj_Delta; while (need > src_s) src_s *= zj_Delta;` (zzzjson.h:580-582),
entered with `s` already multiplied once; `d` is `zj_Delta`. -/
def growLoop (d : Nat) : Nat → Nat → Nat → Res Nat
  | 0, _, _ => .timeout
  | fuel + 1, s, need => if need > s then growLoop d fuel (s * d) need else .ok s

/-- The struct itself is read and written through its address. -/
def touchStr (z : ZStr) : M Unit := fun st =>
  match st.bufs z.hdr with
  | some _ => .ok ((), st)
  | none => .ub .wild

/-- Writes `s` at `Data + Pos`. Bytes behind the written part count as unwritten. -/
def pokeStr (z : ZStr) (s : Bytes) : M Unit := fun st =>
  match st.bufs z.data with
  | some b =>
    if z.pos + s.length ≤ b.size ∧ z.pos ≤ b.data.length then
      .ok ((), { st with bufs := upd st.bufs z.data (some { b with data := b.data.take z.pos ++ s }) })
    else .ub .oob
  | none => .ub .wild

/-- zzzjson.h:576-590 `zj_appendStr`, given the bytes to append. -/
def appendBytes (z : ZStr) (s : Bytes) : M ZStr := do
  touchStr z
  let z ← (do
    if z.pos + s.length > z.sizeOf then
      let d := (← getCfg).delta
      let ns ← lift (growLoop d (z.pos + s.length + 1) (z.sizeOf * d) (z.pos + s.length))
      let old ← (fun st => match st.bufs z.data with
        | some b => .ok (b.data.take z.pos, st)
        | none => .ub .wild : M Bytes)
      let d ← newBuf z.a ns old
      pure { z with data := d, sizeOf := ns }
    else pure z)
  pokeStr z s
  pure { z with pos := z.pos + s.length }

/-- zzzjson.h:576-590 `zj_appendStr(str, p, len)`. -/
def appendStr (z : ZStr) (p : SPtr) (len : Nat) : M ZStr := do
  let s ← readN p len
  appendBytes z s

/-- zzzjson.h:593-604 `zj_appendChar` (grows once, no loop). -/
def appendChar (z : ZStr) (c : Byte) : M ZStr := do
  touchStr z
  let z ← (do
    if z.pos + 1 > z.sizeOf then
      let ns := z.sizeOf * (← getCfg).delta
      let old ← (fun st => match st.bufs z.data with
        | some b => .ok (b.data.take z.pos, st)
        | none => .ub .wild : M Bytes)
      let d ← newBuf z.a ns old
      pure { z with data := d, sizeOf := ns }
    else pure z)
  pokeStr z [c]
  pure { z with pos := z.pos + 1 }

end ZJ
