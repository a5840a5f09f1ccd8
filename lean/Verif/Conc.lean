import Verif.Hist

/-
Threads, the code: the functions of `Heap`, `Parse`, `Num` and `Api` once more, word for word, as
sequences of steps between which other threads may run.

A step is one access to the memory: a node, a handle or a byte block is read or written, a call of
the allocator, a read or write of the static variable `zj_stringCache`.

Simplifications: a text is read in one step. The scratch string is updated when it has been filled
(`fillCache` keeps `Pos`, `Data` and `SizeOf` to itself until then). Computations on local
variables are not steps.
-/

set_option linter.unusedVariables false

namespace ZJ

/-- What is left of a call: its result, an error (`none`: out of fuel), or a step and what follows
it. -/
inductive Act (α : Type) : Type 1
  | ret (a : α)
  | stop (u : Option UB)
  | op {β : Type} (m : M β) (k : β → Act α)

def Act.bind {α β : Type} : Act α → (α → Act β) → Act β
  | .ret a, f => f a
  | .stop u, _ => .stop u
  | .op m k, f => .op m fun b => (k b).bind f

instance : Monad Act where
  pure := .ret
  bind := .bind

/-- One step. -/
def act {α : Type} (m : M α) : Act α := .op m .ret

namespace Thr

abbrev M := Act

/-- A computation on local variables. -/
def lift {α : Type} : Res α → M α
  | .ok a => .ret a
  | .ub u => .stop (some u)
  | .timeout => .stop none

def fail {α : Type} (u : UB) : M α := .stop (some u)

/-- Use of the value of a field. -/
def fld {α : Type} : Option α → M α
  | some a => pure a
  | none => fail .uninit

/-- Use of a pointer. -/
def deref : Option Addr → M Addr
  | some a => pure a
  | none => fail .nullDeref

/-! ### Steps (the functions of the same names in `Heap`) -/

def rdNode (a : Addr) : M Node := act (ZJ.rdNode a)
def modNode (a : Addr) (f : Node → Node) : M Unit := act (ZJ.modNode a f)
def rdVal (v : Addr) : M Val := act (ZJ.rdVal v)
def setValN (v : Addr) (p : Option Addr) : M Unit := act (ZJ.setValN v p)
def request (A size : Nat) : M Unit := act (ZJ.request A size)
def newNode (A : Nat) : M Addr := act (ZJ.newNode A)
def newVal (A : Nat) (n : Option Addr) : M Addr := act (ZJ.newVal A n)
def newBuf (A size : Nat) (data : Bytes) : M Addr := act (ZJ.newBuf A size data)
def newAllocator : M Nat := act ZJ.newAllocator
def releaseAllocator (A : Nat) : M Unit := act (ZJ.releaseAllocator A)
def view (p : SPtr) : M (Bytes × Nat) := act (ZJ.view p)
def readN (p : SPtr) (len : Nat) : M Bytes := act (ZJ.readN p len)
def newString (A init : Nat) : M ZStr := act (ZJ.newString A init)
def getCfg : M Cfg := act ZJ.getCfg
def touchStr (z : ZStr) : M Unit := act (ZJ.touchStr z)
def pokeStr (z : ZStr) (s : Bytes) : M Unit := act (ZJ.pokeStr z s)
/-- The source operand of the `memcpy` at zzzjson.h:584 and 598. -/
def oldData (z : ZStr) : M Bytes := act fun st =>
  match st.bufs z.data with
  | some b => .ok (b.data.take z.pos, st)
  | none => .ub .wild
/-- The value of `zj_stringCache`. -/
def getCache : M (Option ZStr) := act fun st => .ok (st.cache, st)
/-- Assignment to `zj_stringCache`. -/
def setCache (z : ZStr) : M Unit := act fun st => .ok ((), { st with cache := some z })
def callerText (d : Bytes) : M SPtr := act (ZJ.callerText d)
def freeText (p : SPtr) : M Unit := act (ZJ.freeText p)

/-! ### The library -/

def nType (a : Addr) : M JType := do fld (← rdNode a).type
def nKey (a : Addr) : M (Option SPtr) := do fld (← rdNode a).key
def nKeyLen (a : Addr) : M Nat := do fld (← rdNode a).keyLen
def nLen (a : Addr) : M Nat := do fld (← rdNode a).len
def nNext (a : Addr) : M (Option Addr) := do fld (← rdNode a).next
def nPrev (a : Addr) : M (Option Addr) := do fld (← rdNode a).prev
def nFather (a : Addr) : M (Option Addr) := do fld (← rdNode a).father
def nEnd (a : Addr) : M (Option Addr) := do fld (← rdNode a).end_

/-- `a->Value.Node` -/
def nNode (a : Addr) : M (Option Addr) := do
  match ← fld (← rdNode a).value with
  | .node p => pure p
  | .str _ => fail .badUnion

/-- `a->Value.Str` -/
def nStr (a : Addr) : M SPtr := do
  match ← fld (← rdNode a).value with
  | .str p => pure p
  | .node _ => fail .badUnion

def setType (a : Addr) (x : JType) : M Unit := modNode a fun n => { n with type := some x }
def setKey (a : Addr) (x : Option SPtr) : M Unit := modNode a fun n => { n with key := some x }
def setKeyLen (a : Addr) (x : Nat) : M Unit := modNode a fun n => { n with keyLen := some x }
def setNodeP (a : Addr) (x : Option Addr) : M Unit := modNode a fun n => { n with value := some (.node x) }
def setStrP (a : Addr) (x : SPtr) : M Unit := modNode a fun n => { n with value := some (.str x) }
def setLen (a : Addr) (x : Nat) : M Unit := modNode a fun n => { n with len := some x }
def setNext (a : Addr) (x : Option Addr) : M Unit := modNode a fun n => { n with next := some x }
def setPrev (a : Addr) (x : Option Addr) : M Unit := modNode a fun n => { n with prev := some x }
def setFather (a : Addr) (x : Option Addr) : M Unit := modNode a fun n => { n with father := some x }
def setEnd (a : Addr) (x : Option Addr) : M Unit := modNode a fun n => { n with end_ := some x }

/-- `zj_newString` with a first size from the settings, as it is called at zzzjson.h:1275, 1392
and 1738. -/
def newOut (A : Nat) (size : Cfg → Nat) : M ZStr := do newString A (size (← getCfg))

/-- zzzjson.h:576-590 `zj_appendStr`, given the bytes to append. -/
def appendBytes (z : ZStr) (s : Bytes) : M ZStr := do
  touchStr z
  let z ← (do
    if z.pos + s.length > z.sizeOf then
      let d := (← getCfg).delta
      let ns ← lift (growLoop d (z.pos + s.length + 1) (z.sizeOf * d) (z.pos + s.length))
      let old ← oldData z
      let d ← newBuf z.a ns old
      pure { z with data := d, sizeOf := ns }
    else pure z)
  pokeStr z s
  pure { z with pos := z.pos + s.length }

/-- zzzjson.h:576-590 `zj_appendStr(str, p, len)`. -/
def appendStr (z : ZStr) (p : SPtr) (len : Nat) : M ZStr := do
  let s ← readN p len
  appendBytes z s

/-- zzzjson.h:593-604 `zj_appendChar` (grows once, no loop). -/
def appendChar (z : ZStr) (c : Byte) : M ZStr := do
  touchStr z
  let z ← (do
    if z.pos + 1 > z.sizeOf then
      let ns := z.sizeOf * (← getCfg).delta
      let old ← oldData z
      let d ← newBuf z.a ns old
      pure { z with data := d, sizeOf := ns }
    else pure z)
  pokeStr z [c]
  pure { z with pos := z.pos + 1 }

/-- zzzjson.h:1427-1464: `[` or `{` (`ty`, closing bracket `close`). -/
def openContainer (A : Nat) (s : Bytes) (ty : JType) (close : Byte) (node : Addr) (i : Nat) :
    M Step := do
  setType node ty
  let (ok, i) ← lift (peekAndConsume close s i)
  if ok then
    setNodeP node none
    setLen node 0
    return .leaf i
  let n ← newNode A
  setFather n (some node)
  setPrev n none
  setNodeP node (some n)
  setEnd node (some n)
  setLen node 1
  return .desc n i

/-- zzzjson.h:1425-1535 and again 1570-1680 (the same text, except that `break`
after opening a container is `continue`): `c = zj_peek(s, &index); switch (c)`.
`p` is the pointer `s`, `s` the bytes behind it, `lim` how many may be read. -/
def switchValue (A : Nat) (p : SPtr) (s : Bytes) (lim : Nat) (node : Addr) (i : Nat) :
    M Step := do
  let (c, i) ← lift (peek s i)
  if c = 0x5B then openContainer A s .array 0x5D node i
  else if c = 0x7B then openContainer A s .object 0x7D node i
  else if c = 0x6E then
    let (ok, i) ← lift (consumeNull s lim i)
    if !ok then return .bad
    setType node .null
    setStrP node (.lit { bytes := b!"null" })
    setLen node 4
    return .leaf i
  else if c = 0x66 then
    let (ok, i) ← lift (consumeFalse s lim i)
    if !ok then return .bad
    setType node .bool
    setStrP node (.lit { bytes := b!"false" })
    setLen node 5
    return .leaf i
  else if c = 0x74 then
    let (ok, i) ← lift (consumeTrue s lim i)
    if !ok then return .bad
    setType node .bool
    setStrP node (.lit { bytes := b!"true" })
    setLen node 4
    return .leaf i
  else if c = 0x22 then
    let start := i
    let (ok, i) ← lift (consume 0x22 s i)
    if ok then
      setType node .string
      setStrP node (p.add i)
      setLen node 0
      return .leaf i
    let (ok, i) ← lift (consumeStr s i)
    if !ok then return .bad
    setType node .string
    setStrP node (p.add start)
    setLen node (i - start - 1)
    return .leaf i
  else
    let start := i - 1
    match ← lift (consumeNum s i) with
    | none => return .bad
    | some i =>
      setType node .number
      setStrP node (p.add start)
      setLen node (i - start)
      return .leaf i

/-- zzzjson.h:1537-1569: the key of a child. `none` = syntax error, else the new index. -/
def parseKey (p : SPtr) (s : Bytes) (node : Addr) (i : Nat) : M (Option Nat) := do
  let f ← deref (← nFather node)
  if (← nType f) = .object then
    let (ok, i) ← lift (peekAndConsume 0x22 s i)
    if !ok then return none
    let start := i
    let (ok, i) ← lift (consume 0x22 s i)
    if ok then
      setKey node (some (p.add start))
      setKeyLen node 0
      let (ok, i) ← lift (peekAndConsume 0x3A s i)
      if !ok then return none
      return some i
    else
      let (ok, i) ← lift (consumeStr s i)
      if !ok then return none
      setKey node (some (p.add start))
      setKeyLen node (i - start - 1)
      let (ok, i) ← lift (peekAndConsume 0x3A s i)
      if !ok then return none
      return some i
  else
    setKey node none
    return some i

/-- `if (src_node == 0) v->N = src_node; else *v->N = *src_node; return false;` -/
def restore (v : Addr) (src : Option Addr) : M Bool := do
  match src with
  | none => setValN v none
  | some sn =>
    let x ← rdNode sn
    let a ← deref (← rdVal v).n
    modNode a fun n => { x with owner := n.owner }
  return false

/-- zzzjson.h:1536-1718, from the loop test on. -/
def parseLoop (v : Addr) (A : Nat) (p : SPtr) (s : Bytes) (lim : Nat) (src : Option Addr) :
    Nat → PC → Addr → Nat → M Bool
  | 0, _, _, _ => lift .timeout
  | fuel + 1, .head, node, i => do
    if some node = (← rdVal v).n then
      let (ok, _) ← lift (peekAndConsume 0 s i)
      if ok then return true
      restore v src
    else
      match ← parseKey p s node i with
      | none => restore v src
      | some i =>
        match ← switchValue A p s lim node i with
        | .bad => restore v src
        | .desc n i => parseLoop v A p s lim src fuel .head n i
        | .leaf i => parseLoop v A p s lim src fuel .close node i
  | fuel + 1, .close, node, i => do
    if some node = (← rdVal v).n then
      parseLoop v A p s lim src fuel .head node i
    else
      let (ok, i) ← lift (peekAndConsume 0x2C s i)
      if ok then
        let n ← newNode A
        setFather n (← nFather node)
        setPrev n (some node)
        let f ← deref (← nFather node)
        setEnd f (some n)
        setLen f ((← nLen f) + 1)
        setNext node (some n)
        parseLoop v A p s lim src fuel .head n i
      else
        let (c, i) ← lift (peek s i)
        let f ← deref (← nFather node)
        let ty ← nType f
        if (c = 0x7D ∧ ty = .object) ∨ (c = 0x5D ∧ ty = .array) then
          setNext node none
          parseLoop v A p s lim src fuel .close f i
        else restore v src

/-- zzzjson.h:1408-1719 `zj_ParseFast(v, p)`. -/
def parseFast (v : Addr) (p : SPtr) : M Bool := do
  let val ← rdVal v
  let src ← (do
    match val.n with
    | none =>
      let n ← newNode val.a
      setValN v (some n)
      setPrev n none
      setNext n none
      setFather n none
      setKey n none
      pure none
    | some a =>
      let sn ← newNode val.a
      let x ← rdNode a
      modNode sn fun n => { x with owner := n.owner }
      pure (some sn) : M (Option Addr))
  let (s, lim) ← view p
  let root ← deref (← rdVal v).n
  match ← switchValue val.a p s lim root 0 with
  | .bad => restore v src
  | .desc n i => parseLoop v val.a p s lim src (parseFuel s.length) .head n i
  | .leaf i => parseLoop v val.a p s lim src (parseFuel s.length) .head root i

/-- zzzjson.h:1722-1727 `zj_ParseLen(v, p, len)`. -/
def parseLen (v : Addr) (p : SPtr) (len : Nat) : M Bool := do
  let val ← rdVal v
  let t ← readN p len
  let b ← newBuf val.a (len + 1) (t ++ [0])
  parseFast v (.buf b 0)

/-- zzzjson.h:1730-1732 `zj_Parse(v, p)`. -/
def parse (v : Addr) (p : SPtr) : M Bool := do
  let (s, _) ← view p
  let n ← lift (strLen s)
  parseLen v p n

/-- zzzjson.h:372-376 `zj_strToInt` -/
def strToInt (p : SPtr) (len : Nat) : M Int := do
  let t ← readN p len
  let s ← lift (stackCopy t)
  lift (atoiBits 32 s)

/-- zzzjson.h:377-381 `zj_strToLong`: copies to `s`, then converts `str`. -/
def strToLong (p : SPtr) (len : Nat) : M Int := do
  let t ← readN p len
  let _ ← lift (stackCopy t)
  let (b, _) ← view p
  lift (atoiBits 64 b)

/-- zzzjson.h:382-386 `zj_strToLongLong` -/
def strToLongLong (p : SPtr) (len : Nat) : M Int := do
  let t ← readN p len
  let _ ← lift (stackCopy t)
  let (b, _) ← view p
  lift (atoiBits 64 b)

/-- zzzjson.h:387-391 `zj_strToDouble` -/
def strToDouble {D : Type} (fp : FP D) (p : SPtr) (len : Nat) : M D := do
  let t ← readN p len
  let _ ← lift (stackCopy t)
  let (b, _) ← view p
  let n ← lift (atofText b)
  pure (fp.conv n)

/-- zzzjson.h:748-753 `zj_NewValue` -/
def newValue (A : Nat) : M Addr := newVal A none

/-- zzzjson.h:1741-1766 and 1774-1801: the value of `node` itself; `some n`: a
non-empty container was opened, continue with its first child `n`. An array is
tested by `Value.Node`, an object by `Len`. -/
def putValue (z : ZStr) (node : Addr) : M (ZStr × Option Addr) := do
  match ← nType node with
  | .array =>
    let z ← appendChar z 0x5B
    match ← nNode node with
    | some n => return (z, some n)
    | none =>
      let z ← appendChar z 0x5D
      return (z, none)
  | .object =>
    let z ← appendChar z 0x7B
    if (← nLen node) ≠ 0 then
      let n ← deref (← nNode node)
      return (z, some n)
    else
      let z ← appendChar z 0x7D
      return (z, none)
  | .string =>
    let z ← appendChar z 0x22
    let z ← appendStr z (← nStr node) (← nLen node)
    let z ← appendChar z 0x22
    return (z, none)
  | _ =>
    let z ← appendStr z (← nStr node) (← nLen node)
    return (z, none)

/-- zzzjson.h:1769-1773: the key of a child. -/
def putKey (z : ZStr) (node : Addr) : M ZStr := do
  match ← nKey node with
  | some k =>
    let z ← appendChar z 0x22
    let z ← appendStr z k (← nKeyLen node)
    appendBytes z [0x22, 0x3A]
  | none => pure z

/-- zzzjson.h:1768-1816 from a loop test on: `head` is the outer, `close` the inner
`while`. -/
def stringifyLoop (v : Addr) : Nat → PC → Addr → ZStr → M ZStr
  | 0, _, _, _ => lift .timeout
  | fuel + 1, .head, node, z => do
    if some node = (← rdVal v).n then return z
    let z ← putKey z node
    match ← putValue z node with
    | (z, some n) => stringifyLoop v fuel .head n z
    | (z, none) => stringifyLoop v fuel .close node z
  | fuel + 1, .close, node, z => do
    if some node = (← rdVal v).n then stringifyLoop v fuel .head node z
    else
      match ← nNext node with
      | some n =>
        let z ← appendChar z 0x2C
        stringifyLoop v fuel .head n z
      | none =>
        let f ← deref (← nFather node)
        if (← nType f) = .array then
          let z ← appendChar z 0x5D
          stringifyLoop v fuel .close f z
        else
          let z ← appendChar z 0x7D
          stringifyLoop v fuel .close f z

/-- zzzjson.h:1735-1819 `zj_Stringify`. -/
def stringify (fuel : Nat) (v : Addr) : M SPtr := do
  let val ← rdVal v
  match val.n with
  | none => return .lit { bytes := [] }
  | some root =>
    let z ← newOut val.a (·.str)
    let (z, c) ← putValue z root
    let z ← match c with
      | some n => stringifyLoop v fuel .head n z
      | none => stringifyLoop v fuel .head root z
    let z ← appendChar z 0
    return .buf z.data 0

/-- `zj_allocatorAlloc(v->A, len + 1); zj_memCopy(p, len, str); str[len] = 0;` -/
def copyOut (A : Nat) (p : SPtr) (len : Nat) : M SPtr := do
  let t ← readN p len
  let b ← newBuf A (len + 1) (t ++ [0])
  return .buf b 0

/-- zzzjson.h:1822-1829 `zj_GetStrFast` -/
def getStrFast (v : Addr) : M (Option (SPtr × Nat)) := do
  match (← rdVal v).n with
  | none => return none
  | some a =>
    if (← nType a) ≠ .string then return none
    return some (← nStr a, ← nLen a)

/-- zzzjson.h:1832-1841 `zj_GetStr` -/
def getStr (v : Addr) : M (Option SPtr) := do
  let val ← rdVal v
  match val.n with
  | none => return none
  | some a =>
    if (← nType a) ≠ .string then return none
    return some (← copyOut val.a (← nStr a) (← nLen a))

/-- zzzjson.h:1844-1854 `zj_GetUnEscapeStr` -/
def getUnEscapeStr (v : Addr) : M (Option SPtr) := do
  let val ← rdVal v
  match val.n with
  | none => return none
  | some a =>
    if (← nType a) ≠ .string then return none
    let len ← nLen a
    let (s, _) ← view (← nStr a)
    let out ← lift (unEscapeStr s len (len + 1))
    let b ← newBuf val.a (len + 1) out
    return some (.buf b 0)

/-- zzzjson.h:1857-1864 `zj_GetNumFast` -/
def getNumFast (v : Addr) : M (Option (SPtr × Nat)) := do
  match (← rdVal v).n with
  | none => return none
  | some a =>
    if (← nType a) ≠ .number then return none
    return some (← nStr a, ← nLen a)

/-- zzzjson.h:1867-1876 `zj_GetNumStr` -/
def getNumStr (v : Addr) : M (Option SPtr) := do
  let val ← rdVal v
  match val.n with
  | none => return none
  | some a =>
    if (← nType a) ≠ .number then return none
    return some (← copyOut val.a (← nStr a) (← nLen a))

/-- zzzjson.h:1879-1889 `zj_GetNum`, `zj_GetDouble` (the number is returned in a fresh
block of 8 bytes; here by value). -/
def getDouble {D} (fp : FP D) (v : Addr) : M (Option D) := do
  let val ← rdVal v
  match val.n with
  | none => return none
  | some a =>
    if (← nType a) ≠ .number then return none
    request val.a 8
    return some (← strToDouble fp (← nStr a) (← nLen a))

/-- zzzjson.h:1891-1899 `zj_GetInt` -/
def getInt (v : Addr) : M (Option Int) := do
  let val ← rdVal v
  match val.n with
  | none => return none
  | some a =>
    if (← nType a) ≠ .number then return none
    request val.a 4
    return some (← strToInt (← nStr a) (← nLen a))

/-- zzzjson.h:1901-1909 `zj_GetLong` -/
def getLong (v : Addr) : M (Option Int) := do
  let val ← rdVal v
  match val.n with
  | none => return none
  | some a =>
    if (← nType a) ≠ .number then return none
    request val.a 8
    return some (← strToLong (← nStr a) (← nLen a))

/-- zzzjson.h:1911-1919 `zj_GetLongLong` -/
def getLongLong (v : Addr) : M (Option Int) := do
  let val ← rdVal v
  match val.n with
  | none => return none
  | some a =>
    if (← nType a) ≠ .number then return none
    request val.a 8
    return some (← strToLongLong (← nStr a) (← nLen a))

/-- zzzjson.h:1922-1932 `zj_GetBool` (pointer to a static `true`/`false`). -/
def getBool (v : Addr) : M (Option Bool) := do
  match (← rdVal v).n with
  | none => return none
  | some a =>
    if (← nType a) ≠ .bool then return none
    let (s, _) ← view (← nStr a)
    let c ← lift (rd s 0)
    return some (c = 0x74)

/-- zzzjson.h:1935-1941 `zj_IsNull` -/
def isNull (v : Addr) : M Bool := do
  match (← rdVal v).n with
  | none => return false
  | some a =>
    if (← nType a) ≠ .null then return false
    return true

/-- zzzjson.h:1944-1953 `zj_GetKey` -/
def getKey (v : Addr) : M (Option SPtr) := do
  let val ← rdVal v
  match val.n with
  | none => return none
  | some a =>
    match ← nKey a with
    | none => return none
    | some k => return some (← copyOut val.a k (← nKeyLen a))

/-- zzzjson.h:1955-1963 `zj_GetUnEscapeKey` -/
def getUnEscapeKey (v : Addr) : M (Option SPtr) := do
  let val ← rdVal v
  match val.n with
  | none => return none
  | some a =>
    match ← nKey a with
    | none => return none
    | some k =>
      let len ← nKeyLen a
      let (s, _) ← view k
      let out ← lift (unEscapeStr s len (len + 1))
      let b ← newBuf val.a (len + 1) out
      return some (.buf b 0)

/-- zzzjson.h:1966-1973 `zj_GetKeyFast` -/
def getKeyFast (v : Addr) : M (Option (SPtr × Nat)) := do
  match (← rdVal v).n with
  | none => return none
  | some a =>
    match ← nKey a with
    | none => return none
    | some k => return some (k, ← nKeyLen a)

/-- zzzjson.h:1981-1989, the loop of `zj_ObjGet`. -/
def objGetLoop (key : SPtr) : Nat → Option Addr → M (Option Addr)
  | 0, _ => lift .timeout
  | _ + 1, none => pure none
  | fuel + 1, some n => do
    let k ← deref' (← nKey n)
    let (a, _) ← view key
    let (b, _) ← view k
    if ← lift (strIsEqual a b (← nKeyLen n)) then return some n
    objGetLoop key fuel (← nNext n)
where
  deref' : Option SPtr → M SPtr
    | some p => pure p
    | none => fail .nullDeref

/-- zzzjson.h:1976-1990 `zj_ObjGet`. `fuel` bounds the number of members visited. -/
def objGet (fuel : Nat) (v : Addr) (key : SPtr) : M (Option Addr) := do
  let val ← rdVal v
  match val.n with
  | none => return none
  | some a =>
    if (← nType a) ≠ .object then return none
    match ← objGetLoop key fuel (← nNode a) with
    | none => return none
    | some n => return some (← newVal val.a (some n))

/-- zzzjson.h:1999-2008, the loop of `zj_ObjGetLen`. -/
def objGetLenLoop (key : SPtr) (len : Nat) : Nat → Option Addr → M (Option Addr)
  | 0, _ => lift .timeout
  | _ + 1, none => pure none
  | fuel + 1, some n => do
    let k ← objGetLoop.deref' (← nKey n)
    let (a, _) ← view key
    let (b, _) ← view k
    if ← lift (strIsEqualLen a len b (← nKeyLen n)) then return some n
    objGetLenLoop key len fuel (← nNext n)

/-- zzzjson.h:1993-2009 `zj_ObjGetLen` -/
def objGetLen (fuel : Nat) (v : Addr) (key : SPtr) (len : Nat) : M (Option Addr) := do
  let val ← rdVal v
  match val.n with
  | none => return none
  | some a =>
    if (← nType a) ≠ .object then return none
    match ← objGetLenLoop key len fuel (← nNode a) with
    | none => return none
    | some n => return some (← newVal val.a (some n))

/-- zzzjson.h:2012-2030 `zj_Type` -/
def getType (v : Addr) : M (Option JType) := do
  match (← rdVal v).n with
  | none => return none
  | some a => return some (← nType a)

/-- zzzjson.h:2033-2040 `zj_SizeOf` -/
def sizeOf (v : Addr) : M Nat := do
  match (← rdVal v).n with
  | none => return 0
  | some a =>
    let t ← nType a
    if t ≠ .object ∧ t ≠ .array then return 0
    nLen a

/-- zzzjson.h:2048-2058, the loop of `zj_ArrayGet`; `i` counts up to `index`. -/
def arrayGetLoop (index : Nat) : Nat → Nat → Option Addr → M (Option Addr)
  | 0, _, _ => lift .timeout
  | _ + 1, _, none => pure none
  | fuel + 1, i, some n => do
    if i = index then return some n
    arrayGetLoop index fuel (i + 1) (← nNext n)

/-- zzzjson.h:2043-2059 `zj_ArrayGet` -/
def arrayGet (fuel : Nat) (v : Addr) (index : Nat) : M (Option Addr) := do
  let val ← rdVal v
  match val.n with
  | none => return none
  | some a =>
    if (← nType a) ≠ .array then return none
    match ← arrayGetLoop index fuel 0 (← nNode a) with
    | none => return none
    | some n => return some (← newVal val.a (some n))

/-- zzzjson.h:2062-2073 `zj_Begin` -/
def begin_ (v : Addr) : M (Option Addr) := do
  let val ← rdVal v
  match val.n with
  | none => return none
  | some a =>
    let t ← nType a
    if t ≠ .object ∧ t ≠ .array then return none
    match ← nNode a with
    | some n => return some (← newVal val.a (some n))
    | none => return none

/-- zzzjson.h:2076-2084 `zj_Next` -/
def next_ (v : Addr) : M (Option Addr) := do
  let val ← rdVal v
  match val.n with
  | none => return none
  | some a =>
    match ← nNext a with
    | some n => return some (← newVal val.a (some n))
    | none => return none

/-- zzzjson.h:2101-2108: the key of one node. -/
def copyKey (A : Nat) (node des : Addr) : M Unit := do
  match ← nKey node with
  | some k =>
    let len ← nKeyLen node
    let t ← readN k len
    let b ← newBuf A len t
    setKey des (some (.buf b 0))
    setKeyLen des len
  | none => setKey des none

/-- zzzjson.h:2109-2139: the value of one node; `some (c, n)`: descend to the child `c`
of the source and its new copy `n`. -/
def copyBody (A : Nat) (node des : Addr) : JType → M (Option (Addr × Addr))
  | .object | .array => do
    setLen des (← nLen node)
    match ← nNode node with
    | some c =>
      let n ← newNode A
      setFather n (some des)
      setPrev n none
      setNodeP des (some n)
      setEnd des (some n)
      return some (c, n)
    | none =>
      setNodeP des none
      setEnd des none
      return none
  | .bool | .null => do
    setStrP des (← nStr node)
    setLen des (← nLen node)
    return none
  | .number | .string => do
    let len ← nLen node
    let t ← readN (← nStr node) len
    let b ← newBuf A len t
    setStrP des (.buf b 0)
    setLen des len
    return none

/-- zzzjson.h:2100-2139: fields of one node. -/
def copyNode (A : Nat) (node des : Addr) : M (Option (Addr × Addr)) := do
  let ty ← nType node
  setType des ty
  copyKey A node des
  copyBody A node des ty

/-- zzzjson.h:2099-2157. -/
def copyLoop (A : Nat) (vv : Addr) : Nat → CPC → Addr → Addr → M Unit
  | 0, _, _, _ => lift .timeout
  | fuel + 1, .body, node, des => do
    match ← copyNode A node des with
    | some (c, n) => copyLoop A vv fuel .test c n
    | none => copyLoop A vv fuel .inner node des
  | fuel + 1, .test, node, des => do
    if some node = (← rdVal vv).n then return ()
    copyLoop A vv fuel .body node des
  | fuel + 1, .inner, node, des => do
    if some node = (← rdVal vv).n then copyLoop A vv fuel .test node des
    else
      match ← nNext node with
      | some x =>
        let n ← newNode A
        let f ← nFather des
        setFather n f
        setPrev n (some des)
        setEnd (← deref f) (some n)
        setNext des (some n)
        copyLoop A vv fuel .test x n
      | none =>
        let f ← deref (← nFather node)
        setNext des none
        let df ← deref (← nFather des)
        copyLoop A vv fuel .inner f df

/-- zzzjson.h:2087-2160 `zj_ValueCopyFrom(v, vv)` -/
def valueCopyFrom (fuel : Nat) (v vv : Addr) : M Bool := do
  match (← rdVal vv).n with
  | none => return false
  | some src =>
    let A := (← rdVal v).a
    let n ← newNode A
    setValN v (some n)
    setPrev n none
    setNext n none
    setFather n none
    copyLoop A vv fuel .body src n
    return true

/-- zzzjson.h:2163-2168 `zj_Copy` -/
def copy (fuel : Nat) (v : Addr) : M (Option Addr) := do
  let r ← newValue (← rdVal v).a
  if ← valueCopyFrom fuel r v then return some r else return none

/-- `v->N` for a handle known not to be empty. -/
def valN (v : Addr) : M Addr := do deref (← rdVal v).n

/-- zzzjson.h:2175-2180: unlink `a` from its predecessor or from the father. -/
def unlinkPrev (f a : Addr) : M Unit := do
  match ← nPrev a with
  | none => setNodeP f (← nNext a)
  | some p =>
    setNext p (← nNext a)
    setPrev a none

/-- zzzjson.h:2181-2186: unlink `a` from its successor or from the end of the list;
`a->Prev` was already overwritten. -/
def unlinkNext (f a : Addr) : M Unit := do
  match ← nNext a with
  | none => setEnd f (← nPrev a)
  | some x =>
    setPrev x (← nPrev a)
    setNext a none

/-- zzzjson.h:2171-2191 `zj_Move`, statement by statement. -/
def move (v : Addr) : M Bool := do
  match (← rdVal v).n with
  | none => return false
  | some a =>
    match ← nFather a with
    | none => return true
    | some f =>
      unlinkPrev f a
      unlinkNext f a
      let f ← deref (← nFather a)
      setLen f (dec32 (← nLen f))
      setFather a none
      return true

/-- `if (v->N == 0) { v->N = alloc; Key = Prev = Father = Next = 0; }` -/
def ensureNode (v : Addr) : M Addr := do
  let val ← rdVal v
  match val.n with
  | some a => pure a
  | none =>
    let n ← newNode val.a
    setValN v (some n)
    setKey n none
    setPrev n none
    setFather n none
    setNext n none
    pure n

/-- `Type = t; Value.Str = p; Len = len;` -/
def setScalar (v : Addr) (t : JType) (p : SPtr) (len : Nat) : M Unit := do
  let a ← ensureNode v
  setType a t
  setStrP a p
  setLen a len

/-- zzzjson.h:2194-2205 `zj_SetNull` -/
def setNull (v : Addr) : M Unit := setScalar v .null (.lit { bytes := b!"null" }) 4

/-- zzzjson.h:2208-2224 `zj_SetBool` -/
def setBool (v : Addr) (b : Bool) : M Unit :=
  if b = false then setScalar v .bool (.lit { bytes := b!"false" }) 5
  else setScalar v .bool (.lit { bytes := b!"true" }) 4

/-- `zj_checkNum(p, &len)` / `zj_checkStr(p, &len)` on a C string in memory. -/
def checkNumAt (p : SPtr) : M (Option Nat) := do
  let (s, _) ← view p
  lift (checkNum s)
def checkStrAt (p : SPtr) : M (Option Nat) := do
  let (s, _) ← view p
  lift (checkStr s)

/-- zzzjson.h:1274-1280 and 1391-1397: copy `len` bytes into the static scratch
string (created on first use from the allocator of the caller) and terminate it. -/
def fillCache (A : Nat) (p : SPtr) (len : Nat) : M ZStr := do
  let c ← getCache
  let z ← (match c with
    | none => newOut A (·.cache)
    | some z => do touchStr z; pure { z with pos := 0 } : M ZStr)
  let z ← appendStr z p len
  let z ← appendChar z 0
  setCache z
  return z

/-- zzzjson.h:1272-1288 `zj_checkStrLen` -/
def checkStrLenAt (A : Nat) (p : SPtr) (len : Nat) : M Bool := do
  let z ← fillCache A p len
  match ← checkStrAt (.buf z.data 0) with
  | none => return false
  | some n => return n = len

/-- zzzjson.h:1389-1405 `zj_checkNumLen` -/
def checkNumLenAt (A : Nat) (p : SPtr) (len : Nat) : M Bool := do
  let z ← fillCache A p len
  match ← checkNumAt (.buf z.data 0) with
  | none => return false
  | some n => return n = len

/-- `char *s = zj_allocatorAlloc(v->A, len); zj_memCopy(p, len, s);` -/
def dup (A : Nat) (p : SPtr) (len : Nat) : M SPtr := do
  let t ← readN p len
  let b ← newBuf A len t
  return .buf b 0

/-- zzzjson.h:2227-2242 `zj_SetNumStrFast` -/
def setNumStrFast (v : Addr) (p : SPtr) : M Bool := do
  match ← checkNumAt p with
  | none => return false
  | some len => setScalar v .number p len; return true

/-- zzzjson.h:2245-2260 `zj_SetNumStrLenFast` -/
def setNumStrLenFast (v : Addr) (p : SPtr) (len : Nat) : M Bool := do
  if !(← checkNumLenAt (← rdVal v).a p len) then return false
  setScalar v .number p len
  return true

/-- zzzjson.h:2263-2280 `zj_SetNumStr` -/
def setNumStr (v : Addr) (p : SPtr) : M Bool := do
  match ← checkNumAt p with
  | none => return false
  | some len =>
    let s ← dup (← rdVal v).a p len
    setScalar v .number s len
    return true

/-- zzzjson.h:2283-2299 `zj_SetNumStrLen` -/
def setNumStrLen (v : Addr) (p : SPtr) (len : Nat) : M Bool := do
  if !(← checkNumLenAt (← rdVal v).a p len) then return false
  let s ← dup (← rdVal v).a p len
  setScalar v .number s len
  return true

/-- zzzjson.h:2302-2320 `zj_SetNum`, `zj_SetDouble` -/
def setDouble {D} (fp : FP D) (v : Addr) (d : D) : M Bool := do
  let (t, len) := doubleToStr fp d
  let b ← newBuf (← rdVal v).a 32 t
  setScalar v .number (.buf b 0) len
  return true

/-- zzzjson.h:2322-2336 `zj_SetInt` -/
def setInt (v : Addr) (n : Int) : M Bool := do
  let (t, len) := intToStr n
  let b ← newBuf (← rdVal v).a 16 t
  setScalar v .number (.buf b 0) len
  return true

/-- zzzjson.h:2338-2352 `zj_SetLong` -/
def setLong (v : Addr) (n : Int) : M Bool := do
  let (t, len) := longToStr n
  let b ← newBuf (← rdVal v).a 24 t
  setScalar v .number (.buf b 0) len
  return true

/-- zzzjson.h:2354-2368 `zj_SetLongLong` -/
def setLongLong (v : Addr) (n : Int) : M Bool := do
  let (t, len) := longLongToStr n
  let b ← newBuf (← rdVal v).a 24 t
  setScalar v .number (.buf b 0) len
  return true

/-- zzzjson.h:2382-2398 `zj_SetStrFast` -/
def setStrFast (v : Addr) (p : SPtr) : M Bool := do
  match ← checkStrAt p with
  | none => return false
  | some len => setScalar v .string p len; return true

/-- `zj_escapeStr(p, A)` (zzzjson.h:1109-1126): the escaped text in a fresh block. -/
def escapeAt (A : Nat) (p : SPtr) : M SPtr := do
  let (s, _) ← view p
  let (n, out) ← lift (escapeStr s)
  let b ← newBuf A n out
  return .buf b 0

/-- `zj_escapeStrLen(p, A, len)` (zzzjson.h:1129-1151). -/
def escapeLenAt (A : Nat) (p : SPtr) (len : Nat) : M SPtr := do
  let (s, _) ← view p
  let (n, out) ← lift (escapeStrLen s len)
  let b ← newBuf A n out
  return .buf b 0

/-- zzzjson.h:2370-2373 `zj_SetStrEscape` -/
def setStrEscape (v : Addr) (p : SPtr) : M Bool := do
  let es ← escapeAt (← rdVal v).a p
  setStrFast v es

/-- zzzjson.h:2375-2379 `zj_SetStrLenEscape` -/
def setStrLenEscape (v : Addr) (p : SPtr) (len : Nat) : M Bool := do
  let es ← escapeLenAt (← rdVal v).a p len
  setStrFast v es

/-- zzzjson.h:2401-2416 `zj_SetStrLenFast` -/
def setStrLenFast (v : Addr) (p : SPtr) (len : Nat) : M Bool := do
  if !(← checkStrLenAt (← rdVal v).a p len) then return false
  setScalar v .string p len
  return true

/-- zzzjson.h:2419-2437 `zj_SetStr` -/
def setStr (v : Addr) (p : SPtr) : M Bool := do
  match ← checkStrAt p with
  | none => return false
  | some len =>
    let s ← dup (← rdVal v).a p len
    setScalar v .string s len
    return true

/-- zzzjson.h:2440-2457 `zj_SetStrLen` -/
def setStrLen (v : Addr) (p : SPtr) (len : Nat) : M Bool := do
  if !(← checkStrLenAt (← rdVal v).a p len) then return false
  let s ← dup (← rdVal v).a p len
  setScalar v .string s len
  return true

/-- zzzjson.h:2476-2487 (and 2498-2509, 2521-2532, 2545-2556): the node whose key is
to be set: a new null value for an empty handle; refused (`none`) below an array. -/
def keyTarget (v : Addr) : M (Option Addr) := do
  let val ← rdVal v
  match val.n with
  | none =>
    let n ← newNode val.a
    setValN v (some n)
    setPrev n none
    setFather n none
    setNext n none
    setType n .null
    setStrP n (.lit { bytes := b!"null" })
    setLen n 4
    return some n
  | some a =>
    match ← nFather a with
    | none => return some a
    | some f => if (← nType f) ≠ .object then return none else return some a

/-- zzzjson.h:2471-2491 `zj_SetKeyFast` -/
def setKeyFast (v : Addr) (p : SPtr) : M Bool := do
  match ← checkStrAt p with
  | none => return false
  | some len =>
    match ← keyTarget v with
    | none => return false
    | some a =>
      setKey a (some p)
      setKeyLen a len
      return true

/-- zzzjson.h:2459-2462 `zj_SetKeyEscape` -/
def setKeyEscape (v : Addr) (p : SPtr) : M Bool := do
  let es ← escapeAt (← rdVal v).a p
  setKeyFast v es

/-- zzzjson.h:2464-2468 `zj_SetKeyLenEscape` -/
def setKeyLenEscape (v : Addr) (p : SPtr) (len : Nat) : M Bool := do
  let es ← escapeLenAt (← rdVal v).a p len
  setKeyFast v es

/-- zzzjson.h:2494-2513 `zj_SetKeyLenFast` -/
def setKeyLenFast (v : Addr) (p : SPtr) (len : Nat) : M Bool := do
  if !(← checkStrLenAt (← rdVal v).a p len) then return false
  match ← keyTarget v with
  | none => return false
  | some a =>
    setKey a (some p)
    setKeyLen a len
    return true

/-- zzzjson.h:2516-2538 `zj_SetKey` -/
def setKeyC (v : Addr) (p : SPtr) : M Bool := do
  match ← checkStrAt p with
  | none => return false
  | some len =>
    match ← keyTarget v with
    | none => return false
    | some a =>
      let s ← dup (← rdVal v).a p len
      setKey a (some s)
      setKeyLen a len
      return true

/-- zzzjson.h:2541-2562 `zj_SetKeyLen` -/
def setKeyLenC (v : Addr) (p : SPtr) (len : Nat) : M Bool := do
  if !(← checkStrLenAt (← rdVal v).a p len) then return false
  match ← keyTarget v with
  | none => return false
  | some a =>
    let s ← dup (← rdVal v).a p len
    setKey a (some s)
    setKeyLen a len
    return true

/-- zzzjson.h:2565-2577 `zj_SetArray` -/
def setArray (v : Addr) : M Unit := do
  let a ← ensureNode v
  setType a .array
  setNodeP a none
  setLen a 0

/-- zzzjson.h:2580-2592 `zj_SetObj` -/
def setObj (v : Addr) : M Unit := do
  let a ← ensureNode v
  setType a .object
  setNodeP a none
  setLen a 0

/-- `while (next != 0) { next->Father = v->N; next = next->Next; }` -/
def adopt (f : Addr) : Nat → Option Addr → M Unit
  | 0, _ => lift .timeout
  | _ + 1, none => pure ()
  | fuel + 1, some n => do
    setFather n (some f)
    adopt f fuel (← nNext n)

/-- `v->N->Type = x->Type; v->N->Value = x->Value; v->N->Len = x->Len;` and for a
container `v->N->End = e->End` and the new father of the children. `a = v->N`. -/
def graft (fuel : Nat) (a x e : Addr) : M Unit := do
  let ty ← nType x
  setType a ty
  let xv := (← rdNode x).value
  modNode a fun n => { n with value := xv }
  setLen a (← nLen x)
  if (← nType a) = .array ∨ (← nType a) = .object then
    let xe := (← rdNode e).end_
    modNode a fun n => { n with end_ := xe }
    adopt a fuel (← nNode a)

/-- zzzjson.h:2595-2616 `zj_SetFast` -/
def setFast (fuel : Nat) (v vv : Addr) : M Bool := do
  if !(← move vv) then return false
  let x ← rdVal vv
  match (← rdVal v).n with
  | none =>
    setValN v x.n
    setValN vv none
    return true
  | some a =>
    let x ← deref x.n
    graft fuel a x x
    setValN vv none
    return true

/-- zzzjson.h:2619-2639 `zj_Set`; line 2631 takes `End` from `vv`, not from the copy. -/
def set (fuel : Nat) (v vv : Addr) : M Bool := do
  match ← copy fuel vv with
  | none => return false
  | some cp =>
    let x ← rdVal cp
    match (← rdVal v).n with
    | none =>
      setValN v x.n
      return true
    | some a =>
      let x ← deref x.n
      graft fuel a x (← valN vv)
      return true

/-- zzzjson.h:2654-2663 (and 2682-2691, 2705-2714, 2730-2739): append `x` to `f`. -/
def attach (f x : Addr) : M Unit := do
  match ← nNode f with
  | none =>
    setNodeP f (some x)
    setLen f 1
    setEnd f (some x)
  | some _ =>
    let e ← deref (← nEnd f)
    setNext e (some x)
    setPrev x (some e)
    setEnd f (some x)
    setLen f ((← nLen f) + 1)

/-- zzzjson.h:2642-2666 `zj_ObjAddFast` -/
def objAddFast (v vv : Addr) : M Bool := do
  match (← rdVal v).n with
  | none => return false
  | some f =>
    if (← nType f) ≠ .object then return false
    match (← rdVal vv).n with
    | none => return false
    | some x =>
      if (← nKey x) = none then return false
      if !(← move vv) then return false
      setFather x (some f)
      attach f x
      setValN vv none
      return true

/-- zzzjson.h:2669-2693 `zj_ObjAdd` -/
def objAdd (fuel : Nat) (v vv : Addr) : M Bool := do
  match (← rdVal v).n with
  | none => return false
  | some f =>
    if (← nType f) ≠ .object then return false
    match (← rdVal vv).n with
    | none => return false
    | some y =>
      if (← nKey y) = none then return false
      match ← copy fuel vv with
      | none => return false
      | some cp =>
        let x ← valN cp
        setFather x (some f)
        attach f x
        return true

/-- zzzjson.h:2696-2717 `zj_ArrayAddFast` -/
def arrayAddFast (v vv : Addr) : M Bool := do
  match (← rdVal v).n with
  | none => return false
  | some f =>
    if (← nType f) ≠ .array then return false
    if !(← move vv) then return false
    let x ← valN vv
    setKey x none
    setFather x (some f)
    attach f x
    setValN vv none
    return true

/-- zzzjson.h:2720-2741 `zj_ArrayAdd` -/
def arrayAdd (fuel : Nat) (v vv : Addr) : M Bool := do
  match (← rdVal v).n with
  | none => return false
  | some f =>
    if (← nType f) ≠ .array then return false
    match ← copy fuel vv with
    | none => return false
    | some cp =>
      let x ← valN cp
      setKey x none
      setFather x (some f)
      attach f x
      return true

/-- zzzjson.h:2744-2749 `zj_ArrayDel` -/
def arrayDel (fuel : Nat) (v : Addr) (index : Nat) : M Bool := do
  match ← arrayGet fuel v index with
  | none => return false
  | some d => move d

/-- zzzjson.h:2752-2757 `zj_ObjDel` -/
def objDel (fuel : Nat) (v : Addr) (key : SPtr) : M Bool := do
  match ← objGet fuel v key with
  | none => return false
  | some d => move d

/-! ### Clients (`Hist`) -/

def withText {α : Type} (d : Bytes) (keep : Bool) (f : SPtr → M α) : M α := do
  let p ← callerText d
  let r ← f p
  if keep then return r
  freeText p
  return r

def readC : Option SPtr → M (Option Bytes)
  | none => return none
  | some p => do
    let (s, _) ← view p
    let n ← lift (strLen s)
    return some (s.take n)

def readL : Option (SPtr × Nat) → M (Option Bytes)
  | none => return none
  | some (p, n) => do return some (← readN p n)

def parseRun : ParseFn → Addr → Nat → SPtr → M Bool
  | .parse, v, _, p => parse v p
  | .parseLen, v, n, p => parseLen v p n
  | .parseFast, v, _, p => parseFast v p

def textRun : TextFn → Addr → Nat → SPtr → M Bool
  | .str, v, _, p => setStr v p
  | .strLen, v, n, p => setStrLen v p n
  | .strFast, v, _, p => setStrFast v p
  | .strLenFast, v, n, p => setStrLenFast v p n
  | .strEsc, v, _, p => setStrEscape v p
  | .strLenEsc, v, n, p => setStrLenEscape v p n
  | .num, v, _, p => setNumStr v p
  | .numLen, v, n, p => setNumStrLen v p n
  | .numFast, v, _, p => setNumStrFast v p
  | .numLenFast, v, n, p => setNumStrLenFast v p n

def keyRun : KeyFn → Addr → Nat → SPtr → M Bool
  | .key, v, _, p => setKeyC v p
  | .keyLen, v, n, p => setKeyLenC v p n
  | .keyFast, v, _, p => setKeyFast v p
  | .keyLenFast, v, n, p => setKeyLenFast v p n
  | .keyEsc, v, _, p => setKeyEscape v p
  | .keyLenEsc, v, n, p => setKeyLenEscape v p n

def intRun : IntFn → Addr → Int → M Bool
  | .int => setInt
  | .long => setLong
  | .longLong => setLongLong

def getRun {D : Type} (fp : FP D) (F : Nat) : GetFn → Addr → M (Ans D)
  | .type, v => do return .type (← getType v)
  | .size, v => do return .nat (← sizeOf v)
  | .null, v => do return .bool (← isNull v)
  | .bool, v => do return .truth (← getBool v)
  | .str, v => do return .bytes (← readC (← getStr v))
  | .strFast, v => do return .bytes (← readL (← getStrFast v))
  | .unStr, v => do return .bytes (← readC (← getUnEscapeStr v))
  | .numStr, v => do return .bytes (← readC (← getNumStr v))
  | .numFast, v => do return .bytes (← readL (← getNumFast v))
  | .int, v => do return .int (← getInt v)
  | .long, v => do return .int (← getLong v)
  | .longLong, v => do return .int (← getLongLong v)
  | .double, v => do return .double (← getDouble fp v)
  | .key, v => do return .bytes (← readC (← getKey v))
  | .keyFast, v => do return .bytes (← readL (← getKeyFast v))
  | .unKey, v => do return .bytes (← readC (← getUnEscapeKey v))
  | .print, v => do return .bytes (← readC (some (← stringify F v)))

def navRun (F : Nat) : NavFn → Addr → M (Option Addr)
  | .begin, v => begin_ v
  | .next, v => next_ v
  | .array i, v => arrayGet F v i
  | .obj k, v => withText (k ++ [0]) false (objGet F v)
  | .objLen k, v => withText k false fun p => objGetLen F v p k.length

/-- One call of the API, in steps. -/
def exec {D : Type} (fp : FP D) (F : Nat) : Call D → M (Ans D)
  | .newAlloc => do return .alloc (← newAllocator)
  | .release A => do releaseAllocator A; return .unit
  | .newValue A => do return .handle (some (← newValue A))
  | .parse f v b => do return .bool (← withText (passed f.len b) f.keep (parseRun f v b.length))
  | .text f v b => do return .bool (← withText (passed f.len b) f.keep (textRun f v b.length))
  | .null v => do setNull v; return .unit
  | .bool v b => do setBool v b; return .unit
  | .array v => do setArray v; return .unit
  | .object v => do setObj v; return .unit
  | .int f v n => do return .bool (← intRun f v n)
  | .double v d => do return .bool (← setDouble fp v d)
  | .key f v b => do return .bool (← withText (passed f.len b) f.keep (keyRun f v b.length))
  | .get f v => getRun fp F f v
  | .nav f v => do return .handle (← navRun F f v)
  | .copy v => do return .handle (← copy F v)
  | .move v => do return .bool (← move v)
  | .add true true v w => do return .bool (← objAddFast v w)
  | .add true false v w => do return .bool (← objAdd F v w)
  | .add false true v w => do return .bool (← arrayAddFast v w)
  | .add false false v w => do return .bool (← arrayAdd F v w)
  | .delAt v i => do return .bool (← arrayDel F v i)
  | .delKey v k => do return .bool (← withText (k ++ [0]) false (objDel F v))
  | .set true v w => do return .bool (← setFast F v w)
  | .set false v w => do return .bool (← set F v w)

end Thr

end ZJ
