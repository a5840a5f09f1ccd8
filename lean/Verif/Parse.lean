import Verif.Heap

/-
Model of zj_ParseFast, zj_ParseLen, zj_Parse (zzzjson.h:1408-1732).
-/

namespace ZJ

/-- Outcome of the big `switch` on the first character of a value. -/
inductive Step where
  /-- an element was opened: continue with the first child `n` -/
  | desc (n : Addr) (i : Nat)
  /-- the value is complete -/
  | leaf (i : Nat)
  /-- syntax error -/
  | bad
deriving DecidableEq, Repr

/-- zzzjson.h:1427-1464: `[` or `{` (`ty`, closing bracket `close`). -/
def openContainer (A : Nat) (s : Bytes) (ty : JType) (close : Byte) (node : Addr) (i : Nat) :
    M Step := do
  setType node ty
  let (ok, i) ← lift (peekAndConsume close s i)
  if ok then
    setNodeP node none
    setLen node 0
    return .leaf i
  let n ← newNode A
  setFather n (some node)
  setPrev n none
  setNodeP node (some n)
  setEnd node (some n)
  setLen node 1
  return .desc n i

/-- zzzjson.h:1425-1535 and again 1570-1680 (the same text, except that `break`
after opening a container is `continue`): `c = zj_peek(s, &index); switch (c)`.
`p` is the pointer `s`, `s` the bytes behind it, `lim` how many may be read. -/
def switchValue (A : Nat) (p : SPtr) (s : Bytes) (lim : Nat) (node : Addr) (i : Nat) :
    M Step := do
  let (c, i) ← lift (peek s i)
  if c = 0x5B then openContainer A s .array 0x5D node i
  else if c = 0x7B then openContainer A s .object 0x7D node i
  else if c = 0x6E then
    let (ok, i) ← lift (consumeNull s lim i)
    if !ok then return .bad
    setType node .null
    setStrP node (.lit { bytes := b!"null" })
    setLen node 4
    return .leaf i
  else if c = 0x66 then
    let (ok, i) ← lift (consumeFalse s lim i)
    if !ok then return .bad
    setType node .bool
    setStrP node (.lit { bytes := b!"false" })
    setLen node 5
    return .leaf i
  else if c = 0x74 then
    let (ok, i) ← lift (consumeTrue s lim i)
    if !ok then return .bad
    setType node .bool
    setStrP node (.lit { bytes := b!"true" })
    setLen node 4
    return .leaf i
  else if c = 0x22 then
    let start := i
    let (ok, i) ← lift (consume 0x22 s i)
    if ok then
      setType node .string
      setStrP node (p.add i)
      setLen node 0
      return .leaf i
    let (ok, i) ← lift (consumeStr s i)
    if !ok then return .bad
    setType node .string
    setStrP node (p.add start)
    setLen node (i - start - 1)
    return .leaf i
  else
    let start := i - 1
    match ← lift (consumeNum s i) with
    | none => return .bad
    | some i =>
      setType node .number
      setStrP node (p.add start)
      setLen node (i - start)
      return .leaf i

/-- zzzjson.h:1537-1569: the key of a child. `none` = syntax error, else the new index. -/
def parseKey (p : SPtr) (s : Bytes) (node : Addr) (i : Nat) : M (Option Nat) := do
  let f ← deref (← nFather node)
  if (← nType f) = .object then
    let (ok, i) ← lift (peekAndConsume 0x22 s i)
    if !ok then return none
    let start := i
    let (ok, i) ← lift (consume 0x22 s i)
    if ok then
      setKey node (some (p.add start))
      setKeyLen node 0
      let (ok, i) ← lift (peekAndConsume 0x3A s i)
      if !ok then return none
      return some i
    else
      let (ok, i) ← lift (consumeStr s i)
      if !ok then return none
      setKey node (some (p.add start))
      setKeyLen node (i - start - 1)
      let (ok, i) ← lift (peekAndConsume 0x3A s i)
      if !ok then return none
      return some i
  else
    setKey node none
    return some i

/-- Where control is: at the test of the outer `while` (zzzjson.h:1536) or of the
inner one (zzzjson.h:1681). -/
inductive PC where
  | head | close
deriving DecidableEq, Repr

/-- `if (src_node == 0) v->N = src_node; else *v->N = *src_node; return false;` -/
def restore (v : Addr) (src : Option Addr) : M Bool := do
  match src with
  | none => setValN v none
  | some sn =>
    let x ← rdNode sn
    let a ← deref (← rdVal v).n
    modNode a fun n => { x with owner := n.owner }
  return false

/-- zzzjson.h:1536-1718, from the loop test on. -/
def parseLoop (v : Addr) (A : Nat) (p : SPtr) (s : Bytes) (lim : Nat) (src : Option Addr) :
    Nat → PC → Addr → Nat → M Bool
  | 0, _, _, _ => lift .timeout
  | fuel + 1, .head, node, i => do
    if some node = (← rdVal v).n then
      let (ok, _) ← lift (peekAndConsume 0 s i)
      if ok then return true
      restore v src
    else
      match ← parseKey p s node i with
      | none => restore v src
      | some i =>
        match ← switchValue A p s lim node i with
        | .bad => restore v src
        | .desc n i => parseLoop v A p s lim src fuel .head n i
        | .leaf i => parseLoop v A p s lim src fuel .close node i
  | fuel + 1, .close, node, i => do
    if some node = (← rdVal v).n then
      parseLoop v A p s lim src fuel .head node i
    else
      let (ok, i) ← lift (peekAndConsume 0x2C s i)
      if ok then
        let n ← newNode A
        setFather n (← nFather node)
        setPrev n (some node)
        let f ← deref (← nFather node)
        setEnd f (some n)
        setLen f ((← nLen f) + 1)
        setNext node (some n)
        parseLoop v A p s lim src fuel .head n i
      else
        let (c, i) ← lift (peek s i)
        let f ← deref (← nFather node)
        let ty ← nType f
        if (c = 0x7D ∧ ty = .object) ∨ (c = 0x5D ∧ ty = .array) then
          setNext node none
          parseLoop v A p s lim src fuel .close f i
        else restore v src

/-- Fuel that suffices for a text of `n` bytes (proved). -/
def parseFuel (n : Nat) : Nat := 3 * n + 3

/-- zzzjson.h:1408-1719 `zj_ParseFast(v, p)`. -/
def parseFast (v : Addr) (p : SPtr) : M Bool := do
  let val ← rdVal v
  let src ← (do
    match val.n with
    | none =>
      let n ← newNode val.a
      setValN v (some n)
      setPrev n none
      setNext n none
      setFather n none
      setKey n none
      pure none
    | some a =>
      let sn ← newNode val.a
      let x ← rdNode a
      modNode sn fun n => { x with owner := n.owner }
      pure (some sn) : M (Option Addr))
  let (s, lim) ← view p
  let root ← deref (← rdVal v).n
  match ← switchValue val.a p s lim root 0 with
  | .bad => restore v src
  | .desc n i => parseLoop v val.a p s lim src (parseFuel s.length) .head n i
  | .leaf i => parseLoop v val.a p s lim src (parseFuel s.length) .head root i

/-- zzzjson.h:1722-1727 `zj_ParseLen(v, p, len)`. -/
def parseLen (v : Addr) (p : SPtr) (len : Nat) : M Bool := do
  let val ← rdVal v
  let t ← readN p len
  let b ← newBuf val.a (len + 1) (t ++ [0])
  parseFast v (.buf b 0)

/-- zzzjson.h:1730-1732 `zj_Parse(v, p)`. -/
def parse (v : Addr) (p : SPtr) : M Bool := do
  let (s, _) ← view p
  let n ← lift (strLen s)
  parseLen v p n

end ZJ
