import Verif.Api

/-
Steps: the functions of the model with a count of the steps they take.

Every definition here is the definition of the same name (without the final `T`) in `Lex`, `Parse`
or `Api`, written again with a counter; `…_val` in `TimeVal` proves that without the counter it is
that function. One step is one access to memory: a byte read from a text, a field of a node or of a
handle read or written, a call of the allocator, one byte copied by `zj_memCopy`, one round of a
loop that grows a size. Arithmetic, tests and jumps are not counted; every round of every loop
counts at least one step, so the time is proportional to the steps. A call of the allocator counts
as one step whatever the size: it does not touch the memory it hands out (zzzjson.h:527-542; its own
loop runs at most 32 times, C39, and `malloc` is not part of the model).
-/

namespace ZJ

/-- A computation without state, with the number of its steps. -/
def TR (α : Type) := Res (α × Nat)

instance : Monad TR where
  pure a := .ok (a, 0)
  bind x f :=
    match x with
    | .ok (a, m) =>
      match f a with
      | .ok (b, n) => .ok (b, m + n)
      | .ub u => .ub u
      | .timeout => .timeout
    | .ub u => .ub u
    | .timeout => .timeout

/-- Forget the steps. -/
def TR.val {α} (x : TR α) : Res α :=
  match x with
  | .ok (a, _) => .ok a
  | .ub u => .ub u
  | .timeout => .timeout

/-- `n` steps that compute `r`. -/
def TR.steps {α} (n : Nat) (r : Res α) : TR α :=
  match r with
  | .ok a => .ok (a, n)
  | .ub u => .ub u
  | .timeout => .timeout

/-- A computation with the number of its steps. -/
def TM (α : Type) := M (α × Nat)

instance : Monad TM where
  pure a := fun st => .ok ((a, 0), st)
  bind x f := fun st =>
    match x st with
    | .ok ((a, m), st1) =>
      match f a st1 with
      | .ok ((b, n), st2) => .ok ((b, m + n), st2)
      | .ub u => .ub u
      | .timeout => .timeout
    | .ub u => .ub u
    | .timeout => .timeout

/-- Forget the steps. -/
def TM.val {α} (x : TM α) : M α := fun st =>
  match x st with
  | .ok ((a, _), st') => .ok (a, st')
  | .ub u => .ub u
  | .timeout => .timeout

/-- `n` steps that do `x`. -/
def steps {α} (n : Nat) (x : M α) : TM α := fun st =>
  match x st with
  | .ok (a, st') => .ok ((a, n), st')
  | .ub u => .ub u
  | .timeout => .timeout

/-- One step that does `x`. -/
def one {α} (x : M α) : TM α := steps 1 x

/-- A computation that does not touch the state. -/
def liftT {α} (r : TR α) : TM α := fun st =>
  match r with
  | .ok a => .ok (a, st)
  | .ub u => .ub u
  | .timeout => .timeout

/-! ### Scanning -/

def rdT (s : Bytes) (i : Nat) : TR Byte := .steps 1 (rd s i)

/-- zzzjson.h:775-776, 812-813, 824-825 -/
def skipLoopT (s : Bytes) : Nat → Nat → TR Nat
  | 0, _ => (.timeout : Res (Nat × Nat))
  | fuel + 1, i => do
    let c ← rdT s i
    if skin c then skipLoopT s fuel (i + 1) else pure i

def skipT (s : Bytes) (i : Nat) : TR Nat := skipLoopT s (s.length + 1) i

/-- zzzjson.h:774-778 `zj_peek` -/
def peekT (s : Bytes) (i : Nat) : TR (Byte × Nat) := do
  let i ← skipT s i
  let c ← rdT s i
  pure (c, i + 1)

/-- zzzjson.h:781-807 `zj_consume` and its two variants -/
def consumeT (c : Byte) (s : Bytes) (i : Nat) : TR (Bool × Nat) := do
  let x ← rdT s i
  if x = c then pure (true, i + 1) else pure (false, i)

/-- zzzjson.h:810-831 `zj_likelyPeekAndConsume`, `zj_unLikelyPeekAndConsume` -/
def peekAndConsumeT (c : Byte) (s : Bytes) (i : Nat) : TR (Bool × Nat) := do
  let i ← skipT s i
  let x ← rdT s i
  if x = c then pure (true, i + 1) else pure (false, i)

/-- zzzjson.h:834-858: the literals, one load of 4 bytes each -/
def consumeFalseT (s : Bytes) (lim i : Nat) : TR (Bool × Nat) := .steps 4 (consumeFalse s lim i)
def consumeTrueT (s : Bytes) (lim i : Nat) : TR (Bool × Nat) := .steps 4 (consumeTrue s lim i)
def consumeNullT (s : Bytes) (lim i : Nat) : TR (Bool × Nat) := .steps 4 (consumeNull s lim i)

/-- zzzjson.h:903-911 `zj_consumeHex`: at most 4 characters -/
def consumeHexT (s : Bytes) (i cp : Nat) : TR (Bool × Nat × Nat) := .steps 4 (consumeHex s i cp)

/-- zzzjson.h:1157-1209, the loop of `zj_consumeStr` -/
def consumeStrLoopT (s : Bytes) : Nat → Byte → Nat → TR (Bool × Nat)
  | 0, _, _ => (.timeout : Res ((Bool × Nat) × Nat))
  | fuel + 1, c, i =>
    if c = 0 then pure (false, i)
    else if c ≤ 0x1f then pure (false, i)
    else if c = 0x5C then do
      let c ← rdT s i
      let i := i + 1
      if isEscLetter c then
        let c ← rdT s i
        consumeStrLoopT s fuel c (i + 1)
      else if c = 0x75 then
        let (ok, i, cp) ← consumeHexT s i 0
        if !ok then return (false, i)
        if 0xDC00 ≤ cp ∧ cp ≤ 0xDFFF then return (false, i)
        if 0xD800 ≤ cp ∧ cp ≤ 0xDBFF then
          let (ok, i) ← consumeT 0x5C s i
          if !ok then return (false, i)
          let (ok, i) ← consumeT 0x75 s i
          if !ok then return (false, i)
          let (ok, i, cp2) ← consumeHexT s i 0
          if !ok then return (false, i)
          if cp2 < 0xDC00 ∨ cp2 > 0xDFFF then return (false, i)
          let c ← rdT s i
          consumeStrLoopT s fuel c (i + 1)
        else
          let c ← rdT s i
          consumeStrLoopT s fuel c (i + 1)
      else pure (false, i)
    else if c = 0x22 then pure (true, i)
    else do
      let c ← rdT s i
      consumeStrLoopT s fuel c (i + 1)

/-- zzzjson.h:1154-1210 `zj_consumeStr` -/
def consumeStrT (s : Bytes) (i : Nat) : TR (Bool × Nat) := do
  let c ← rdT s i
  consumeStrLoopT s (s.length + 1) c (i + 1)

/-- zzzjson.h:1217-1269, the loop of `zj_checkStr` -/
def checkStrLoopT (s : Bytes) : Nat → Byte → Nat → TR (Option Nat)
  | 0, _, _ => (.timeout : Res (Option Nat × Nat))
  | fuel + 1, c, i =>
    if c = 0 then pure (some (i - 1))
    else if c ≤ 0x1f ∨ c = 0x22 then pure none
    else if c = 0x5C then do
      let c ← rdT s i
      let i := i + 1
      if isEscLetter c then
        let c ← rdT s i
        checkStrLoopT s fuel c (i + 1)
      else if c = 0x75 then
        let (ok, i, cp) ← consumeHexT s i 0
        if !ok then return none
        if 0xDC00 ≤ cp ∧ cp ≤ 0xDFFFF then return none
        if 0xD800 ≤ cp ∧ cp ≤ 0xDBFF then
          let (ok, i) ← consumeT 0x5C s i
          if !ok then return none
          let (ok, i) ← consumeT 0x75 s i
          if !ok then return none
          let (ok, i, cp2) ← consumeHexT s i 0
          if !ok then return none
          if cp2 < 0xDC00 ∨ cp2 > 0xDFFF then return none
          let c ← rdT s i
          checkStrLoopT s fuel c (i + 1)
        else
          let c ← rdT s i
          checkStrLoopT s fuel c (i + 1)
      else pure none
    else do
      let c ← rdT s i
      checkStrLoopT s fuel c (i + 1)

/-- zzzjson.h:1213-1270 `zj_checkStr` -/
def checkStrT (s : Bytes) : TR (Option Nat) := do
  let c ← rdT s 0
  checkStrLoopT s (s.length + 1) c 1

/-- zzzjson.h:1300-1303 and five more times: a run of digits -/
def digitLoopT (s : Bytes) : Nat → Nat → TR Nat
  | 0, _ => (.timeout : Res (Nat × Nat))
  | fuel + 1, i => do
    let c ← rdT s i
    if cIsDigit c then digitLoopT s fuel (i + 1) else pure i

/-- zzzjson.h:1297-1306 (and 1346-1355) -/
def numIntT (s : Bytes) (i : Nat) : TR (Option Nat) := do
  let (ok, i) ← consumeT 0x30 s i
  if ok then return some i
  let c ← rdT s i
  if 0x31 ≤ c ∧ c ≤ 0x39 then
    let i ← digitLoopT s (s.length + 1) (i + 1)
    return some i
  return none

/-- zzzjson.h:1308-1318 (and 1357-1367) -/
def numFracT (s : Bytes) (i : Nat) : TR (Option Nat) := do
  let (ok, i) ← consumeT 0x2E s i
  if !ok then return some i
  let c ← rdT s i
  if cIsDigit c then
    let i ← digitLoopT s (s.length + 1) (i + 1)
    return some i
  return none

/-- zzzjson.h:1320-1334 (and 1369-1385) -/
def numExpT (s : Bytes) (i : Nat) : TR (Option Nat) := do
  let e ← rdT s i
  if e = 0x65 ∨ e = 0x45 then
    let c ← rdT s (i + 1)
    let i := if c = 0x2D ∨ c = 0x2B then i + 2 else i + 1
    let c ← rdT s i
    if cIsDigit c then
      let i ← digitLoopT s (s.length + 1) (i + 1)
      return some i
    return none
  return some i

/-- zzzjson.h:1294-1336, 1343-1385 -/
def scanNumT (s : Bytes) (i : Nat) : TR (Option Nat) := do
  let c ← rdT s i
  let i := if c = 0x2D then i + 1 else i
  match ← numIntT s i with
  | none => return none
  | some i =>
    match ← numFracT s i with
    | none => return none
    | some i => numExpT s i

/-- zzzjson.h:1291-1337 `zj_consumeNum` -/
def consumeNumT (s : Bytes) (i : Nat) : TR (Option Nat) := scanNumT s (i - 1)

/-- zzzjson.h:1340-1388 `zj_checkNum` -/
def checkNumT (s : Bytes) : TR (Option Nat) := do
  match ← scanNumT s 0 with
  | none => return none
  | some i =>
    let (ok, _) ← consumeT 0 s i
    if ok then return some i else return none

/-! ### Parsing -/

/-- zzzjson.h:1427-1464 -/
def openContainerT (A : Nat) (s : Bytes) (ty : JType) (close : Byte) (node : Addr) (i : Nat) :
    TM Step := do
  one (setType node ty)
  let (ok, i) ← liftT (peekAndConsumeT close s i)
  if ok then
    one (setNodeP node none)
    one (setLen node 0)
    return .leaf i
  let n ← one (newNode A)
  one (setFather n (some node))
  one (setPrev n none)
  one (setNodeP node (some n))
  one (setEnd node (some n))
  one (setLen node 1)
  return .desc n i

/-- zzzjson.h:1425-1535, 1570-1680 -/
def switchValueT (A : Nat) (p : SPtr) (s : Bytes) (lim : Nat) (node : Addr) (i : Nat) :
    TM Step := do
  let (c, i) ← liftT (peekT s i)
  if c = 0x5B then openContainerT A s .array 0x5D node i
  else if c = 0x7B then openContainerT A s .object 0x7D node i
  else if c = 0x6E then
    let (ok, i) ← liftT (consumeNullT s lim i)
    if !ok then return .bad
    one (setType node .null)
    one (setStrP node (.lit { bytes := b!"null" }))
    one (setLen node 4)
    return .leaf i
  else if c = 0x66 then
    let (ok, i) ← liftT (consumeFalseT s lim i)
    if !ok then return .bad
    one (setType node .bool)
    one (setStrP node (.lit { bytes := b!"false" }))
    one (setLen node 5)
    return .leaf i
  else if c = 0x74 then
    let (ok, i) ← liftT (consumeTrueT s lim i)
    if !ok then return .bad
    one (setType node .bool)
    one (setStrP node (.lit { bytes := b!"true" }))
    one (setLen node 4)
    return .leaf i
  else if c = 0x22 then
    let start := i
    let (ok, i) ← liftT (consumeT 0x22 s i)
    if ok then
      one (setType node .string)
      one (setStrP node (p.add i))
      one (setLen node 0)
      return .leaf i
    let (ok, i) ← liftT (consumeStrT s i)
    if !ok then return .bad
    one (setType node .string)
    one (setStrP node (p.add start))
    one (setLen node (i - start - 1))
    return .leaf i
  else
    let start := i - 1
    match ← liftT (consumeNumT s i) with
    | none => return .bad
    | some i =>
      one (setType node .number)
      one (setStrP node (p.add start))
      one (setLen node (i - start))
      return .leaf i

/-- zzzjson.h:1537-1569 -/
def parseKeyT (p : SPtr) (s : Bytes) (node : Addr) (i : Nat) : TM (Option Nat) := do
  let f ← one (deref (← one (nFather node)))
  if (← one (nType f)) = .object then
    let (ok, i) ← liftT (peekAndConsumeT 0x22 s i)
    if !ok then return none
    let start := i
    let (ok, i) ← liftT (consumeT 0x22 s i)
    if ok then
      one (setKey node (some (p.add start)))
      one (setKeyLen node 0)
      let (ok, i) ← liftT (peekAndConsumeT 0x3A s i)
      if !ok then return none
      return some i
    else
      let (ok, i) ← liftT (consumeStrT s i)
      if !ok then return none
      one (setKey node (some (p.add start)))
      one (setKeyLen node (i - start - 1))
      let (ok, i) ← liftT (peekAndConsumeT 0x3A s i)
      if !ok then return none
      return some i
  else
    one (setKey node none)
    return some i

/-- `if (src_node == 0) v->N = src_node; else *v->N = *src_node; return false;` (a node has 9
fields) -/
def restoreT (v : Addr) (src : Option Addr) : TM Bool := steps 20 (restore v src)

/-- zzzjson.h:1536-1718 -/
def parseLoopT (v : Addr) (A : Nat) (p : SPtr) (s : Bytes) (lim : Nat) (src : Option Addr) :
    Nat → PC → Addr → Nat → TM Bool
  | 0, _, _, _ => steps 0 (lift .timeout)
  | fuel + 1, .head, node, i => do
    if some node = (← one (rdVal v)).n then
      let (ok, _) ← liftT (peekAndConsumeT 0 s i)
      if ok then return true
      restoreT v src
    else
      match ← parseKeyT p s node i with
      | none => restoreT v src
      | some i =>
        match ← switchValueT A p s lim node i with
        | .bad => restoreT v src
        | .desc n i => parseLoopT v A p s lim src fuel .head n i
        | .leaf i => parseLoopT v A p s lim src fuel .close node i
  | fuel + 1, .close, node, i => do
    if some node = (← one (rdVal v)).n then
      parseLoopT v A p s lim src fuel .head node i
    else
      let (ok, i) ← liftT (peekAndConsumeT 0x2C s i)
      if ok then
        let n ← one (newNode A)
        one (setFather n (← one (nFather node)))
        one (setPrev n (some node))
        let f ← one (deref (← one (nFather node)))
        one (setEnd f (some n))
        one (setLen f ((← one (nLen f)) + 1))
        one (setNext node (some n))
        parseLoopT v A p s lim src fuel .head n i
      else
        let (c, i) ← liftT (peekT s i)
        let f ← one (deref (← one (nFather node)))
        let ty ← one (nType f)
        if (c = 0x7D ∧ ty = .object) ∨ (c = 0x5D ∧ ty = .array) then
          one (setNext node none)
          parseLoopT v A p s lim src fuel .close f i
        else restoreT v src

/-- zzzjson.h:1410-1424: the node to fill and the copy of its old contents. -/
def parseStartT (v : Addr) (val : Val) : TM (Option Addr) := do
  match val.n with
  | none =>
    let n ← one (newNode val.a)
    one (setValN v (some n))
    one (setPrev n none)
    one (setNext n none)
    one (setFather n none)
    one (setKey n none)
    pure none
  | some a =>
    let sn ← one (newNode val.a)
    let x ← steps 9 (rdNode a)
    steps 9 (modNode sn fun n => { x with owner := n.owner })
    pure (some sn)

/-- zzzjson.h:1408-1719 `zj_ParseFast(v, p)` -/
def parseFastT (v : Addr) (p : SPtr) : TM Bool := do
  let val ← one (rdVal v)
  let src ← parseStartT v val
  let (s, lim) ← one (view p)
  let root ← one (deref (← one (rdVal v)).n)
  match ← switchValueT val.a p s lim root 0 with
  | .bad => restoreT v src
  | .desc n i => parseLoopT v val.a p s lim src (parseFuel s.length) .head n i
  | .leaf i => parseLoopT v val.a p s lim src (parseFuel s.length) .head root i

/-- `zj_memCopy(p, len, _)`: the source operand. -/
def readNT (p : SPtr) (len : Nat) : TM Bytes := steps len (readN p len)

/-- zzzjson.h:1722-1727 `zj_ParseLen(v, p, len)` -/
def parseLenT (v : Addr) (p : SPtr) (len : Nat) : TM Bool := do
  let val ← one (rdVal v)
  let t ← readNT p len
  let b ← steps 2 (newBuf val.a (len + 1) (t ++ [0]))
  parseFastT v (.buf b 0)

/-- `strlen` (zzzjson.h:368) -/
def strLenLoopT : Bytes → Nat → TR Nat
  | [], _ => (.ub .oob : Res (Nat × Nat))
  | c :: r, n => if c = 0 then .steps 1 (.ok n) else do
    .steps 1 (.ok ())
    strLenLoopT r (n + 1)

def strLenT (s : Bytes) : TR Nat := strLenLoopT s 0

/-- zzzjson.h:1730-1732 `zj_Parse(v, p)` -/
def parseT (v : Addr) (p : SPtr) : TM Bool := do
  let (s, _) ← one (view p)
  let n ← liftT (strLenT s)
  parseLenT v p n

end ZJ
