import Verif.Time
import Verif.Hist

/-
Steps of the rest of the API: the functions of `Heap` (output strings), `Escape`, `Num`, `Api` and
`Hist` with a count of their steps (see `Time`).
-/

namespace ZJ

/-! ### Output strings -/

/-- zzzjson.h:580-582 -/
def growLoopT (d : Nat) : Nat → Nat → Nat → TR Nat
  | 0, _, _ => (.timeout : Res (Nat × Nat))
  | fuel + 1, s, need =>
    if need > s then do
      .steps 1 (.ok ())
      growLoopT d fuel (s * d) need
    else .steps 1 (.ok s)

/-- The first `pos` bytes of the data area, copied to a new one. -/
def oldBytes (z : ZStr) : M Bytes := fun st => match st.bufs z.data with
  | some b => .ok (b.data.take z.pos, st)
  | none => .ub .wild

/-- The new data area of zzzjson.h:579-588 if the old one is too small. -/
def growBytesT (z : ZStr) (need : Nat) : TM ZStr := do
  if need > z.sizeOf then
    let d := (← one getCfg).delta
    let ns ← liftT (growLoopT d (need + 1) (z.sizeOf * d) need)
    let old ← steps z.pos (oldBytes z)
    let d ← one (newBuf z.a ns old)
    pure { z with data := d, sizeOf := ns }
  else pure z

/-- zzzjson.h:576-590 `zj_appendStr`, given the bytes to append -/
def appendBytesT (z : ZStr) (s : Bytes) : TM ZStr := do
  one (touchStr z)
  let z ← growBytesT z (z.pos + s.length)
  steps (s.length + 1) (pokeStr z s)
  pure { z with pos := z.pos + s.length }

/-- zzzjson.h:576-590 `zj_appendStr(str, p, len)` -/
def appendStrT (z : ZStr) (p : SPtr) (len : Nat) : TM ZStr := do
  let s ← one (readN p len)
  appendBytesT z s

/-- The new data area of zzzjson.h:596-602 if the old one is full. -/
def growCharT (z : ZStr) : TM ZStr := do
  if z.pos + 1 > z.sizeOf then
    let ns := z.sizeOf * (← one getCfg).delta
    let old ← steps z.pos (oldBytes z)
    let d ← one (newBuf z.a ns old)
    pure { z with data := d, sizeOf := ns }
  else pure z

/-- zzzjson.h:593-604 `zj_appendChar` -/
def appendCharT (z : ZStr) (c : Byte) : TM ZStr := do
  one (touchStr z)
  let z ← growCharT z
  steps 2 (pokeStr z [c])
  pure { z with pos := z.pos + 1 }

/-- zzzjson.h:561-570 `zj_newString` -/
def newOutT (A : Nat) (size : Cfg → Nat) : TM ZStr := steps 4 (newOut A size)

/-! ### Escape and unescape -/

/-- zzzjson.h:924-955 `zj_add`, `zj_addUTF8`, `zj_addEnd`: at most 4 bytes -/
def addOutT (cap : Nat) (out : Bytes) (b : Bytes) : TR Bytes := .steps b.length (addOut cap out b)

/-- zzzjson.h:914-921 `zj_consumeHexForUnEscape`: 4 characters -/
def consumeHexUT (s : Bytes) (i cp : Nat) : TR (Nat × Nat) := .steps 4 (consumeHexU s i cp)

/-- zzzjson.h:1007-1019, the part of `zj_unEscapeStr` for `\\u` -/
def unEscapeUT (s : Bytes) (cap i : Nat) (out : Bytes) : TR (Nat × Bytes) := do
  let x ← consumeHexUT s (i + 2) 0
  if 0xD800 ≤ x.2 ∧ x.2 ≤ 0xDBFF then
    let y ← consumeHexUT s (x.1 + 2) 0
    let out ← addOutT cap out (utf8Bytes (surrogatePair x.2 y.2))
    pure (y.1, out)
  else
    let out ← addOutT cap out (utf8Bytes x.2)
    pure (x.1, out)

/-- zzzjson.h:961-1026, the loop of `zj_unEscapeStr` -/
def unEscapeLoopT (s : Bytes) (len cap : Nat) : Nat → Nat → Bytes → TR Bytes
  | 0, _, _ => (.timeout : Res (Bytes × Nat))
  | fuel + 1, i, out =>
    if i < len then do
      let c ← rdT s i
      if c = 0x5C then
        let c ← rdT s (i + 1)
        match unescLetter c with
        | some x =>
          let out ← addOutT cap out [x]
          unEscapeLoopT s len cap fuel (i + 2) out
        | none =>
          if c = 0x75 then
            let z ← unEscapeUT s cap i out
            unEscapeLoopT s len cap fuel z.1 z.2
          else unEscapeLoopT s len cap fuel i out
      else
        let out ← addOutT cap out [c]
        unEscapeLoopT s len cap fuel (i + 1) out
    else pure out

/-- zzzjson.h:957-1029 `zj_unEscapeStr(str, len, s)` -/
def unEscapeStrT (s : Bytes) (len cap : Nat) : TR Bytes := do
  let out ← unEscapeLoopT s len cap (len + 1) 0 []
  addOutT cap out [0]

/-- First loop of zzzjson.h:1109-1126 `zj_escapeStr` -/
def escLenLoopT : Bytes → Nat → TR Nat
  | [], _ => (.ub .oob : Res (Nat × Nat))
  | c :: r, l => if c = 0 then .steps 1 (.ok l) else do
    let n ← .steps 2 (escapeLen c)
    escLenLoopT r (l + n)

/-- Second loop of `zj_escapeStr` -/
def escOutLoopT (cap : Nat) : Bytes → Bytes → TR Bytes
  | [], _ => (.ub .oob : Res (Bytes × Nat))
  | c :: r, out => if c = 0 then .steps 1 (.ok out) else do
    let e ← .steps 2 (escapeEntry c)
    let out ← addOutT cap out e
    escOutLoopT cap r out

/-- zzzjson.h:1109-1126 `zj_escapeStr` -/
def escapeStrT (s : Bytes) : TR (Nat × Bytes) := do
  let len ← escLenLoopT s 0
  let out ← escOutLoopT (len + 1) s []
  let out ← addOutT (len + 1) out [0]
  pure (len + 1, out)

/-- First loop of zzzjson.h:1129-1151 `zj_escapeStrLen` -/
def escLenLoopNT : Nat → Bytes → Nat → TR Nat
  | 0, _, l => pure l
  | _ + 1, [], _ => (.ub .oob : Res (Nat × Nat))
  | k + 1, c :: r, l => do
    let n ← .steps 2 (escapeLen c)
    escLenLoopNT k r (l + n)

/-- Second loop of `zj_escapeStrLen` -/
def escOutLoopNT (cap : Nat) : Nat → Bytes → Bytes → TR Bytes
  | 0, _, out => pure out
  | _ + 1, [], _ => (.ub .oob : Res (Bytes × Nat))
  | k + 1, c :: r, out => do
    let e ← .steps 2 (escapeEntry c)
    let out ← addOutT cap out e
    escOutLoopNT cap k r out

/-- zzzjson.h:1129-1151 `zj_escapeStrLen` -/
def escapeStrLenT (s : Bytes) (n : Nat) : TR (Nat × Bytes) := do
  let len ← escLenLoopNT n s 0
  let out ← escOutLoopNT (len + 1) n s []
  let out ← addOutT (len + 1) out [0]
  pure (len + 1, out)

/-! ### Numbers: the local array of 128 bytes is cleared, the text is copied to it, and the C
library converts it reading one byte after the other; `snprintf` of a number counts 64 steps -/

/-- The digits part of `atoi` -/
def atoiDigitsT : Bytes → Nat → TR Nat
  | [], _ => (.ub .oob : Res (Nat × Nat))
  | c :: r, acc => do
    .steps 1 (.ok ())
    if 0x30 ≤ c ∧ c ≤ 0x39 then atoiDigitsT r (acc * 10 + (c.toNat - 0x30)) else pure acc

/-- Optional sign and digits -/
def atoiSignedT (s : Bytes) : TR Int :=
  match s with
  | [] => (.ub .oob : Res (Int × Nat))
  | c :: r =>
    if c = 0x2D then do
      let n ← atoiDigitsT r 0
      pure (-(n : Int))
    else if c = 0x2B then do
      let n ← atoiDigitsT r 0
      pure (n : Int)
    else do
      let n ← atoiDigitsT s 0
      pure (n : Int)

/-- `atoi`, `atol`, `atoll` -/
def atoiBitsT (bits : Nat) (s : Bytes) : TR Int := do
  .steps ((s.takeWhile isSpaceC).length + 1) (.ok ())
  let n ← atoiSignedT (s.dropWhile isSpaceC)
  if -(2 ^ (bits - 1) : Int) ≤ n ∧ n < 2 ^ (bits - 1) then pure n else (.ub .overflow : Res (Int × Nat))

/-- The text `atof` looks at -/
def atofTextT : Bytes → TR Bytes
  | [] => (.ub .oob : Res (Bytes × Nat))
  | c :: r => do
    .steps 1 (.ok ())
    if isNumeralChar c then do
      let t ← atofTextT r
      pure (c :: t)
    else pure []

/-- zzzjson.h:372-376 `zj_strToInt` -/
def strToIntT (p : SPtr) (len : Nat) : TM Int := do
  let t ← steps (128 + len) (readN p len)
  let s ← steps 0 (lift (stackCopy t))
  liftT (atoiBitsT 32 s)

/-- zzzjson.h:377-381 `zj_strToLong` -/
def strToLongT (p : SPtr) (len : Nat) : TM Int := do
  let t ← steps (128 + len) (readN p len)
  let _ ← steps 0 (lift (stackCopy t))
  let (b, _) ← steps 0 (view p)
  liftT (atoiBitsT 64 b)

/-- zzzjson.h:382-386 `zj_strToLongLong` -/
def strToLongLongT (p : SPtr) (len : Nat) : TM Int := do
  let t ← steps (128 + len) (readN p len)
  let _ ← steps 0 (lift (stackCopy t))
  let (b, _) ← steps 0 (view p)
  liftT (atoiBitsT 64 b)

/-- zzzjson.h:387-391 `zj_strToDouble` -/
def strToDoubleT {D} (fp : FP D) (p : SPtr) (len : Nat) : TM D := do
  let t ← steps (128 + len) (readN p len)
  let _ ← steps 0 (lift (stackCopy t))
  let (b, _) ← steps 0 (view p)
  let n ← liftT (atofTextT b)
  pure (fp.conv n)

/-! ### Stringify (zzzjson.h:1735-1819) -/

/-- zzzjson.h:1741-1766 and 1774-1801: the value of `node` itself; `some n`: a
non-empty container was opened, continue with its first child `n`. An array is
tested by `Value.Node`, an object by `Len`. -/
def putValueT (z : ZStr) (node : Addr) : TM (ZStr × Option Addr) := do
  match ← one (nType node) with
  | .array =>
    let z ← appendCharT z 0x5B
    match ← one (nNode node) with
    | some n => return (z, some n)
    | none =>
      let z ← appendCharT z 0x5D
      return (z, none)
  | .object =>
    let z ← appendCharT z 0x7B
    if (← one (nLen node)) ≠ 0 then
      let n ← one (deref (← one (nNode node)))
      return (z, some n)
    else
      let z ← appendCharT z 0x7D
      return (z, none)
  | .string =>
    let z ← appendCharT z 0x22
    let z ← appendStrT z (← one (nStr node)) (← one (nLen node))
    let z ← appendCharT z 0x22
    return (z, none)
  | _ =>
    let z ← appendStrT z (← one (nStr node)) (← one (nLen node))
    return (z, none)

/-- zzzjson.h:1769-1773: the key of a child. -/
def putKeyT (z : ZStr) (node : Addr) : TM ZStr := do
  match ← one (nKey node) with
  | some k =>
    let z ← appendCharT z 0x22
    let z ← appendStrT z k (← one (nKeyLen node))
    appendBytesT z [0x22, 0x3A]
  | none => pure z

/-- zzzjson.h:1768-1816 from a loop test on: `head` is the outer, `close` the inner
`while`. -/
def stringifyLoopT (v : Addr) : Nat → PC → Addr → ZStr → TM ZStr
  | 0, _, _, _ => steps 0 (lift .timeout)
  | fuel + 1, .head, node, z => do
    if some node = (← one (rdVal v)).n then return z
    let z ← putKeyT z node
    match ← putValueT z node with
    | (z, some n) => stringifyLoopT v fuel .head n z
    | (z, none) => stringifyLoopT v fuel .close node z
  | fuel + 1, .close, node, z => do
    if some node = (← one (rdVal v)).n then stringifyLoopT v fuel .head node z
    else
      match ← one (nNext node) with
      | some n =>
        let z ← appendCharT z 0x2C
        stringifyLoopT v fuel .head n z
      | none =>
        let f ← one (deref (← one (nFather node)))
        if (← one (nType f)) = .array then
          let z ← appendCharT z 0x5D
          stringifyLoopT v fuel .close f z
        else
          let z ← appendCharT z 0x7D
          stringifyLoopT v fuel .close f z

/-- zzzjson.h:1735-1819 `zj_Stringify`. -/
def stringifyT (fuel : Nat) (v : Addr) : TM SPtr := do
  let val ← one (rdVal v)
  match val.n with
  | none => return .lit { bytes := [] }
  | some root =>
    let z ← newOutT val.a (·.str)
    let (z, c) ← putValueT z root
    let z ← match c with
      | some n => stringifyLoopT v fuel .head n z
      | none => stringifyLoopT v fuel .head root z
    let z ← appendCharT z 0
    return .buf z.data 0

/-! ### Getters (zzzjson.h:1822-2084) -/

/-- `zj_allocatorAlloc(v->A, len + 1); zj_memCopy(p, len, str); str[len] = 0;` -/
def copyOutT (A : Nat) (p : SPtr) (len : Nat) : TM SPtr := do
  let t ← readNT p len
  let b ← one (newBuf A (len + 1) (t ++ [0]))
  return .buf b 0

/-- zzzjson.h:1822-1829 `zj_GetStrFast` -/
def getStrFastT (v : Addr) : TM (Option (SPtr × Nat)) := do
  match (← one (rdVal v)).n with
  | none => return none
  | some a =>
    if (← one (nType a)) ≠ .string then return none
    return some (← one (nStr a), ← one (nLen a))

/-- zzzjson.h:1832-1841 `zj_GetStr` -/
def getStrT (v : Addr) : TM (Option SPtr) := do
  let val ← one (rdVal v)
  match val.n with
  | none => return none
  | some a =>
    if (← one (nType a)) ≠ .string then return none
    return some (← copyOutT val.a (← one (nStr a)) (← one (nLen a)))

/-- zzzjson.h:1844-1854 `zj_GetUnEscapeStr` -/
def getUnEscapeStrT (v : Addr) : TM (Option SPtr) := do
  let val ← one (rdVal v)
  match val.n with
  | none => return none
  | some a =>
    if (← one (nType a)) ≠ .string then return none
    let len ← one (nLen a)
    let (s, _) ← one (view (← one (nStr a)))
    let out ← liftT (unEscapeStrT s len (len + 1))
    let b ← one (newBuf val.a (len + 1) out)
    return some (.buf b 0)

/-- zzzjson.h:1857-1864 `zj_GetNumFast` -/
def getNumFastT (v : Addr) : TM (Option (SPtr × Nat)) := do
  match (← one (rdVal v)).n with
  | none => return none
  | some a =>
    if (← one (nType a)) ≠ .number then return none
    return some (← one (nStr a), ← one (nLen a))

/-- zzzjson.h:1867-1876 `zj_GetNumStr` -/
def getNumStrT (v : Addr) : TM (Option SPtr) := do
  let val ← one (rdVal v)
  match val.n with
  | none => return none
  | some a =>
    if (← one (nType a)) ≠ .number then return none
    return some (← copyOutT val.a (← one (nStr a)) (← one (nLen a)))

/-- zzzjson.h:1879-1889 `zj_GetNum`, `zj_GetDouble` (the number is returned in a fresh
block of 8 bytes; here by value). -/
def getDoubleT {D} (fp : FP D) (v : Addr) : TM (Option D) := do
  let val ← one (rdVal v)
  match val.n with
  | none => return none
  | some a =>
    if (← one (nType a)) ≠ .number then return none
    one (request val.a 8)
    return some (← strToDoubleT fp (← one (nStr a)) (← one (nLen a)))

/-- zzzjson.h:1891-1899 `zj_GetInt` -/
def getIntT (v : Addr) : TM (Option Int) := do
  let val ← one (rdVal v)
  match val.n with
  | none => return none
  | some a =>
    if (← one (nType a)) ≠ .number then return none
    one (request val.a 4)
    return some (← strToIntT (← one (nStr a)) (← one (nLen a)))

/-- zzzjson.h:1901-1909 `zj_GetLong` -/
def getLongT (v : Addr) : TM (Option Int) := do
  let val ← one (rdVal v)
  match val.n with
  | none => return none
  | some a =>
    if (← one (nType a)) ≠ .number then return none
    one (request val.a 8)
    return some (← strToLongT (← one (nStr a)) (← one (nLen a)))

/-- zzzjson.h:1911-1919 `zj_GetLongLong` -/
def getLongLongT (v : Addr) : TM (Option Int) := do
  let val ← one (rdVal v)
  match val.n with
  | none => return none
  | some a =>
    if (← one (nType a)) ≠ .number then return none
    one (request val.a 8)
    return some (← strToLongLongT (← one (nStr a)) (← one (nLen a)))

/-- zzzjson.h:1922-1932 `zj_GetBool` (pointer to a static `true`/`false`). -/
def getBoolT (v : Addr) : TM (Option Bool) := do
  match (← one (rdVal v)).n with
  | none => return none
  | some a =>
    if (← one (nType a)) ≠ .bool then return none
    let (s, _) ← one (view (← one (nStr a)))
    let c ← liftT (rdT s 0)
    return some (c = 0x74)

/-- zzzjson.h:1935-1941 `zj_IsNull` -/
def isNullT (v : Addr) : TM Bool := do
  match (← one (rdVal v)).n with
  | none => return false
  | some a =>
    if (← one (nType a)) ≠ .null then return false
    return true

/-- zzzjson.h:1944-1953 `zj_GetKey` -/
def getKeyT (v : Addr) : TM (Option SPtr) := do
  let val ← one (rdVal v)
  match val.n with
  | none => return none
  | some a =>
    match ← one (nKey a) with
    | none => return none
    | some k => return some (← copyOutT val.a k (← one (nKeyLen a)))

/-- zzzjson.h:1955-1963 `zj_GetUnEscapeKey` -/
def getUnEscapeKeyT (v : Addr) : TM (Option SPtr) := do
  let val ← one (rdVal v)
  match val.n with
  | none => return none
  | some a =>
    match ← one (nKey a) with
    | none => return none
    | some k =>
      let len ← one (nKeyLen a)
      let (s, _) ← one (view k)
      let out ← liftT (unEscapeStrT s len (len + 1))
      let b ← one (newBuf val.a (len + 1) out)
      return some (.buf b 0)

/-- zzzjson.h:1966-1973 `zj_GetKeyFast` -/
def getKeyFastT (v : Addr) : TM (Option (SPtr × Nat)) := do
  match (← one (rdVal v)).n with
  | none => return none
  | some a =>
    match ← one (nKey a) with
    | none => return none
    | some k => return some (k, ← one (nKeyLen a))

/-- zzzjson.h:411-422 `zj_strIsEqual(a, b, len)` -/
def strIsEqualT : Bytes → Bytes → Nat → TR Bool
  | [], _, _ => (.ub .oob : Res (Bool × Nat))
  | c :: _, _, 0 => .steps 1 (.ok (c = 0))
  | _ :: _, [], _ + 1 => (.ub .oob : Res (Bool × Nat))
  | c :: r, d :: t, k + 1 => do
    .steps 2 (.ok ())
    if c ≠ d then pure false else strIsEqualT r t k

/-- zzzjson.h:425-437 `zj_strIsEqualLen`, after the lengths were found equal -/
def bytesEqNT : Bytes → Bytes → Nat → TR Bool
  | _, _, 0 => .steps 1 (.ok true)
  | c :: r, d :: t, k + 1 => do
    .steps 2 (.ok ())
    if c ≠ d then pure false else bytesEqNT r t k
  | _, _, _ + 1 => (.ub .oob : Res (Bool × Nat))

def strIsEqualLenT (a : Bytes) (alen : Nat) (b : Bytes) (blen : Nat) : TR Bool :=
  if alen ≠ blen then pure false else bytesEqNT a b alen

/-- zzzjson.h:1981-1989, the loop of `zj_ObjGet`. -/
def objGetLoopT (key : SPtr) : Nat → Option Addr → TM (Option Addr)
  | 0, _ => steps 0 (lift .timeout)
  | _ + 1, none => pure none
  | fuel + 1, some n => do
    let k ← one (objGetLoop.deref' (← one (nKey n)))
    let (a, _) ← one (view key)
    let (b, _) ← one (view k)
    if ← liftT (strIsEqualT a b (← one (nKeyLen n))) then return some n
    objGetLoopT key fuel (← one (nNext n))

/-- zzzjson.h:1976-1990 `zj_ObjGet`. `fuel` bounds the number of members visited. -/
def objGetT (fuel : Nat) (v : Addr) (key : SPtr) : TM (Option Addr) := do
  let val ← one (rdVal v)
  match val.n with
  | none => return none
  | some a =>
    if (← one (nType a)) ≠ .object then return none
    match ← objGetLoopT key fuel (← one (nNode a)) with
    | none => return none
    | some n => return some (← one (newVal val.a (some n)))

/-- zzzjson.h:1999-2008, the loop of `zj_ObjGetLen`. -/
def objGetLenLoopT (key : SPtr) (len : Nat) : Nat → Option Addr → TM (Option Addr)
  | 0, _ => steps 0 (lift .timeout)
  | _ + 1, none => pure none
  | fuel + 1, some n => do
    let k ← one (objGetLoop.deref' (← one (nKey n)))
    let (a, _) ← one (view key)
    let (b, _) ← one (view k)
    if ← liftT (strIsEqualLenT a len b (← one (nKeyLen n))) then return some n
    objGetLenLoopT key len fuel (← one (nNext n))

/-- zzzjson.h:1993-2009 `zj_ObjGetLen` -/
def objGetLenT (fuel : Nat) (v : Addr) (key : SPtr) (len : Nat) : TM (Option Addr) := do
  let val ← one (rdVal v)
  match val.n with
  | none => return none
  | some a =>
    if (← one (nType a)) ≠ .object then return none
    match ← objGetLenLoopT key len fuel (← one (nNode a)) with
    | none => return none
    | some n => return some (← one (newVal val.a (some n)))

/-- zzzjson.h:2012-2030 `zj_Type` -/
def getTypeT (v : Addr) : TM (Option JType) := do
  match (← one (rdVal v)).n with
  | none => return none
  | some a => return some (← one (nType a))

/-- zzzjson.h:2033-2040 `zj_SizeOf` -/
def sizeOfT (v : Addr) : TM Nat := do
  match (← one (rdVal v)).n with
  | none => return 0
  | some a =>
    let t ← one (nType a)
    if t ≠ .object ∧ t ≠ .array then return 0
    one (nLen a)

/-- zzzjson.h:2048-2058, the loop of `zj_ArrayGet`; `i` counts up to `index`. -/
def arrayGetLoopT (index : Nat) : Nat → Nat → Option Addr → TM (Option Addr)
  | 0, _, _ => steps 0 (lift .timeout)
  | _ + 1, _, none => pure none
  | fuel + 1, i, some n => do
    if i = index then return some n
    arrayGetLoopT index fuel (i + 1) (← one (nNext n))

/-- zzzjson.h:2043-2059 `zj_ArrayGet` -/
def arrayGetT (fuel : Nat) (v : Addr) (index : Nat) : TM (Option Addr) := do
  let val ← one (rdVal v)
  match val.n with
  | none => return none
  | some a =>
    if (← one (nType a)) ≠ .array then return none
    match ← arrayGetLoopT index fuel 0 (← one (nNode a)) with
    | none => return none
    | some n => return some (← one (newVal val.a (some n)))

/-- zzzjson.h:2062-2073 `zj_Begin` -/
def begin_T (v : Addr) : TM (Option Addr) := do
  let val ← one (rdVal v)
  match val.n with
  | none => return none
  | some a =>
    let t ← one (nType a)
    if t ≠ .object ∧ t ≠ .array then return none
    match ← one (nNode a) with
    | some n => return some (← one (newVal val.a (some n)))
    | none => return none

/-- zzzjson.h:2076-2084 `zj_Next` -/
def next_T (v : Addr) : TM (Option Addr) := do
  let val ← one (rdVal v)
  match val.n with
  | none => return none
  | some a =>
    match ← one (nNext a) with
    | some n => return some (← one (newVal val.a (some n)))
    | none => return none

/-! ### Copy (zzzjson.h:2087-2168) -/

/-- zzzjson.h:2101-2108: the key of one node. -/
def copyKeyT (A : Nat) (node des : Addr) : TM Unit := do
  match ← one (nKey node) with
  | some k =>
    let len ← one (nKeyLen node)
    let t ← readNT k len
    let b ← one (newBuf A len t)
    one (setKey des (some (.buf b 0)))
    one (setKeyLen des len)
  | none => one (setKey des none)

/-- zzzjson.h:2109-2139: the value of one node; `some (c, n)`: descend to the child `c`
of the source and its new copy `n`. -/
def copyBodyT (A : Nat) (node des : Addr) : JType → TM (Option (Addr × Addr))
  | .object | .array => do
    one (setLen des (← one (nLen node)))
    match ← one (nNode node) with
    | some c =>
      let n ← one (newNode A)
      one (setFather n (some des))
      one (setPrev n none)
      one (setNodeP des (some n))
      one (setEnd des (some n))
      return some (c, n)
    | none =>
      one (setNodeP des none)
      one (setEnd des none)
      return none
  | .bool | .null => do
    one (setStrP des (← one (nStr node)))
    one (setLen des (← one (nLen node)))
    return none
  | .number | .string => do
    let len ← one (nLen node)
    let t ← readNT (← one (nStr node)) len
    let b ← one (newBuf A len t)
    one (setStrP des (.buf b 0))
    one (setLen des len)
    return none

/-- zzzjson.h:2100-2139: fields of one node. -/
def copyNodeT (A : Nat) (node des : Addr) : TM (Option (Addr × Addr)) := do
  let ty ← one (nType node)
  one (setType des ty)
  copyKeyT A node des
  copyBodyT A node des ty

/-- zzzjson.h:2099-2157. -/
def copyLoopT (A : Nat) (vv : Addr) : Nat → CPC → Addr → Addr → TM Unit
  | 0, _, _, _ => steps 0 (lift .timeout)
  | fuel + 1, .body, node, des => do
    match ← copyNodeT A node des with
    | some (c, n) => copyLoopT A vv fuel .test c n
    | none => copyLoopT A vv fuel .inner node des
  | fuel + 1, .test, node, des => do
    if some node = (← one (rdVal vv)).n then return ()
    copyLoopT A vv fuel .body node des
  | fuel + 1, .inner, node, des => do
    if some node = (← one (rdVal vv)).n then copyLoopT A vv fuel .test node des
    else
      match ← one (nNext node) with
      | some x =>
        let n ← one (newNode A)
        let f ← one (nFather des)
        one (setFather n f)
        one (setPrev n (some des))
        one (setEnd (← one (deref f)) (some n))
        one (setNext des (some n))
        copyLoopT A vv fuel .test x n
      | none =>
        let f ← one (deref (← one (nFather node)))
        one (setNext des none)
        let df ← one (deref (← one (nFather des)))
        copyLoopT A vv fuel .inner f df

/-- zzzjson.h:2087-2160 `zj_ValueCopyFrom(v, vv)` -/
def valueCopyFromT (fuel : Nat) (v vv : Addr) : TM Bool := do
  match (← one (rdVal vv)).n with
  | none => return false
  | some src =>
    let A := (← one (rdVal v)).a
    let n ← one (newNode A)
    one (setValN v (some n))
    one (setPrev n none)
    one (setNext n none)
    one (setFather n none)
    copyLoopT A vv fuel .body src n
    return true

/-- zzzjson.h:2163-2168 `zj_Copy` -/
def copyT (fuel : Nat) (v : Addr) : TM (Option Addr) := do
  let r ← one (newValue (← one (rdVal v)).a)
  if ← valueCopyFromT fuel r v then return some r else return none

/-! ### Move (zzzjson.h:2171-2191) -/

/-- `v->N` for a handle known not to be empty. -/
def valNT (v : Addr) : TM Addr := do one (deref (← one (rdVal v)).n)

/-- zzzjson.h:2175-2180: unlink `a` from its predecessor or from the father. -/
def unlinkPrevT (f a : Addr) : TM Unit := do
  match ← one (nPrev a) with
  | none => one (setNodeP f (← one (nNext a)))
  | some p =>
    one (setNext p (← one (nNext a)))
    one (setPrev a none)

/-- zzzjson.h:2181-2186: unlink `a` from its successor or from the end of the list;
`a->Prev` was already overwritten. -/
def unlinkNextT (f a : Addr) : TM Unit := do
  match ← one (nNext a) with
  | none => one (setEnd f (← one (nPrev a)))
  | some x =>
    one (setPrev x (← one (nPrev a)))
    one (setNext a none)

/-- zzzjson.h:2171-2191 `zj_Move`, statement by statement. -/
def moveT (v : Addr) : TM Bool := do
  match (← one (rdVal v)).n with
  | none => return false
  | some a =>
    match ← one (nFather a) with
    | none => return true
    | some f =>
      unlinkPrevT f a
      unlinkNextT f a
      let f ← one (deref (← one (nFather a)))
      one (setLen f (dec32 (← one (nLen f))))
      one (setFather a none)
      return true

/-! ### Setters (zzzjson.h:2194-2592) -/

/-- `if (v->N == 0) { v->N = alloc; Key = Prev = Father = Next = 0; }` -/
def ensureNodeT (v : Addr) : TM Addr := do
  let val ← one (rdVal v)
  match val.n with
  | some a => pure a
  | none =>
    let n ← one (newNode val.a)
    one (setValN v (some n))
    one (setKey n none)
    one (setPrev n none)
    one (setFather n none)
    one (setNext n none)
    pure n

/-- `Type = t; Value.Str = p; Len = len;` -/
def setScalarT (v : Addr) (t : JType) (p : SPtr) (len : Nat) : TM Unit := do
  let a ← ensureNodeT v
  one (setType a t)
  one (setStrP a p)
  one (setLen a len)

/-- zzzjson.h:2194-2205 `zj_SetNull` -/
def setNullT (v : Addr) : TM Unit := setScalarT v .null (.lit { bytes := b!"null" }) 4

/-- zzzjson.h:2208-2224 `zj_SetBool` -/
def setBoolT (v : Addr) (b : Bool) : TM Unit :=
  if b = false then setScalarT v .bool (.lit { bytes := b!"false" }) 5
  else setScalarT v .bool (.lit { bytes := b!"true" }) 4

/-- `zj_checkNum(p, &len)` / `zj_checkStr(p, &len)` on a C string in memory. -/
def checkNumAtT (p : SPtr) : TM (Option Nat) := do
  let (s, _) ← one (view p)
  liftT (checkNumT s)
def checkStrAtT (p : SPtr) : TM (Option Nat) := do
  let (s, _) ← one (view p)
  liftT (checkStrT s)

/-- zzzjson.h:1274-1280 and 1391-1397: copy `len` bytes into the static scratch
string (created on first use from the allocator of the caller) and terminate it. -/
def fillCacheT (A : Nat) (p : SPtr) (len : Nat) : TM ZStr := do
  let c ← one (fun st => .ok (st.cache, st) : M (Option ZStr))
  let z ← (match c with
    | none => newOutT A (·.cache)
    | some z => do one (touchStr z); pure { z with pos := 0 } : TM ZStr)
  let z ← appendStrT z p len
  let z ← appendCharT z 0
  one (fun st => .ok ((), { st with cache := some z }) : M Unit)
  return z

/-- zzzjson.h:1272-1288 `zj_checkStrLen` -/
def checkStrLenAtT (A : Nat) (p : SPtr) (len : Nat) : TM Bool := do
  let z ← fillCacheT A p len
  match ← checkStrAtT (.buf z.data 0) with
  | none => return false
  | some n => return n = len

/-- zzzjson.h:1389-1405 `zj_checkNumLen` -/
def checkNumLenAtT (A : Nat) (p : SPtr) (len : Nat) : TM Bool := do
  let z ← fillCacheT A p len
  match ← checkNumAtT (.buf z.data 0) with
  | none => return false
  | some n => return n = len

/-- `char *s = zj_allocatorAlloc(v->A, len); zj_memCopy(p, len, s);` -/
def dupT (A : Nat) (p : SPtr) (len : Nat) : TM SPtr := do
  let t ← readNT p len
  let b ← one (newBuf A len t)
  return .buf b 0

/-- zzzjson.h:2227-2242 `zj_SetNumStrFast` -/
def setNumStrFastT (v : Addr) (p : SPtr) : TM Bool := do
  match ← checkNumAtT p with
  | none => return false
  | some len => setScalarT v .number p len; return true

/-- zzzjson.h:2245-2260 `zj_SetNumStrLenFast` -/
def setNumStrLenFastT (v : Addr) (p : SPtr) (len : Nat) : TM Bool := do
  if !(← checkNumLenAtT (← one (rdVal v)).a p len) then return false
  setScalarT v .number p len
  return true

/-- zzzjson.h:2263-2280 `zj_SetNumStr` -/
def setNumStrT (v : Addr) (p : SPtr) : TM Bool := do
  match ← checkNumAtT p with
  | none => return false
  | some len =>
    let s ← dupT (← one (rdVal v)).a p len
    setScalarT v .number s len
    return true

/-- zzzjson.h:2283-2299 `zj_SetNumStrLen` -/
def setNumStrLenT (v : Addr) (p : SPtr) (len : Nat) : TM Bool := do
  if !(← checkNumLenAtT (← one (rdVal v)).a p len) then return false
  let s ← dupT (← one (rdVal v)).a p len
  setScalarT v .number s len
  return true

/-- zzzjson.h:2302-2320 `zj_SetNum`, `zj_SetDouble` -/
def setDoubleT {D} (fp : FP D) (v : Addr) (d : D) : TM Bool := do
  let (t, len) := doubleToStr fp d
  let b ← steps 64 (newBuf (← one (rdVal v)).a 32 t)
  setScalarT v .number (.buf b 0) len
  return true

/-- zzzjson.h:2322-2336 `zj_SetInt` -/
def setIntT (v : Addr) (n : Int) : TM Bool := do
  let (t, len) := intToStr n
  let b ← steps 64 (newBuf (← one (rdVal v)).a 16 t)
  setScalarT v .number (.buf b 0) len
  return true

/-- zzzjson.h:2338-2352 `zj_SetLong` -/
def setLongT (v : Addr) (n : Int) : TM Bool := do
  let (t, len) := longToStr n
  let b ← steps 64 (newBuf (← one (rdVal v)).a 24 t)
  setScalarT v .number (.buf b 0) len
  return true

/-- zzzjson.h:2354-2368 `zj_SetLongLong` -/
def setLongLongT (v : Addr) (n : Int) : TM Bool := do
  let (t, len) := longLongToStr n
  let b ← steps 64 (newBuf (← one (rdVal v)).a 24 t)
  setScalarT v .number (.buf b 0) len
  return true

/-- zzzjson.h:2382-2398 `zj_SetStrFast` -/
def setStrFastT (v : Addr) (p : SPtr) : TM Bool := do
  match ← checkStrAtT p with
  | none => return false
  | some len => setScalarT v .string p len; return true

/-- `zj_escapeStr(p, A)` (zzzjson.h:1109-1126): the escaped text in a fresh block. -/
def escapeAtT (A : Nat) (p : SPtr) : TM SPtr := do
  let (s, _) ← one (view p)
  let (n, out) ← liftT (escapeStrT s)
  let b ← one (newBuf A n out)
  return .buf b 0

/-- `zj_escapeStrLen(p, A, len)` (zzzjson.h:1129-1151). -/
def escapeLenAtT (A : Nat) (p : SPtr) (len : Nat) : TM SPtr := do
  let (s, _) ← one (view p)
  let (n, out) ← liftT (escapeStrLenT s len)
  let b ← one (newBuf A n out)
  return .buf b 0

/-- zzzjson.h:2370-2373 `zj_SetStrEscape` -/
def setStrEscapeT (v : Addr) (p : SPtr) : TM Bool := do
  let es ← escapeAtT (← one (rdVal v)).a p
  setStrFastT v es

/-- zzzjson.h:2375-2379 `zj_SetStrLenEscape` -/
def setStrLenEscapeT (v : Addr) (p : SPtr) (len : Nat) : TM Bool := do
  let es ← escapeLenAtT (← one (rdVal v)).a p len
  setStrFastT v es

/-- zzzjson.h:2401-2416 `zj_SetStrLenFast` -/
def setStrLenFastT (v : Addr) (p : SPtr) (len : Nat) : TM Bool := do
  if !(← checkStrLenAtT (← one (rdVal v)).a p len) then return false
  setScalarT v .string p len
  return true

/-- zzzjson.h:2419-2437 `zj_SetStr` -/
def setStrT (v : Addr) (p : SPtr) : TM Bool := do
  match ← checkStrAtT p with
  | none => return false
  | some len =>
    let s ← dupT (← one (rdVal v)).a p len
    setScalarT v .string s len
    return true

/-- zzzjson.h:2440-2457 `zj_SetStrLen` -/
def setStrLenT (v : Addr) (p : SPtr) (len : Nat) : TM Bool := do
  if !(← checkStrLenAtT (← one (rdVal v)).a p len) then return false
  let s ← dupT (← one (rdVal v)).a p len
  setScalarT v .string s len
  return true

/-- zzzjson.h:2476-2487 (and 2498-2509, 2521-2532, 2545-2556): the node whose key is
to be set: a new null value for an empty handle; refused (`none`) below an array. -/
def keyTargetT (v : Addr) : TM (Option Addr) := do
  let val ← one (rdVal v)
  match val.n with
  | none =>
    let n ← one (newNode val.a)
    one (setValN v (some n))
    one (setPrev n none)
    one (setFather n none)
    one (setNext n none)
    one (setType n .null)
    one (setStrP n (.lit { bytes := b!"null" }))
    one (setLen n 4)
    return some n
  | some a =>
    match ← one (nFather a) with
    | none => return some a
    | some f => if (← one (nType f)) ≠ .object then return none else return some a

/-- zzzjson.h:2471-2491 `zj_SetKeyFast` -/
def setKeyFastT (v : Addr) (p : SPtr) : TM Bool := do
  match ← checkStrAtT p with
  | none => return false
  | some len =>
    match ← keyTargetT v with
    | none => return false
    | some a =>
      one (setKey a (some p))
      one (setKeyLen a len)
      return true

/-- zzzjson.h:2459-2462 `zj_SetKeyEscape` -/
def setKeyEscapeT (v : Addr) (p : SPtr) : TM Bool := do
  let es ← escapeAtT (← one (rdVal v)).a p
  setKeyFastT v es

/-- zzzjson.h:2464-2468 `zj_SetKeyLenEscape` -/
def setKeyLenEscapeT (v : Addr) (p : SPtr) (len : Nat) : TM Bool := do
  let es ← escapeLenAtT (← one (rdVal v)).a p len
  setKeyFastT v es

/-- zzzjson.h:2494-2513 `zj_SetKeyLenFast` -/
def setKeyLenFastT (v : Addr) (p : SPtr) (len : Nat) : TM Bool := do
  if !(← checkStrLenAtT (← one (rdVal v)).a p len) then return false
  match ← keyTargetT v with
  | none => return false
  | some a =>
    one (setKey a (some p))
    one (setKeyLen a len)
    return true

/-- zzzjson.h:2516-2538 `zj_SetKey` -/
def setKeyCT (v : Addr) (p : SPtr) : TM Bool := do
  match ← checkStrAtT p with
  | none => return false
  | some len =>
    match ← keyTargetT v with
    | none => return false
    | some a =>
      let s ← dupT (← one (rdVal v)).a p len
      one (setKey a (some s))
      one (setKeyLen a len)
      return true

/-- zzzjson.h:2541-2562 `zj_SetKeyLen` -/
def setKeyLenCT (v : Addr) (p : SPtr) (len : Nat) : TM Bool := do
  if !(← checkStrLenAtT (← one (rdVal v)).a p len) then return false
  match ← keyTargetT v with
  | none => return false
  | some a =>
    let s ← dupT (← one (rdVal v)).a p len
    one (setKey a (some s))
    one (setKeyLen a len)
    return true

/-- zzzjson.h:2565-2577 `zj_SetArray` -/
def setArrayT (v : Addr) : TM Unit := do
  let a ← ensureNodeT v
  one (setType a .array)
  one (setNodeP a none)
  one (setLen a 0)

/-- zzzjson.h:2580-2592 `zj_SetObj` -/
def setObjT (v : Addr) : TM Unit := do
  let a ← ensureNodeT v
  one (setType a .object)
  one (setNodeP a none)
  one (setLen a 0)

/-! ### Set, SetFast, Add, Del (zzzjson.h:2595-2757) -/

/-- `while (next != 0) { next->Father = v->N; next = next->Next; }` -/
def adoptT (f : Addr) : Nat → Option Addr → TM Unit
  | 0, _ => steps 0 (lift .timeout)
  | _ + 1, none => pure ()
  | fuel + 1, some n => do
    one (setFather n (some f))
    adoptT f fuel (← one (nNext n))

/-- `v->N->Type = x->Type; v->N->Value = x->Value; v->N->Len = x->Len;` and for a
container `v->N->End = e->End` and the new father of the children. `a = v->N`. -/
def graftT (fuel : Nat) (a x e : Addr) : TM Unit := do
  let ty ← one (nType x)
  one (setType a ty)
  let xv := (← one (rdNode x)).value
  one (modNode a fun n => { n with value := xv })
  one (setLen a (← one (nLen x)))
  if (← one (nType a)) = .array ∨ (← one (nType a)) = .object then
    let xe := (← one (rdNode e)).end_
    one (modNode a fun n => { n with end_ := xe })
    adoptT a fuel (← one (nNode a))

/-- zzzjson.h:2595-2616 `zj_SetFast` -/
def setFastT (fuel : Nat) (v vv : Addr) : TM Bool := do
  if !(← moveT vv) then return false
  let x ← one (rdVal vv)
  match (← one (rdVal v)).n with
  | none =>
    one (setValN v x.n)
    one (setValN vv none)
    return true
  | some a =>
    let x ← one (deref x.n)
    graftT fuel a x x
    one (setValN vv none)
    return true

/-- zzzjson.h:2619-2639 `zj_Set`; line 2631 takes `End` from `vv`, not from the copy. -/
def setT (fuel : Nat) (v vv : Addr) : TM Bool := do
  match ← copyT fuel vv with
  | none => return false
  | some cp =>
    let x ← one (rdVal cp)
    match (← one (rdVal v)).n with
    | none =>
      one (setValN v x.n)
      return true
    | some a =>
      let x ← one (deref x.n)
      graftT fuel a x (← valNT vv)
      return true

/-- zzzjson.h:2654-2663 (and 2682-2691, 2705-2714, 2730-2739): append `x` to `f`. -/
def attachT (f x : Addr) : TM Unit := do
  match ← one (nNode f) with
  | none =>
    one (setNodeP f (some x))
    one (setLen f 1)
    one (setEnd f (some x))
  | some _ =>
    let e ← one (deref (← one (nEnd f)))
    one (setNext e (some x))
    one (setPrev x (some e))
    one (setEnd f (some x))
    one (setLen f ((← one (nLen f)) + 1))

/-- zzzjson.h:2642-2666 `zj_ObjAddFast` -/
def objAddFastT (v vv : Addr) : TM Bool := do
  match (← one (rdVal v)).n with
  | none => return false
  | some f =>
    if (← one (nType f)) ≠ .object then return false
    match (← one (rdVal vv)).n with
    | none => return false
    | some x =>
      if (← one (nKey x)) = none then return false
      if !(← moveT vv) then return false
      one (setFather x (some f))
      attachT f x
      one (setValN vv none)
      return true

/-- zzzjson.h:2669-2693 `zj_ObjAdd` -/
def objAddT (fuel : Nat) (v vv : Addr) : TM Bool := do
  match (← one (rdVal v)).n with
  | none => return false
  | some f =>
    if (← one (nType f)) ≠ .object then return false
    match (← one (rdVal vv)).n with
    | none => return false
    | some y =>
      if (← one (nKey y)) = none then return false
      match ← copyT fuel vv with
      | none => return false
      | some cp =>
        let x ← valNT cp
        one (setFather x (some f))
        attachT f x
        return true

/-- zzzjson.h:2696-2717 `zj_ArrayAddFast` -/
def arrayAddFastT (v vv : Addr) : TM Bool := do
  match (← one (rdVal v)).n with
  | none => return false
  | some f =>
    if (← one (nType f)) ≠ .array then return false
    if !(← moveT vv) then return false
    let x ← valNT vv
    one (setKey x none)
    one (setFather x (some f))
    attachT f x
    one (setValN vv none)
    return true

/-- zzzjson.h:2720-2741 `zj_ArrayAdd` -/
def arrayAddT (fuel : Nat) (v vv : Addr) : TM Bool := do
  match (← one (rdVal v)).n with
  | none => return false
  | some f =>
    if (← one (nType f)) ≠ .array then return false
    match ← copyT fuel vv with
    | none => return false
    | some cp =>
      let x ← valNT cp
      one (setKey x none)
      one (setFather x (some f))
      attachT f x
      return true

/-- zzzjson.h:2744-2749 `zj_ArrayDel` -/
def arrayDelT (fuel : Nat) (v : Addr) (index : Nat) : TM Bool := do
  match ← arrayGetT fuel v index with
  | none => return false
  | some d => moveT d

/-- zzzjson.h:2752-2757 `zj_ObjDel` -/
def objDelT (fuel : Nat) (v : Addr) (key : SPtr) : TM Bool := do
  match ← objGetT fuel v key with
  | none => return false
  | some d => moveT d

/-! ### Calls (`Hist`). What the caller does with texts of its own is not counted. -/

def withTextT {α : Type} (d : Bytes) (keep : Bool) (f : SPtr → TM α) : TM α := do
  let p ← steps 0 (callerText d)
  let r ← f p
  if keep then return r
  steps 0 (freeText p)
  return r

def readCT (p : Option SPtr) : TM (Option Bytes) := steps 0 (readC p)
def readLT (p : Option (SPtr × Nat)) : TM (Option Bytes) := steps 0 (readL p)

def ParseFn.runT : ParseFn → Addr → Nat → SPtr → TM Bool
  | .parse, v, _, p => ZJ.parseT v p
  | .parseLen, v, n, p => ZJ.parseLenT v p n
  | .parseFast, v, _, p => ZJ.parseFastT v p

def TextFn.runT : TextFn → Addr → Nat → SPtr → TM Bool
  | .str, v, _, p => setStrT v p
  | .strLen, v, n, p => setStrLenT v p n
  | .strFast, v, _, p => setStrFastT v p
  | .strLenFast, v, n, p => setStrLenFastT v p n
  | .strEsc, v, _, p => setStrEscapeT v p
  | .strLenEsc, v, n, p => setStrLenEscapeT v p n
  | .num, v, _, p => setNumStrT v p
  | .numLen, v, n, p => setNumStrLenT v p n
  | .numFast, v, _, p => setNumStrFastT v p
  | .numLenFast, v, n, p => setNumStrLenFastT v p n

def KeyFn.runT : KeyFn → Addr → Nat → SPtr → TM Bool
  | .key, v, _, p => setKeyCT v p
  | .keyLen, v, n, p => setKeyLenCT v p n
  | .keyFast, v, _, p => setKeyFastT v p
  | .keyLenFast, v, n, p => setKeyLenFastT v p n
  | .keyEsc, v, _, p => setKeyEscapeT v p
  | .keyLenEsc, v, n, p => setKeyLenEscapeT v p n

def IntFn.runT : IntFn → Addr → Int → TM Bool
  | .int => setIntT
  | .long => setLongT
  | .longLong => setLongLongT

def GetFn.runT {D : Type} (fp : FP D) (F : Nat) : GetFn → Addr → TM (Ans D)
  | .type, v => do return .type (← getTypeT v)
  | .size, v => do return .nat (← sizeOfT v)
  | .null, v => do return .bool (← isNullT v)
  | .bool, v => do return .truth (← getBoolT v)
  | .str, v => do return .bytes (← readCT (← getStrT v))
  | .strFast, v => do return .bytes (← readLT (← getStrFastT v))
  | .unStr, v => do return .bytes (← readCT (← getUnEscapeStrT v))
  | .numStr, v => do return .bytes (← readCT (← getNumStrT v))
  | .numFast, v => do return .bytes (← readLT (← getNumFastT v))
  | .int, v => do return .int (← getIntT v)
  | .long, v => do return .int (← getLongT v)
  | .longLong, v => do return .int (← getLongLongT v)
  | .double, v => do return .double (← getDoubleT fp v)
  | .key, v => do return .bytes (← readCT (← getKeyT v))
  | .keyFast, v => do return .bytes (← readLT (← getKeyFastT v))
  | .unKey, v => do return .bytes (← readCT (← getUnEscapeKeyT v))
  | .print, v => do return .bytes (← readCT (some (← stringifyT F v)))

def NavFn.runT (F : Nat) : NavFn → Addr → TM (Option Addr)
  | .begin, v => begin_T v
  | .next, v => next_T v
  | .array i, v => arrayGetT F v i
  | .obj k, v => withTextT (k ++ [0]) false (objGetT F v)
  | .objLen k, v => withTextT k false fun p => objGetLenT F v p k.length

/-- One call of the API, with its steps. Releasing an allocator counts as one step (it takes one
`free` for every chunk, C38). -/
def execT {D : Type} (fp : FP D) (F : Nat) : Call D → TM (Ans D)
  | .newAlloc => do return .alloc (← one newAllocator)
  | .release A => do one (releaseAllocator A); return .unit
  | .newValue A => do return .handle (some (← one (newValue A)))
  | .parse f v b => do return .bool (← withTextT (passed f.len b) f.keep (f.runT v b.length))
  | .text f v b => do return .bool (← withTextT (passed f.len b) f.keep (f.runT v b.length))
  | .null v => do setNullT v; return .unit
  | .bool v b => do setBoolT v b; return .unit
  | .array v => do setArrayT v; return .unit
  | .object v => do setObjT v; return .unit
  | .int f v n => do return .bool (← f.runT v n)
  | .double v d => do return .bool (← setDoubleT fp v d)
  | .key f v b => do return .bool (← withTextT (passed f.len b) f.keep (f.runT v b.length))
  | .get f v => f.runT fp F v
  | .nav f v => do return .handle (← f.runT F v)
  | .copy v => do return .handle (← ZJ.copyT F v)
  | .move v => do return .bool (← ZJ.moveT v)
  | .add true true v w => do return .bool (← objAddFastT v w)
  | .add true false v w => do return .bool (← objAddT F v w)
  | .add false true v w => do return .bool (← arrayAddFastT v w)
  | .add false false v w => do return .bool (← arrayAddT F v w)
  | .delAt v i => do return .bool (← arrayDelT F v i)
  | .delKey v k => do return .bool (← withTextT (k ++ [0]) false (objDelT F v))
  | .set true v w => do return .bool (← ZJ.setFastT F v w)
  | .set false v w => do return .bool (← ZJ.setT F v w)

end ZJ
