import Verif.Parse
import Verif.Escape
import Verif.Num

/-
Model of the rest of the API (zzzjson.h:1735-2757). A handle `zj_Value *` is the
address of its cell; a returned null pointer is `none`.
-/

namespace ZJ

/-- zzzjson.h:748-753 `zj_NewValue` -/
def newValue (A : Nat) : M Addr := newVal A none

/-! ### Stringify (zzzjson.h:1735-1819) -/

/-- zzzjson.h:1741-1766 and 1774-1801: the value of `node` itself; `some n`: a
non-empty container was opened, continue with its first child `n`. An array is
tested by `Value.Node`, an object by `Len`. -/
def putValue (z : ZStr) (node : Addr) : M (ZStr × Option Addr) := do
  match ← nType node with
  | .array =>
    let z ← appendChar z 0x5B
    match ← nNode node with
    | some n => return (z, some n)
    | none =>
      let z ← appendChar z 0x5D
      return (z, none)
  | .object =>
    let z ← appendChar z 0x7B
    if (← nLen node) ≠ 0 then
      let n ← deref (← nNode node)
      return (z, some n)
    else
      let z ← appendChar z 0x7D
      return (z, none)
  | .string =>
    let z ← appendChar z 0x22
    let z ← appendStr z (← nStr node) (← nLen node)
    let z ← appendChar z 0x22
    return (z, none)
  | _ =>
    let z ← appendStr z (← nStr node) (← nLen node)
    return (z, none)

/-- zzzjson.h:1769-1773: the key of a child. -/
def putKey (z : ZStr) (node : Addr) : M ZStr := do
  match ← nKey node with
  | some k =>
    let z ← appendChar z 0x22
    let z ← appendStr z k (← nKeyLen node)
    appendBytes z [0x22, 0x3A]
  | none => pure z

/-- zzzjson.h:1768-1816 from a loop test on: `head` is the outer, `close` the inner
`while`. -/
def stringifyLoop (v : Addr) : Nat → PC → Addr → ZStr → M ZStr
  | 0, _, _, _ => lift .timeout
  | fuel + 1, .head, node, z => do
    if some node = (← rdVal v).n then return z
    let z ← putKey z node
    match ← putValue z node with
    | (z, some n) => stringifyLoop v fuel .head n z
    | (z, none) => stringifyLoop v fuel .close node z
  | fuel + 1, .close, node, z => do
    if some node = (← rdVal v).n then stringifyLoop v fuel .head node z
    else
      match ← nNext node with
      | some n =>
        let z ← appendChar z 0x2C
        stringifyLoop v fuel .head n z
      | none =>
        let f ← deref (← nFather node)
        if (← nType f) = .array then
          let z ← appendChar z 0x5D
          stringifyLoop v fuel .close f z
        else
          let z ← appendChar z 0x7D
          stringifyLoop v fuel .close f z

/-- zzzjson.h:1735-1819 `zj_Stringify`. -/
def stringify (fuel : Nat) (v : Addr) : M SPtr := do
  let val ← rdVal v
  match val.n with
  | none => return .lit { bytes := [] }
  | some root =>
    let z ← newOut val.a (·.str)
    let (z, c) ← putValue z root
    let z ← match c with
      | some n => stringifyLoop v fuel .head n z
      | none => stringifyLoop v fuel .head root z
    let z ← appendChar z 0
    return .buf z.data 0

/-! ### Getters (zzzjson.h:1822-2084) -/

/-- `zj_allocatorAlloc(v->A, len + 1); zj_memCopy(p, len, str); str[len] = 0;` -/
def copyOut (A : Nat) (p : SPtr) (len : Nat) : M SPtr := do
  let t ← readN p len
  let b ← newBuf A (len + 1) (t ++ [0])
  return .buf b 0

/-- zzzjson.h:1822-1829 `zj_GetStrFast` -/
def getStrFast (v : Addr) : M (Option (SPtr × Nat)) := do
  match (← rdVal v).n with
  | none => return none
  | some a =>
    if (← nType a) ≠ .string then return none
    return some (← nStr a, ← nLen a)

/-- zzzjson.h:1832-1841 `zj_GetStr` -/
def getStr (v : Addr) : M (Option SPtr) := do
  let val ← rdVal v
  match val.n with
  | none => return none
  | some a =>
    if (← nType a) ≠ .string then return none
    return some (← copyOut val.a (← nStr a) (← nLen a))

/-- zzzjson.h:1844-1854 `zj_GetUnEscapeStr` -/
def getUnEscapeStr (v : Addr) : M (Option SPtr) := do
  let val ← rdVal v
  match val.n with
  | none => return none
  | some a =>
    if (← nType a) ≠ .string then return none
    let len ← nLen a
    let (s, _) ← view (← nStr a)
    let out ← lift (unEscapeStr s len (len + 1))
    let b ← newBuf val.a (len + 1) out
    return some (.buf b 0)

/-- zzzjson.h:1857-1864 `zj_GetNumFast` -/
def getNumFast (v : Addr) : M (Option (SPtr × Nat)) := do
  match (← rdVal v).n with
  | none => return none
  | some a =>
    if (← nType a) ≠ .number then return none
    return some (← nStr a, ← nLen a)

/-- zzzjson.h:1867-1876 `zj_GetNumStr` -/
def getNumStr (v : Addr) : M (Option SPtr) := do
  let val ← rdVal v
  match val.n with
  | none => return none
  | some a =>
    if (← nType a) ≠ .number then return none
    return some (← copyOut val.a (← nStr a) (← nLen a))

/-- zzzjson.h:1879-1889 `zj_GetNum`, `zj_GetDouble` (the number is returned in a fresh
block of 8 bytes; here by value). -/
def getDouble {D} (fp : FP D) (v : Addr) : M (Option D) := do
  let val ← rdVal v
  match val.n with
  | none => return none
  | some a =>
    if (← nType a) ≠ .number then return none
    request val.a 8
    return some (← strToDouble fp (← nStr a) (← nLen a))

/-- zzzjson.h:1891-1899 `zj_GetInt` -/
def getInt (v : Addr) : M (Option Int) := do
  let val ← rdVal v
  match val.n with
  | none => return none
  | some a =>
    if (← nType a) ≠ .number then return none
    request val.a 4
    return some (← strToInt (← nStr a) (← nLen a))

/-- zzzjson.h:1901-1909 `zj_GetLong` -/
def getLong (v : Addr) : M (Option Int) := do
  let val ← rdVal v
  match val.n with
  | none => return none
  | some a =>
    if (← nType a) ≠ .number then return none
    request val.a 8
    return some (← strToLong (← nStr a) (← nLen a))

/-- zzzjson.h:1911-1919 `zj_GetLongLong` -/
def getLongLong (v : Addr) : M (Option Int) := do
  let val ← rdVal v
  match val.n with
  | none => return none
  | some a =>
    if (← nType a) ≠ .number then return none
    request val.a 8
    return some (← strToLongLong (← nStr a) (← nLen a))

/-- zzzjson.h:1922-1932 `zj_GetBool` (pointer to a static `true`/`false`). -/
def getBool (v : Addr) : M (Option Bool) := do
  match (← rdVal v).n with
  | none => return none
  | some a =>
    if (← nType a) ≠ .bool then return none
    let (s, _) ← view (← nStr a)
    let c ← lift (rd s 0)
    return some (c = 0x74)

/-- zzzjson.h:1935-1941 `zj_IsNull` -/
def isNull (v : Addr) : M Bool := do
  match (← rdVal v).n with
  | none => return false
  | some a =>
    if (← nType a) ≠ .null then return false
    return true

/-- zzzjson.h:1944-1953 `zj_GetKey` -/
def getKey (v : Addr) : M (Option SPtr) := do
  let val ← rdVal v
  match val.n with
  | none => return none
  | some a =>
    match ← nKey a with
    | none => return none
    | some k => return some (← copyOut val.a k (← nKeyLen a))

/-- zzzjson.h:1955-1963 `zj_GetUnEscapeKey` -/
def getUnEscapeKey (v : Addr) : M (Option SPtr) := do
  let val ← rdVal v
  match val.n with
  | none => return none
  | some a =>
    match ← nKey a with
    | none => return none
    | some k =>
      let len ← nKeyLen a
      let (s, _) ← view k
      let out ← lift (unEscapeStr s len (len + 1))
      let b ← newBuf val.a (len + 1) out
      return some (.buf b 0)

/-- zzzjson.h:1966-1973 `zj_GetKeyFast` -/
def getKeyFast (v : Addr) : M (Option (SPtr × Nat)) := do
  match (← rdVal v).n with
  | none => return none
  | some a =>
    match ← nKey a with
    | none => return none
    | some k => return some (k, ← nKeyLen a)

/-- zzzjson.h:411-422 `zj_strIsEqual(a, b, len)`: `a` up to its NUL against the `len`
bytes of `b`; both are the readable bytes. -/
def strIsEqual : Bytes → Bytes → Nat → Res Bool
  | [], _, _ => .ub .oob
  | c :: _, _, 0 => .ok (c = 0)
  | _ :: _, [], _ + 1 => .ub .oob
  | c :: r, d :: t, k + 1 => if c ≠ d then .ok false else strIsEqual r t k

/-- zzzjson.h:425-437 `zj_strIsEqualLen`, after the lengths were found equal. -/
def bytesEqN : Bytes → Bytes → Nat → Res Bool
  | _, _, 0 => .ok true
  | c :: r, d :: t, k + 1 => if c ≠ d then .ok false else bytesEqN r t k
  | _, _, _ + 1 => .ub .oob

def strIsEqualLen (a : Bytes) (alen : Nat) (b : Bytes) (blen : Nat) : Res Bool :=
  if alen ≠ blen then .ok false else bytesEqN a b alen

/-- zzzjson.h:1981-1989, the loop of `zj_ObjGet`. -/
def objGetLoop (key : SPtr) : Nat → Option Addr → M (Option Addr)
  | 0, _ => lift .timeout
  | _ + 1, none => pure none
  | fuel + 1, some n => do
    let k ← deref' (← nKey n)
    let (a, _) ← view key
    let (b, _) ← view k
    if ← lift (strIsEqual a b (← nKeyLen n)) then return some n
    objGetLoop key fuel (← nNext n)
where
  deref' : Option SPtr → M SPtr
    | some p => pure p
    | none => fail .nullDeref

/-- zzzjson.h:1976-1990 `zj_ObjGet`. `fuel` bounds the number of members visited. -/
def objGet (fuel : Nat) (v : Addr) (key : SPtr) : M (Option Addr) := do
  let val ← rdVal v
  match val.n with
  | none => return none
  | some a =>
    if (← nType a) ≠ .object then return none
    match ← objGetLoop key fuel (← nNode a) with
    | none => return none
    | some n => return some (← newVal val.a (some n))

/-- zzzjson.h:1999-2008, the loop of `zj_ObjGetLen`. -/
def objGetLenLoop (key : SPtr) (len : Nat) : Nat → Option Addr → M (Option Addr)
  | 0, _ => lift .timeout
  | _ + 1, none => pure none
  | fuel + 1, some n => do
    let k ← objGetLoop.deref' (← nKey n)
    let (a, _) ← view key
    let (b, _) ← view k
    if ← lift (strIsEqualLen a len b (← nKeyLen n)) then return some n
    objGetLenLoop key len fuel (← nNext n)

/-- zzzjson.h:1993-2009 `zj_ObjGetLen` -/
def objGetLen (fuel : Nat) (v : Addr) (key : SPtr) (len : Nat) : M (Option Addr) := do
  let val ← rdVal v
  match val.n with
  | none => return none
  | some a =>
    if (← nType a) ≠ .object then return none
    match ← objGetLenLoop key len fuel (← nNode a) with
    | none => return none
    | some n => return some (← newVal val.a (some n))

/-- zzzjson.h:2012-2030 `zj_Type` -/
def getType (v : Addr) : M (Option JType) := do
  match (← rdVal v).n with
  | none => return none
  | some a => return some (← nType a)

/-- zzzjson.h:2033-2040 `zj_SizeOf` -/
def sizeOf (v : Addr) : M Nat := do
  match (← rdVal v).n with
  | none => return 0
  | some a =>
    let t ← nType a
    if t ≠ .object ∧ t ≠ .array then return 0
    nLen a

/-- zzzjson.h:2048-2058, the loop of `zj_ArrayGet`; `i` counts up to `index`. -/
def arrayGetLoop (index : Nat) : Nat → Nat → Option Addr → M (Option Addr)
  | 0, _, _ => lift .timeout
  | _ + 1, _, none => pure none
  | fuel + 1, i, some n => do
    if i = index then return some n
    arrayGetLoop index fuel (i + 1) (← nNext n)

/-- zzzjson.h:2043-2059 `zj_ArrayGet` -/
def arrayGet (fuel : Nat) (v : Addr) (index : Nat) : M (Option Addr) := do
  let val ← rdVal v
  match val.n with
  | none => return none
  | some a =>
    if (← nType a) ≠ .array then return none
    match ← arrayGetLoop index fuel 0 (← nNode a) with
    | none => return none
    | some n => return some (← newVal val.a (some n))

/-- zzzjson.h:2062-2073 `zj_Begin` -/
def begin_ (v : Addr) : M (Option Addr) := do
  let val ← rdVal v
  match val.n with
  | none => return none
  | some a =>
    let t ← nType a
    if t ≠ .object ∧ t ≠ .array then return none
    match ← nNode a with
    | some n => return some (← newVal val.a (some n))
    | none => return none

/-- zzzjson.h:2076-2084 `zj_Next` -/
def next_ (v : Addr) : M (Option Addr) := do
  let val ← rdVal v
  match val.n with
  | none => return none
  | some a =>
    match ← nNext a with
    | some n => return some (← newVal val.a (some n))
    | none => return none

/-! ### Copy (zzzjson.h:2087-2168) -/

/-- zzzjson.h:2101-2108: the key of one node. -/
def copyKey (A : Nat) (node des : Addr) : M Unit := do
  match ← nKey node with
  | some k =>
    let len ← nKeyLen node
    let t ← readN k len
    let b ← newBuf A len t
    setKey des (some (.buf b 0))
    setKeyLen des len
  | none => setKey des none

/-- zzzjson.h:2109-2139: the value of one node; `some (c, n)`: descend to the child `c`
of the source and its new copy `n`. -/
def copyBody (A : Nat) (node des : Addr) : JType → M (Option (Addr × Addr))
  | .object | .array => do
    setLen des (← nLen node)
    match ← nNode node with
    | some c =>
      let n ← newNode A
      setFather n (some des)
      setPrev n none
      setNodeP des (some n)
      setEnd des (some n)
      return some (c, n)
    | none =>
      setNodeP des none
      setEnd des none
      return none
  | .bool | .null => do
    setStrP des (← nStr node)
    setLen des (← nLen node)
    return none
  | .number | .string => do
    let len ← nLen node
    let t ← readN (← nStr node) len
    let b ← newBuf A len t
    setStrP des (.buf b 0)
    setLen des len
    return none

/-- zzzjson.h:2100-2139: fields of one node. -/
def copyNode (A : Nat) (node des : Addr) : M (Option (Addr × Addr)) := do
  let ty ← nType node
  setType des ty
  copyKey A node des
  copyBody A node des ty

/-- Where the copy loop is: at the body (zzzjson.h:2100), at the test of the inner
`while` (2140) or at the test of the `do ... while` (2157). -/
inductive CPC where
  | body | inner | test
deriving DecidableEq, Repr

/-- zzzjson.h:2099-2157. -/
def copyLoop (A : Nat) (vv : Addr) : Nat → CPC → Addr → Addr → M Unit
  | 0, _, _, _ => lift .timeout
  | fuel + 1, .body, node, des => do
    match ← copyNode A node des with
    | some (c, n) => copyLoop A vv fuel .test c n
    | none => copyLoop A vv fuel .inner node des
  | fuel + 1, .test, node, des => do
    if some node = (← rdVal vv).n then return ()
    copyLoop A vv fuel .body node des
  | fuel + 1, .inner, node, des => do
    if some node = (← rdVal vv).n then copyLoop A vv fuel .test node des
    else
      match ← nNext node with
      | some x =>
        let n ← newNode A
        let f ← nFather des
        setFather n f
        setPrev n (some des)
        setEnd (← deref f) (some n)
        setNext des (some n)
        copyLoop A vv fuel .test x n
      | none =>
        let f ← deref (← nFather node)
        setNext des none
        let df ← deref (← nFather des)
        copyLoop A vv fuel .inner f df

/-- zzzjson.h:2087-2160 `zj_ValueCopyFrom(v, vv)` -/
def valueCopyFrom (fuel : Nat) (v vv : Addr) : M Bool := do
  match (← rdVal vv).n with
  | none => return false
  | some src =>
    let A := (← rdVal v).a
    let n ← newNode A
    setValN v (some n)
    setPrev n none
    setNext n none
    setFather n none
    copyLoop A vv fuel .body src n
    return true

/-- zzzjson.h:2163-2168 `zj_Copy` -/
def copy (fuel : Nat) (v : Addr) : M (Option Addr) := do
  let r ← newValue (← rdVal v).a
  if ← valueCopyFrom fuel r v then return some r else return none

/-! ### Move (zzzjson.h:2171-2191) -/

/-- `v->N` for a handle known not to be empty. -/
def valN (v : Addr) : M Addr := do deref (← rdVal v).n

/-- zzzjson.h:2175-2180: unlink `a` from its predecessor or from the father. -/
def unlinkPrev (f a : Addr) : M Unit := do
  match ← nPrev a with
  | none => setNodeP f (← nNext a)
  | some p =>
    setNext p (← nNext a)
    setPrev a none

/-- zzzjson.h:2181-2186: unlink `a` from its successor or from the end of the list;
`a->Prev` was already overwritten. -/
def unlinkNext (f a : Addr) : M Unit := do
  match ← nNext a with
  | none => setEnd f (← nPrev a)
  | some x =>
    setPrev x (← nPrev a)
    setNext a none

/-- zzzjson.h:2171-2191 `zj_Move`, statement by statement. -/
def move (v : Addr) : M Bool := do
  match (← rdVal v).n with
  | none => return false
  | some a =>
    match ← nFather a with
    | none => return true
    | some f =>
      unlinkPrev f a
      unlinkNext f a
      let f ← deref (← nFather a)
      setLen f (dec32 (← nLen f))
      setFather a none
      return true

/-! ### Setters (zzzjson.h:2194-2592) -/

/-- `if (v->N == 0) { v->N = alloc; Key = Prev = Father = Next = 0; }` -/
def ensureNode (v : Addr) : M Addr := do
  let val ← rdVal v
  match val.n with
  | some a => pure a
  | none =>
    let n ← newNode val.a
    setValN v (some n)
    setKey n none
    setPrev n none
    setFather n none
    setNext n none
    pure n

/-- `Type = t; Value.Str = p; Len = len;` -/
def setScalar (v : Addr) (t : JType) (p : SPtr) (len : Nat) : M Unit := do
  let a ← ensureNode v
  setType a t
  setStrP a p
  setLen a len

/-- zzzjson.h:2194-2205 `zj_SetNull` -/
def setNull (v : Addr) : M Unit := setScalar v .null (.lit { bytes := b!"null" }) 4

/-- zzzjson.h:2208-2224 `zj_SetBool` -/
def setBool (v : Addr) (b : Bool) : M Unit :=
  if b = false then setScalar v .bool (.lit { bytes := b!"false" }) 5
  else setScalar v .bool (.lit { bytes := b!"true" }) 4

/-- `zj_checkNum(p, &len)` / `zj_checkStr(p, &len)` on a C string in memory. -/
def checkNumAt (p : SPtr) : M (Option Nat) := do
  let (s, _) ← view p
  lift (checkNum s)
def checkStrAt (p : SPtr) : M (Option Nat) := do
  let (s, _) ← view p
  lift (checkStr s)

/-- zzzjson.h:1274-1280 and 1391-1397: copy `len` bytes into the static scratch
string (created on first use from the allocator of the caller) and terminate it. -/
def fillCache (A : Nat) (p : SPtr) (len : Nat) : M ZStr := do
  let c ← (fun st => .ok (st.cache, st) : M (Option ZStr))
  let z ← (match c with
    | none => newOut A (·.cache)
    | some z => do touchStr z; pure { z with pos := 0 } : M ZStr)
  let z ← appendStr z p len
  let z ← appendChar z 0
  (fun st => .ok ((), { st with cache := some z }) : M Unit)
  return z

/-- zzzjson.h:1272-1288 `zj_checkStrLen` -/
def checkStrLenAt (A : Nat) (p : SPtr) (len : Nat) : M Bool := do
  let z ← fillCache A p len
  match ← checkStrAt (.buf z.data 0) with
  | none => return false
  | some n => return n = len

/-- zzzjson.h:1389-1405 `zj_checkNumLen` -/
def checkNumLenAt (A : Nat) (p : SPtr) (len : Nat) : M Bool := do
  let z ← fillCache A p len
  match ← checkNumAt (.buf z.data 0) with
  | none => return false
  | some n => return n = len

/-- `char *s = zj_allocatorAlloc(v->A, len); zj_memCopy(p, len, s);` -/
def dup (A : Nat) (p : SPtr) (len : Nat) : M SPtr := do
  let t ← readN p len
  let b ← newBuf A len t
  return .buf b 0

/-- zzzjson.h:2227-2242 `zj_SetNumStrFast` -/
def setNumStrFast (v : Addr) (p : SPtr) : M Bool := do
  match ← checkNumAt p with
  | none => return false
  | some len => setScalar v .number p len; return true

/-- zzzjson.h:2245-2260 `zj_SetNumStrLenFast` -/
def setNumStrLenFast (v : Addr) (p : SPtr) (len : Nat) : M Bool := do
  if !(← checkNumLenAt (← rdVal v).a p len) then return false
  setScalar v .number p len
  return true

/-- zzzjson.h:2263-2280 `zj_SetNumStr` -/
def setNumStr (v : Addr) (p : SPtr) : M Bool := do
  match ← checkNumAt p with
  | none => return false
  | some len =>
    let s ← dup (← rdVal v).a p len
    setScalar v .number s len
    return true

/-- zzzjson.h:2283-2299 `zj_SetNumStrLen` -/
def setNumStrLen (v : Addr) (p : SPtr) (len : Nat) : M Bool := do
  if !(← checkNumLenAt (← rdVal v).a p len) then return false
  let s ← dup (← rdVal v).a p len
  setScalar v .number s len
  return true

/-- zzzjson.h:2302-2320 `zj_SetNum`, `zj_SetDouble` -/
def setDouble {D} (fp : FP D) (v : Addr) (d : D) : M Bool := do
  let (t, len) := doubleToStr fp d
  let b ← newBuf (← rdVal v).a 32 t
  setScalar v .number (.buf b 0) len
  return true

/-- zzzjson.h:2322-2336 `zj_SetInt` -/
def setInt (v : Addr) (n : Int) : M Bool := do
  let (t, len) := intToStr n
  let b ← newBuf (← rdVal v).a 16 t
  setScalar v .number (.buf b 0) len
  return true

/-- zzzjson.h:2338-2352 `zj_SetLong` -/
def setLong (v : Addr) (n : Int) : M Bool := do
  let (t, len) := longToStr n
  let b ← newBuf (← rdVal v).a 24 t
  setScalar v .number (.buf b 0) len
  return true

/-- zzzjson.h:2354-2368 `zj_SetLongLong` -/
def setLongLong (v : Addr) (n : Int) : M Bool := do
  let (t, len) := longLongToStr n
  let b ← newBuf (← rdVal v).a 24 t
  setScalar v .number (.buf b 0) len
  return true

/-- zzzjson.h:2382-2398 `zj_SetStrFast` -/
def setStrFast (v : Addr) (p : SPtr) : M Bool := do
  match ← checkStrAt p with
  | none => return false
  | some len => setScalar v .string p len; return true

/-- `zj_escapeStr(p, A)` (zzzjson.h:1109-1126): the escaped text in a fresh block. -/
def escapeAt (A : Nat) (p : SPtr) : M SPtr := do
  let (s, _) ← view p
  let (n, out) ← lift (escapeStr s)
  let b ← newBuf A n out
  return .buf b 0

/-- `zj_escapeStrLen(p, A, len)` (zzzjson.h:1129-1151). -/
def escapeLenAt (A : Nat) (p : SPtr) (len : Nat) : M SPtr := do
  let (s, _) ← view p
  let (n, out) ← lift (escapeStrLen s len)
  let b ← newBuf A n out
  return .buf b 0

/-- zzzjson.h:2370-2373 `zj_SetStrEscape` -/
def setStrEscape (v : Addr) (p : SPtr) : M Bool := do
  let es ← escapeAt (← rdVal v).a p
  setStrFast v es

/-- zzzjson.h:2375-2379 `zj_SetStrLenEscape` -/
def setStrLenEscape (v : Addr) (p : SPtr) (len : Nat) : M Bool := do
  let es ← escapeLenAt (← rdVal v).a p len
  setStrFast v es

/-- zzzjson.h:2401-2416 `zj_SetStrLenFast` -/
def setStrLenFast (v : Addr) (p : SPtr) (len : Nat) : M Bool := do
  if !(← checkStrLenAt (← rdVal v).a p len) then return false
  setScalar v .string p len
  return true

/-- zzzjson.h:2419-2437 `zj_SetStr` -/
def setStr (v : Addr) (p : SPtr) : M Bool := do
  match ← checkStrAt p with
  | none => return false
  | some len =>
    let s ← dup (← rdVal v).a p len
    setScalar v .string s len
    return true

/-- zzzjson.h:2440-2457 `zj_SetStrLen` -/
def setStrLen (v : Addr) (p : SPtr) (len : Nat) : M Bool := do
  if !(← checkStrLenAt (← rdVal v).a p len) then return false
  let s ← dup (← rdVal v).a p len
  setScalar v .string s len
  return true

/-- zzzjson.h:2476-2487 (and 2498-2509, 2521-2532, 2545-2556): the node whose key is
to be set: a new null value for an empty handle; refused (`none`) below an array. -/
def keyTarget (v : Addr) : M (Option Addr) := do
  let val ← rdVal v
  match val.n with
  | none =>
    let n ← newNode val.a
    setValN v (some n)
    setPrev n none
    setFather n none
    setNext n none
    setType n .null
    setStrP n (.lit { bytes := b!"null" })
    setLen n 4
    return some n
  | some a =>
    match ← nFather a with
    | none => return some a
    | some f => if (← nType f) ≠ .object then return none else return some a

/-- zzzjson.h:2471-2491 `zj_SetKeyFast` -/
def setKeyFast (v : Addr) (p : SPtr) : M Bool := do
  match ← checkStrAt p with
  | none => return false
  | some len =>
    match ← keyTarget v with
    | none => return false
    | some a =>
      setKey a (some p)
      setKeyLen a len
      return true

/-- zzzjson.h:2459-2462 `zj_SetKeyEscape` -/
def setKeyEscape (v : Addr) (p : SPtr) : M Bool := do
  let es ← escapeAt (← rdVal v).a p
  setKeyFast v es

/-- zzzjson.h:2464-2468 `zj_SetKeyLenEscape` -/
def setKeyLenEscape (v : Addr) (p : SPtr) (len : Nat) : M Bool := do
  let es ← escapeLenAt (← rdVal v).a p len
  setKeyFast v es

/-- zzzjson.h:2494-2513 `zj_SetKeyLenFast` -/
def setKeyLenFast (v : Addr) (p : SPtr) (len : Nat) : M Bool := do
  if !(← checkStrLenAt (← rdVal v).a p len) then return false
  match ← keyTarget v with
  | none => return false
  | some a =>
    setKey a (some p)
    setKeyLen a len
    return true

/-- zzzjson.h:2516-2538 `zj_SetKey` -/
def setKeyC (v : Addr) (p : SPtr) : M Bool := do
  match ← checkStrAt p with
  | none => return false
  | some len =>
    match ← keyTarget v with
    | none => return false
    | some a =>
      let s ← dup (← rdVal v).a p len
      setKey a (some s)
      setKeyLen a len
      return true

/-- zzzjson.h:2541-2562 `zj_SetKeyLen` -/
def setKeyLenC (v : Addr) (p : SPtr) (len : Nat) : M Bool := do
  if !(← checkStrLenAt (← rdVal v).a p len) then return false
  match ← keyTarget v with
  | none => return false
  | some a =>
    let s ← dup (← rdVal v).a p len
    setKey a (some s)
    setKeyLen a len
    return true

/-- zzzjson.h:2565-2577 `zj_SetArray` -/
def setArray (v : Addr) : M Unit := do
  let a ← ensureNode v
  setType a .array
  setNodeP a none
  setLen a 0

/-- zzzjson.h:2580-2592 `zj_SetObj` -/
def setObj (v : Addr) : M Unit := do
  let a ← ensureNode v
  setType a .object
  setNodeP a none
  setLen a 0

/-! ### Set, SetFast, Add, Del (zzzjson.h:2595-2757) -/

/-- `while (next != 0) { next->Father = v->N; next = next->Next; }` -/
def adopt (f : Addr) : Nat → Option Addr → M Unit
  | 0, _ => lift .timeout
  | _ + 1, none => pure ()
  | fuel + 1, some n => do
    setFather n (some f)
    adopt f fuel (← nNext n)

/-- `v->N->Type = x->Type; v->N->Value = x->Value; v->N->Len = x->Len;` and for a
container `v->N->End = e->End` and the new father of the children. `a = v->N`. -/
def graft (fuel : Nat) (a x e : Addr) : M Unit := do
  let ty ← nType x
  setType a ty
  let xv := (← rdNode x).value
  modNode a fun n => { n with value := xv }
  setLen a (← nLen x)
  if (← nType a) = .array ∨ (← nType a) = .object then
    let xe := (← rdNode e).end_
    modNode a fun n => { n with end_ := xe }
    adopt a fuel (← nNode a)

/-- zzzjson.h:2595-2616 `zj_SetFast` -/
def setFast (fuel : Nat) (v vv : Addr) : M Bool := do
  if !(← move vv) then return false
  let x ← rdVal vv
  match (← rdVal v).n with
  | none =>
    setValN v x.n
    setValN vv none
    return true
  | some a =>
    let x ← deref x.n
    graft fuel a x x
    setValN vv none
    return true

/-- zzzjson.h:2619-2639 `zj_Set`; line 2631 takes `End` from `vv`, not from the copy. -/
def set (fuel : Nat) (v vv : Addr) : M Bool := do
  match ← copy fuel vv with
  | none => return false
  | some cp =>
    let x ← rdVal cp
    match (← rdVal v).n with
    | none =>
      setValN v x.n
      return true
    | some a =>
      let x ← deref x.n
      graft fuel a x (← valN vv)
      return true

/-- zzzjson.h:2654-2663 (and 2682-2691, 2705-2714, 2730-2739): append `x` to `f`. -/
def attach (f x : Addr) : M Unit := do
  match ← nNode f with
  | none =>
    setNodeP f (some x)
    setLen f 1
    setEnd f (some x)
  | some _ =>
    let e ← deref (← nEnd f)
    setNext e (some x)
    setPrev x (some e)
    setEnd f (some x)
    setLen f ((← nLen f) + 1)

/-- zzzjson.h:2642-2666 `zj_ObjAddFast` -/
def objAddFast (v vv : Addr) : M Bool := do
  match (← rdVal v).n with
  | none => return false
  | some f =>
    if (← nType f) ≠ .object then return false
    match (← rdVal vv).n with
    | none => return false
    | some x =>
      if (← nKey x) = none then return false
      if !(← move vv) then return false
      setFather x (some f)
      attach f x
      setValN vv none
      return true

/-- zzzjson.h:2669-2693 `zj_ObjAdd` -/
def objAdd (fuel : Nat) (v vv : Addr) : M Bool := do
  match (← rdVal v).n with
  | none => return false
  | some f =>
    if (← nType f) ≠ .object then return false
    match (← rdVal vv).n with
    | none => return false
    | some y =>
      if (← nKey y) = none then return false
      match ← copy fuel vv with
      | none => return false
      | some cp =>
        let x ← valN cp
        setFather x (some f)
        attach f x
        return true

/-- zzzjson.h:2696-2717 `zj_ArrayAddFast` -/
def arrayAddFast (v vv : Addr) : M Bool := do
  match (← rdVal v).n with
  | none => return false
  | some f =>
    if (← nType f) ≠ .array then return false
    if !(← move vv) then return false
    let x ← valN vv
    setKey x none
    setFather x (some f)
    attach f x
    setValN vv none
    return true

/-- zzzjson.h:2720-2741 `zj_ArrayAdd` -/
def arrayAdd (fuel : Nat) (v vv : Addr) : M Bool := do
  match (← rdVal v).n with
  | none => return false
  | some f =>
    if (← nType f) ≠ .array then return false
    match ← copy fuel vv with
    | none => return false
    | some cp =>
      let x ← valN cp
      setKey x none
      setFather x (some f)
      attach f x
      return true

/-- zzzjson.h:2744-2749 `zj_ArrayDel` -/
def arrayDel (fuel : Nat) (v : Addr) (index : Nat) : M Bool := do
  match ← arrayGet fuel v index with
  | none => return false
  | some d => move d

/-- zzzjson.h:2752-2757 `zj_ObjDel` -/
def objDel (fuel : Nat) (v : Addr) (key : SPtr) : M Bool := do
  match ← objGet fuel v key with
  | none => return false
  | some d => move d

end ZJ
