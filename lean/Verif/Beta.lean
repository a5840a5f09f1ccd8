import Verif.PropPrint
import Verif.PropSet
import Verif.Hist

/-
Model of the older header `beta/zzzjson_beta.h`, as far as it differs from `zzzjson.h`.

The functions of the model of `zzzjson.h` that are used here as they are (lexing, checking, output
strings, `z_ValueStringify` and the bodies of the setters) were compared with the older header token by
token (`tools/betadiff.py`): after renaming they are the same text, up to brackets and
`z_LIKELY`. Only `z_ConsumeNum` (1019-1066) and `z_CheckNum` (1069-1115) are written a little
differently: `-` is taken by `z_Consume`, and in the first `+` and `-` have a branch each. The functions
that search, copy, move, assign, add and delete are in `BetaEdit`.
Line 489 says `z_String` without `struct`, so the header is C++ only.
Different are:
* a handle (`struct z_Value`, 578-588) also holds four pointers, the texts last returned;
* `z_ValueParseFast` sets `Next` of the first member of an object (1185, 1329);
* `z_ValueParseLen` copies the text and then parses the original (1448-1454);
* the getters for texts and numbers return what they returned before, if they did (1560-1679);
* the setters forget these pointers (`z_ValueInitCache`, 591-596).

Modelled are `z_ValueParse`, `z_ValueParseLen`, `z_ValueParseFast`, `z_ValueStringify`, the getters
for strings, numbers and keys, `z_ValueBegin`, `z_ValueNext`, and the setters for null, booleans,
strings, numbers, keys and empty containers.
-/

namespace ZJ.Beta

/-- What a handle remembers (beta 578-588): `str` is `CacheStr`, `key` is `CacheKey`, `ukey` is
`CacheUnEscapeKey`; `alt` is the union `Cache`, with one constructor for each member. -/
inductive Alt (D : Type) where
  | text (p : SPtr)
  | num (d : D)

structure Cache (D : Type) where
  str : Option SPtr := none
  alt : Option (Alt D) := none
  key : Option SPtr := none
  ukey : Option SPtr := none

/-- The memory: nodes, handles and texts as in `zzzjson.h`, and what the handles remember. -/
structure BSt (D : Type) where
  st : St
  mem : Addr → Cache D

def BM (D α : Type) := BSt D → Res (α × BSt D)

instance {D : Type} : Monad (BM D) where
  pure a := fun s => .ok (a, s)
  bind x f := fun s =>
    match x s with
    | .ok (a, s') => f a s'
    | .ub u => .ub u
    | .timeout => .timeout

variable {D : Type}

/-- A function with the same text in both headers. -/
def up {α : Type} (x : M α) : BM D α := fun s =>
  match x s.st with
  | .ok (a, st') => .ok (a, ⟨st', s.mem⟩)
  | .ub u => .ub u
  | .timeout => .timeout

def recall (v : Addr) : BM D (Cache D) := fun s => .ok (s.mem v, s)

def remember (v : Addr) (f : Cache D → Cache D) : BM D Unit := fun s =>
  .ok ((), { s with mem := upd s.mem v (f (s.mem v)) })

/-- beta 591-596 `z_ValueInitCache` -/
def initCache (v : Addr) : BM D Unit := remember v fun _ => {}

/-- beta 609-617 `z_ValueInnerNew`: a handle has 48 bytes here. -/
def innerNew (A : Nat) (n : Option Addr) : BM D Addr := do
  let v ← up (do
    request A 48
    fun st => .ok (st.nv, { st with vals := upd st.vals st.nv (some ⟨n, A⟩), nv := st.nv + 1 }))
  initCache v
  return v

/-- beta 599-606 `z_ValueNew` -/
def newValue (A : Nat) : BM D Addr := innerNew A none

/-- beta 1780-1790 `z_ValueBegin` -/
def begin_ (v : Addr) : BM D (Option Addr) := do
  let val ← up (rdVal v)
  match val.n with
  | none => return none
  | some a =>
    let t ← up (nType a)
    if t ≠ .object ∧ t ≠ .array then return none
    match ← up (nNode a) with
    | some n => return some (← innerNew val.a (some n))
    | none => return none

/-- beta 1793-1801 `z_ValueNext` -/
def next_ (v : Addr) : BM D (Option Addr) := do
  let val ← up (rdVal v)
  match val.n with
  | none => return none
  | some a =>
    match ← up (nNext a) with
    | some n => return some (← innerNew val.a (some n))
    | none => return none

/-! ### Parsing (beta 1136-1459) -/

/-- beta 1156-1192 and 1300-1336: as `ZJ.openContainer`, but `Next` of the first child of an
object is set. -/
def openContainer (A : Nat) (s : Bytes) (ty : JType) (close : Byte) (node : Addr) (i : Nat) :
    M Step := do
  setType node ty
  let (ok, i) ← lift (peekAndConsume close s i)
  if ok then
    setNodeP node none
    setLen node 0
    return .leaf i
  let n ← newNode A
  setFather n (some node)
  setPrev n none
  if ty = .object then setNext n none
  setNodeP node (some n)
  setEnd node (some n)
  setLen node 1
  return .desc n i

/-- beta 1154-1263 and 1298-1407: as `ZJ.switchValue`. -/
def switchValue (A : Nat) (p : SPtr) (s : Bytes) (lim : Nat) (node : Addr) (i : Nat) :
    M Step := do
  let (c, j) ← lift (peek s i)
  if c = 0x5B then openContainer A s .array 0x5D node j
  else if c = 0x7B then openContainer A s .object 0x7D node j
  else ZJ.switchValue A p s lim node i

/-- beta 1264-1445, from the loop test on: as `ZJ.parseLoop`. -/
def parseLoop (v : Addr) (A : Nat) (p : SPtr) (s : Bytes) (lim : Nat) (src : Option Addr) :
    Nat → PC → Addr → Nat → M Bool
  | 0, _, _, _ => lift .timeout
  | fuel + 1, .head, node, i => do
    if some node = (← rdVal v).n then
      let (ok, _) ← lift (peekAndConsume 0 s i)
      if ok then return true
      restore v src
    else
      match ← parseKey p s node i with
      | none => restore v src
      | some i =>
        match ← switchValue A p s lim node i with
        | .bad => restore v src
        | .desc n i => parseLoop v A p s lim src fuel .head n i
        | .leaf i => parseLoop v A p s lim src fuel .close node i
  | fuel + 1, .close, node, i => do
    if some node = (← rdVal v).n then
      parseLoop v A p s lim src fuel .head node i
    else
      let (ok, i) ← lift (peekAndConsume 0x2C s i)
      if ok then
        let n ← newNode A
        setFather n (← nFather node)
        setPrev n (some node)
        let f ← deref (← nFather node)
        setEnd f (some n)
        setLen f ((← nLen f) + 1)
        setNext node (some n)
        parseLoop v A p s lim src fuel .head n i
      else
        let (c, i) ← lift (peek s i)
        let f ← deref (← nFather node)
        let ty ← nType f
        if (c = 0x7D ∧ ty = .object) ∨ (c = 0x5D ∧ ty = .array) then
          setNext node none
          parseLoop v A p s lim src fuel .close f i
        else restore v src

/-- beta 1139-1151: the node to parse into and a copy of what it was. -/
def saveNode (v : Addr) (val : Val) : M (Option Addr) := do
  match val.n with
  | none =>
    let n ← newNode val.a
    setValN v (some n)
    setPrev n none
    setNext n none
    setFather n none
    setKey n none
    pure none
  | some a =>
    let sn ← newNode val.a
    let x ← rdNode a
    modNode sn fun n => { x with owner := n.owner }
    pure (some sn)

/-- beta 1139-1445: `z_ValueParseFast` without its first line. -/
def parseNodes (v : Addr) (p : SPtr) : M Bool := do
  let val ← rdVal v
  let src ← saveNode v val
  let (s, lim) ← view p
  let root ← deref (← rdVal v).n
  match ← switchValue val.a p s lim root 0 with
  | .bad => restore v src
  | .desc n i => parseLoop v val.a p s lim src (parseFuel s.length) .head n i
  | .leaf i => parseLoop v val.a p s lim src (parseFuel s.length) .head root i

/-- beta 1136-1445 `z_ValueParseFast` -/
def parseFast (v : Addr) (p : SPtr) : BM D Bool := do
  initCache v
  up (parseNodes v p)

/-- beta 1448-1454 `z_ValueParseLen`: the text is copied, and then not the copy but the text
itself is parsed. -/
def parseLen (v : Addr) (p : SPtr) (len : Nat) : BM D Bool := do
  up (do
    let val ← rdVal v
    let t ← readN p len
    let _ ← newBuf val.a (len + 1) (t ++ [0])
    pure ())
  parseFast v p

/-- beta 1457-1459 `z_ValueParse` -/
def parse (v : Addr) (p : SPtr) : BM D Bool := do
  let n ← up (do
    let (s, _) ← view p
    lift (strLen s))
  parseLen v p n

/-! ### Printing and reading (beta 1462-1690) -/

/-- beta 1462-1546 `z_ValueStringify` -/
def stringify (fuel : Nat) (v : Addr) : BM D SPtr := up (ZJ.stringify fuel v)

/-- The node of `v` if it has type `t`, as tested at beta 1561-1564, 1576-1579, 1603-1606 and
1618-1621. -/
def typed (v : Addr) (t : JType) : M (Option Addr) := do
  match (← rdVal v).n with
  | none => return none
  | some a => if (← nType a) ≠ t then return none else return some a

/-- beta 1560-1572 `z_ValueGetString` (`t` is the string type) and 1602-1614 `z_ValueGetNumStr`
(the number type): the same text apart from the type. -/
def getText (t : JType) (v : Addr) : BM D (Option SPtr) := do
  match ← up (typed v t) with
  | none => return none
  | some a =>
    match (← recall v).str with
    | some p => return some p
    | none =>
      let p ← up (do copyOut (← rdVal v).a (← nStr a) (← nLen a))
      remember v fun c => { c with str := some p }
      return some p

def getString (v : Addr) : BM D (Option SPtr) := getText .string v
def getNumStr (v : Addr) : BM D (Option SPtr) := getText .number v

/-- beta 1575-1588 `z_ValueGetUnEscapeString`; the pointer to a double in the union is not the text
of a string. -/
def getUnEscapeString (v : Addr) : BM D (Option SPtr) := do
  match ← up (typed v .string) with
  | none => return none
  | some a =>
    match (← recall v).alt with
    | some (.text p) => return some p
    | some (.num _) => up (fail .badUnion)
    | none =>
      let p ← up (do
        let len ← nLen a
        let (s, _) ← view (← nStr a)
        let out ← lift (unEscapeStr s len (len + 1))
        let b ← newBuf (← rdVal v).a (len + 1) out
        return SPtr.buf b 0)
      remember v fun c => { c with alt := some (.text p) }
      return some p

/-- beta 1617-1628 `z_ValueGetNum` (the number is returned in a fresh block of 8 bytes; here by
value). -/
def getNum (fp : FP D) (v : Addr) : BM D (Option D) := do
  match ← up (typed v .number) with
  | none => return none
  | some a =>
    match (← recall v).alt with
    | some (.num d) => return some d
    | some (.text _) => up (fail .badUnion)
    | none =>
      let d ← up (do
        request (← rdVal v).a 8
        let (b, _) ← view (← nStr a)
        let n ← lift (atofText b)
        return fp.conv n)
      remember v fun c => { c with alt := some (.num d) }
      return some d

/-- The node of `v` and its key, as tested at beta 1652-1655 and 1668-1671. -/
def keyed (v : Addr) : M (Option (Addr × SPtr)) := do
  match (← rdVal v).n with
  | none => return none
  | some a =>
    match ← nKey a with
    | none => return none
    | some k => return some (a, k)

/-- beta 1651-1665 `z_ValueGetKey` -/
def getKey (v : Addr) : BM D (Option SPtr) := do
  match ← up (keyed v) with
  | none => return none
  | some (a, k) =>
    match (← recall v).key with
    | some p => return some p
    | none =>
      let p ← up (do copyOut (← rdVal v).a k (← nKeyLen a))
      remember v fun c => { c with key := some p }
      return some p

/-- beta 1667-1679 `z_ValueGetUnEscapeKey` -/
def getUnEscapeKey (v : Addr) : BM D (Option SPtr) := do
  match ← up (keyed v) with
  | none => return none
  | some (a, k) =>
    match (← recall v).ukey with
    | some p => return some p
    | none =>
      let p ← up (do
        let len ← nKeyLen a
        let (s, _) ← view k
        let out ← lift (unEscapeStr s len (len + 1))
        let b ← newBuf (← rdVal v).a (len + 1) out
        return SPtr.buf b 0)
      remember v fun c => { c with ukey := some p }
      return some p

/-! ### Setters (beta 1904-2206)

Each has the text of the function of `zzzjson.h` with a call of `z_ValueInitCache` in it, which is
not made when the new text is refused. In the code that call comes before the node is written and
not after it; nothing in between looks at what the handle remembers. -/

/-- A setter that always succeeds: beta 1904-1936, 2209-2238. -/
def clearing (v : Addr) (x : M Unit) : BM D Unit := do
  initCache v
  up x

/-- A setter that can refuse: beta 1939-1955, 1977-1995, 2027-2044, 2066-2085, 2157-2180. -/
def guarded (v : Addr) (x : M Bool) : BM D Bool := do
  let r ← up x
  if r then initCache v
  return r

def setNull (v : Addr) : BM D Unit := clearing v (ZJ.setNull v)
def setBool (v : Addr) (b : Bool) : BM D Unit := clearing v (ZJ.setBool v b)
def setArray (v : Addr) : BM D Unit := clearing v (ZJ.setArray v)
def setObj (v : Addr) : BM D Unit := clearing v (ZJ.setObj v)
def setNumStr (v : Addr) (p : SPtr) : BM D Bool := guarded v (ZJ.setNumStr v p)
def setNumStrFast (v : Addr) (p : SPtr) : BM D Bool := guarded v (ZJ.setNumStrFast v p)
def setStr (v : Addr) (p : SPtr) : BM D Bool := guarded v (ZJ.setStr v p)
def setStrFast (v : Addr) (p : SPtr) : BM D Bool := guarded v (ZJ.setStrFast v p)
def setKey (v : Addr) (p : SPtr) : BM D Bool := guarded v (ZJ.setKeyC v p)

/-- beta 2019-2024 `z_ValueSetNum`: unlike `zj_SetDouble` it checks what was printed, and it prints
with `sprintf` (358-360), so more than 31 characters would be written past the block. -/
def setNum (fp : FP D) (v : Addr) (d : D) : BM D Bool := do
  let q ← up (do
    let b ← newBuf (← rdVal v).a 32 (fp.fmt d ++ [0])
    return SPtr.buf b 0)
  setNumStrFast v q

end ZJ.Beta
