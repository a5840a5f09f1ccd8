import Verif.Beta

/-
Model of the functions of `beta/zzzjson_beta.h` that search, copy, move, assign, add and delete
(1693-1901 and 2241-2420), of the getters and setters that `Beta` leaves out, and of the two functions
for allocators.

The loops and the handling of links (`objGetLoop`, `copyLoop`, `move`, `attach`, `adopt` and so on) are
the ones of the model of `zzzjson.h`: `tools/betadiff.py` compares the two texts token by token.
Different are: a new handle has 48 bytes and remembers nothing (`innerNew`); `z_ValueCopy` makes the new
handle after it has tested that there is something to copy; `z_ValueSetFast`, `z_ValueSet` and the
functions that move a value clear what the handles remember; and `z_ValueSetFast` and `z_ValueSet` also
take over the key (2252-2255, 2281-2284).
-/

namespace ZJ.Beta

variable {D : Type}

/-- beta 1693-1708 `z_ValueObjGet` -/
def objGet (fuel : Nat) (v : Addr) (key : SPtr) : BM D (Option Addr) := do
  let val ← up (rdVal v)
  match val.n with
  | none => return none
  | some a =>
    if (← up (nType a)) ≠ .object then return none
    match ← up (do objGetLoop key fuel (← nNode a)) with
    | none => return none
    | some n => return some (← innerNew val.a (some n))

/-- beta 1711-1727 `z_ValueObjGetLen` -/
def objGetLen (fuel : Nat) (v : Addr) (key : SPtr) (len : Nat) : BM D (Option Addr) := do
  let val ← up (rdVal v)
  match val.n with
  | none => return none
  | some a =>
    if (← up (nType a)) ≠ .object then return none
    match ← up (do objGetLenLoop key len fuel (← nNode a)) with
    | none => return none
    | some n => return some (← innerNew val.a (some n))

/-- beta 1631-1639 `z_ValueGetBool` -/
def getBool (v : Addr) : BM D (Option Bool) := up (ZJ.getBool v)

/-- beta 1642-1648 `z_ValueIsNull` -/
def isNull (v : Addr) : BM D Bool := up (ZJ.isNull v)

/-- beta 1958-1974 `z_ValueSetNumStrLenFast` -/
def setNumStrLenFast (v : Addr) (p : SPtr) (len : Nat) : BM D Bool := guarded v (ZJ.setNumStrLenFast v p len)

/-- beta 1998-2016 `z_ValueSetNumStrLen` -/
def setNumStrLen (v : Addr) (p : SPtr) (len : Nat) : BM D Bool := guarded v (ZJ.setNumStrLen v p len)

/-- beta 2047-2063 `z_ValueSetStrLenFast` -/
def setStrLenFast (v : Addr) (p : SPtr) (len : Nat) : BM D Bool := guarded v (ZJ.setStrLenFast v p len)

/-- beta 2088-2106 `z_ValueSetStrLen` -/
def setStrLen (v : Addr) (p : SPtr) (len : Nat) : BM D Bool := guarded v (ZJ.setStrLen v p len)

/-- beta 2109-2130 `z_ValueSetKeyFast` -/
def setKeyFast (v : Addr) (p : SPtr) : BM D Bool := guarded v (ZJ.setKeyFast v p)

/-- beta 2133-2154 `z_ValueSetKeyLenFast` -/
def setKeyLenFast (v : Addr) (p : SPtr) (len : Nat) : BM D Bool := guarded v (ZJ.setKeyLenFast v p len)

/-- beta 2183-2206 `z_ValueSetKeyLen` -/
def setKeyLen (v : Addr) (p : SPtr) (len : Nat) : BM D Bool := guarded v (ZJ.setKeyLenC v p len)

/-- beta 413-427 `z_AllocatorNew` -/
def newAllocator : BM D Nat := up ZJ.newAllocator

/-- beta 430-440 `z_AllocatorRelease` -/
def releaseAllocator (A : Nat) : BM D Unit := up (ZJ.releaseAllocator A)

/-- beta 1730-1748 `z_ValueType` -/
def getType (v : Addr) : BM D (Option JType) := up (ZJ.getType v)

/-- beta 1751-1757 `z_ValueSize` -/
def sizeOf (v : Addr) : BM D Nat := up (ZJ.sizeOf v)

/-- beta 1760-1777 `z_ValueArrayGet` -/
def arrayGet (fuel : Nat) (v : Addr) (index : Nat) : BM D (Option Addr) := do
  let val ← up (rdVal v)
  match val.n with
  | none => return none
  | some a =>
    if (← up (nType a)) ≠ .array then return none
    match ← up (do arrayGetLoop index fuel 0 (← nNode a)) with
    | none => return none
    | some n => return some (← innerNew val.a (some n))

/-- beta 1804-1878 `z_ValueCopy`; unlike `zj_Copy` it makes no handle when there is nothing to copy. -/
def copy (fuel : Nat) (v : Addr) : BM D (Option Addr) := do
  let val ← up (rdVal v)
  match val.n with
  | none => return none
  | some src =>
    let r ← newValue val.a
    up (do
      let n ← newNode val.a
      setValN r (some n)
      setPrev n none
      setNext n none
      setFather n none
      copyLoop val.a v fuel .body src n)
    return some r

/-- beta 1881-1901 `z_ValueMove` -/
def move (v : Addr) : BM D Bool := up (ZJ.move v)

/-- beta 2252-2255 (`x` and `e` are the same node) and 2281-2284 (`x` is the copy and `e` the original):
`if (a->Key != 0 && e->Key != 0) { a->Key = x->Key; a->KeyLen = x->KeyLen; }` -/
def takeKey (a x e : Addr) : M Unit := do
  match ← nKey a with
  | none => return
  | some _ =>
    match ← nKey e with
    | none => return
    | some _ =>
      ZJ.setKey a (← nKey x)
      ZJ.setKeyLen a (← nKeyLen x)

/-- beta 2251-2265 and 2280-2294: as `ZJ.graft`, with the key. -/
def graft (fuel : Nat) (a x e : Addr) : M Unit := do
  let ty ← nType x
  setType a ty
  takeKey a x e
  let xv := (← rdNode x).value
  modNode a fun n => { n with value := xv }
  setLen a (← nLen x)
  if (← nType a) = .array ∨ (← nType a) = .object then
    let xe := (← rdNode e).end_
    modNode a fun n => { n with end_ := xe }
    adopt a fuel (← nNode a)

/-- beta 2241-2268 `z_ValueSetFast` -/
def setFast (fuel : Nat) (v vv : Addr) : BM D Bool := do
  if !(← move vv) then return false
  initCache v
  initCache vv
  let x ← up (rdVal vv)
  match (← up (rdVal v)).n with
  | none =>
    up (do
      setValN v x.n
      setValN vv none)
    return true
  | some a =>
    up (do
      let x ← deref x.n
      graft fuel a x x
      setValN vv none)
    return true

/-- beta 2271-2296 `z_ValueSet` -/
def set (fuel : Nat) (v vv : Addr) : BM D Bool := do
  match ← copy fuel vv with
  | none => return false
  | some cp =>
    initCache v
    let x ← up (rdVal cp)
    match (← up (rdVal v)).n with
    | none =>
      up (setValN v x.n)
      return true
    | some a =>
      up (do
        let x ← deref x.n
        graft fuel a x (← valN vv))
      return true

/-- beta 2299-2324 `z_ValueObjAddFast` -/
def objAddFast (v vv : Addr) : BM D Bool := do
  match (← up (rdVal v)).n with
  | none => return false
  | some f =>
    if (← up (nType f)) ≠ .object then return false
    match (← up (rdVal vv)).n with
    | none => return false
    | some x =>
      if (← up (nKey x)) = none then return false
      if !(← move vv) then return false
      initCache vv
      up (do
        setFather x (some f)
        attach f x
        setValN vv none)
      return true

/-- beta 2327-2352 `z_ValueObjAdd` -/
def objAdd (fuel : Nat) (v vv : Addr) : BM D Bool := do
  match (← up (rdVal v)).n with
  | none => return false
  | some f =>
    if (← up (nType f)) ≠ .object then return false
    match (← up (rdVal vv)).n with
    | none => return false
    | some y =>
      if (← up (nKey y)) = none then return false
      match ← copy fuel vv with
      | none => return false
      | some cp =>
        up (do
          let x ← valN cp
          setFather x (some f)
          attach f x)
        return true

/-- beta 2355-2378 `z_ValueArrayAddFast` -/
def arrayAddFast (v vv : Addr) : BM D Bool := do
  match (← up (rdVal v)).n with
  | none => return false
  | some f =>
    if (← up (nType f)) ≠ .array then return false
    if !(← move vv) then return false
    initCache vv
    up (do
      let x ← valN vv
      ZJ.setKey x none
      setFather x (some f)
      attach f x
      setValN vv none)
    return true

/-- beta 2381-2403 `z_ValueArrayAdd` -/
def arrayAdd (fuel : Nat) (v vv : Addr) : BM D Bool := do
  match (← up (rdVal v)).n with
  | none => return false
  | some f =>
    if (← up (nType f)) ≠ .array then return false
    match ← copy fuel vv with
    | none => return false
    | some cp =>
      up (do
        let x ← valN cp
        ZJ.setKey x none
        setFather x (some f)
        attach f x)
      return true

/-- beta 2406-2411 `z_ValueArrayDel` -/
def arrayDel (fuel : Nat) (v : Addr) (index : Nat) : BM D Bool := do
  match ← arrayGet fuel v index with
  | none => return false
  | some d => move d

/-- beta 2414-2419 `z_ValueObjDel` -/
def objDel (fuel : Nat) (v : Addr) (key : SPtr) : BM D Bool := do
  match ← objGet fuel v key with
  | none => return false
  | some d => move d

end ZJ.Beta
