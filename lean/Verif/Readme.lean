import Verif.Hist

/-
The program in the README (README.md:176-287, the same as READMECHN.md:426- and
test/function/function_test.cpp:1248-): a deep copy written with the API. It is client code,
shown to users as the way to walk over a document and to build one.
-/

namespace ZJ

/-- README.md:213, in the loop of objects only: `SetKeyFast(v, GetKey(next))`. The result is
not looked at. `SetKeyFast` reads its text, so a null `GetKey` would be dereferenced. -/
def readmeKey (obj : Bool) (next v : Addr) : M Unit :=
  if obj then do
    let k ← objGetLoop.deref' (← getKey next)
    let _ ← setKeyFast v k
  else return ()

/-- README.md:199 `ArrayAddFast(desv, v)` and 215 `ObjAddFast(desv, v)` -/
def readmeAdd (obj : Bool) (des v : Addr) : M Bool := if obj then objAddFast des v else arrayAddFast des v

/-- README.md:195-202 (array, `obj` false) and 210-218 (object, `obj` true): the loop over the
children. The two loops have the same text but for the line with `SetKeyFast` and for the add
function. `go` is the recursive call `GetAndSet`. -/
def readmeKids (obj : Bool) (go : Addr → Addr → M Unit) (des : Addr) : Nat → Option Addr → M Unit
  | 0, _ => lift .timeout
  | _ + 1, none => return ()
  | fuel + 1, some next => do
    let v ← newValue (← rdVal des).a
    readmeKey obj next v
    go next v
    if !(← readmeAdd obj des v) then return ()
    readmeKids obj go des fuel (← next_ next)

/-- README.md:181-260 `GetAndSet`. The numeral is a bound on the depth of the recursion and the
length of the loops; the program has none. -/
def getAndSet : Nat → Addr → Addr → M Unit
  | 0, _, _ => lift .timeout
  | fuel + 1, src, des => do
    match ← getType src with
    | none => return ()
    | some .array =>
      setArray des
      readmeKids false (getAndSet fuel) des fuel (← begin_ src)
    | some .object =>
      setObj des
      readmeKids true (getAndSet fuel) des fuel (← begin_ src)
    | some .bool =>
      match ← getBool src with
      | none => return ()
      | some b => setBool des b
    | some .null =>
      if !(← isNull src) then return ()
      setNull des
    | some .string =>
      match ← getStr src with
      | none => return ()
      | some p =>
        let _ ← setStrFast des p
    | some .number =>
      match ← getNumStr src with
      | none => return ()
      | some p =>
        let _ ← setNumStrFast des p

/-- README.md:261-286 `main`, for any text in place of `src_json`; the result is the text it
prints after `des_json:`, or `none` when it prints `ParseFast Fail!`. (`Stringify` does not
return a null pointer.) -/
def readmeMain (fuel : Nat) (text : Bytes) : M (Option Bytes) := do
  let A ← newAllocator
  let src ← newValue A
  let des ← newValue A
  if !(← withText (text ++ [0]) true (parseFast src)) then return none
  getAndSet fuel src des
  let out ← readC (some (← stringify fuel des))
  releaseAllocator A
  return out

/-- `main` with a second allocator for the copy, and the allocator of the parsed document
released before the copy is printed. -/
def readmeMain2 (fuel : Nat) (text : Bytes) : M (Option Bytes) := do
  let A ← newAllocator
  let B ← newAllocator
  let src ← newValue A
  let des ← newValue B
  if !(← withText (text ++ [0]) true (parseFast src)) then return none
  getAndSet fuel src des
  releaseAllocator A
  readC (some (← stringify fuel des))

end ZJ
