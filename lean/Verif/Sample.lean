import Verif.Readme

/-
The C++ sample program (sample/c++/sample.cpp): a deep copy as in the README, but with the getters that
do not copy (`GetStrFast`, `GetNumFast`, `GetKeyFast`) and the setters that take a length.
(sample/c/sample.c is the program of the README, see `Readme`.)

Simplifications: the methods of zzzjson.hpp are written as the C functions they call; the boxes they
return are left out (see `Cpp`).
-/

namespace ZJ

/-- sample/c++/sample.cpp:38-41, in the loop of objects only: `GetKeyFast`, `SetKeyLenFast`. False: the
function returns. The result of `SetKeyLenFast` is not looked at. -/
def sampleKey (obj : Bool) (next v : Addr) : M Bool :=
  if obj then do
    match ← getKeyFast next with
    | none => return false
    | some (k, n) =>
      let _ ← setKeyLenFast v k n
      return true
  else return true

/-- sample/c++/sample.cpp:19-28 (array, `obj` false) and 34-46 (object, `obj` true): the loop over the
children. `go` is the recursive call. -/
def sampleKids (obj : Bool) (go : Addr → Addr → M Unit) (A : Nat) (des : Addr) : Nat → Option Addr → M Unit
  | 0, _ => lift .timeout
  | _ + 1, none => return ()
  | fuel + 1, some next => do
    let v ← newValue A
    if !(← sampleKey obj next v) then return ()
    go next v
    if !(← readmeAdd obj des v) then return ()
    sampleKids obj go A des fuel (← next_ next)

/-- sample/c++/sample.cpp:6-92 `GetAndSet`. The numeral is a bound on the depth of the recursion and the
length of the loops; the program has none. `SetNumStrLenFast` of zzzjson.hpp:93-95 is `zj_SetNumStrLen`. -/
def sampleSet (A : Nat) : Nat → Addr → Addr → M Unit
  | 0, _, _ => lift .timeout
  | fuel + 1, src, des => do
    match ← getType src with
    | none => return ()
    | some .array =>
      setArray des
      sampleKids false (sampleSet A fuel) A des fuel (← begin_ src)
    | some .object =>
      setObj des
      sampleKids true (sampleSet A fuel) A des fuel (← begin_ src)
    | some .bool =>
      match ← getBool src with
      | none => return ()
      | some b => setBool des b
    | some .null =>
      if !(← isNull src) then return ()
      setNull des
    | some .string =>
      match ← getStrFast src with
      | none => return ()
      | some (p, n) =>
        let _ ← setStrLenFast des p n
    | some .number =>
      match ← getNumFast src with
      | none => return ()
      | some (p, n) =>
        let _ ← setNumStrLen des p n

/-- sample/c++/sample.cpp:93-116 `main`, for any text in place of `src_json`; the result is the text it
prints after `des_json:`, or `none` when it prints `ParseFast Fail!`. (`Stringify` does not return a null
pointer.) The allocator is released at the end of `main`. -/
def sampleMain (fuel : Nat) (text : Bytes) : M (Option Bytes) := do
  let A ← newAllocator
  let src ← newValue A
  let des ← newValue A
  if !(← withText (text ++ [0]) true (parseFast src)) then
    releaseAllocator A
    return none
  sampleSet A fuel src des
  let out ← readC (some (← stringify fuel des))
  releaseAllocator A
  return out

end ZJ
