import Verif.PropParse
import Verif.PropNum
import Verif.Readme
import Verif.HistGet
import Verif.PropAlloc

/-!
Tests of the model: the unit tests of the repository (test/function/function_test.cpp, test/conformance) and
the example programs of its manual (READMECHN.md), run on the model by the
Lean interpreter. They say nothing about all inputs, and no property rests on them; they show that the model gives the results that the authors of the code expect of it.

This file is written by tools/repotests.py. A failed check is `timeout` here. Doubles are represented by
their texts (`asText`). The blocks of memory have three bytes to spare (see C05).
-/

set_option linter.unusedVariables false

namespace ZJ.RepoTest

local instance : Alloc.Knobs := .default
def env : Alloc.Env := Alloc.bump
def F : Nat := 400
def asText : FP Bytes := ⟨id, id⟩
def check (b : Bool) : M Unit := if b then pure () else fun _ => .timeout
def pointer : Option SPtr → M SPtr
  | some p => pure p
  | none => fail .nullDeref
/-- The bytes up to the NUL. -/
def text (p : Option SPtr) : M Bytes := do return (← readC (some (← pointer p))).getD []
def textN (p : Option SPtr) (n : Nat) : M Bytes := do readN (← pointer p) n
def typeNo : Option JType → Bytes
  | some .bool => b!"1" | some .array => b!"2" | some .object => b!"3" | some .string => b!"4" | some .null => b!"5" | some .number => b!"6"
  | none => []

/-! ### test/function/function_test.cpp -/

-- function_test.cpp:55-70 `PeekTest`
#guard ((do
    let s : Bytes := [97, 98, 99, 9, 10, 13, 32, 100] ++ [0]
    let index : Nat := 0
    let (t1, index) ← lift (peek s index)
    check (decide (t1 = 97))
    check (decide (index = 1))
    let (t2, index) ← lift (peek s index)
    check (decide (t2 = 98))
    check (decide (index = 2))
    let (t3, index) ← lift (peek s index)
    check (decide (t3 = 99))
    check (decide (index = 3))
    let (t4, index) ← lift (peek s index)
    check (decide (t4 = 100))
    check (decide (index = 8))
    return () : M Unit) (St.init fun _ => 3)).out = .ok ()

-- function_test.cpp:71-132 `ConsumeTest`
#guard ((do
    let s : Bytes := [97, 98, 99, 9, 10, 13, 32, 100] ++ [0]
    let index : Nat := 0
    let (t1, index) ← lift (consume 97 s index)
    check (decide (t1 = true))
    check (decide (index = 1))
    let (t2, index) ← lift (consume 97 s index)
    check (decide (t2 = false))
    check (decide (index = 1))
    let (t3, index) ← lift (consume 98 s index)
    check (decide (t3 = true))
    check (decide (index = 2))
    let (t4, index) ← lift (consume 99 s index)
    check (decide (t4 = true))
    check (decide (index = 3))
    let (t5, index) ← lift (consume 99 s index)
    check (decide (t5 = false))
    check (decide (index = 3))
    let (t6, index) ← lift (consume 100 s index)
    check (decide (t6 = false))
    check (decide (index = 3))
    let index : Nat := 0
    let (t7, index) ← lift (consume 97 s index)
    check (decide (t7 = true))
    check (decide (index = 1))
    let (t8, index) ← lift (consume 97 s index)
    check (decide (t8 = false))
    check (decide (index = 1))
    let (t9, index) ← lift (consume 98 s index)
    check (decide (t9 = true))
    check (decide (index = 2))
    let (t10, index) ← lift (consume 99 s index)
    check (decide (t10 = true))
    check (decide (index = 3))
    let (t11, index) ← lift (consume 99 s index)
    check (decide (t11 = false))
    check (decide (index = 3))
    let (t12, index) ← lift (consume 100 s index)
    check (decide (t12 = false))
    check (decide (index = 3))
    let index : Nat := 0
    let (t13, index) ← lift (consume 97 s index)
    check (decide (t13 = true))
    check (decide (index = 1))
    let (t14, index) ← lift (consume 97 s index)
    check (decide (t14 = false))
    check (decide (index = 1))
    let (t15, index) ← lift (consume 98 s index)
    check (decide (t15 = true))
    check (decide (index = 2))
    let (t16, index) ← lift (consume 99 s index)
    check (decide (t16 = true))
    check (decide (index = 3))
    let (t17, index) ← lift (consume 99 s index)
    check (decide (t17 = false))
    check (decide (index = 3))
    let (t18, index) ← lift (consume 100 s index)
    check (decide (t18 = false))
    check (decide (index = 3))
    return () : M Unit) (St.init fun _ => 3)).out = .ok ()

-- function_test.cpp:133-182 `PeekAndConsumeTest`
#guard ((do
    let s : Bytes := [97, 98, 99, 9, 10, 13, 32, 100] ++ [0]
    let index : Nat := 0
    let (t1, index) ← lift (peekAndConsume 97 s index)
    check (decide (t1 = true))
    check (decide (index = 1))
    let (t2, index) ← lift (peekAndConsume 97 s index)
    check (decide (t2 = false))
    check (decide (index = 1))
    let (t3, index) ← lift (peekAndConsume 98 s index)
    check (decide (t3 = true))
    check (decide (index = 2))
    let (t4, index) ← lift (peekAndConsume 99 s index)
    check (decide (t4 = true))
    check (decide (index = 3))
    let (t5, index) ← lift (peekAndConsume 99 s index)
    check (decide (t5 = false))
    check (decide (index = 7))
    let (t6, index) ← lift (peekAndConsume 100 s index)
    check (decide (t6 = true))
    check (decide (index = 8))
    let index : Nat := 0
    let (t7, index) ← lift (peekAndConsume 97 s index)
    check (decide (t7 = true))
    check (decide (index = 1))
    let (t8, index) ← lift (peekAndConsume 97 s index)
    check (decide (t8 = false))
    check (decide (index = 1))
    let (t9, index) ← lift (peekAndConsume 98 s index)
    check (decide (t9 = true))
    check (decide (index = 2))
    let (t10, index) ← lift (peekAndConsume 99 s index)
    check (decide (t10 = true))
    check (decide (index = 3))
    let (t11, index) ← lift (peekAndConsume 99 s index)
    check (decide (t11 = false))
    check (decide (index = 7))
    let (t12, index) ← lift (peekAndConsume 100 s index)
    check (decide (t12 = true))
    check (decide (index = 8))
    return () : M Unit) (St.init fun _ => 3)).out = .ok ()

-- function_test.cpp:183-199 `ConsumetruefalseNullTest`
#guard ((do
    let index : Nat := 1
    let (t1, index) ← lift (consumeTrue (b!"true" ++ [0]) (b!"true" ++ [0]).length index)
    check (decide (t1 = true))
    check (decide (index = 4))
    let index : Nat := 1
    let (t2, index) ← lift (consumeFalse (b!"false" ++ [0]) (b!"false" ++ [0]).length index)
    check (decide (t2 = true))
    check (decide (index = 5))
    let index : Nat := 1
    let (t3, index) ← lift (consumeNull (b!"null" ++ [0]) (b!"null" ++ [0]).length index)
    check (decide (t3 = true))
    check (decide (index = 4))
    let index : Nat := 1
    let (t4, index) ← lift (consumeTrue (b!"null" ++ [0]) (b!"null" ++ [0]).length index)
    check (decide (t4 = false))
    let index : Nat := 1
    let (t5, index) ← lift (consumeFalse (b!"true" ++ [0]) (b!"true" ++ [0]).length index)
    check (decide (t5 = false))
    let index : Nat := 1
    let (t6, index) ← lift (consumeNull (b!"false" ++ [0]) (b!"false" ++ [0]).length index)
    check (decide (t6 = false))
    return () : M Unit) (St.init fun _ => 3)).out = .ok ()

-- function_test.cpp:213-235 `ConsumeHexTest`
#guard ((do
    let vaildHex0 : Bytes := b!"fabb" ++ [0]
    let vaildHex1 : Bytes := b!"1111" ++ [0]
    let vaildHex2 : Bytes := b!"f10b" ++ [0]
    let invailHex : Bytes := b!"fhbb" ++ [0]
    let index : Nat := 0
    let cp : Nat := 0
    let (t1, index, cp) ← lift (consumeHex vaildHex0 index cp)
    check (decide (t1 = true))
    check (decide (cp = 64187))
    check (decide (index = 4))
    let index : Nat := 0
    let cp : Nat := 0
    let (t2, index, cp) ← lift (consumeHex vaildHex1 index cp)
    check (decide (t2 = true))
    check (decide (cp = 4369))
    check (decide (index = 4))
    let index : Nat := 0
    let cp : Nat := 0
    let (t3, index, cp) ← lift (consumeHex vaildHex2 index cp)
    check (decide (t3 = true))
    check (decide (cp = 61707))
    check (decide (index = 4))
    let index : Nat := 0
    let (t4, index, cp) ← lift (consumeHex invailHex index cp)
    check (decide (t4 = false))
    return () : M Unit) (St.init fun _ => 3)).out = .ok ()

-- function_test.cpp:236-274 `ConsumeStrTest`
#guard ((do
    let vaildStr0 : Bytes := b!"0198273645!@@#$%$wqfufewkgefyegrlfbdal[]'';;~~`\"" ++ [0]
    let vaildStr1 : Bytes := b!"0198273645 \\t\\r\\n\\b\\f\\\" wqfufewkgefyegrlfbdal\"" ++ [0]
    let vaildStr2 : Bytes := b!"0198273645 \\uD123\\ud222\\u1F00 \\ud801\\udc01 wqfufewkgefyegrlfbdal\"" ++ [0]
    let invailStr0 : Bytes := [48, 49, 57, 56, 50, 55, 9, 51, 54, 52, 53, 34] ++ [0]
    let invailStr1 : Bytes := b!"019827 \\ud801\\ud801 3645\"" ++ [0]
    let invailStr2 : Bytes := b!"019827 \\udc01 3645\"" ++ [0]
    let invailStr3 : Bytes := b!"019827" ++ [0]
    let vailStr4 : Bytes := b!"\"" ++ [0]
    let index : Nat := 0
    let (t1, index) ← lift (consumeStr vaildStr0 index)
    check (decide (t1 = true))
    check (decide (index = (vaildStr0.length - 1)))
    let index : Nat := 0
    let (t2, index) ← lift (consumeStr vaildStr1 index)
    check (decide (t2 = true))
    check (decide (index = (vaildStr1.length - 1)))
    let index : Nat := 0
    let (t3, index) ← lift (consumeStr vaildStr2 index)
    check (decide (t3 = true))
    check (decide (index = (vaildStr2.length - 1)))
    let index : Nat := 0
    let (t4, index) ← lift (consumeStr invailStr0 index)
    check (decide (t4 = false))
    let index : Nat := 0
    let (t5, index) ← lift (consumeStr invailStr1 index)
    check (decide (t5 = false))
    let index : Nat := 0
    let (t6, index) ← lift (consumeStr invailStr2 index)
    check (decide (t6 = false))
    let index : Nat := 0
    let (t7, index) ← lift (consumeStr invailStr3 index)
    check (decide (t7 = false))
    let index : Nat := 0
    let (t8, index) ← lift (consumeStr vailStr4 index)
    check (decide (t8 = true))
    check (decide (index = (vailStr4.length - 1)))
    return () : M Unit) (St.init fun _ => 3)).out = .ok ()

-- function_test.cpp:275-307 `CheckStrTest`
#guard ((do
    let vaildStr0 : Bytes := b!"0198273645!@@#$%$wqfufewkgefyegrlfbdal[]'';;~~`" ++ [0]
    let vaildStr1 : Bytes := b!"0198273645 \\t\\r\\n\\b\\f\\\" wqfufewkgefyegrlfbdal" ++ [0]
    let vaildStr2 : Bytes := b!"0198273645 \\uD123\\ud222\\u1F00 \\ud801\\udc01 wqfufewkgefyegrlfbdal" ++ [0]
    let invailStr0 : Bytes := [48, 49, 57, 56, 50, 55, 9, 51, 54, 52, 53] ++ [0]
    let invailStr1 : Bytes := b!"019827 \\ud801\\ud801 3645" ++ [0]
    let invailStr2 : Bytes := b!"019827 \\udc01 3645" ++ [0]
    let invailStr3 : Bytes := b!"019827" ++ [0]
    let vailStr4 : Bytes := b!"" ++ [0]
    let len : Nat := 0
    let need_escape := false
    let t1 ← lift (checkStr vaildStr0)
    let len := t1.getD len
    check (decide (t1.isSome = true))
    check (decide (len = (vaildStr0.length - 1)))
    let t2 ← lift (checkStr vaildStr1)
    let len := t2.getD len
    check (decide (t2.isSome = true))
    check (decide (len = (vaildStr1.length - 1)))
    let t3 ← lift (checkStr vaildStr2)
    let len := t3.getD len
    check (decide (t3.isSome = true))
    check (decide (len = (vaildStr2.length - 1)))
    let t4 ← lift (checkStr invailStr0)
    let len := t4.getD len
    check (decide (t4.isSome = false))
    let t5 ← lift (checkStr invailStr1)
    let len := t5.getD len
    check (decide (t5.isSome = false))
    let t6 ← lift (checkStr invailStr2)
    let len := t6.getD len
    check (decide (t6.isSome = false))
    let t7 ← lift (checkStr invailStr3)
    let len := t7.getD len
    check (decide (t7.isSome = true))
    let t8 ← lift (checkStr vailStr4)
    let len := t8.getD len
    check (decide (t8.isSome = true))
    check (decide (len = (vailStr4.length - 1)))
    return () : M Unit) (St.init fun _ => 3)).out = .ok ()

-- function_test.cpp:308-395 `ConsumeNumTest`
#guard ((do
    let vaildNum0 : Bytes := b!"0.1234e123" ++ [0]
    let vaildNum1 : Bytes := b!"123000" ++ [0]
    let vaildNum2 : Bytes := b!"123000E123" ++ [0]
    let vaildNum3 : Bytes := b!"0" ++ [0]
    let vaildNum4 : Bytes := b!"1.23000E123" ++ [0]
    let vaildNum5 : Bytes := b!"-1.23000E123" ++ [0]
    let vaildNum6 : Bytes := b!"1.23000E-123" ++ [0]
    let vaildNum7 : Bytes := b!"0.0" ++ [0]
    let vaildNum8 : Bytes := b!"0.03e-123" ++ [0]
    let vaildNum9 : Bytes := b!"0.1e0123" ++ [0]
    let vaildNum10 : Bytes := b!"0.00000" ++ [0]
    let invaildNum0 : Bytes := b!"00" ++ [0]
    let invaildNum1 : Bytes := b!"." ++ [0]
    let invaildNum2 : Bytes := b!".123" ++ [0]
    let invaildNum3 : Bytes := b!"01" ++ [0]
    let invaildNum4 : Bytes := b!"0.1E1.23" ++ [0]
    let invaildNum5 : Bytes := b!"+123" ++ [0]
    let index : Nat := 1
    let t1 ← lift (consumeNum vaildNum0 index)
    let index := t1.getD index
    check (decide (t1.isSome = true))
    check (decide (index = (vaildNum0.length - 1)))
    let index : Nat := 1
    let t2 ← lift (consumeNum vaildNum1 index)
    let index := t2.getD index
    check (decide (t2.isSome = true))
    check (decide (index = (vaildNum1.length - 1)))
    let index : Nat := 1
    let t3 ← lift (consumeNum vaildNum2 index)
    let index := t3.getD index
    check (decide (t3.isSome = true))
    check (decide (index = (vaildNum2.length - 1)))
    let index : Nat := 1
    let t4 ← lift (consumeNum vaildNum3 index)
    let index := t4.getD index
    check (decide (t4.isSome = true))
    check (decide (index = (vaildNum3.length - 1)))
    let index : Nat := 1
    let t5 ← lift (consumeNum vaildNum4 index)
    let index := t5.getD index
    check (decide (t5.isSome = true))
    check (decide (index = (vaildNum4.length - 1)))
    let index : Nat := 1
    let t6 ← lift (consumeNum vaildNum5 index)
    let index := t6.getD index
    check (decide (t6.isSome = true))
    check (decide (index = (vaildNum5.length - 1)))
    let index : Nat := 1
    let t7 ← lift (consumeNum vaildNum6 index)
    let index := t7.getD index
    check (decide (t7.isSome = true))
    check (decide (index = (vaildNum6.length - 1)))
    let index : Nat := 1
    let t8 ← lift (consumeNum vaildNum7 index)
    let index := t8.getD index
    check (decide (t8.isSome = true))
    check (decide (index = (vaildNum7.length - 1)))
    let index : Nat := 1
    let t9 ← lift (consumeNum vaildNum8 index)
    let index := t9.getD index
    check (decide (t9.isSome = true))
    check (decide (index = (vaildNum8.length - 1)))
    let index : Nat := 1
    let t10 ← lift (consumeNum vaildNum9 index)
    let index := t10.getD index
    check (decide (t10.isSome = true))
    check (decide (index = (vaildNum9.length - 1)))
    let index : Nat := 1
    let t11 ← lift (consumeNum vaildNum10 index)
    let index := t11.getD index
    check (decide (t11.isSome = true))
    check (decide (index = (vaildNum10.length - 1)))
    let index : Nat := 1
    let t12 ← lift (consumeNum invaildNum0 index)
    let index := t12.getD index
    check (decide (t12.isSome = true))
    check (decide (index = 1))
    check (!(decide (index = (invaildNum0.length - 1))))
    let index : Nat := 1
    let t13 ← lift (consumeNum invaildNum1 index)
    let index := t13.getD index
    check (decide (t13.isSome = false))
    let index : Nat := 1
    let t14 ← lift (consumeNum invaildNum2 index)
    let index := t14.getD index
    check (decide (t14.isSome = false))
    let index : Nat := 1
    let t15 ← lift (consumeNum invaildNum3 index)
    let index := t15.getD index
    check (decide (t15.isSome = true))
    check (decide (index = 1))
    check (!(decide (index = (invaildNum3.length - 1))))
    let index : Nat := 1
    let t16 ← lift (consumeNum invaildNum4 index)
    let index := t16.getD index
    check (decide (t16.isSome = true))
    check (decide (index = 5))
    check (!(decide (index = (invaildNum4.length - 1))))
    let index : Nat := 1
    let t17 ← lift (consumeNum invaildNum5 index)
    let index := t17.getD index
    check (decide (t17.isSome = false))
    return () : M Unit) (St.init fun _ => 3)).out = .ok ()

-- function_test.cpp:396-477 `CheckNumTest`
#guard ((do
    let vaildNum0 : Bytes := b!"0.1234e123" ++ [0]
    let vaildNum1 : Bytes := b!"123000" ++ [0]
    let vaildNum2 : Bytes := b!"123000E123" ++ [0]
    let vaildNum3 : Bytes := b!"0" ++ [0]
    let vaildNum4 : Bytes := b!"1.23000E123" ++ [0]
    let vaildNum5 : Bytes := b!"-1.23000E123" ++ [0]
    let vaildNum6 : Bytes := b!"1.23000E-123" ++ [0]
    let vaildNum7 : Bytes := b!"0.0" ++ [0]
    let vaildNum8 : Bytes := b!"0.03e-123" ++ [0]
    let vaildNum9 : Bytes := b!"0.1e0123" ++ [0]
    let vaildNum10 : Bytes := b!"0.00000" ++ [0]
    let invaildNum0 : Bytes := b!"00" ++ [0]
    let invaildNum1 : Bytes := b!"." ++ [0]
    let invaildNum2 : Bytes := b!".123" ++ [0]
    let invaildNum3 : Bytes := b!"01" ++ [0]
    let invaildNum4 : Bytes := b!"0.1E1.23" ++ [0]
    let invaildNum5 : Bytes := b!"+123" ++ [0]
    let len : Nat := 1
    let t1 ← lift (checkNum vaildNum0)
    let len := t1.getD len
    check (decide (t1.isSome = true))
    check (decide (len = (vaildNum0.length - 1)))
    let len : Nat := 1
    let t2 ← lift (checkNum vaildNum1)
    let len := t2.getD len
    check (decide (t2.isSome = true))
    check (decide (len = (vaildNum1.length - 1)))
    let len : Nat := 1
    let t3 ← lift (checkNum vaildNum2)
    let len := t3.getD len
    check (decide (t3.isSome = true))
    check (decide (len = (vaildNum2.length - 1)))
    let len : Nat := 1
    let t4 ← lift (checkNum vaildNum3)
    let len := t4.getD len
    check (decide (t4.isSome = true))
    check (decide (len = (vaildNum3.length - 1)))
    let len : Nat := 1
    let t5 ← lift (checkNum vaildNum4)
    let len := t5.getD len
    check (decide (t5.isSome = true))
    check (decide (len = (vaildNum4.length - 1)))
    let len : Nat := 1
    let t6 ← lift (checkNum vaildNum5)
    let len := t6.getD len
    check (decide (t6.isSome = true))
    check (decide (len = (vaildNum5.length - 1)))
    let len : Nat := 1
    let t7 ← lift (checkNum vaildNum6)
    let len := t7.getD len
    check (decide (t7.isSome = true))
    check (decide (len = (vaildNum6.length - 1)))
    let len : Nat := 1
    let t8 ← lift (checkNum vaildNum7)
    let len := t8.getD len
    check (decide (t8.isSome = true))
    check (decide (len = (vaildNum7.length - 1)))
    let len : Nat := 1
    let t9 ← lift (checkNum vaildNum8)
    let len := t9.getD len
    check (decide (t9.isSome = true))
    check (decide (len = (vaildNum8.length - 1)))
    let len : Nat := 1
    let t10 ← lift (checkNum vaildNum9)
    let len := t10.getD len
    check (decide (t10.isSome = true))
    check (decide (len = (vaildNum9.length - 1)))
    let len : Nat := 1
    let t11 ← lift (checkNum vaildNum10)
    let len := t11.getD len
    check (decide (t11.isSome = true))
    check (decide (len = (vaildNum10.length - 1)))
    let len : Nat := 1
    let t12 ← lift (checkNum invaildNum0)
    let len := t12.getD len
    check (decide (t12.isSome = false))
    let len : Nat := 1
    let t13 ← lift (checkNum invaildNum1)
    let len := t13.getD len
    check (decide (t13.isSome = false))
    let len : Nat := 1
    let t14 ← lift (checkNum invaildNum2)
    let len := t14.getD len
    check (decide (t14.isSome = false))
    let len : Nat := 1
    let t15 ← lift (checkNum invaildNum3)
    let len := t15.getD len
    check (decide (t15.isSome = false))
    let len : Nat := 1
    let t16 ← lift (checkNum invaildNum4)
    let len := t16.getD len
    check (decide (t16.isSome = false))
    let len : Nat := 1
    let t17 ← lift (checkNum invaildNum5)
    let len := t17.getD len
    check (decide (t17.isSome = false))
    return () : M Unit) (St.init fun _ => 3)).out = .ok ()

-- function_test.cpp:529-578 `ParseAndStringifyTest`, without the last three statements
#guard ((do
    let A ← newAllocator
    let t1 ← callerText (b!"[]" ++ [0])
    let json : Option SPtr := (some t1)
    let t2 ← newValue A
    let v : Option Addr := (some t2)
    let t3 ← text json
    let t4 ← deref v
    let t5 ← pointer json
    let t6 ← parseLen t4 t5 t3.length
    check (decide (t6 = true))
    let t7 ← deref v
    let t8 ← stringify F t7
    let t9 ← text (some t8)
    let t10 ← text json
    check (decide (t9 = t10))
    let t11 ← callerText (b!"{}" ++ [0])
    let json : Option SPtr := (some t11)
    let t12 ← deref v
    let t13 ← pointer json
    let t14 ← parseFast t12 t13
    check (decide (t14 = true))
    let t15 ← deref v
    let t16 ← stringify F t15
    let t17 ← text (some t16)
    let t18 ← text json
    check (decide (t17 = t18))
    let t19 ← callerText (b!"true" ++ [0])
    let json : Option SPtr := (some t19)
    let t20 ← text json
    let t21 ← deref v
    let t22 ← pointer json
    let t23 ← parseLen t21 t22 t20.length
    check (decide (t23 = true))
    let t24 ← deref v
    let t25 ← stringify F t24
    let t26 ← text (some t25)
    let t27 ← text json
    check (decide (t26 = t27))
    let t28 ← callerText (b!"false" ++ [0])
    let json : Option SPtr := (some t28)
    let t29 ← deref v
    let t30 ← pointer json
    let t31 ← parse t29 t30
    check (decide (t31 = true))
    let t32 ← deref v
    let t33 ← stringify F t32
    let t34 ← text (some t33)
    let t35 ← text json
    check (decide (t34 = t35))
    let t36 ← callerText (b!"null" ++ [0])
    let json : Option SPtr := (some t36)
    let t37 ← text json
    let t38 ← deref v
    let t39 ← pointer json
    let t40 ← parseLen t38 t39 t37.length
    check (decide (t40 = true))
    let t41 ← deref v
    let t42 ← stringify F t41
    let t43 ← text (some t42)
    let t44 ← text json
    check (decide (t43 = t44))
    let t45 ← callerText (b!"123" ++ [0])
    let json : Option SPtr := (some t45)
    let t46 ← deref v
    let t47 ← pointer json
    let t48 ← parseFast t46 t47
    check (decide (t48 = true))
    let t49 ← deref v
    let t50 ← stringify F t49
    let t51 ← text (some t50)
    let t52 ← text json
    check (decide (t51 = t52))
    let t53 ← callerText (b!"\"str\"" ++ [0])
    let json : Option SPtr := (some t53)
    let t54 ← text json
    let t55 ← deref v
    let t56 ← pointer json
    let t57 ← parseLen t55 t56 t54.length
    check (decide (t57 = true))
    let t58 ← deref v
    let t59 ← stringify F t58
    let t60 ← text (some t59)
    let t61 ← text json
    check (decide (t60 = t61))
    let t62 ← callerText (b!"\"\"" ++ [0])
    let json : Option SPtr := (some t62)
    let t63 ← deref v
    let t64 ← pointer json
    let t65 ← parseFast t63 t64
    check (decide (t65 = true))
    let t66 ← deref v
    let t67 ← stringify F t66
    let t68 ← text (some t67)
    let t69 ← text json
    check (decide (t68 = t69))
    let t70 ← callerText (b!"[true,false,null,[null,false,[],true],[\"\",123,\"str\"],null]" ++ [0])
    let json : Option SPtr := (some t70)
    let t71 ← text json
    let t72 ← deref v
    let t73 ← pointer json
    let t74 ← parseLen t72 t73 t71.length
    check (decide (t74 = true))
    let t75 ← deref v
    let t76 ← stringify F t75
    let t77 ← text (some t76)
    let t78 ← text json
    check (decide (t77 = t78))
    let t79 ← callerText (b!"[true,false,null,[null,false,[],true],[],null" ++ [0])
    let json1 : Option SPtr := (some t79)
    let t80 ← deref v
    let t81 ← pointer json1
    let t82 ← parseFast t80 t81
    check (decide (t82 = false))
    let t83 ← deref v
    let t84 ← stringify F t83
    let t85 ← text (some t84)
    let t86 ← text json
    check (decide (t85 = t86))
    return () : M Unit) (St.init fun _ => 3)).out = .ok ()

-- function_test.cpp:529-578 `ParseAndStringifyTest`: the test itself reads outside the text `json1`, of which it gives a wrong length
#guard ((do
    let A ← newAllocator
    let t1 ← callerText (b!"[]" ++ [0])
    let json : Option SPtr := (some t1)
    let t2 ← newValue A
    let v : Option Addr := (some t2)
    let t3 ← text json
    let t4 ← deref v
    let t5 ← pointer json
    let t6 ← parseLen t4 t5 t3.length
    check (decide (t6 = true))
    let t7 ← deref v
    let t8 ← stringify F t7
    let t9 ← text (some t8)
    let t10 ← text json
    check (decide (t9 = t10))
    let t11 ← callerText (b!"{}" ++ [0])
    let json : Option SPtr := (some t11)
    let t12 ← deref v
    let t13 ← pointer json
    let t14 ← parseFast t12 t13
    check (decide (t14 = true))
    let t15 ← deref v
    let t16 ← stringify F t15
    let t17 ← text (some t16)
    let t18 ← text json
    check (decide (t17 = t18))
    let t19 ← callerText (b!"true" ++ [0])
    let json : Option SPtr := (some t19)
    let t20 ← text json
    let t21 ← deref v
    let t22 ← pointer json
    let t23 ← parseLen t21 t22 t20.length
    check (decide (t23 = true))
    let t24 ← deref v
    let t25 ← stringify F t24
    let t26 ← text (some t25)
    let t27 ← text json
    check (decide (t26 = t27))
    let t28 ← callerText (b!"false" ++ [0])
    let json : Option SPtr := (some t28)
    let t29 ← deref v
    let t30 ← pointer json
    let t31 ← parse t29 t30
    check (decide (t31 = true))
    let t32 ← deref v
    let t33 ← stringify F t32
    let t34 ← text (some t33)
    let t35 ← text json
    check (decide (t34 = t35))
    let t36 ← callerText (b!"null" ++ [0])
    let json : Option SPtr := (some t36)
    let t37 ← text json
    let t38 ← deref v
    let t39 ← pointer json
    let t40 ← parseLen t38 t39 t37.length
    check (decide (t40 = true))
    let t41 ← deref v
    let t42 ← stringify F t41
    let t43 ← text (some t42)
    let t44 ← text json
    check (decide (t43 = t44))
    let t45 ← callerText (b!"123" ++ [0])
    let json : Option SPtr := (some t45)
    let t46 ← deref v
    let t47 ← pointer json
    let t48 ← parseFast t46 t47
    check (decide (t48 = true))
    let t49 ← deref v
    let t50 ← stringify F t49
    let t51 ← text (some t50)
    let t52 ← text json
    check (decide (t51 = t52))
    let t53 ← callerText (b!"\"str\"" ++ [0])
    let json : Option SPtr := (some t53)
    let t54 ← text json
    let t55 ← deref v
    let t56 ← pointer json
    let t57 ← parseLen t55 t56 t54.length
    check (decide (t57 = true))
    let t58 ← deref v
    let t59 ← stringify F t58
    let t60 ← text (some t59)
    let t61 ← text json
    check (decide (t60 = t61))
    let t62 ← callerText (b!"\"\"" ++ [0])
    let json : Option SPtr := (some t62)
    let t63 ← deref v
    let t64 ← pointer json
    let t65 ← parseFast t63 t64
    check (decide (t65 = true))
    let t66 ← deref v
    let t67 ← stringify F t66
    let t68 ← text (some t67)
    let t69 ← text json
    check (decide (t68 = t69))
    let t70 ← callerText (b!"[true,false,null,[null,false,[],true],[\"\",123,\"str\"],null]" ++ [0])
    let json : Option SPtr := (some t70)
    let t71 ← text json
    let t72 ← deref v
    let t73 ← pointer json
    let t74 ← parseLen t72 t73 t71.length
    check (decide (t74 = true))
    let t75 ← deref v
    let t76 ← stringify F t75
    let t77 ← text (some t76)
    let t78 ← text json
    check (decide (t77 = t78))
    let t79 ← callerText (b!"[true,false,null,[null,false,[],true],[],null" ++ [0])
    let json1 : Option SPtr := (some t79)
    let t80 ← deref v
    let t81 ← pointer json1
    let t82 ← parseFast t80 t81
    check (decide (t82 = false))
    let t83 ← deref v
    let t84 ← stringify F t83
    let t85 ← text (some t84)
    let t86 ← text json
    check (decide (t85 = t86))
    let t87 ← newValue A
    let v1 : Option Addr := (some t87)
    let t88 ← text json
    let t89 ← deref v1
    let t90 ← pointer json1
    let t91 ← parseLen t89 t90 t88.length
    check (decide (t91 = false))
    let t92 ← deref v1
    let t93 ← stringify F t92
    let t94 ← text (some t93)
    check (decide (t94 = b!""))
    releaseAllocator A
    return () : M Unit) (St.init fun _ => 3)).out = .ub .oob

-- function_test.cpp:579-615 `GetStringTest`
#guard ((do
    let A ← newAllocator
    let t1 ← newValue A
    let v : Option Addr := (some t1)
    let t2 ← callerText (b!"\"str\"" ++ [0])
    let json : Option SPtr := (some t2)
    let len : Nat := 0
    let t3 ← text json
    let t4 ← deref v
    let t5 ← pointer json
    let t6 ← parseLen t4 t5 t3.length
    check (decide (t6 = true))
    let t7 ← deref v
    let t8 ← getStrFast t7
    let len := (t8.map (·.2)).getD len
    let str : Option SPtr := (t8.map (·.1))
    check (!(str.isNone))
    let t9 ← textN str len
    check (decide (t9 = b!"str"))
    let t10 ← deref v
    let t11 ← getStr t10
    let str : Option SPtr := t11
    check (!(str.isNone))
    let t12 ← text str
    check (decide (t12.length = 3))
    let t13 ← text str
    check (decide (t13 = b!"str"))
    let t14 ← callerText (b!"123" ++ [0])
    let json : Option SPtr := (some t14)
    let t15 ← text json
    let t16 ← deref v
    let t17 ← pointer json
    let t18 ← parseLen t16 t17 t15.length
    check (decide (t18 = true))
    let t19 ← deref v
    let t20 ← getStrFast t19
    let len := (t20.map (·.2)).getD len
    let str : Option SPtr := (t20.map (·.1))
    check (str.isNone)
    let t21 ← callerText (b!"\"\\u007a\\u007a\\u007a\\u004A\\u0053\\u004F\\u004E\\u597D\\u68D2\\uD87E\\uDD21\"" ++ [0])
    let json : Option SPtr := (some t21)
    let t22 ← deref v
    let t23 ← pointer json
    let t24 ← parseFast t22 t23
    check (decide (t24 = true))
    let t25 ← deref v
    let t26 ← getUnEscapeStr t25
    let str : Option SPtr := t26
    check (!(str.isNone))
    let t27 ← text str
    check (decide (t27 = [122, 122, 122, 74, 83, 79, 78, 229, 165, 189, 230, 163, 146, 240, 175, 164, 161]))
    let t28 ← callerText (b!"\"\\t \\n \\r \\t \\b \\\\ \\\" \\/ \"" ++ [0])
    let json : Option SPtr := (some t28)
    let t29 ← deref v
    let t30 ← pointer json
    let t31 ← parseFast t29 t30
    check (decide (t31 = true))
    let t32 ← deref v
    let t33 ← getUnEscapeStr t32
    let str : Option SPtr := t33
    check (!(str.isNone))
    let t34 ← text str
    check (decide (t34 = [9, 32, 10, 32, 13, 32, 9, 32, 8, 32, 92, 32, 34, 32, 47, 32]))
    releaseAllocator A
    return () : M Unit) (St.init fun _ => 3)).out = .ok ()

-- function_test.cpp:616-641 `GetNumTest`
#guard ((do
    let A ← newAllocator
    let t1 ← newValue A
    let v : Option Addr := (some t1)
    let t2 ← callerText (b!"123" ++ [0])
    let json : Option SPtr := (some t2)
    let len : Nat := 0
    let t3 ← text json
    let t4 ← deref v
    let t5 ← pointer json
    let t6 ← parseLen t4 t5 t3.length
    check (decide (t6 = true))
    let t7 ← deref v
    let t8 ← getNumFast t7
    let len := (t8.map (·.2)).getD len
    let num : Option SPtr := (t8.map (·.1))
    check (!(num.isNone))
    let t9 ← textN num len
    check (decide (t9 = b!"123"))
    let t10 ← deref v
    let t11 ← getNumStr t10
    let num : Option SPtr := t11
    check (!(num.isNone))
    let t12 ← text num
    check (decide (t12.length = 3))
    let t13 ← text num
    check (decide (t13 = b!"123"))
    let t14 ← deref v
    let t15 ← getDouble asText t14
    let d := t15
    check (!(d.isNone))
    check (decide (d = some b!"123"))
    let t16 ← callerText (b!"[]" ++ [0])
    let json : Option SPtr := (some t16)
    let t17 ← text json
    let t18 ← deref v
    let t19 ← pointer json
    let t20 ← parseLen t18 t19 t17.length
    check (decide (t20 = true))
    let t21 ← deref v
    let t22 ← getNumFast t21
    let len := (t22.map (·.2)).getD len
    let num : Option SPtr := (t22.map (·.1))
    check (num.isNone)
    releaseAllocator A
    return () : M Unit) (St.init fun _ => 3)).out = .ok ()

-- function_test.cpp:642-684 `GetKeyTest`
#guard ((do
    let A ← newAllocator
    let t1 ← newValue A
    let v : Option Addr := (some t1)
    let t2 ← callerText (b!"{\"key\":123}" ++ [0])
    let json : Option SPtr := (some t2)
    let len : Nat := 0
    let t3 ← text json
    let t4 ← deref v
    let t5 ← pointer json
    let t6 ← parseLen t4 t5 t3.length
    check (decide (t6 = true))
    let t7 ← deref v
    let t8 ← callerText (b!"key" ++ [0])
    let t9 ← objGet F t7 t8
    let t10 ← deref t9
    let t11 ← getKeyFast t10
    let len := (t11.map (·.2)).getD len
    let key : Option SPtr := (t11.map (·.1))
    check (!(key.isNone))
    let t12 ← textN key len
    check (decide (t12 = b!"key"))
    let t13 ← deref v
    let t14 ← callerText (b!"key" ++ [0])
    let t15 ← objGet F t13 t14
    let t16 ← deref t15
    let t17 ← getKey t16
    let key : Option SPtr := t17
    check (!(key.isNone))
    let t18 ← text key
    check (decide (t18.length = 3))
    let t19 ← text key
    check (decide (t19 = b!"key"))
    let t20 ← deref v
    let t21 ← callerText (b!"key" ++ [0])
    let t22 ← objGet F t20 t21
    let vv : Option Addr := t22
    let t23 ← deref vv
    let t24 ← callerText (b!"key1" ++ [0])
    let t25 ← setKeyC t23 t24
    let t26 ← deref vv
    let t27 ← getKey t26
    let key : Option SPtr := t27
    check (!(key.isNone))
    let t28 ← text key
    check (decide (t28.length = 4))
    let t29 ← text key
    check (decide (t29 = b!"key1"))
    let t30 ← deref vv
    let t31 ← callerText (b!"key2" ++ [0])
    let t32 ← setKeyC t30 t31
    let t33 ← deref vv
    let t34 ← getUnEscapeKey t33
    let key : Option SPtr := t34
    check (!(key.isNone))
    let t35 ← text key
    check (decide (t35.length = 4))
    let t36 ← text key
    check (decide (t36 = b!"key2"))
    let t37 ← deref vv
    let t38 ← callerText (b!"key3" ++ [0])
    let t39 ← setKeyC t37 t38
    let t40 ← deref vv
    let t41 ← getUnEscapeKey t40
    let key : Option SPtr := t41
    check (!(key.isNone))
    let t42 ← text key
    check (decide (t42.length = 4))
    let t43 ← text key
    check (decide (t43 = b!"key3"))
    let t44 ← callerText (b!"[]" ++ [0])
    let json : Option SPtr := (some t44)
    let t45 ← text json
    let t46 ← deref v
    let t47 ← pointer json
    let t48 ← parseLen t46 t47 t45.length
    check (decide (t48 = true))
    let t49 ← deref v
    let t50 ← getNumFast t49
    let len := (t50.map (·.2)).getD len
    let key : Option SPtr := (t50.map (·.1))
    check (key.isNone)
    releaseAllocator A
    return () : M Unit) (St.init fun _ => 3)).out = .ok ()

-- function_test.cpp:685-707 `GetBoolTest`
#guard ((do
    let A ← newAllocator
    let t1 ← newValue A
    let v : Option Addr := (some t1)
    let t2 ← callerText (b!"false" ++ [0])
    let json : Option SPtr := (some t2)
    let t3 ← text json
    let t4 ← deref v
    let t5 ← pointer json
    let t6 ← parseLen t4 t5 t3.length
    check (decide (t6 = true))
    let t7 ← deref v
    let t8 ← getBool t7
    let ret := t8
    check (!(ret.isNone))
    check (decide (ret = some false))
    let t9 ← callerText (b!"true" ++ [0])
    let json : Option SPtr := (some t9)
    let t10 ← text json
    let t11 ← deref v
    let t12 ← pointer json
    let t13 ← parseLen t11 t12 t10.length
    check (decide (t13 = true))
    let t14 ← deref v
    let t15 ← getBool t14
    let ret := t15
    check (!(ret.isNone))
    check (decide (ret = some true))
    let t16 ← callerText (b!"{}" ++ [0])
    let json : Option SPtr := (some t16)
    let t17 ← text json
    let t18 ← deref v
    let t19 ← pointer json
    let t20 ← parseLen t18 t19 t17.length
    check (decide (t20 = true))
    let t21 ← deref v
    let t22 ← getBool t21
    let ret := t22
    check (ret.isNone)
    releaseAllocator A
    return () : M Unit) (St.init fun _ => 3)).out = .ok ()

-- function_test.cpp:708-724 `IsNullTest`
#guard ((do
    let A ← newAllocator
    let t1 ← newValue A
    let v : Option Addr := (some t1)
    let t2 ← callerText (b!"null" ++ [0])
    let json : Option SPtr := (some t2)
    let t3 ← text json
    let t4 ← deref v
    let t5 ← pointer json
    let t6 ← parseLen t4 t5 t3.length
    check (decide (t6 = true))
    let t7 ← deref v
    let t8 ← isNull t7
    let ret := t8
    check (decide (ret = true))
    let t9 ← callerText (b!"true" ++ [0])
    let json : Option SPtr := (some t9)
    let t10 ← text json
    let t11 ← deref v
    let t12 ← pointer json
    let t13 ← parseLen t11 t12 t10.length
    check (decide (t13 = true))
    let t14 ← deref v
    let t15 ← isNull t14
    let ret := t15
    check (decide (ret = false))
    releaseAllocator A
    return () : M Unit) (St.init fun _ => 3)).out = .ok ()

-- function_test.cpp:725-743 `ObjGetTest`
#guard ((do
    let A ← newAllocator
    let t1 ← newValue A
    let v : Option Addr := (some t1)
    let t2 ← callerText (b!"{\"null\":null}" ++ [0])
    let json : Option SPtr := (some t2)
    let t3 ← text json
    let t4 ← deref v
    let t5 ← pointer json
    let t6 ← parseLen t4 t5 t3.length
    check (decide (t6 = true))
    let t7 ← deref v
    let t8 ← callerText (b!"null" ++ [0])
    let t9 ← objGet F t7 t8
    let gv : Option Addr := t9
    let t10 ← deref gv
    let t11 ← getType t10
    let t := t11
    check (decide (t = some .null))
    let t12 ← callerText (b!"{\"null\":123}" ++ [0])
    let json : Option SPtr := (some t12)
    let t13 ← text json
    let t14 ← deref v
    let t15 ← pointer json
    let t16 ← parseLen t14 t15 t13.length
    check (decide (t16 = true))
    let t17 ← deref v
    let t18 ← callerText (b!"null" ++ [0])
    let t19 ← objGet F t17 t18
    let gv : Option Addr := t19
    let t20 ← deref gv
    let t21 ← getType t20
    let t := t21
    check (decide (t = some .number))
    releaseAllocator A
    return () : M Unit) (St.init fun _ => 3)).out = .ok ()

-- function_test.cpp:744-789 `SizeTest`
#guard ((do
    let A ← newAllocator
    let t1 ← callerText (b!"[]" ++ [0])
    let json : Option SPtr := (some t1)
    let t2 ← newValue A
    let v : Option Addr := (some t2)
    let t3 ← text json
    let t4 ← deref v
    let t5 ← pointer json
    let t6 ← parseLen t4 t5 t3.length
    check (decide (t6 = true))
    let t7 ← deref v
    let t8 ← sizeOf t7
    check (decide (t8 = 0))
    let t9 ← callerText (b!"{}" ++ [0])
    let json : Option SPtr := (some t9)
    let t10 ← text json
    let t11 ← deref v
    let t12 ← pointer json
    let t13 ← parseLen t11 t12 t10.length
    check (decide (t13 = true))
    let t14 ← deref v
    let t15 ← sizeOf t14
    check (decide (t15 = 0))
    let t16 ← callerText (b!"true" ++ [0])
    let json : Option SPtr := (some t16)
    let t17 ← text json
    let t18 ← deref v
    let t19 ← pointer json
    let t20 ← parseLen t18 t19 t17.length
    check (decide (t20 = true))
    let t21 ← deref v
    let t22 ← sizeOf t21
    check (decide (t22 = 0))
    let t23 ← callerText (b!"false" ++ [0])
    let json : Option SPtr := (some t23)
    let t24 ← text json
    let t25 ← deref v
    let t26 ← pointer json
    let t27 ← parseLen t25 t26 t24.length
    check (decide (t27 = true))
    let t28 ← deref v
    let t29 ← sizeOf t28
    check (decide (t29 = 0))
    let t30 ← callerText (b!"null" ++ [0])
    let json : Option SPtr := (some t30)
    let t31 ← text json
    let t32 ← deref v
    let t33 ← pointer json
    let t34 ← parseLen t32 t33 t31.length
    check (decide (t34 = true))
    let t35 ← deref v
    let t36 ← sizeOf t35
    check (decide (t36 = 0))
    let t37 ← callerText (b!"123" ++ [0])
    let json : Option SPtr := (some t37)
    let t38 ← text json
    let t39 ← deref v
    let t40 ← pointer json
    let t41 ← parseLen t39 t40 t38.length
    check (decide (t41 = true))
    let t42 ← deref v
    let t43 ← sizeOf t42
    check (decide (t43 = 0))
    let t44 ← callerText (b!"\"str\"" ++ [0])
    let json : Option SPtr := (some t44)
    let t45 ← text json
    let t46 ← deref v
    let t47 ← pointer json
    let t48 ← parseLen t46 t47 t45.length
    check (decide (t48 = true))
    let t49 ← deref v
    let t50 ← sizeOf t49
    check (decide (t50 = 0))
    let t51 ← callerText (b!"\"\"" ++ [0])
    let json : Option SPtr := (some t51)
    let t52 ← text json
    let t53 ← deref v
    let t54 ← pointer json
    let t55 ← parseLen t53 t54 t52.length
    check (decide (t55 = true))
    let t56 ← deref v
    let t57 ← sizeOf t56
    check (decide (t57 = 0))
    let t58 ← callerText (b!"[true,false,null,[null,false,[],true],[\"\",123,\"str\"],null]" ++ [0])
    let json : Option SPtr := (some t58)
    let t59 ← text json
    let t60 ← deref v
    let t61 ← pointer json
    let t62 ← parseLen t60 t61 t59.length
    check (decide (t62 = true))
    let t63 ← deref v
    let t64 ← sizeOf t63
    check (decide (t64 = 6))
    let t65 ← callerText (b!"{\"null\":123}" ++ [0])
    let json : Option SPtr := (some t65)
    let t66 ← text json
    let t67 ← deref v
    let t68 ← pointer json
    let t69 ← parseLen t67 t68 t66.length
    check (decide (t69 = true))
    let t70 ← deref v
    let t71 ← sizeOf t70
    check (decide (t71 = 1))
    releaseAllocator A
    return () : M Unit) (St.init fun _ => 3)).out = .ok ()

-- function_test.cpp:790-809 `ArrayGetTest`
#guard ((do
    let A ← newAllocator
    let t1 ← callerText (b!"[]" ++ [0])
    let json : Option SPtr := (some t1)
    let t2 ← newValue A
    let v : Option Addr := (some t2)
    let t3 ← text json
    let t4 ← deref v
    let t5 ← pointer json
    let t6 ← parseLen t4 t5 t3.length
    check (decide (t6 = true))
    let t7 ← deref v
    let t8 ← arrayGet F t7 0
    let gv : Option Addr := t8
    check (gv.isNone)
    let t9 ← callerText (b!"[true,false,null,[null,false,[],true],[\"\",123,\"str\"],null]" ++ [0])
    let json : Option SPtr := (some t9)
    let t10 ← text json
    let t11 ← deref v
    let t12 ← pointer json
    let t13 ← parseLen t11 t12 t10.length
    check (decide (t13 = true))
    let t14 ← deref v
    let t15 ← arrayGet F t14 3
    let gv : Option Addr := t15
    let t16 ← deref gv
    let t17 ← getType t16
    let t := t17
    check (decide (t = some .array))
    let t18 ← deref v
    let t19 ← arrayGet F t18 30
    let gv : Option Addr := t19
    check (gv.isNone)
    releaseAllocator A
    return () : M Unit) (St.init fun _ => 3)).out = .ok ()

-- function_test.cpp:826-854 `CopyAndMoveTest`
#guard ((do
    let A ← newAllocator
    let t1 ← callerText (b!"[true,false,null,[{\"key\":123},null,false,[],true],[\"\",123,\"str\"],null]" ++ [0])
    let json : Option SPtr := (some t1)
    let t2 ← newValue A
    let v : Option Addr := (some t2)
    let t3 ← text json
    let t4 ← deref v
    let t5 ← pointer json
    let t6 ← parseLen t4 t5 t3.length
    check (decide (t6 = true))
    let t7 ← deref v
    let t8 ← arrayGet F t7 3
    let mv : Option Addr := t8
    check (!(mv.isNone))
    let t9 ← deref v
    let t10 ← stringify F t9
    let t11 ← text (some t10)
    let t12 ← text json
    check (decide (t11 = t12))
    let t13 ← deref mv
    let t14 ← move t13
    check (decide (t14 = true))
    let t15 ← deref v
    let t16 ← stringify F t15
    let t17 ← text (some t16)
    check (decide (t17 = b!"[true,false,null,[\"\",123,\"str\"],null]"))
    let t18 ← deref v
    let t19 ← sizeOf t18
    check (decide (t19 = 5))
    let t20 ← deref mv
    let t21 ← stringify F t20
    let t22 ← text (some t21)
    check (decide (t22 = b!"[{\"key\":123},null,false,[],true]"))
    let t23 ← text json
    let t24 ← deref v
    let t25 ← pointer json
    let t26 ← parseLen t24 t25 t23.length
    check (decide (t26 = true))
    let t27 ← deref v
    let t28 ← arrayGet F t27 3
    let t29 ← deref t28
    let t30 ← copy F t29
    let cv : Option Addr := t30
    check (!(cv.isNone))
    let t31 ← deref v
    let t32 ← stringify F t31
    let t33 ← text (some t32)
    let t34 ← text json
    check (decide (t33 = t34))
    let t35 ← deref v
    let t36 ← sizeOf t35
    check (decide (t36 = 6))
    let t37 ← deref cv
    let t38 ← stringify F t37
    let t39 ← text (some t38)
    check (decide (t39 = b!"[{\"key\":123},null,false,[],true]"))
    releaseAllocator A
    return () : M Unit) (St.init fun _ => 3)).out = .ok ()

-- function_test.cpp:855-871 `SetNullTest`
#guard ((do
    let A ← newAllocator
    let t1 ← callerText (b!"[true,false,null,[null,false,[],true],[\"\",123,\"str\"],null]" ++ [0])
    let json : Option SPtr := (some t1)
    let t2 ← newValue A
    let v : Option Addr := (some t2)
    let t3 ← text json
    let t4 ← deref v
    let t5 ← pointer json
    let t6 ← parseLen t4 t5 t3.length
    check (decide (t6 = true))
    let t7 ← deref v
    let t8 ← arrayGet F t7 0
    let sv : Option Addr := t8
    let t9 ← deref sv
    setNull t9
    let t10 ← deref v
    let t11 ← stringify F t10
    let t12 ← text (some t11)
    check (decide (t12 = b!"[null,false,null,[null,false,[],true],[\"\",123,\"str\"],null]"))
    let t13 ← newValue A
    let vv : Option Addr := (some t13)
    let t14 ← deref vv
    setNull t14
    let t15 ← deref vv
    let t16 ← stringify F t15
    let t17 ← text (some t16)
    check (decide (t17 = b!"null"))
    releaseAllocator A
    return () : M Unit) (St.init fun _ => 3)).out = .ok ()

-- function_test.cpp:872-888 `SetBoolTest`
#guard ((do
    let A ← newAllocator
    let t1 ← callerText (b!"[true,false,null,[null,false,[],true],[\"\",123,\"str\"],null]" ++ [0])
    let json : Option SPtr := (some t1)
    let t2 ← newValue A
    let v : Option Addr := (some t2)
    let t3 ← text json
    let t4 ← deref v
    let t5 ← pointer json
    let t6 ← parseLen t4 t5 t3.length
    check (decide (t6 = true))
    let t7 ← deref v
    let t8 ← arrayGet F t7 0
    let sv : Option Addr := t8
    let t9 ← deref sv
    setBool t9 false
    let t10 ← deref v
    let t11 ← stringify F t10
    let t12 ← text (some t11)
    check (decide (t12 = b!"[false,false,null,[null,false,[],true],[\"\",123,\"str\"],null]"))
    let t13 ← newValue A
    let vv : Option Addr := (some t13)
    let t14 ← deref vv
    setBool t14 true
    let t15 ← deref vv
    let t16 ← stringify F t15
    let t17 ← text (some t16)
    check (decide (t17 = b!"true"))
    releaseAllocator A
    return () : M Unit) (St.init fun _ => 3)).out = .ok ()

-- function_test.cpp:889-952 `SetNumTest`
#guard ((do
    let A ← newAllocator
    let t1 ← callerText (b!"[true,false,null,[null,false,[],true],[\"\",123,\"str\"],null]" ++ [0])
    let json : Option SPtr := (some t1)
    let t2 ← newValue A
    let v : Option Addr := (some t2)
    let t3 ← text json
    let t4 ← deref v
    let t5 ← pointer json
    let t6 ← parseLen t4 t5 t3.length
    check (decide (t6 = true))
    let t7 ← deref v
    let t8 ← arrayGet F t7 0
    let sv : Option Addr := t8
    let t9 ← deref sv
    let t10 ← callerText (b!"123" ++ [0])
    let t11 ← setNumStrFast t9 t10
    let t12 ← deref v
    let t13 ← stringify F t12
    let t14 ← text (some t13)
    check (decide (t14 = b!"[123,false,null,[null,false,[],true],[\"\",123,\"str\"],null]"))
    let t15 ← deref sv
    let t16 ← callerText (b!"123" ++ [0])
    let t17 ← setNumStrLenFast t15 t16 3
    let t18 ← deref v
    let t19 ← stringify F t18
    let t20 ← text (some t19)
    check (decide (t20 = b!"[123,false,null,[null,false,[],true],[\"\",123,\"str\"],null]"))
    let t21 ← deref sv
    let t22 ← callerText (b!"1234" ++ [0])
    let t23 ← setNumStr t21 t22
    let t24 ← deref v
    let t25 ← stringify F t24
    let t26 ← text (some t25)
    check (decide (t26 = b!"[1234,false,null,[null,false,[],true],[\"\",123,\"str\"],null]"))
    let t27 ← deref sv
    let t28 ← callerText (b!"1234" ++ [0])
    let t29 ← setNumStrLen t27 t28 4
    let t30 ← deref v
    let t31 ← stringify F t30
    let t32 ← text (some t31)
    check (decide (t32 = b!"[1234,false,null,[null,false,[],true],[\"\",123,\"str\"],null]"))
    let t33 ← deref sv
    let t34 ← setDouble asText t33 b!"12345"
    let t35 ← deref v
    let t36 ← stringify F t35
    let t37 ← text (some t36)
    check (decide (t37 = b!"[12345,false,null,[null,false,[],true],[\"\",123,\"str\"],null]"))
    let t38 ← deref sv
    let t39 ← callerText (b!"123abc" ++ [0])
    let t40 ← setNumStrFast t38 t39
    check (decide (t40 = false))
    let t41 ← deref sv
    let t42 ← callerText (b!"123abc" ++ [0])
    let t43 ← setNumStrLenFast t41 t42 6
    check (decide (t43 = false))
    let t44 ← deref sv
    let t45 ← callerText ([49, 50, 51, 0] ++ [0])
    let t46 ← setNumStrLenFast t44 t45 4
    check (decide (t46 = false))
    let t47 ← deref sv
    let t48 ← callerText ([49, 50, 51, 0] ++ [0])
    let t49 ← setNumStrLenFast t47 t48 3
    check (decide (t49 = true))
    let t50 ← deref sv
    let t51 ← callerText (b!"123abc" ++ [0])
    let t52 ← setNumStr t50 t51
    check (decide (t52 = false))
    let t53 ← deref sv
    let t54 ← callerText (b!"123abc" ++ [0])
    let t55 ← setNumStrLen t53 t54 6
    check (decide (t55 = false))
    let t56 ← deref sv
    let t57 ← callerText ([49, 50, 51, 0] ++ [0])
    let t58 ← setNumStrLen t56 t57 4
    check (decide (t58 = false))
    let t59 ← deref sv
    let t60 ← callerText ([49, 50, 51, 0] ++ [0])
    let t61 ← setNumStrLen t59 t60 3
    check (decide (t61 = true))
    let t62 ← newValue A
    let vv : Option Addr := (some t62)
    let t63 ← deref vv
    let t64 ← callerText (b!"123" ++ [0])
    let t65 ← setNumStrFast t63 t64
    let t66 ← deref vv
    let t67 ← stringify F t66
    let t68 ← text (some t67)
    check (decide (t68 = b!"123"))
    let t69 ← deref vv
    let t70 ← callerText (b!"123" ++ [0])
    let t71 ← setNumStrLenFast t69 t70 3
    let t72 ← deref vv
    let t73 ← stringify F t72
    let t74 ← text (some t73)
    check (decide (t74 = b!"123"))
    let t75 ← deref vv
    let t76 ← callerText (b!"1234" ++ [0])
    let t77 ← setNumStr t75 t76
    let t78 ← deref vv
    let t79 ← stringify F t78
    let t80 ← text (some t79)
    check (decide (t80 = b!"1234"))
    let t81 ← deref vv
    let t82 ← callerText (b!"1234" ++ [0])
    let t83 ← setNumStrLen t81 t82 4
    let t84 ← deref vv
    let t85 ← stringify F t84
    let t86 ← text (some t85)
    check (decide (t86 = b!"1234"))
    let t87 ← deref vv
    let t88 ← setDouble asText t87 b!"12345"
    let t89 ← deref vv
    let t90 ← stringify F t89
    let t91 ← text (some t90)
    check (decide (t91 = b!"12345"))
    let t92 ← deref vv
    let t93 ← setDouble asText t92 b!"12345.233"
    let t94 ← deref vv
    let t95 ← stringify F t94
    let t96 ← text (some t95)
    check (decide (t96 = b!"12345.233"))
    let t97 ← deref vv
    let t98 ← setInt t97 (-12345)
    let t99 ← deref vv
    let t100 ← stringify F t99
    let t101 ← text (some t100)
    check (decide (t101 = b!"-12345"))
    let t102 ← deref vv
    let t103 ← setLong t102 (-123456)
    let t104 ← deref vv
    let t105 ← stringify F t104
    let t106 ← text (some t105)
    check (decide (t106 = b!"-123456"))
    let t107 ← deref vv
    let t108 ← setLongLong t107 (-1234567890987)
    let t109 ← deref vv
    let t110 ← stringify F t109
    let t111 ← text (some t110)
    check (decide (t111 = b!"-1234567890987"))
    releaseAllocator A
    return () : M Unit) (St.init fun _ => 3)).out = .ok ()

-- function_test.cpp:953-1037 `SetStrTest`
#guard ((do
    let A ← newAllocator
    let t1 ← callerText (b!"[true,false,null,[null,false,[],true],[\"\",123,\"str\"],null]" ++ [0])
    let json : Option SPtr := (some t1)
    let t2 ← newValue A
    let v : Option Addr := (some t2)
    let t3 ← text json
    let t4 ← deref v
    let t5 ← pointer json
    let t6 ← parseLen t4 t5 t3.length
    check (decide (t6 = true))
    let t7 ← deref v
    let t8 ← arrayGet F t7 0
    let sv : Option Addr := t8
    let t9 ← deref sv
    let t10 ← callerText (b!"123" ++ [0])
    let t11 ← setStrFast t9 t10
    let t12 ← deref v
    let t13 ← stringify F t12
    let t14 ← text (some t13)
    check (decide (t14 = b!"[\"123\",false,null,[null,false,[],true],[\"\",123,\"str\"],null]"))
    let t15 ← deref sv
    let t16 ← callerText (b!"123" ++ [0])
    let t17 ← setStrLenFast t15 t16 3
    let t18 ← deref v
    let t19 ← stringify F t18
    let t20 ← text (some t19)
    check (decide (t20 = b!"[\"123\",false,null,[null,false,[],true],[\"\",123,\"str\"],null]"))
    let t21 ← deref sv
    let t22 ← callerText (b!"1234" ++ [0])
    let t23 ← setStr t21 t22
    let t24 ← deref v
    let t25 ← stringify F t24
    let t26 ← text (some t25)
    check (decide (t26 = b!"[\"1234\",false,null,[null,false,[],true],[\"\",123,\"str\"],null]"))
    let t27 ← deref sv
    let t28 ← callerText (b!"1234" ++ [0])
    let t29 ← setStrLen t27 t28 4
    let t30 ← deref v
    let t31 ← stringify F t30
    let t32 ← text (some t31)
    check (decide (t32 = b!"[\"1234\",false,null,[null,false,[],true],[\"\",123,\"str\"],null]"))
    let t33 ← deref sv
    let t34 ← callerText ([49, 50, 51, 97, 98, 9, 99] ++ [0])
    let t35 ← setStrFast t33 t34
    check (decide (t35 = false))
    let t36 ← deref sv
    let t37 ← callerText ([49, 50, 51, 97, 98, 9, 99] ++ [0])
    let t38 ← setStrEscape t36 t37
    check (decide (t38 = true))
    let len : Nat := 0
    let t39 ← deref sv
    let t40 ← getStrFast t39
    let len := (t40.map (·.2)).getD len
    let str : Option SPtr := (t40.map (·.1))
    check (!(str.isNone))
    let t41 ← textN str len
    check (decide (t41 = b!"123ab\\tc"))
    let t42 ← deref sv
    let t43 ← callerText ([49, 50, 51, 97, 98, 9, 99] ++ [0])
    let t44 ← setStrLenFast t42 t43 7
    check (decide (t44 = false))
    let t45 ← deref sv
    let t46 ← callerText ([49, 50, 51, 97, 98, 9, 99] ++ [0])
    let t47 ← setStrLenEscape t45 t46 7
    check (decide (t47 = true))
    let t48 ← deref sv
    let t49 ← getStrFast t48
    let len := (t49.map (·.2)).getD len
    let str : Option SPtr := (t49.map (·.1))
    check (!(str.isNone))
    let t50 ← textN str len
    check (decide (t50 = b!"123ab\\tc"))
    let t51 ← deref sv
    let t52 ← callerText ([49, 50, 51, 97, 10, 98, 99] ++ [0])
    let t53 ← setStr t51 t52
    check (decide (t53 = false))
    let t54 ← deref sv
    let t55 ← callerText ([49, 50, 51, 97, 10, 98, 99] ++ [0])
    let t56 ← setStrEscape t54 t55
    check (decide (t56 = true))
    let t57 ← deref sv
    let t58 ← getStrFast t57
    let len := (t58.map (·.2)).getD len
    let str : Option SPtr := (t58.map (·.1))
    check (!(str.isNone))
    let t59 ← textN str len
    check (decide (t59 = b!"123a\\nbc"))
    let t60 ← deref sv
    let t61 ← callerText ([49, 50, 51, 97, 10, 98, 99] ++ [0])
    let t62 ← setStrLen t60 t61 7
    check (decide (t62 = false))
    let t63 ← deref sv
    let t64 ← callerText ([49, 50, 51, 97, 10, 98, 99] ++ [0])
    let t65 ← setStrLenEscape t63 t64 7
    check (decide (t65 = true))
    let t66 ← deref sv
    let t67 ← getStrFast t66
    let len := (t67.map (·.2)).getD len
    let str : Option SPtr := (t67.map (·.1))
    check (!(str.isNone))
    let t68 ← textN str len
    check (decide (t68 = b!"123a\\nbc"))
    let t69 ← deref sv
    let t70 ← callerText (b!"123a\\udc01bc" ++ [0])
    let t71 ← setStr t69 t70
    check (decide (t71 = false))
    let t72 ← deref sv
    let t73 ← callerText (b!"123a\\udc01bc" ++ [0])
    let t74 ← setStrEscape t72 t73
    check (decide (t74 = true))
    let t75 ← deref sv
    let t76 ← getStrFast t75
    let len := (t76.map (·.2)).getD len
    let str : Option SPtr := (t76.map (·.1))
    check (!(str.isNone))
    let t77 ← textN str len
    check (decide (t77 = b!"123a\\\\udc01bc"))
    let t78 ← deref sv
    let t79 ← callerText (b!"123a\\udc01bc" ++ [0])
    let t80 ← setStrLen t78 t79 12
    check (decide (t80 = false))
    let t81 ← deref sv
    let t82 ← callerText (b!"123a\\udc01bc" ++ [0])
    let t83 ← setStrLenEscape t81 t82 12
    check (decide (t83 = true))
    let t84 ← deref sv
    let t85 ← getStrFast t84
    let len := (t85.map (·.2)).getD len
    let str : Option SPtr := (t85.map (·.1))
    check (!(str.isNone))
    let t86 ← textN str len
    check (decide (t86 = b!"123a\\\\udc01bc"))
    let t87 ← deref sv
    let t88 ← callerText (b!"123a\"aaa" ++ [0])
    let t89 ← setStr t87 t88
    check (decide (t89 = false))
    let t90 ← deref sv
    let t91 ← callerText (b!"123a\"aaa" ++ [0])
    let t92 ← setStrEscape t90 t91
    check (decide (t92 = true))
    let t93 ← deref sv
    let t94 ← getStrFast t93
    let len := (t94.map (·.2)).getD len
    let str : Option SPtr := (t94.map (·.1))
    check (!(str.isNone))
    let t95 ← textN str len
    check (decide (t95 = b!"123a\\\"aaa"))
    let t96 ← deref sv
    let t97 ← callerText (b!"123a\"aaa" ++ [0])
    let t98 ← setStrLen t96 t97 8
    check (decide (t98 = false))
    let t99 ← deref sv
    let t100 ← callerText (b!"123a\"aaa" ++ [0])
    let t101 ← setStrLenEscape t99 t100 8
    check (decide (t101 = true))
    let t102 ← deref sv
    let t103 ← getStrFast t102
    let len := (t103.map (·.2)).getD len
    let str : Option SPtr := (t103.map (·.1))
    check (!(str.isNone))
    let t104 ← textN str len
    check (decide (t104 = b!"123a\\\"aaa"))
    let t105 ← newValue A
    let vv : Option Addr := (some t105)
    let t106 ← deref vv
    let t107 ← callerText (b!"123" ++ [0])
    let t108 ← setStrFast t106 t107
    let t109 ← deref vv
    let t110 ← stringify F t109
    let t111 ← text (some t110)
    check (decide (t111 = b!"\"123\""))
    let t112 ← deref vv
    let t113 ← callerText (b!"123" ++ [0])
    let t114 ← setStrLenFast t112 t113 3
    let t115 ← deref vv
    let t116 ← stringify F t115
    let t117 ← text (some t116)
    check (decide (t117 = b!"\"123\""))
    let t118 ← deref vv
    let t119 ← callerText (b!"1234" ++ [0])
    let t120 ← setStr t118 t119
    let t121 ← deref vv
    let t122 ← stringify F t121
    let t123 ← text (some t122)
    check (decide (t123 = b!"\"1234\""))
    let t124 ← deref vv
    let t125 ← callerText (b!"1234" ++ [0])
    let t126 ← setStrLen t124 t125 4
    let t127 ← deref vv
    let t128 ← stringify F t127
    let t129 ← text (some t128)
    check (decide (t129 = b!"\"1234\""))
    releaseAllocator A
    return () : M Unit) (St.init fun _ => 3)).out = .ok ()

-- function_test.cpp:1038-1047 `SetObjArrayTest`
#guard ((do
    let A ← newAllocator
    let t1 ← newValue A
    let v : Option Addr := (some t1)
    let t2 ← deref v
    setArray t2
    let t3 ← deref v
    let t4 ← stringify F t3
    let t5 ← text (some t4)
    check (decide (t5 = b!"[]"))
    let t6 ← deref v
    setObj t6
    let t7 ← deref v
    let t8 ← stringify F t7
    let t9 ← text (some t8)
    check (decide (t9 = b!"{}"))
    releaseAllocator A
    return () : M Unit) (St.init fun _ => 3)).out = .ok ()

-- function_test.cpp:1048-1109 `SetKeyTest`
#guard ((do
    let A ← newAllocator
    let t1 ← callerText (b!"[{\"key\":true},false,null,[null,false,[],true],[\"\",123,\"str\"],null]" ++ [0])
    let json : Option SPtr := (some t1)
    let t2 ← newValue A
    let v : Option Addr := (some t2)
    let t3 ← text json
    let t4 ← deref v
    let t5 ← pointer json
    let t6 ← parseLen t4 t5 t3.length
    check (decide (t6 = true))
    let t7 ← deref v
    let t8 ← arrayGet F t7 0
    let sv : Option Addr := t8
    let t9 ← deref sv
    let t10 ← callerText (b!"123" ++ [0])
    let t11 ← setKeyFast t9 t10
    check (decide (t11 = false))
    let t12 ← deref sv
    let t13 ← callerText (b!"key" ++ [0])
    let t14 ← objGet F t12 t13
    let sv : Option Addr := t14
    let t15 ← deref sv
    let t16 ← callerText (b!"123" ++ [0])
    let t17 ← setKeyFast t15 t16
    let t18 ← deref v
    let t19 ← stringify F t18
    let t20 ← text (some t19)
    check (decide (t20 = b!"[{\"123\":true},false,null,[null,false,[],true],[\"\",123,\"str\"],null]"))
    let t21 ← deref sv
    let t22 ← callerText (b!"1234" ++ [0])
    let t23 ← setKeyC t21 t22
    let t24 ← deref v
    let t25 ← stringify F t24
    let t26 ← text (some t25)
    check (decide (t26 = b!"[{\"1234\":true},false,null,[null,false,[],true],[\"\",123,\"str\"],null]"))
    let t27 ← deref sv
    let t28 ← callerText ([49, 50, 51, 97, 98, 9, 99] ++ [0])
    let t29 ← setKeyFast t27 t28
    check (decide (t29 = false))
    let t30 ← deref sv
    let t31 ← callerText ([49, 50, 51, 97, 98, 9, 99] ++ [0])
    let t32 ← setKeyEscape t30 t31
    check (decide (t32 = true))
    let len : Nat := 0
    let t33 ← deref sv
    let t34 ← getKeyFast t33
    let len := (t34.map (·.2)).getD len
    let key : Option SPtr := (t34.map (·.1))
    check (!(key.isNone))
    let t35 ← textN key len
    check (decide (t35 = b!"123ab\\tc"))
    let t36 ← deref sv
    let t37 ← callerText (b!"123a\"aaa" ++ [0])
    let t38 ← setKeyC t36 t37
    check (decide (t38 = false))
    let t39 ← deref sv
    let t40 ← callerText (b!"123a\"aaa" ++ [0])
    let t41 ← setKeyEscape t39 t40
    check (decide (t41 = true))
    let t42 ← deref sv
    let t43 ← getKeyFast t42
    let len := (t43.map (·.2)).getD len
    let key : Option SPtr := (t43.map (·.1))
    check (!(key.isNone))
    let t44 ← textN key len
    check (decide (t44 = b!"123a\\\"aaa"))
    let t45 ← deref sv
    let t46 ← stringify F t45
    let t47 ← text (some t46)
    check (decide (t47 = b!"true"))
    let t48 ← deref sv
    let t49 ← callerText ([49, 50, 51, 97, 98, 9, 99] ++ [0])
    let t50 ← setKeyLenC t48 t49 7
    check (decide (t50 = false))
    let t51 ← deref sv
    let t52 ← callerText ([49, 50, 51, 97, 98, 9, 99] ++ [0])
    let t53 ← setKeyLenEscape t51 t52 7
    check (decide (t53 = true))
    let len : Nat := 0
    let t54 ← deref sv
    let t55 ← getKeyFast t54
    let len := (t55.map (·.2)).getD len
    let key : Option SPtr := (t55.map (·.1))
    check (!(key.isNone))
    let t56 ← textN key len
    check (decide (t56 = b!"123ab\\tc"))
    let t57 ← deref sv
    let t58 ← callerText (b!"123a\"aaa" ++ [0])
    let t59 ← setKeyLenFast t57 t58 8
    check (decide (t59 = false))
    let t60 ← deref sv
    let t61 ← callerText (b!"123a\"aaa" ++ [0])
    let t62 ← setKeyLenEscape t60 t61 8
    check (decide (t62 = true))
    let t63 ← deref sv
    let t64 ← getKeyFast t63
    let len := (t64.map (·.2)).getD len
    let key : Option SPtr := (t64.map (·.1))
    check (!(key.isNone))
    let t65 ← textN key len
    check (decide (t65 = b!"123a\\\"aaa"))
    let t66 ← deref sv
    let t67 ← stringify F t66
    let t68 ← text (some t67)
    check (decide (t68 = b!"true"))
    let t69 ← deref sv
    let t70 ← callerText (b!"123a\\udc01bc" ++ [0])
    let t71 ← setKeyC t69 t70
    check (decide (t71 = false))
    let t72 ← deref sv
    let t73 ← callerText (b!"123a\\udc01bc" ++ [0])
    let t74 ← setKeyEscape t72 t73
    check (decide (t74 = true))
    let t75 ← deref sv
    let t76 ← getKeyFast t75
    let len := (t76.map (·.2)).getD len
    let key : Option SPtr := (t76.map (·.1))
    check (!(key.isNone))
    let t77 ← textN key len
    check (decide (t77 = b!"123a\\\\udc01bc"))
    let t78 ← deref sv
    let t79 ← stringify F t78
    let t80 ← text (some t79)
    check (decide (t80 = b!"true"))
    let t81 ← newValue A
    let vv : Option Addr := (some t81)
    let t82 ← deref vv
    let t83 ← callerText (b!"123" ++ [0])
    let t84 ← setKeyFast t82 t83
    let t85 ← deref vv
    let t86 ← stringify F t85
    let t87 ← text (some t86)
    check (decide (t87 = b!"null"))
    let t88 ← deref vv
    let t89 ← callerText (b!"1234" ++ [0])
    let t90 ← setKeyC t88 t89
    let t91 ← deref vv
    let t92 ← stringify F t91
    let t93 ← text (some t92)
    check (decide (t93 = b!"null"))
    releaseAllocator A
    return () : M Unit) (St.init fun _ => 3)).out = .ok ()

-- function_test.cpp:1110-1149 `ValueSetTest`
#guard ((do
    let A ← newAllocator
    let t1 ← callerText (b!"[{\"key\":true},false,null,[null,false,[],true],[\"\",123,\"str\"],null]" ++ [0])
    let json : Option SPtr := (some t1)
    let t2 ← newValue A
    let v : Option Addr := (some t2)
    let t3 ← text json
    let t4 ← deref v
    let t5 ← pointer json
    let t6 ← parseLen t4 t5 t3.length
    check (decide (t6 = true))
    let t7 ← deref v
    let t8 ← arrayGet F t7 0
    let gv : Option Addr := t8
    let t9 ← deref v
    let t10 ← arrayGet F t9 2
    let cv : Option Addr := t10
    let t11 ← deref cv
    let t12 ← deref gv
    let t13 ← set F t11 t12
    let t14 ← deref cv
    let t15 ← stringify F t14
    let t16 ← text (some t15)
    check (decide (t16 = b!"{\"key\":true}"))
    let t17 ← deref v
    let t18 ← stringify F t17
    let t19 ← text (some t18)
    check (decide (t19 = b!"[{\"key\":true},false,{\"key\":true},[null,false,[],true],[\"\",123,\"str\"],null]"))
    let t20 ← deref gv
    let t21 ← stringify F t20
    let t22 ← text (some t21)
    check (decide (t22 = b!"{\"key\":true}"))
    let t23 ← deref cv
    let t24 ← deref gv
    let t25 ← setFast F t23 t24
    let t26 ← deref cv
    let t27 ← stringify F t26
    let t28 ← text (some t27)
    check (decide (t28 = b!"{\"key\":true}"))
    let t29 ← deref v
    let t30 ← stringify F t29
    let t31 ← text (some t30)
    check (decide (t31 = b!"[false,{\"key\":true},[null,false,[],true],[\"\",123,\"str\"],null]"))
    let t32 ← deref gv
    let t33 ← stringify F t32
    let t34 ← text (some t33)
    check (decide (t34 = b!""))
    let t35 ← callerText (b!"[1,2,3]" ++ [0])
    let json1 : Option SPtr := (some t35)
    let t36 ← newValue A
    let nv : Option Addr := (some t36)
    let t37 ← deref nv
    let t38 ← pointer json1
    let t39 ← parse t37 t38
    check (decide (t39 = true))
    let t40 ← deref cv
    let t41 ← callerText (b!"key" ++ [0])
    let t42 ← objGet F t40 t41
    let t43 ← deref t42
    let t44 ← deref nv
    let t45 ← setFast F t43 t44
    check (decide (t45 = true))
    let t46 ← deref cv
    let t47 ← stringify F t46
    let t48 ← text (some t47)
    check (decide (t48 = b!"{\"key\":[1,2,3]}"))
    let t49 ← newValue A
    let av : Option Addr := (some t49)
    let t50 ← deref av
    let t51 ← setDouble asText t50 b!"4"
    let t52 ← deref cv
    let t53 ← callerText (b!"key" ++ [0])
    let t54 ← objGet F t52 t53
    let t55 ← deref t54
    let t56 ← deref av
    let t57 ← arrayAdd F t55 t56
    check (decide (t57 = true))
    let t58 ← deref cv
    let t59 ← stringify F t58
    let t60 ← text (some t59)
    check (decide (t60 = b!"{\"key\":[1,2,3,4]}"))
    releaseAllocator A
    return () : M Unit) (St.init fun _ => 3)).out = .ok ()

-- function_test.cpp:1150-1188 `ValueObjAddTest`
#guard ((do
    let A ← newAllocator
    let t1 ← callerText (b!"[{\"key\":true},false,{\"key1\":true},[null,false,[],true],[\"\",123,\"str\"],null]" ++ [0])
    let json : Option SPtr := (some t1)
    let t2 ← newValue A
    let v : Option Addr := (some t2)
    let t3 ← text json
    let t4 ← deref v
    let t5 ← pointer json
    let t6 ← parseLen t4 t5 t3.length
    check (decide (t6 = true))
    let t7 ← deref v
    let t8 ← arrayGet F t7 0
    let t9 ← deref t8
    let t10 ← callerText (b!"key" ++ [0])
    let t11 ← objGet F t9 t10
    let gv : Option Addr := t11
    let t12 ← deref v
    let t13 ← arrayGet F t12 2
    let cv : Option Addr := t13
    let t14 ← deref cv
    let t15 ← deref gv
    let t16 ← objAdd F t14 t15
    let t17 ← deref v
    let t18 ← arrayGet F t17 0
    let t19 ← deref t18
    let t20 ← sizeOf t19
    check (decide (t20 = 1))
    let t21 ← deref cv
    let t22 ← stringify F t21
    let t23 ← text (some t22)
    check (decide (t23 = b!"{\"key1\":true,\"key\":true}"))
    let t24 ← deref v
    let t25 ← stringify F t24
    let t26 ← text (some t25)
    check (decide (t26 = b!"[{\"key\":true},false,{\"key1\":true,\"key\":true},[null,false,[],true],[\"\",123,\"str\"],null]"))
    let t27 ← deref gv
    let t28 ← stringify F t27
    let t29 ← text (some t28)
    check (decide (t29 = b!"true"))
    let t30 ← text json
    let t31 ← deref v
    let t32 ← pointer json
    let t33 ← parseLen t31 t32 t30.length
    check (decide (t33 = true))
    let t34 ← deref v
    let t35 ← arrayGet F t34 0
    let t36 ← deref t35
    let t37 ← callerText (b!"key" ++ [0])
    let t38 ← objGet F t36 t37
    let gv : Option Addr := t38
    let t39 ← deref v
    let t40 ← arrayGet F t39 2
    let cv : Option Addr := t40
    let t41 ← deref cv
    let t42 ← deref gv
    let t43 ← objAddFast t41 t42
    let t44 ← deref v
    let t45 ← arrayGet F t44 0
    let t46 ← deref t45
    let t47 ← sizeOf t46
    check (decide (t47 = 0))
    let t48 ← deref cv
    let t49 ← stringify F t48
    let t50 ← text (some t49)
    check (decide (t50 = b!"{\"key1\":true,\"key\":true}"))
    let t51 ← deref v
    let t52 ← stringify F t51
    let t53 ← text (some t52)
    check (decide (t53 = b!"[{},false,{\"key1\":true,\"key\":true},[null,false,[],true],[\"\",123,\"str\"],null]"))
    let t54 ← deref v
    let t55 ← sizeOf t54
    check (decide (t55 = 6))
    let t56 ← deref gv
    let t57 ← stringify F t56
    let t58 ← text (some t57)
    check (decide (t58 = b!""))
    let t59 ← text json
    let t60 ← deref v
    let t61 ← pointer json
    let t62 ← parseLen t60 t61 t59.length
    check (decide (t62 = true))
    let t63 ← deref v
    let t64 ← arrayGet F t63 0
    let gv : Option Addr := t64
    let t65 ← deref v
    let t66 ← arrayGet F t65 2
    let cv : Option Addr := t66
    let t67 ← deref cv
    let t68 ← deref gv
    let t69 ← objAddFast t67 t68
    check (decide (t69 = false))
    let t70 ← deref cv
    let t71 ← deref gv
    let t72 ← objAdd F t70 t71
    check (decide (t72 = false))
    releaseAllocator A
    return () : M Unit) (St.init fun _ => 3)).out = .ok ()

-- function_test.cpp:1189-1226 `ValueArrayAddTest`
#guard ((do
    let A ← newAllocator
    let t1 ← callerText (b!"[{\"key\":true},false,[],[null,false,[],true],[\"\",123,\"str\"],null]" ++ [0])
    let json : Option SPtr := (some t1)
    let t2 ← newValue A
    let v : Option Addr := (some t2)
    let t3 ← text json
    let t4 ← deref v
    let t5 ← pointer json
    let t6 ← parseLen t4 t5 t3.length
    check (decide (t6 = true))
    let t7 ← deref v
    let t8 ← arrayGet F t7 0
    let gv : Option Addr := t8
    let t9 ← deref v
    let t10 ← arrayGet F t9 2
    let cv : Option Addr := t10
    let t11 ← deref cv
    let t12 ← deref gv
    let t13 ← arrayAdd F t11 t12
    let t14 ← deref v
    let t15 ← arrayGet F t14 0
    let t16 ← deref t15
    let t17 ← sizeOf t16
    check (decide (t17 = 1))
    let t18 ← deref cv
    let t19 ← stringify F t18
    let t20 ← text (some t19)
    check (decide (t20 = b!"[{\"key\":true}]"))
    let t21 ← deref v
    let t22 ← stringify F t21
    let t23 ← text (some t22)
    check (decide (t23 = b!"[{\"key\":true},false,[{\"key\":true}],[null,false,[],true],[\"\",123,\"str\"],null]"))
    let t24 ← deref gv
    let t25 ← stringify F t24
    let t26 ← text (some t25)
    check (decide (t26 = b!"{\"key\":true}"))
    let t27 ← text json
    let t28 ← deref v
    let t29 ← pointer json
    let t30 ← parseLen t28 t29 t27.length
    check (decide (t30 = true))
    let t31 ← deref v
    let t32 ← arrayGet F t31 0
    let gv : Option Addr := t32
    let t33 ← deref v
    let t34 ← arrayGet F t33 2
    let cv : Option Addr := t34
    let t35 ← deref cv
    let t36 ← deref gv
    let t37 ← arrayAddFast t35 t36
    let t38 ← deref v
    let t39 ← arrayGet F t38 0
    let t40 ← deref t39
    let t41 ← sizeOf t40
    check (decide (t41 = 0))
    let t42 ← deref cv
    let t43 ← stringify F t42
    let t44 ← text (some t43)
    check (decide (t44 = b!"[{\"key\":true}]"))
    let t45 ← deref v
    let t46 ← stringify F t45
    let t47 ← text (some t46)
    check (decide (t47 = b!"[false,[{\"key\":true}],[null,false,[],true],[\"\",123,\"str\"],null]"))
    let t48 ← deref v
    let t49 ← sizeOf t48
    check (decide (t49 = 5))
    let t50 ← deref gv
    let t51 ← stringify F t50
    let t52 ← text (some t51)
    check (decide (t52 = b!""))
    let t53 ← text json
    let t54 ← deref v
    let t55 ← pointer json
    let t56 ← parseLen t54 t55 t53.length
    check (decide (t56 = true))
    let t57 ← deref v
    let t58 ← arrayGet F t57 0
    let gv : Option Addr := t58
    let t59 ← deref v
    let t60 ← arrayGet F t59 1
    let cv : Option Addr := t60
    let t61 ← deref cv
    let t62 ← deref gv
    let t63 ← arrayAddFast t61 t62
    check (decide (t63 = false))
    let t64 ← deref cv
    let t65 ← deref gv
    let t66 ← arrayAdd F t64 t65
    check (decide (t66 = false))
    releaseAllocator A
    return () : M Unit) (St.init fun _ => 3)).out = .ok ()

-- function_test.cpp:1227-1247 `DelTest`
#guard ((do
    let A ← newAllocator
    let t1 ← callerText (b!"[{\"key\":true},false,{\"key1\":true},[null,false,[],true],[\"\",123,\"str\"],null]" ++ [0])
    let json : Option SPtr := (some t1)
    let t2 ← newValue A
    let v : Option Addr := (some t2)
    let t3 ← text json
    let t4 ← deref v
    let t5 ← pointer json
    let t6 ← parseLen t4 t5 t3.length
    check (decide (t6 = true))
    let t7 ← deref v
    let t8 ← arrayDel F t7 0
    let t9 ← deref v
    let t10 ← stringify F t9
    let t11 ← text (some t10)
    check (decide (t11 = b!"[false,{\"key1\":true},[null,false,[],true],[\"\",123,\"str\"],null]"))
    let t12 ← deref v
    let t13 ← arrayDel F t12 4
    let t14 ← deref v
    let t15 ← stringify F t14
    let t16 ← text (some t15)
    check (decide (t16 = b!"[false,{\"key1\":true},[null,false,[],true],[\"\",123,\"str\"]]"))
    let t17 ← deref v
    let t18 ← arrayGet F t17 1
    let t19 ← deref t18
    let t20 ← callerText (b!"key1" ++ [0])
    let t21 ← objDel F t19 t20
    let t22 ← deref v
    let t23 ← stringify F t22
    let t24 ← text (some t23)
    check (decide (t24 = b!"[false,{},[null,false,[],true],[\"\",123,\"str\"]]"))
    releaseAllocator A
    return () : M Unit) (St.init fun _ => 3)).out = .ok ()

-- function_test.cpp:10-19 `MemoryTest`: as many `free` as `malloc`
#guard (do
    let (a, m) ← Alloc.newAllocator env Alloc.Mem.init
    let m ← (List.range 4096).foldlM (fun m i => do return (← Alloc.alloc env 99 m a (i + 1)).2) m
    let m ← Alloc.release 99 m a
    return m.calls - m.frees : Res Nat) = .ok 0

-- function_test.cpp:20-43 `StringTest` (`sizeof(str)` is that of a pointer, 8)
#guard (List.range 8).all fun i => (do
    let (a, m) ← Alloc.newAllocator env Alloc.Mem.init
    let (z, m) ← Alloc.newString env 99 m a 1024
    let m ← Alloc.appendStr env 99 m z (b!"1234567890abcdef".take i)
    let m ← Alloc.appendChar env 99 m z 0
    let s ← Alloc.rdStr m z
    Alloc.peek m s.data (i + 1) : Res Bytes) = .ok (b!"1234567890abcdef".take i ++ [0])
#guard (List.range 8).all fun i => (do
    let (a, m) ← Alloc.newAllocator env Alloc.Mem.init
    let (z, m) ← Alloc.newString env 99 m a 1024
    let m ← (b!"1234567890abcdef".take i).foldlM (fun m c => Alloc.appendChar env 99 m z c) m
    let m ← Alloc.appendChar env 99 m z 0
    let s ← Alloc.rdStr m z
    Alloc.peek m s.data (i + 1) : Res Bytes) = .ok (b!"1234567890abcdef".take i ++ [0])

-- function_test.cpp:44-53 `SkinTest`
#guard ((b!"abc" ++ [9, 10, 13] ++ b!" d" ++ [0]).filter skin).length = 4

-- function_test.cpp:201-213 `HexCodePointTest`
#guard (b!"0123456789").map hexCodePoint = [0, 1, 2, 3, 4, 5, 6, 7, 8, 9]
#guard (b!"abcdefghij").map hexCodePoint = [10, 11, 12, 13, 14, 15, 16, 16, 16, 16]

-- function_test.cpp:481-536 `EscapeStrTest`, the text shortened
#guard (escapeStr ("极其朴素的代码".toUTF8.toList ++ [0])).bind (fun r => .ok r.2) = .ok ("极其朴素的代码".toUTF8.toList ++ [0])
#guard (escapeStr ("极\r\t \n".toUTF8.toList ++ [8] ++ b!" " ++ [12] ++ b!" \\ \"" ++ [0])).bind (fun r => .ok r.2) =
    .ok ("极\\r\\t \\n\\b \\f \\\\ \\\"".toUTF8.toList ++ [0])

-- function_test.cpp:802-818 `BeginAndNextTest`
#guard ((do
    let A ← newAllocator
    let v ← newValue A
    let p ← callerText (b!"[true,false,null,[null,false,[],true],[\"\",123,\"str\"],null]" ++ [0])
    check (← parseLen v p 58)
    let mut next ← begin_ v
    let mut count := 0
    for _ in List.range 99 do
      match next with
      | some n =>
        count := count + 1
        next ← next_ n
      | none => pure ()
    check (decide (count = (← sizeOf v))) : M Unit) (St.init fun _ => 3)).out = .ok ()

-- function_test.cpp:1304-1315 `GetSetTest`
#guard ((readmeMain F b!"[{\"key\":true},false,{\"key1\":true},[null,false,[],true],[\"\",123,\"str\"],null]") (St.init fun _ => 3)).out =
    .ok (some b!"[{\"key\":true},false,{\"key1\":true},[null,false,[],true],[\"\",123,\"str\"],null]")

/-! ### test/conformance -/

/-- conformance_test.cpp:7-35 `JSONCheckerTest`, one file -/
def accepts (s : String) : Res Bool := ((do
    let A ← newAllocator
    let v ← newValue A
    let p ← callerText (s.toUTF8.toList ++ [0])
    parseFast v p : M Bool) (St.init fun _ => 3)).out

/-- conformance_test.cpp:36-57 `RoundTripTest` and function_test.cpp:1316-1346 `GetSetTest1`, one file -/
def comesBack (s : String) : Res Bool := ((do
    let A ← newAllocator
    let v ← newValue A
    let p ← callerText (s.toUTF8.toList ++ [0])
    check (← parseFast v p)
    let fuel := 4 * s.length + 10
    let r ← text (some (← stringify fuel v))
    check (decide (r = s.toUTF8.toList))
    let vv ← deref (← copy fuel v)
    let r ← text (some (← stringify fuel vv))
    check (decide (r = s.toUTF8.toList))
    let vvv ← newValue A
    getAndSet fuel vv vvv
    let r ← text (some (← stringify fuel vvv))
    check (decide (r = s.toUTF8.toList))
    return true : M Bool) (St.init fun _ => 3)).out

/-- conformance_test.cpp:58-70 `StringTestOne` -/
def unescapes (s e : Bytes) : Res Bool := ((do
    let A ← newAllocator
    let v ← newValue A
    let p ← callerText (s ++ [0])
    check (← parse v p)
    let vv ← deref (← arrayGet F v 0)
    let r ← text (← getUnEscapeStr vv)
    return decide (r = e) : M Bool) (St.init fun _ => 3)).out

-- fail1.json
#guard accepts "[0123]replace jsonchecker fail1" = .ok false
-- fail2.json
#guard accepts "[\"Unclosed array\"" = .ok false
-- fail3.json
#guard accepts "{unquoted_key: \"keys must be quoted\"}" = .ok false
-- fail4.json
#guard accepts "[\"extra comma\",]" = .ok false
-- fail5.json
#guard accepts "[\"double extra comma\",,]" = .ok false
-- fail6.json
#guard accepts "[   , \"<-- missing value\"]" = .ok false
-- fail7.json
#guard accepts "[\"Comma after the close\"]," = .ok false
-- fail8.json
#guard accepts "[\"Extra close\"]]" = .ok false
-- fail9.json
#guard accepts "{\"Extra comma\": true,}" = .ok false
-- fail10.json
#guard accepts "{\"Extra value after close\": true} \"misplaced quoted value\"" = .ok false
-- fail11.json
#guard accepts "{\"Illegal expression\": 1 + 2}" = .ok false
-- fail12.json
#guard accepts "{\"Illegal invocation\": alert()}" = .ok false
-- fail13.json
#guard accepts "{\"Numbers cannot have leading zeroes\": 013}" = .ok false
-- fail14.json
#guard accepts "{\"Numbers cannot be hex\": 0x14}" = .ok false
-- fail15.json
#guard accepts "[\"Illegal backslash escape: \\x15\"]" = .ok false
-- fail16.json
#guard accepts "[\\naked]" = .ok false
-- fail17.json
#guard accepts "[\"Illegal backslash escape: \\017\"]" = .ok false
-- fail18.json
#guard accepts "[replace jsonchecker fail18]" = .ok false
-- fail19.json
#guard accepts "{\"Missing colon\" null}" = .ok false
-- fail20.json
#guard accepts "{\"Double colon\":: null}" = .ok false
-- fail21.json
#guard accepts "{\"Comma instead of colon\", null}" = .ok false
-- fail22.json
#guard accepts "[\"Colon instead of comma\": false]" = .ok false
-- fail23.json
#guard accepts "[\"Bad value\", truth]" = .ok false
-- fail24.json
#guard accepts "['single quote']" = .ok false
-- fail25.json
#guard accepts "[\"\ttab\tcharacter\tin\tstring\t\"]" = .ok false
-- fail26.json
#guard accepts "[\"tab\\   character\\   in\\  string\\  \"]" = .ok false
-- fail27.json
#guard accepts "[\"line\nbreak\"]" = .ok false
-- fail28.json
#guard accepts "[\"line\\\nbreak\"]" = .ok false
-- fail29.json
#guard accepts "[0e]" = .ok false
-- fail30.json
#guard accepts "[0e+]" = .ok false
-- fail31.json
#guard accepts "[0e+-1]" = .ok false
-- fail32.json
#guard accepts "{\"Comma instead if closing brace\": true," = .ok false
-- fail33.json
#guard accepts "[\"mismatch\"}" = .ok false
-- pass1.json
#guard accepts "[\n    \"JSON Test Pattern pass1\",\n    {\"object with 1 member\":[\"array with 1 element\"]},\n    {},\n    [],\n    -42,\n    true,\n    false,\n    null,\n    {\n        \"integer\": 1234567890,\n        \"real\": -9876.543210,\n        \"e\": 0.123456789e-12,\n        \"E\": 1.234567890E+34,\n        \"\":  23456789012E66,\n        \"zero\": 0,\n        \"one\": 1,\n        \"space\": \" \",\n        \"quote\": \"\\\"\",\n        \"backslash\": \"\\\\\",\n        \"controls\": \"\\b\\f\\n\\r\\t\",\n        \"slash\": \"/ & \\/\",\n        \"alpha\": \"abcdefghijklmnopqrstuvwyz\",\n        \"ALPHA\": \"ABCDEFGHIJKLMNOPQRSTUVWYZ\",\n        \"digit\": \"0123456789\",\n        \"0123456789\": \"digit\",\n        \"special\": \"`1~!@#$%^&*()_+-={':[,]}|;.</>?\",\n        \"hex\": \"\\u0123\\u4567\\u89AB\\uCDEF\\uabcd\\uef4A\",\n        \"true\": true,\n        \"false\": false,\n        \"null\": null,\n        \"array\":[  ],\n        \"object\":{  },\n        \"address\": \"50 St. James Street\",\n        \"url\": \"http://www.JSON.org/\",\n        \"comment\": \"// /* <!-- --\",\n        \"# -- --> */\": \" \",\n        \" s p a c e d \" :[1,2 , 3\n\n,\n\n4 , 5        ,          6           ,7        ],\"compact\":[1,2,3,4,5,6,7],\n        \"jsontext\": \"{\\\"object with 1 member\\\":[\\\"array with 1 element\\\"]}\",\n        \"quotes\": \"&#34; \\u0022 %22 0x22 034 &#x22;\",\n        \"\\/\\\\\\\"\\uCAFE\\uBABE\\uAB98\\uFCDE\\ubcda\\uef4A\\b\\f\\n\\r\\t`1~!@#$%^&*()_+-=[]{}|;:',./<>?\"\n: \"A key can be any string\"\n    },\n    0.5 ,98.6\n,\n99.44\n,\n\n1066,\n1e1,\n0.1e1,\n1e-1,\n1e00,2e+00,2e-00\n,\"rosebud\"]" = .ok true
-- pass2.json
#guard accepts "[[[[[[[[[[[[[[[[[[[\"Not too deep\"]]]]]]]]]]]]]]]]]]]" = .ok true
-- pass3.json
#guard accepts "{\n    \"JSON Test Pattern pass3\": {\n        \"The outermost value\": \"must be an object or array.\",\n        \"In this test\": \"It is an object.\"\n    }\n}\n" = .ok true
-- pass4.json
#guard accepts "\"A JSON payload should be an object or array, not a string.\"" = .ok true
-- pass5.json
#guard accepts "[[[[[[[[[[[[[[[[[[[[\"Too deep\"]]]]]]]]]]]]]]]]]]]]" = .ok true
-- roundtrip01.json
#guard comesBack "[null]" = .ok true
-- roundtrip02.json
#guard comesBack "[true]" = .ok true
-- roundtrip03.json
#guard comesBack "[false]" = .ok true
-- roundtrip04.json
#guard comesBack "[0]" = .ok true
-- roundtrip05.json
#guard comesBack "[\"foo\"]" = .ok true
-- roundtrip06.json
#guard comesBack "[]" = .ok true
-- roundtrip07.json
#guard comesBack "{}" = .ok true
-- roundtrip08.json
#guard comesBack "[0,1]" = .ok true
-- roundtrip09.json
#guard comesBack "{\"foo\":\"bar\"}" = .ok true
-- roundtrip10.json
#guard comesBack "{\"a\":null,\"foo\":\"bar\"}" = .ok true
-- roundtrip11.json
#guard comesBack "[-1]" = .ok true
-- roundtrip12.json
#guard comesBack "[-2147483648]" = .ok true
-- roundtrip13.json
#guard comesBack "[-1234567890123456789]" = .ok true
-- roundtrip14.json
#guard comesBack "[-9223372036854775808]" = .ok true
-- roundtrip15.json
#guard comesBack "[1]" = .ok true
-- roundtrip16.json
#guard comesBack "[2147483647]" = .ok true
-- roundtrip17.json
#guard comesBack "[4294967295]" = .ok true
-- roundtrip18.json
#guard comesBack "[1234567890123456789]" = .ok true
-- roundtrip19.json
#guard comesBack "[9223372036854775807]" = .ok true
-- roundtrip20.json
#guard comesBack "[0.0]" = .ok true
-- roundtrip21.json
#guard comesBack "[-0.0]" = .ok true
-- roundtrip22.json
#guard comesBack "[1.2345]" = .ok true
-- roundtrip23.json
#guard comesBack "[-1.2345]" = .ok true
-- roundtrip24.json
#guard comesBack "[5e-324]" = .ok true
-- roundtrip25.json
#guard comesBack "[2.225073858507201e-308]" = .ok true
-- roundtrip26.json
#guard comesBack "[2.2250738585072014e-308]" = .ok true
-- roundtrip27.json
#guard comesBack "[1.7976931348623157e308]" = .ok true
-- roundtrip28.json
#guard comesBack "[{\"hot_score\":1.850658968251544,\"wilson_scores\":[1,0.8492866024175612,0.4856779168223852,0.3150739968081837,0.56208828348788,0.5084053626630379,0.39631119524267117,0.27024996663151396,0.33430345150173757,0.22330627691347416,0.2547261149542435,0.3937230202898194,0.3430812404111405,0.37071846193345415,0.4213134881683881,0.43855601296886004,0.4211534941409937,0.41285678936985976,0.46928205785712584,0.4547636921396815,0.3786324210679544,0.3933818062393914,0.4065092612910312],\"word\":\"世界大学学科排名\",\"scores\":[1470300,1174602,158502,113078,167840,84920,44570,32268,40850,38648,70228,128202,133100,177300,217900,219600,205500,206200,215200,176300,148600,169900,186000,194900]}]" = .ok true
-- roundtrip31.json
#guard comesBack "[[[[[[[[[[[[[[[[[[[[[[[[[[[[[[[[[[[[[[[[[[[[[[[[[[[[[[[[[[[[[[[[[[[[[[[[[[[[[[[[[[[[[[[[[[[[[[[[[[[[[[[[[[[[[[[[[[[[[[[[[[[[[[[[[[[[[[[[[[[[[[[[[[[[[[[[[[[[[[[[[[[[[[[[[[[[[[[[[[[[[[[[[[[[[[[[[[[[[[[[[[[[[[[[[[[[[[[[[[[[[[[[[[[[[[[[[[[[[[[[[[[[[[[[[[[[[[[[[[[[[[[[[[[[[[[[[[[[[[[[[[[[[[[[[[[[[[[[[\"array\"]]]]]]]]]]]]]]]]]]]]]]]]]]]]]]]]]]]]]]]]]]]]]]]]]]]]]]]]]]]]]]]]]]]]]]]]]]]]]]]]]]]]]]]]]]]]]]]]]]]]]]]]]]]]]]]]]]]]]]]]]]]]]]]]]]]]]]]]]]]]]]]]]]]]]]]]]]]]]]]]]]]]]]]]]]]]]]]]]]]]]]]]]]]]]]]]]]]]]]]]]]]]]]]]]]]]]]]]]]]]]]]]]]]]]]]]]]]]]]]]]]]]]]]]]]]]]]]]]]]]]]]]]]]]]]]]]]]]]]]]]]]]]]]]]]]]]]]]]" = .ok true
-- roundtrip36.json
#guard comesBack "false" = .ok true
-- conformance_test.cpp:69
#guard unescapes b!"[\"\"]" b!"" = .ok true
-- conformance_test.cpp:70
#guard unescapes b!"[\"Hello\"]" b!"Hello" = .ok true
-- conformance_test.cpp:71
#guard unescapes b!"[\"Hello\\nWorld\"]" [72, 101, 108, 108, 111, 10, 87, 111, 114, 108, 100] = .ok true
-- conformance_test.cpp:72
#guard unescapes b!"[\"Hello\\u0000World\"]" b!"Hello" = .ok true
-- conformance_test.cpp:73
#guard unescapes b!"[\"\\\"\\\\/\\b\\f\\n\\r\\t\"]" [34, 92, 47, 8, 12, 10, 13, 9] = .ok true
-- conformance_test.cpp:74
#guard unescapes b!"[\"\\u0024\"]" b!"$" = .ok true
-- conformance_test.cpp:75
#guard unescapes b!"[\"\\u00A2\"]" [194, 162] = .ok true
-- conformance_test.cpp:76
#guard unescapes b!"[\"\\u20AC\"]" [226, 130, 172] = .ok true
-- conformance_test.cpp:77
#guard unescapes b!"[\"\\uD834\\uDD1E\"]" [240, 157, 132, 158] = .ok true

/-! ### READMECHN.md -/

-- READMECHN.md:726-738
#guard ((do
    let out : Bytes := []
    let A ← newAllocator
    let t1 ← newValue A
    let v : Option Addr := (some t1)
    let t2 ← callerText (b!"[123]" ++ [0])
    let json : Option SPtr := (some t2)
    let t3 ← deref v
    let t4 ← pointer json
    let t5 ← parse t3 t4
    let ret := t5
    check (decide (ret = true))
    let t6 ← deref v
    let t7 ← stringify F t6
    let str : Option SPtr := (some t7)
    check (!(str.isNone))
    let t8 ← text str
    let out : Bytes := out ++ t8 ++ [10]
    releaseAllocator A
    return out : M Bytes) (St.init fun _ => 3)).out = .ok ("[123]".toUTF8.toList ++ [10])

-- READMECHN.md:776-788
#guard ((do
    let out : Bytes := []
    let A ← newAllocator
    let t1 ← newValue A
    let v : Option Addr := (some t1)
    let t2 ← callerText (b!"[123]" ++ [0])
    let json : Option SPtr := (some t2)
    let t3 ← text json
    let t4 ← deref v
    let t5 ← pointer json
    let t6 ← parseLen t4 t5 t3.length
    let ret := t6
    check (decide (ret = true))
    let t7 ← deref v
    let t8 ← stringify F t7
    let str : Option SPtr := (some t8)
    check (!(str.isNone))
    let t9 ← text str
    let out : Bytes := out ++ t9 ++ [10]
    releaseAllocator A
    return out : M Bytes) (St.init fun _ => 3)).out = .ok ("[123]".toUTF8.toList ++ [10])

-- READMECHN.md:825-837
#guard ((do
    let out : Bytes := []
    let A ← newAllocator
    let t1 ← newValue A
    let v : Option Addr := (some t1)
    let t2 ← callerText (b!"[123]" ++ [0])
    let json : Option SPtr := (some t2)
    let t3 ← deref v
    let t4 ← pointer json
    let t5 ← parseFast t3 t4
    let ret := t5
    check (decide (ret = true))
    let t6 ← deref v
    let t7 ← stringify F t6
    let str : Option SPtr := (some t7)
    check (!(str.isNone))
    let t8 ← text str
    let out : Bytes := out ++ t8 ++ [10]
    releaseAllocator A
    return out : M Bytes) (St.init fun _ => 3)).out = .ok ("[123]".toUTF8.toList ++ [10])

-- READMECHN.md:873-885
#guard ((do
    let out : Bytes := []
    let A ← newAllocator
    let t1 ← newValue A
    let v : Option Addr := (some t1)
    let t2 ← callerText (b!"[123]" ++ [0])
    let json : Option SPtr := (some t2)
    let t3 ← deref v
    let t4 ← pointer json
    let t5 ← parseFast t3 t4
    let ret := t5
    check (decide (ret = true))
    let t6 ← deref v
    let t7 ← stringify F t6
    let str : Option SPtr := (some t7)
    check (!(str.isNone))
    let t8 ← text str
    let out : Bytes := out ++ t8 ++ [10]
    releaseAllocator A
    return out : M Bytes) (St.init fun _ => 3)).out = .ok ("[123]".toUTF8.toList ++ [10])

-- READMECHN.md:924-943
#guard ((do
    let out : Bytes := []
    let A ← newAllocator
    let t1 ← newValue A
    let v : Option Addr := (some t1)
    let t2 ← callerText (b!"[\"str\",123]" ++ [0])
    let json : Option SPtr := (some t2)
    let t3 ← deref v
    let t4 ← pointer json
    let t5 ← parseFast t3 t4
    let ret := t5
    check (decide (ret = true))
    let t6 ← deref v
    let t7 ← arrayGet F t6 0
    let vv : Option Addr := t7
    check (!(vv.isNone))
    let t8 ← deref vv
    let t9 ← getStr t8
    let str : Option SPtr := t9
    check (!(str.isNone))
    let t10 ← text str
    let out : Bytes := out ++ t10 ++ [10]
    releaseAllocator A
    return out : M Bytes) (St.init fun _ => 3)).out = .ok ("str".toUTF8.toList ++ [10])

-- READMECHN.md:1039-1054
#guard ((do
    let out : Bytes := []
    let A ← newAllocator
    let t1 ← newValue A
    let v : Option Addr := (some t1)
    let t2 ← callerText (b!"\"\\u007a\\u007a\\u007a\\u004A\\u0053\\u004F\\u004E\\u597D\\u68D2\\uD87E\\uDD21\"" ++ [0])
    let json : Option SPtr := (some t2)
    let t3 ← deref v
    let t4 ← pointer json
    let t5 ← parseFast t3 t4
    let ret := t5
    check (decide (ret = true))
    let t6 ← deref v
    let t7 ← getUnEscapeStr t6
    let str : Option SPtr := t7
    check (!(str.isNone))
    let t8 ← text str
    let out : Bytes := out ++ t8 ++ [10]
    releaseAllocator A
    return out : M Bytes) (St.init fun _ => 3)).out = .ok ("zzzJSON好棒爵".toUTF8.toList ++ [10])

-- READMECHN.md:1314-1334
#guard ((do
    let out : Bytes := []
    let A ← newAllocator
    let t1 ← newValue A
    let v : Option Addr := (some t1)
    let t2 ← callerText (b!"[\"str\",123]" ++ [0])
    let json : Option SPtr := (some t2)
    let t3 ← deref v
    let t4 ← pointer json
    let t5 ← parseFast t3 t4
    let ret := t5
    check (decide (ret = true))
    let t6 ← deref v
    let t7 ← arrayGet F t6 1
    let vv : Option Addr := t7
    check (!(vv.isNone))
    let t8 ← deref vv
    let t9 ← getInt t8
    let d := t9
    check (!(d.isNone))
    let out : Bytes := out ++ (fmtInt (d.getD 0)) ++ [10]
    releaseAllocator A
    return out : M Bytes) (St.init fun _ => 3)).out = .ok ("123".toUTF8.toList ++ [10])

-- READMECHN.md:1369-1389
#guard ((do
    let out : Bytes := []
    let A ← newAllocator
    let t1 ← newValue A
    let v : Option Addr := (some t1)
    let t2 ← callerText (b!"[\"str\",123]" ++ [0])
    let json : Option SPtr := (some t2)
    let t3 ← deref v
    let t4 ← pointer json
    let t5 ← parseFast t3 t4
    let ret := t5
    check (decide (ret = true))
    let t6 ← deref v
    let t7 ← arrayGet F t6 1
    let vv : Option Addr := t7
    check (!(vv.isNone))
    let t8 ← deref vv
    let t9 ← getLong t8
    let d := t9
    check (!(d.isNone))
    let out : Bytes := out ++ (fmtInt (d.getD 0)) ++ [10]
    releaseAllocator A
    return out : M Bytes) (St.init fun _ => 3)).out = .ok ("123".toUTF8.toList ++ [10])

-- READMECHN.md:1424-1444
#guard ((do
    let out : Bytes := []
    let A ← newAllocator
    let t1 ← newValue A
    let v : Option Addr := (some t1)
    let t2 ← callerText (b!"[\"str\",123]" ++ [0])
    let json : Option SPtr := (some t2)
    let t3 ← deref v
    let t4 ← pointer json
    let t5 ← parseFast t3 t4
    let ret := t5
    check (decide (ret = true))
    let t6 ← deref v
    let t7 ← arrayGet F t6 1
    let vv : Option Addr := t7
    check (!(vv.isNone))
    let t8 ← deref vv
    let t9 ← getLongLong t8
    let d := t9
    check (!(d.isNone))
    let out : Bytes := out ++ (fmtInt (d.getD 0)) ++ [10]
    releaseAllocator A
    return out : M Bytes) (St.init fun _ => 3)).out = .ok ("123".toUTF8.toList ++ [10])

-- READMECHN.md:1479-1497
#guard ((do
    let out : Bytes := []
    let A ← newAllocator
    let t1 ← newValue A
    let v : Option Addr := (some t1)
    let t2 ← callerText (b!"[\"str\",123,true]" ++ [0])
    let json : Option SPtr := (some t2)
    let t3 ← deref v
    let t4 ← pointer json
    let t5 ← parseFast t3 t4
    let ret := t5
    check (decide (ret = true))
    let t6 ← deref v
    let t7 ← arrayGet F t6 2
    let vv : Option Addr := t7
    check (!(vv.isNone))
    let t8 ← deref vv
    let t9 ← getBool t8
    let b := t9
    check (!(b.isNone))
    let out : Bytes := out ++ (if b = some true then b!"1" else b!"0") ++ [10]
    releaseAllocator A
    return out : M Bytes) (St.init fun _ => 3)).out = .ok ("1".toUTF8.toList ++ [10])

-- READMECHN.md:1532-1549
#guard ((do
    let out : Bytes := []
    let A ← newAllocator
    let t1 ← newValue A
    let v : Option Addr := (some t1)
    let t2 ← callerText (b!"[\"str\",123,true,null]" ++ [0])
    let json : Option SPtr := (some t2)
    let t3 ← deref v
    let t4 ← pointer json
    let t5 ← parseFast t3 t4
    let ret := t5
    check (decide (ret = true))
    let t6 ← deref v
    let t7 ← arrayGet F t6 3
    let vv : Option Addr := t7
    check (!(vv.isNone))
    let t8 ← deref vv
    let t9 ← isNull t8
    let out : Bytes := out ++ (if t9 then b!"1" else b!"0") ++ [10]
    releaseAllocator A
    return out : M Bytes) (St.init fun _ => 3)).out = .ok ("1".toUTF8.toList ++ [10])

-- READMECHN.md:1584-1602
#guard ((do
    let out : Bytes := []
    let A ← newAllocator
    let t1 ← newValue A
    let v : Option Addr := (some t1)
    let t2 ← callerText (b!"{\"key123\":123}" ++ [0])
    let json : Option SPtr := (some t2)
    let t3 ← deref v
    let t4 ← pointer json
    let t5 ← parseFast t3 t4
    let ret := t5
    check (decide (ret = true))
    let t6 ← deref v
    let t7 ← begin_ t6
    let vv : Option Addr := t7
    check (!(vv.isNone))
    let t8 ← deref vv
    let t9 ← getKey t8
    let key : Option SPtr := t9
    check (!(key.isNone))
    let t10 ← text key
    let out : Bytes := out ++ t10 ++ [10]
    releaseAllocator A
    return out : M Bytes) (St.init fun _ => 3)).out = .ok ("key123".toUTF8.toList ++ [10])

-- READMECHN.md:1694-1714
#guard ((do
    let out : Bytes := []
    let A ← newAllocator
    let t1 ← newValue A
    let v : Option Addr := (some t1)
    let t2 ← callerText (b!"{\"key123\":123}" ++ [0])
    let json : Option SPtr := (some t2)
    let t3 ← deref v
    let t4 ← pointer json
    let t5 ← parseFast t3 t4
    let ret := t5
    check (decide (ret = true))
    let t6 ← deref v
    let t7 ← begin_ t6
    let vv : Option Addr := t7
    check (!(vv.isNone))
    let len : Nat := 0
    let i : Nat := 0
    let t8 ← deref vv
    let t9 ← getUnEscapeKey t8
    let key : Option SPtr := t9
    let t10 ← text key
    let out : Bytes := out ++ t10 ++ [10]
    releaseAllocator A
    return out : M Bytes) (St.init fun _ => 3)).out = .ok ("key123".toUTF8.toList ++ [10])

-- READMECHN.md:1751-1770
#guard ((do
    let out : Bytes := []
    let A ← newAllocator
    let t1 ← newValue A
    let v : Option Addr := (some t1)
    let t2 ← callerText (b!"{\"key123\":123}" ++ [0])
    let json : Option SPtr := (some t2)
    let t3 ← deref v
    let t4 ← pointer json
    let t5 ← parseFast t3 t4
    let ret := t5
    check (decide (ret = true))
    let t6 ← deref v
    let t7 ← callerText (b!"key123" ++ [0])
    let t8 ← objGet F t6 t7
    let vv : Option Addr := t8
    check (!(vv.isNone))
    let t9 ← deref vv
    let t10 ← callerText (b!"1234" ++ [0])
    let t11 ← setNumStr t9 t10
    let t12 ← deref v
    let t13 ← stringify F t12
    let ret_json : Option SPtr := (some t13)
    let t14 ← text ret_json
    let out : Bytes := out ++ t14 ++ [10]
    releaseAllocator A
    return out : M Bytes) (St.init fun _ => 3)).out = .ok ("{\"key123\":1234}".toUTF8.toList ++ [10])

-- READMECHN.md:1807-1826
#guard ((do
    let out : Bytes := []
    let A ← newAllocator
    let t1 ← newValue A
    let v : Option Addr := (some t1)
    let t2 ← callerText (b!"{\"key123\":123}" ++ [0])
    let json : Option SPtr := (some t2)
    let t3 ← deref v
    let t4 ← pointer json
    let t5 ← parseFast t3 t4
    let ret := t5
    check (decide (ret = true))
    let t6 ← deref v
    let t7 ← callerText (b!"key123" ++ [0])
    let t8 ← objGetLen F t6 t7 6
    let vv : Option Addr := t8
    check (!(vv.isNone))
    let t9 ← deref vv
    let t10 ← callerText (b!"1234" ++ [0])
    let t11 ← setNumStr t9 t10
    let t12 ← deref v
    let t13 ← stringify F t12
    let ret_json : Option SPtr := (some t13)
    let t14 ← text ret_json
    let out : Bytes := out ++ t14 ++ [10]
    releaseAllocator A
    return out : M Bytes) (St.init fun _ => 3)).out = .ok ("{\"key123\":1234}".toUTF8.toList ++ [10])

-- READMECHN.md:1865-1884
#guard ((do
    let out : Bytes := []
    let A ← newAllocator
    let t1 ← newValue A
    let v : Option Addr := (some t1)
    let t2 ← callerText (b!"[123,456,789]" ++ [0])
    let json : Option SPtr := (some t2)
    let t3 ← deref v
    let t4 ← pointer json
    let t5 ← parseFast t3 t4
    let ret := t5
    check (decide (ret = true))
    let t6 ← deref v
    let t7 ← arrayGet F t6 1
    let vv : Option Addr := t7
    check (!(vv.isNone))
    let t8 ← deref vv
    let t9 ← callerText (b!"1234" ++ [0])
    let t10 ← setNumStr t8 t9
    let t11 ← deref v
    let t12 ← stringify F t11
    let ret_json : Option SPtr := (some t12)
    let t13 ← text ret_json
    let out : Bytes := out ++ t13 ++ [10]
    releaseAllocator A
    return out : M Bytes) (St.init fun _ => 3)).out = .ok ("[123,1234,789]".toUTF8.toList ++ [10])

-- READMECHN.md:1920-1939
#guard ((do
    let out : Bytes := []
    let A ← newAllocator
    let t1 ← newValue A
    let v : Option Addr := (some t1)
    let t2 ← callerText (b!"[123,456,789]" ++ [0])
    let json : Option SPtr := (some t2)
    let t3 ← deref v
    let t4 ← pointer json
    let t5 ← parseFast t3 t4
    let ret := t5
    check (decide (ret = true))
    let t6 ← deref v
    let t7 ← begin_ t6
    let vv : Option Addr := t7
    check (!(vv.isNone))
    let t8 ← deref vv
    let t9 ← callerText (b!"999" ++ [0])
    let t10 ← setNumStr t8 t9
    let t11 ← deref v
    let t12 ← stringify F t11
    let ret_json : Option SPtr := (some t12)
    let t13 ← text ret_json
    let out : Bytes := out ++ t13 ++ [10]
    releaseAllocator A
    return out : M Bytes) (St.init fun _ => 3)).out = .ok ("[999,456,789]".toUTF8.toList ++ [10])

-- READMECHN.md:2030-2048
#guard ((do
    let out : Bytes := []
    let A ← newAllocator
    let t1 ← newValue A
    let v : Option Addr := (some t1)
    let t2 ← callerText (b!"{\"key123\":123}" ++ [0])
    let json : Option SPtr := (some t2)
    let t3 ← deref v
    let t4 ← pointer json
    let t5 ← parseFast t3 t4
    let ret := t5
    check (decide (ret = true))
    let t6 ← deref v
    let t7 ← callerText (b!"key123" ++ [0])
    let t8 ← objGet F t6 t7
    let vv : Option Addr := t8
    check (!(vv.isNone))
    let t9 ← deref vv
    let t10 ← getType t9
    let t := t10
    check (!(t.isNone))
    let out : Bytes := out ++ (typeNo t) ++ [10]
    releaseAllocator A
    return out : M Bytes) (St.init fun _ => 3)).out = .ok ("6".toUTF8.toList ++ [10])

-- READMECHN.md:2083-2096
#guard ((do
    let out : Bytes := []
    let A ← newAllocator
    let t1 ← newValue A
    let v : Option Addr := (some t1)
    let t2 ← callerText (b!"{\"key123\":123}" ++ [0])
    let json : Option SPtr := (some t2)
    let t3 ← deref v
    let t4 ← pointer json
    let t5 ← parseFast t3 t4
    let ret := t5
    check (decide (ret = true))
    let t6 ← deref v
    let t7 ← sizeOf t6
    let out : Bytes := out ++ decNat t7 ++ [10]
    releaseAllocator A
    return out : M Bytes) (St.init fun _ => 3)).out = .ok ("1".toUTF8.toList ++ [10])

-- READMECHN.md:2131-2153
#guard ((do
    let out : Bytes := []
    let A ← newAllocator
    let t1 ← newValue A
    let v : Option Addr := (some t1)
    let t2 ← callerText (b!"[123,456,789]" ++ [0])
    let json : Option SPtr := (some t2)
    let t3 ← deref v
    let t4 ← pointer json
    let t5 ← parseFast t3 t4
    let ret := t5
    check (decide (ret = true))
    let t6 ← deref v
    let t7 ← copy F t6
    let vv : Option Addr := t7
    let t8 ← deref vv
    let t9 ← stringify F t8
    let vv_json : Option SPtr := (some t9)
    check (!(vv_json.isNone))
    let t10 ← text vv_json
    let out : Bytes := out ++ t10 ++ [10]
    let t11 ← newValue A
    let vvv : Option Addr := (some t11)
    let t12 ← deref vvv
    let t13 ← callerText (b!"12345" ++ [0])
    let t14 ← setNumStr t12 t13
    let t15 ← deref vv
    let t16 ← deref vvv
    let t17 ← arrayAdd F t15 t16
    let t18 ← deref vv
    let t19 ← stringify F t18
    let vv_json : Option SPtr := (some t19)
    check (!(vv_json.isNone))
    let t20 ← text vv_json
    let out : Bytes := out ++ t20 ++ [10]
    let t21 ← deref v
    let t22 ← stringify F t21
    let v_json : Option SPtr := (some t22)
    check (!(v_json.isNone))
    let t23 ← text v_json
    let out : Bytes := out ++ t23 ++ [10]
    releaseAllocator A
    return out : M Bytes) (St.init fun _ => 3)).out = .ok ("[123,456,789]\n[123,456,789,12345]\n[123,456,789]".toUTF8.toList ++ [10])

-- READMECHN.md:2194-2209
#guard ((do
    let out : Bytes := []
    let A ← newAllocator
    let t1 ← newValue A
    let v : Option Addr := (some t1)
    let t2 ← callerText (b!"[123,456,789]" ++ [0])
    let json : Option SPtr := (some t2)
    let t3 ← deref v
    let t4 ← pointer json
    let t5 ← parseFast t3 t4
    let ret := t5
    check (decide (ret = true))
    let t6 ← deref v
    setNull t6
    let t7 ← deref v
    let t8 ← stringify F t7
    let v_str : Option SPtr := (some t8)
    check (!(v_str.isNone))
    let t9 ← text v_str
    let out : Bytes := out ++ t9 ++ [10]
    releaseAllocator A
    return out : M Bytes) (St.init fun _ => 3)).out = .ok ("null".toUTF8.toList ++ [10])

-- READMECHN.md:2245-2260
#guard ((do
    let out : Bytes := []
    let A ← newAllocator
    let t1 ← newValue A
    let v : Option Addr := (some t1)
    let t2 ← callerText (b!"[123,456,789]" ++ [0])
    let json : Option SPtr := (some t2)
    let t3 ← deref v
    let t4 ← pointer json
    let t5 ← parseFast t3 t4
    let ret := t5
    check (decide (ret = true))
    let t6 ← deref v
    setBool t6 false
    let t7 ← deref v
    let t8 ← stringify F t7
    let v_str : Option SPtr := (some t8)
    check (!(v_str.isNone))
    let t9 ← text v_str
    let out : Bytes := out ++ t9 ++ [10]
    releaseAllocator A
    return out : M Bytes) (St.init fun _ => 3)).out = .ok ("false".toUTF8.toList ++ [10])

-- READMECHN.md:2617-2628
#guard ((do
    let out : Bytes := []
    let A ← newAllocator
    let t1 ← newValue A
    let v : Option Addr := (some t1)
    let d : Int := -123
    let t2 ← deref v
    let t3 ← setInt t2 (d)
    let t4 ← deref v
    let t5 ← stringify F t4
    let v_str : Option SPtr := (some t5)
    check (!(v_str.isNone))
    let t6 ← text v_str
    let out : Bytes := out ++ t6 ++ [10]
    releaseAllocator A
    return out : M Bytes) (St.init fun _ => 3)).out = .ok ("-123".toUTF8.toList ++ [10])

-- READMECHN.md:2665-2676
#guard ((do
    let out : Bytes := []
    let A ← newAllocator
    let t1 ← newValue A
    let v : Option Addr := (some t1)
    let d : Int := -123
    let t2 ← deref v
    let t3 ← setLong t2 (d)
    let t4 ← deref v
    let t5 ← stringify F t4
    let v_str : Option SPtr := (some t5)
    check (!(v_str.isNone))
    let t6 ← text v_str
    let out : Bytes := out ++ t6 ++ [10]
    releaseAllocator A
    return out : M Bytes) (St.init fun _ => 3)).out = .ok ("-123".toUTF8.toList ++ [10])

-- READMECHN.md:2714-2725
#guard ((do
    let out : Bytes := []
    let A ← newAllocator
    let t1 ← newValue A
    let v : Option Addr := (some t1)
    let d : Int := -123
    let t2 ← deref v
    let t3 ← setLongLong t2 (d)
    let t4 ← deref v
    let t5 ← stringify F t4
    let v_str : Option SPtr := (some t5)
    check (!(v_str.isNone))
    let t6 ← text v_str
    let out : Bytes := out ++ t6 ++ [10]
    releaseAllocator A
    return out : M Bytes) (St.init fun _ => 3)).out = .ok ("-123".toUTF8.toList ++ [10])

-- READMECHN.md:2763-2778
#guard ((do
    let out : Bytes := []
    let A ← newAllocator
    let t1 ← newValue A
    let v : Option Addr := (some t1)
    let t2 ← callerText (b!"[123,456,789]" ++ [0])
    let json : Option SPtr := (some t2)
    let t3 ← deref v
    let t4 ← pointer json
    let t5 ← parseFast t3 t4
    let ret := t5
    check (decide (ret = true))
    let t6 ← deref v
    let t7 ← callerText (b!"123str" ++ [0])
    let t8 ← setStr t6 t7
    let t9 ← deref v
    let t10 ← stringify F t9
    let v_str : Option SPtr := (some t10)
    check (!(v_str.isNone))
    let t11 ← text v_str
    let out : Bytes := out ++ t11 ++ [10]
    releaseAllocator A
    return out : M Bytes) (St.init fun _ => 3)).out = .ok ("\"123str\"".toUTF8.toList ++ [10])

-- READMECHN.md:2816-2831
#guard ((do
    let out : Bytes := []
    let A ← newAllocator
    let t1 ← newValue A
    let v : Option Addr := (some t1)
    let t2 ← callerText (b!"[123,456,789]" ++ [0])
    let json : Option SPtr := (some t2)
    let t3 ← deref v
    let t4 ← pointer json
    let t5 ← parseFast t3 t4
    let ret := t5
    check (decide (ret = true))
    let t6 ← deref v
    let t7 ← callerText (b!"123str" ++ [0])
    let t8 ← setStrLen t6 t7 6
    let t9 ← deref v
    let t10 ← stringify F t9
    let v_str : Option SPtr := (some t10)
    check (!(v_str.isNone))
    let t11 ← text v_str
    let out : Bytes := out ++ t11 ++ [10]
    releaseAllocator A
    return out : M Bytes) (St.init fun _ => 3)).out = .ok ("\"123str\"".toUTF8.toList ++ [10])

-- READMECHN.md:2868-2883
#guard ((do
    let out : Bytes := []
    let A ← newAllocator
    let t1 ← newValue A
    let v : Option Addr := (some t1)
    let t2 ← callerText (b!"[123,456,789]" ++ [0])
    let json : Option SPtr := (some t2)
    let t3 ← deref v
    let t4 ← pointer json
    let t5 ← parseFast t3 t4
    let ret := t5
    check (decide (ret = true))
    let t6 ← deref v
    let t7 ← callerText (b!"123str" ++ [0])
    let t8 ← setStrFast t6 t7
    let t9 ← deref v
    let t10 ← stringify F t9
    let v_str : Option SPtr := (some t10)
    check (!(v_str.isNone))
    let t11 ← text v_str
    let out : Bytes := out ++ t11 ++ [10]
    releaseAllocator A
    return out : M Bytes) (St.init fun _ => 3)).out = .ok ("\"123str\"".toUTF8.toList ++ [10])

-- READMECHN.md:2921-2936
#guard ((do
    let out : Bytes := []
    let A ← newAllocator
    let t1 ← newValue A
    let v : Option Addr := (some t1)
    let t2 ← callerText (b!"[123,456,789]" ++ [0])
    let json : Option SPtr := (some t2)
    let t3 ← deref v
    let t4 ← pointer json
    let t5 ← parseFast t3 t4
    let ret := t5
    check (decide (ret = true))
    let t6 ← deref v
    let t7 ← callerText (b!"123str" ++ [0])
    let t8 ← setStrLenFast t6 t7 6
    let t9 ← deref v
    let t10 ← stringify F t9
    let v_str : Option SPtr := (some t10)
    check (!(v_str.isNone))
    let t11 ← text v_str
    let out : Bytes := out ++ t11 ++ [10]
    releaseAllocator A
    return out : M Bytes) (St.init fun _ => 3)).out = .ok ("\"123str\"".toUTF8.toList ++ [10])

-- READMECHN.md:2973-2988
#guard ((do
    let out : Bytes := []
    let A ← newAllocator
    let t1 ← newValue A
    let v : Option Addr := (some t1)
    let t2 ← callerText (b!"[123,456,789]" ++ [0])
    let json : Option SPtr := (some t2)
    let t3 ← deref v
    let t4 ← pointer json
    let t5 ← parseFast t3 t4
    let ret := t5
    check (decide (ret = true))
    let t6 ← deref v
    let t7 ← callerText ([49, 50, 51, 10, 115, 116, 114] ++ [0])
    let t8 ← setStrEscape t6 t7
    let t9 ← deref v
    let t10 ← stringify F t9
    let v_str : Option SPtr := (some t10)
    check (!(v_str.isNone))
    let t11 ← text v_str
    let out : Bytes := out ++ t11 ++ [10]
    releaseAllocator A
    return out : M Bytes) (St.init fun _ => 3)).out = .ok ("\"123\\nstr\"".toUTF8.toList ++ [10])

-- READMECHN.md:3026-3041
#guard ((do
    let out : Bytes := []
    let A ← newAllocator
    let t1 ← newValue A
    let v : Option Addr := (some t1)
    let t2 ← callerText (b!"[123,456,789]" ++ [0])
    let json : Option SPtr := (some t2)
    let t3 ← deref v
    let t4 ← pointer json
    let t5 ← parseFast t3 t4
    let ret := t5
    check (decide (ret = true))
    let t6 ← deref v
    let t7 ← callerText ([49, 50, 51, 10, 115, 116, 114] ++ [0])
    let t8 ← setStrLenEscape t6 t7 7
    let t9 ← deref v
    let t10 ← stringify F t9
    let v_str : Option SPtr := (some t10)
    check (!(v_str.isNone))
    let t11 ← text v_str
    let out : Bytes := out ++ t11 ++ [10]
    releaseAllocator A
    return out : M Bytes) (St.init fun _ => 3)).out = .ok ("\"123\\nstr\"".toUTF8.toList ++ [10])

-- READMECHN.md:3078-3094
#guard ((do
    let out : Bytes := []
    let A ← newAllocator
    let t1 ← newValue A
    let v : Option Addr := (some t1)
    let t2 ← callerText (b!"{\"key123\":123}" ++ [0])
    let json : Option SPtr := (some t2)
    let t3 ← deref v
    let t4 ← pointer json
    let t5 ← parseFast t3 t4
    let ret := t5
    check (decide (ret = true))
    let t6 ← deref v
    let t7 ← callerText (b!"key123" ++ [0])
    let t8 ← objGet F t6 t7
    let vv : Option Addr := t8
    let t9 ← deref vv
    let t10 ← callerText (b!"key234" ++ [0])
    let t11 ← setKeyC t9 t10
    let t12 ← deref v
    let t13 ← stringify F t12
    let v_str : Option SPtr := (some t13)
    check (!(v_str.isNone))
    let t14 ← text v_str
    let out : Bytes := out ++ t14 ++ [10]
    releaseAllocator A
    return out : M Bytes) (St.init fun _ => 3)).out = .ok ("{\"key234\":123}".toUTF8.toList ++ [10])

-- READMECHN.md:3132-3148
#guard ((do
    let out : Bytes := []
    let A ← newAllocator
    let t1 ← newValue A
    let v : Option Addr := (some t1)
    let t2 ← callerText (b!"{\"key123\":123}" ++ [0])
    let json : Option SPtr := (some t2)
    let t3 ← deref v
    let t4 ← pointer json
    let t5 ← parseFast t3 t4
    let ret := t5
    check (decide (ret = true))
    let t6 ← deref v
    let t7 ← callerText (b!"key123" ++ [0])
    let t8 ← objGet F t6 t7
    let vv : Option Addr := t8
    let t9 ← deref vv
    let t10 ← callerText (b!"key234" ++ [0])
    let t11 ← setKeyLenC t9 t10 6
    let t12 ← deref v
    let t13 ← stringify F t12
    let v_str : Option SPtr := (some t13)
    check (!(v_str.isNone))
    let t14 ← text v_str
    let out : Bytes := out ++ t14 ++ [10]
    releaseAllocator A
    return out : M Bytes) (St.init fun _ => 3)).out = .ok ("{\"key234\":123}".toUTF8.toList ++ [10])

-- READMECHN.md:3185-3201
#guard ((do
    let out : Bytes := []
    let A ← newAllocator
    let t1 ← newValue A
    let v : Option Addr := (some t1)
    let t2 ← callerText (b!"{\"key123\":123}" ++ [0])
    let json : Option SPtr := (some t2)
    let t3 ← deref v
    let t4 ← pointer json
    let t5 ← parseFast t3 t4
    let ret := t5
    check (decide (ret = true))
    let t6 ← deref v
    let t7 ← callerText (b!"key123" ++ [0])
    let t8 ← objGet F t6 t7
    let vv : Option Addr := t8
    let t9 ← deref vv
    let t10 ← callerText (b!"key234" ++ [0])
    let t11 ← setKeyFast t9 t10
    let t12 ← deref v
    let t13 ← stringify F t12
    let v_str : Option SPtr := (some t13)
    check (!(v_str.isNone))
    let t14 ← text v_str
    let out : Bytes := out ++ t14 ++ [10]
    releaseAllocator A
    return out : M Bytes) (St.init fun _ => 3)).out = .ok ("{\"key234\":123}".toUTF8.toList ++ [10])

-- READMECHN.md:3239-3255
#guard ((do
    let out : Bytes := []
    let A ← newAllocator
    let t1 ← newValue A
    let v : Option Addr := (some t1)
    let t2 ← callerText (b!"{\"key123\":123}" ++ [0])
    let json : Option SPtr := (some t2)
    let t3 ← deref v
    let t4 ← pointer json
    let t5 ← parseFast t3 t4
    let ret := t5
    check (decide (ret = true))
    let t6 ← deref v
    let t7 ← callerText (b!"key123" ++ [0])
    let t8 ← objGet F t6 t7
    let vv : Option Addr := t8
    let t9 ← deref vv
    let t10 ← callerText (b!"key234" ++ [0])
    let t11 ← setKeyLenFast t9 t10 6
    let t12 ← deref v
    let t13 ← stringify F t12
    let v_str : Option SPtr := (some t13)
    check (!(v_str.isNone))
    let t14 ← text v_str
    let out : Bytes := out ++ t14 ++ [10]
    releaseAllocator A
    return out : M Bytes) (St.init fun _ => 3)).out = .ok ("{\"key234\":123}".toUTF8.toList ++ [10])

-- READMECHN.md:3292-3308
#guard ((do
    let out : Bytes := []
    let A ← newAllocator
    let t1 ← newValue A
    let v : Option Addr := (some t1)
    let t2 ← callerText (b!"{\"key123\":123}" ++ [0])
    let json : Option SPtr := (some t2)
    let t3 ← deref v
    let t4 ← pointer json
    let t5 ← parseFast t3 t4
    let ret := t5
    check (decide (ret = true))
    let t6 ← deref v
    let t7 ← callerText (b!"key123" ++ [0])
    let t8 ← objGet F t6 t7
    let vv : Option Addr := t8
    let t9 ← deref vv
    let t10 ← callerText ([107, 101, 121, 10, 50, 51, 52] ++ [0])
    let t11 ← setKeyEscape t9 t10
    let t12 ← deref v
    let t13 ← stringify F t12
    let v_str : Option SPtr := (some t13)
    check (!(v_str.isNone))
    let t14 ← text v_str
    let out : Bytes := out ++ t14 ++ [10]
    releaseAllocator A
    return out : M Bytes) (St.init fun _ => 3)).out = .ok ("{\"key\\n234\":123}".toUTF8.toList ++ [10])

-- READMECHN.md:3346-3362
#guard ((do
    let out : Bytes := []
    let A ← newAllocator
    let t1 ← newValue A
    let v : Option Addr := (some t1)
    let t2 ← callerText (b!"{\"key123\":123}" ++ [0])
    let json : Option SPtr := (some t2)
    let t3 ← deref v
    let t4 ← pointer json
    let t5 ← parseFast t3 t4
    let ret := t5
    check (decide (ret = true))
    let t6 ← deref v
    let t7 ← callerText (b!"key123" ++ [0])
    let t8 ← objGet F t6 t7
    let vv : Option Addr := t8
    let t9 ← deref vv
    let t10 ← callerText ([107, 101, 121, 10, 50, 51, 52] ++ [0])
    let t11 ← setKeyLenEscape t9 t10 7
    let t12 ← deref v
    let t13 ← stringify F t12
    let v_str : Option SPtr := (some t13)
    check (!(v_str.isNone))
    let t14 ← text v_str
    let out : Bytes := out ++ t14 ++ [10]
    releaseAllocator A
    return out : M Bytes) (St.init fun _ => 3)).out = .ok ("{\"key\\n234\":123}".toUTF8.toList ++ [10])

-- READMECHN.md:3397-3412
#guard ((do
    let out : Bytes := []
    let A ← newAllocator
    let t1 ← newValue A
    let v : Option Addr := (some t1)
    let t2 ← callerText (b!"{\"key123\":123}" ++ [0])
    let json : Option SPtr := (some t2)
    let t3 ← deref v
    let t4 ← pointer json
    let t5 ← parseFast t3 t4
    let ret := t5
    check (decide (ret = true))
    let t6 ← deref v
    setArray t6
    let t7 ← deref v
    let t8 ← stringify F t7
    let v_str : Option SPtr := (some t8)
    check (!(v_str.isNone))
    let t9 ← text v_str
    let out : Bytes := out ++ t9 ++ [10]
    releaseAllocator A
    return out : M Bytes) (St.init fun _ => 3)).out = .ok ("[]".toUTF8.toList ++ [10])

-- READMECHN.md:3447-3462
#guard ((do
    let out : Bytes := []
    let A ← newAllocator
    let t1 ← newValue A
    let v : Option Addr := (some t1)
    let t2 ← callerText (b!"{\"key123\":123}" ++ [0])
    let json : Option SPtr := (some t2)
    let t3 ← deref v
    let t4 ← pointer json
    let t5 ← parseFast t3 t4
    let ret := t5
    check (decide (ret = true))
    let t6 ← deref v
    setObj t6
    let t7 ← deref v
    let t8 ← stringify F t7
    let v_str : Option SPtr := (some t8)
    check (!(v_str.isNone))
    let t9 ← text v_str
    let out : Bytes := out ++ t9 ++ [10]
    releaseAllocator A
    return out : M Bytes) (St.init fun _ => 3)).out = .ok ("{}".toUTF8.toList ++ [10])

-- READMECHN.md:3499-3516
#guard ((do
    let out : Bytes := []
    let A ← newAllocator
    let t1 ← newValue A
    let v : Option Addr := (some t1)
    let t2 ← callerText (b!"{\"key123\":123}" ++ [0])
    let json : Option SPtr := (some t2)
    let t3 ← deref v
    let t4 ← pointer json
    let t5 ← parseFast t3 t4
    let ret := t5
    check (decide (ret = true))
    let t6 ← newValue A
    let vv : Option Addr := (some t6)
    let t7 ← deref vv
    setArray t7
    let t8 ← deref v
    let t9 ← deref vv
    let t10 ← set F t8 t9
    let t11 ← deref v
    let t12 ← stringify F t11
    let v_str : Option SPtr := (some t12)
    check (!(v_str.isNone))
    let t13 ← text v_str
    let out : Bytes := out ++ t13 ++ [10]
    releaseAllocator A
    return out : M Bytes) (St.init fun _ => 3)).out = .ok ("[]".toUTF8.toList ++ [10])

-- READMECHN.md:3553-3570
#guard ((do
    let out : Bytes := []
    let A ← newAllocator
    let t1 ← newValue A
    let v : Option Addr := (some t1)
    let t2 ← callerText (b!"{\"key123\":123}" ++ [0])
    let json : Option SPtr := (some t2)
    let t3 ← deref v
    let t4 ← pointer json
    let t5 ← parseFast t3 t4
    let ret := t5
    check (decide (ret = true))
    let t6 ← newValue A
    let vv : Option Addr := (some t6)
    let t7 ← deref vv
    setArray t7
    let t8 ← deref v
    let t9 ← deref vv
    let t10 ← setFast F t8 t9
    let t11 ← deref v
    let t12 ← stringify F t11
    let v_str : Option SPtr := (some t12)
    check (!(v_str.isNone))
    let t13 ← text v_str
    let out : Bytes := out ++ t13 ++ [10]
    releaseAllocator A
    return out : M Bytes) (St.init fun _ => 3)).out = .ok ("[]".toUTF8.toList ++ [10])

-- READMECHN.md:3607-3625
#guard ((do
    let out : Bytes := []
    let A ← newAllocator
    let t1 ← newValue A
    let v : Option Addr := (some t1)
    let t2 ← callerText (b!"{\"key123\":123}" ++ [0])
    let json : Option SPtr := (some t2)
    let t3 ← deref v
    let t4 ← pointer json
    let t5 ← parseFast t3 t4
    let ret := t5
    check (decide (ret = true))
    let t6 ← newValue A
    let vv : Option Addr := (some t6)
    let t7 ← deref vv
    let t8 ← callerText (b!"key234" ++ [0])
    let t9 ← setKeyC t7 t8
    let t10 ← deref vv
    let t11 ← callerText (b!"234" ++ [0])
    let t12 ← setNumStr t10 t11
    let t13 ← deref v
    let t14 ← deref vv
    let t15 ← objAdd F t13 t14
    let t16 ← deref v
    let t17 ← stringify F t16
    let v_str : Option SPtr := (some t17)
    check (!(v_str.isNone))
    let t18 ← text v_str
    let out : Bytes := out ++ t18 ++ [10]
    releaseAllocator A
    return out : M Bytes) (St.init fun _ => 3)).out = .ok ("{\"key123\":123,\"key234\":234}".toUTF8.toList ++ [10])

-- READMECHN.md:3663-3681
#guard ((do
    let out : Bytes := []
    let A ← newAllocator
    let t1 ← newValue A
    let v : Option Addr := (some t1)
    let t2 ← callerText (b!"{\"key123\":123}" ++ [0])
    let json : Option SPtr := (some t2)
    let t3 ← deref v
    let t4 ← pointer json
    let t5 ← parseFast t3 t4
    let ret := t5
    check (decide (ret = true))
    let t6 ← newValue A
    let vv : Option Addr := (some t6)
    let t7 ← deref vv
    let t8 ← callerText (b!"key234" ++ [0])
    let t9 ← setKeyC t7 t8
    let t10 ← deref vv
    let t11 ← callerText (b!"234" ++ [0])
    let t12 ← setNumStr t10 t11
    let t13 ← deref v
    let t14 ← deref vv
    let t15 ← objAddFast t13 t14
    let t16 ← deref v
    let t17 ← stringify F t16
    let v_str : Option SPtr := (some t17)
    check (!(v_str.isNone))
    let t18 ← text v_str
    let out : Bytes := out ++ t18 ++ [10]
    releaseAllocator A
    return out : M Bytes) (St.init fun _ => 3)).out = .ok ("{\"key123\":123,\"key234\":234}".toUTF8.toList ++ [10])

-- READMECHN.md:3718-3735
#guard ((do
    let out : Bytes := []
    let A ← newAllocator
    let t1 ← newValue A
    let v : Option Addr := (some t1)
    let t2 ← callerText (b!"[1,2,3]" ++ [0])
    let json : Option SPtr := (some t2)
    let t3 ← deref v
    let t4 ← pointer json
    let t5 ← parseFast t3 t4
    let ret := t5
    check (decide (ret = true))
    let t6 ← newValue A
    let vv : Option Addr := (some t6)
    let t7 ← deref vv
    let t8 ← callerText (b!"4" ++ [0])
    let t9 ← setNumStr t7 t8
    let t10 ← deref v
    let t11 ← deref vv
    let t12 ← arrayAdd F t10 t11
    let t13 ← deref v
    let t14 ← stringify F t13
    let v_str : Option SPtr := (some t14)
    check (!(v_str.isNone))
    let t15 ← text v_str
    let out : Bytes := out ++ t15 ++ [10]
    releaseAllocator A
    return out : M Bytes) (St.init fun _ => 3)).out = .ok ("[1,2,3,4]".toUTF8.toList ++ [10])

-- READMECHN.md:3773-3790
#guard ((do
    let out : Bytes := []
    let A ← newAllocator
    let t1 ← newValue A
    let v : Option Addr := (some t1)
    let t2 ← callerText (b!"[1,2,3]" ++ [0])
    let json : Option SPtr := (some t2)
    let t3 ← deref v
    let t4 ← pointer json
    let t5 ← parseFast t3 t4
    let ret := t5
    check (decide (ret = true))
    let t6 ← newValue A
    let vv : Option Addr := (some t6)
    let t7 ← deref vv
    let t8 ← callerText (b!"4" ++ [0])
    let t9 ← setNumStr t7 t8
    let t10 ← deref v
    let t11 ← deref vv
    let t12 ← arrayAddFast t10 t11
    let t13 ← deref v
    let t14 ← stringify F t13
    let v_str : Option SPtr := (some t14)
    check (!(v_str.isNone))
    let t15 ← text v_str
    let out : Bytes := out ++ t15 ++ [10]
    releaseAllocator A
    return out : M Bytes) (St.init fun _ => 3)).out = .ok ("[1,2,3,4]".toUTF8.toList ++ [10])

-- READMECHN.md:3827-3842
#guard ((do
    let out : Bytes := []
    let A ← newAllocator
    let t1 ← newValue A
    let v : Option Addr := (some t1)
    let t2 ← callerText (b!"[1,2,3]" ++ [0])
    let json : Option SPtr := (some t2)
    let t3 ← deref v
    let t4 ← pointer json
    let t5 ← parseFast t3 t4
    let ret := t5
    check (decide (ret = true))
    let t6 ← deref v
    let t7 ← arrayDel F t6 1
    let t8 ← deref v
    let t9 ← stringify F t8
    let v_str : Option SPtr := (some t9)
    check (!(v_str.isNone))
    let t10 ← text v_str
    let out : Bytes := out ++ t10 ++ [10]
    releaseAllocator A
    return out : M Bytes) (St.init fun _ => 3)).out = .ok ("[1,3]".toUTF8.toList ++ [10])

-- READMECHN.md:3879-3894
#guard ((do
    let out : Bytes := []
    let A ← newAllocator
    let t1 ← newValue A
    let v : Option Addr := (some t1)
    let t2 ← callerText (b!"{\"key123\":123}" ++ [0])
    let json : Option SPtr := (some t2)
    let t3 ← deref v
    let t4 ← pointer json
    let t5 ← parseFast t3 t4
    let ret := t5
    check (decide (ret = true))
    let t6 ← deref v
    let t7 ← callerText (b!"key123" ++ [0])
    let t8 ← objDel F t6 t7
    let t9 ← deref v
    let t10 ← stringify F t9
    let v_str : Option SPtr := (some t10)
    check (!(v_str.isNone))
    let t11 ← text v_str
    let out : Bytes := out ++ t11 ++ [10]
    releaseAllocator A
    return out : M Bytes) (St.init fun _ => 3)).out = .ok ("{}".toUTF8.toList ++ [10])

-- READMECHN.md:3930-3948
#guard ((do
    let out : Bytes := []
    let A ← newAllocator
    let t1 ← newValue A
    let v : Option Addr := (some t1)
    let t2 ← callerText (b!"[123,456,789]" ++ [0])
    let json : Option SPtr := (some t2)
    let t3 ← deref v
    let t4 ← pointer json
    let t5 ← parseFast t3 t4
    let ret := t5
    check (decide (ret = true))
    let t6 ← deref v
    let t7 ← arrayGet F t6 1
    let vv : Option Addr := t7
    let t8 ← deref vv
    let t9 ← move t8
    let t10 ← deref v
    let t11 ← stringify F t10
    let v_str : Option SPtr := (some t11)
    let t12 ← deref vv
    let t13 ← stringify F t12
    let vv_str : Option SPtr := (some t13)
    check (!(v_str.isNone))
    let t14 ← text v_str
    let out : Bytes := out ++ t14 ++ [10]
    check (!(vv_str.isNone))
    let t15 ← text vv_str
    let out : Bytes := out ++ t15 ++ [10]
    releaseAllocator A
    return out : M Bytes) (St.init fun _ => 3)).out = .ok ("[123,789]\n456".toUTF8.toList ++ [10])

end ZJ.RepoTest
