import Verif.Basic

/-
Model of the scanning functions of zzzjson.h (765-921 and 1154-1388).

A text argument `const char *s` is the list `s` of the bytes that can be read
through it, the terminating NUL included; `index` is an index into that list.
Reading at or beyond the end of the list is undefined behaviour (`UB.oob`).
Indices are natural numbers (zj_Size is uint32_t: texts are assumed to be shorter
than 2^32 bytes). Functions that move `*index` return the new index.
Loops carry fuel; every caller passes `s.length + 1` (proved sufficient).
-/

namespace ZJ

/-- `s[i]` -/
def rd (s : Bytes) (i : Nat) : Res Byte :=
  match s[i]? with
  | some c => .ok c
  | none => .ub .oob

/-- zzzjson.h:765-771 `zj_skin`. -/
def skin (c : Byte) : Bool := c = 0x20 || c = 0x09 || c = 0x0A || c = 0x0D

/-- The loop `while (zj_skin(s[*index])) ++(*index);` of zzzjson.h:775-776,
812-813, 824-825. -/
def skipLoop (s : Bytes) : Nat → Nat → Res Nat
  | 0, _ => .timeout
  | fuel + 1, i => do
    let c ← rd s i
    if skin c then skipLoop s fuel (i + 1) else pure i

def skip (s : Bytes) (i : Nat) : Res Nat := skipLoop s (s.length + 1) i

/-- zzzjson.h:774-778 `zj_peek`: next non-blank character, and the index after it. -/
def peek (s : Bytes) (i : Nat) : Res (Byte × Nat) := do
  let i ← skip s i
  let c ← rd s i
  pure (c, i + 1)

/-- zzzjson.h:781-807 `zj_consume`, `zj_likelyConsume`, `zj_unLikelyConsume`
(they differ only in the branch hint). -/
def consume (c : Byte) (s : Bytes) (i : Nat) : Res (Bool × Nat) := do
  let x ← rd s i
  if x = c then pure (true, i + 1) else pure (false, i)

/-- zzzjson.h:810-831 `zj_likelyPeekAndConsume`, `zj_unLikelyPeekAndConsume`. -/
def peekAndConsume (c : Byte) (s : Bytes) (i : Nat) : Res (Bool × Nat) := do
  let i ← skip s i
  let x ← rd s i
  if x = c then pure (true, i + 1) else pure (false, i)

/-- The 4-byte load and compare `*((uint32_t *)w) == *((uint32_t *)(s + i))`.
`lim` is the number of bytes that may be read through `s` (at least `s.length`;
bytes from `s.length` on are unknown). The load is undefined if it leaves that
range, and the comparison if it would depend on an unknown byte. -/
def load4Eq (w : Bytes) (s : Bytes) (lim i : Nat) : Res Bool :=
  if i + 4 ≤ lim then
    let known := (s.drop i).take 4
    if known = w then .ok true
    else if known.isPrefixOf w then .ub .uninit
    else .ok false
  else .ub .oob

/-- zzzjson.h:834-840 `zj_consumeFalse` (the `f` is already consumed). -/
def consumeFalse (s : Bytes) (lim i : Nat) : Res (Bool × Nat) := do
  if ← load4Eq b!"alse" s lim i then pure (true, i + 4) else pure (false, i)

/-- zzzjson.h:843-849 `zj_consumeTrue` (compares from the `t` on). -/
def consumeTrue (s : Bytes) (lim i : Nat) : Res (Bool × Nat) := do
  if ← load4Eq b!"true" s lim (i - 1) then pure (true, i + 3) else pure (false, i)

/-- zzzjson.h:852-858 `zj_consumeNull` (compares from the `n` on). -/
def consumeNull (s : Bytes) (lim i : Nat) : Res (Bool × Nat) := do
  if ← load4Eq b!"null" s lim (i - 1) then pure (true, i + 3) else pure (false, i)

/-- zzzjson.h:861-869 `zj_hexCodePoint`. -/
def hexCodePoint (c : Byte) : Nat :=
  if 0x30 ≤ c ∧ c ≤ 0x39 then c.toNat - 0x30
  else if 0x41 ≤ c ∧ c ≤ 0x46 then c.toNat - 0x41 + 10
  else if 0x61 ≤ c ∧ c ≤ 0x66 then c.toNat - 0x61 + 10
  else 16

/-- zzzjson.h:881-891 `zj_consumeHexOne`: (success, new index, new code point). -/
def consumeHexOne (s : Bytes) (i cp : Nat) : Res (Bool × Nat × Nat) := do
  let c ← rd s i
  let tcp := hexCodePoint c
  if tcp < 16 then pure (true, i + 1, cp * 16 + tcp) else pure (false, i, cp)

/-- zzzjson.h:903-911 `zj_consumeHex`. -/
def consumeHex (s : Bytes) (i cp : Nat) : Res (Bool × Nat × Nat) := do
  let (ok, i, cp) ← consumeHexOne s i cp
  if !ok then return (false, i, cp)
  let (ok, i, cp) ← consumeHexOne s i cp
  if !ok then return (false, i, cp)
  let (ok, i, cp) ← consumeHexOne s i cp
  if !ok then return (false, i, cp)
  consumeHexOne s i cp

/-- The cases `"` `\` `b` `f` `n` `r` `t` `/` of the switches at zzzjson.h:1163-1170
and 1225-1232. -/
def isEscLetter (c : Byte) : Bool :=
  c = 0x22 || c = 0x5C || c = 0x62 || c = 0x66 || c = 0x6E || c = 0x72 || c = 0x74 || c = 0x2F

/-- zzzjson.h:1157-1209, the loop of `zj_consumeStr`; `c` is the current character,
`i` the index after it. -/
def consumeStrLoop (s : Bytes) : Nat → Byte → Nat → Res (Bool × Nat)
  | 0, _, _ => .timeout
  | fuel + 1, c, i =>
    if c = 0 then pure (false, i)
    else if c ≤ 0x1f then pure (false, i)
    else if c = 0x5C then do
      let c ← rd s i
      let i := i + 1
      if isEscLetter c then
        let c ← rd s i
        consumeStrLoop s fuel c (i + 1)
      else if c = 0x75 then
        let (ok, i, cp) ← consumeHex s i 0
        if !ok then return (false, i)
        if 0xDC00 ≤ cp ∧ cp ≤ 0xDFFF then return (false, i)
        if 0xD800 ≤ cp ∧ cp ≤ 0xDBFF then
          let (ok, i) ← consume 0x5C s i
          if !ok then return (false, i)
          let (ok, i) ← consume 0x75 s i
          if !ok then return (false, i)
          let (ok, i, cp2) ← consumeHex s i 0
          if !ok then return (false, i)
          if cp2 < 0xDC00 ∨ cp2 > 0xDFFF then return (false, i)
          let c ← rd s i
          consumeStrLoop s fuel c (i + 1)
        else
          let c ← rd s i
          consumeStrLoop s fuel c (i + 1)
      else pure (false, i)
    else if c = 0x22 then pure (true, i)
    else do
      let c ← rd s i
      consumeStrLoop s fuel c (i + 1)

/-- zzzjson.h:1154-1210 `zj_consumeStr` (after the opening quote). -/
def consumeStr (s : Bytes) (i : Nat) : Res (Bool × Nat) := do
  let c ← rd s i
  consumeStrLoop s (s.length + 1) c (i + 1)

/-- zzzjson.h:1217-1269, the loop of `zj_checkStr`: `some len` is "return true with
`*len = len`". Note the bound `0xDFFFF` of line 1240. -/
def checkStrLoop (s : Bytes) : Nat → Byte → Nat → Res (Option Nat)
  | 0, _, _ => .timeout
  | fuel + 1, c, i =>
    if c = 0 then pure (some (i - 1))
    else if c ≤ 0x1f ∨ c = 0x22 then pure none
    else if c = 0x5C then do
      let c ← rd s i
      let i := i + 1
      if isEscLetter c then
        let c ← rd s i
        checkStrLoop s fuel c (i + 1)
      else if c = 0x75 then
        let (ok, i, cp) ← consumeHex s i 0
        if !ok then return none
        if 0xDC00 ≤ cp ∧ cp ≤ 0xDFFFF then return none
        if 0xD800 ≤ cp ∧ cp ≤ 0xDBFF then
          let (ok, i) ← consume 0x5C s i
          if !ok then return none
          let (ok, i) ← consume 0x75 s i
          if !ok then return none
          let (ok, i, cp2) ← consumeHex s i 0
          if !ok then return none
          if cp2 < 0xDC00 ∨ cp2 > 0xDFFF then return none
          let c ← rd s i
          checkStrLoop s fuel c (i + 1)
        else
          let c ← rd s i
          checkStrLoop s fuel c (i + 1)
      else pure none
    else do
      let c ← rd s i
      checkStrLoop s fuel c (i + 1)

/-- zzzjson.h:1213-1270 `zj_checkStr`. -/
def checkStr (s : Bytes) : Res (Option Nat) := do
  let c ← rd s 0
  checkStrLoop s (s.length + 1) c 1

/-- `c >= '0' && c <= '9'` -/
def cIsDigit (c : Byte) : Bool := 0x30 ≤ c && c ≤ 0x39

/-- `c = s[++(*index)]; while (c >= '0' && c <= '9') c = s[++(*index)];`
(zzzjson.h:1300-1303, 1311-1314, 1327-1330, 1349-1352, 1360-1363, 1378-1381),
entered with `i` the index to read next. -/
def digitLoop (s : Bytes) : Nat → Nat → Res Nat
  | 0, _ => .timeout
  | fuel + 1, i => do
    let c ← rd s i
    if cIsDigit c then digitLoop s fuel (i + 1) else pure i

/-- zzzjson.h:1297-1306 (and 1346-1355): the integer part. `none` = return false. -/
def numInt (s : Bytes) (i : Nat) : Res (Option Nat) := do
  let (ok, i) ← consume 0x30 s i
  if ok then return some i
  let c ← rd s i
  if 0x31 ≤ c ∧ c ≤ 0x39 then
    let i ← digitLoop s (s.length + 1) (i + 1)
    return some i
  return none

/-- zzzjson.h:1308-1318 (and 1357-1367): the optional fraction. -/
def numFrac (s : Bytes) (i : Nat) : Res (Option Nat) := do
  let (ok, i) ← consume 0x2E s i
  if !ok then return some i
  let c ← rd s i
  if cIsDigit c then
    let i ← digitLoop s (s.length + 1) (i + 1)
    return some i
  return none

/-- zzzjson.h:1320-1334 (and 1369-1385): the optional exponent. -/
def numExp (s : Bytes) (i : Nat) : Res (Option Nat) := do
  let e ← rd s i
  if e = 0x65 ∨ e = 0x45 then
    let c ← rd s (i + 1)
    let i := if c = 0x2D ∨ c = 0x2B then i + 2 else i + 1
    let c ← rd s i
    if cIsDigit c then
      let i ← digitLoop s (s.length + 1) (i + 1)
      return some i
    return none
  return some i

/-- The part shared by `zj_consumeNum` (zzzjson.h:1294-1336) and `zj_checkNum`
(zzzjson.h:1343-1385), which are the same text except for the spelling of the
exponent sign test. `none` = return false. -/
def scanNum (s : Bytes) (i : Nat) : Res (Option Nat) := do
  let c ← rd s i
  let i := if c = 0x2D then i + 1 else i
  match ← numInt s i with
  | none => return none
  | some i =>
    match ← numFrac s i with
    | none => return none
    | some i => numExp s i

/-- zzzjson.h:1291-1337 `zj_consumeNum`: starts one before `i`. On failure the final
index is not used by the caller. -/
def consumeNum (s : Bytes) (i : Nat) : Res (Option Nat) := scanNum s (i - 1)

/-- zzzjson.h:1340-1388 `zj_checkNum`: `some len` is "return true with `*len = len`". -/
def checkNum (s : Bytes) : Res (Option Nat) := do
  match ← scanNum s 0 with
  | none => return none
  | some i =>
    let (ok, _) ← consume 0 s i
    if ok then return some i else return none

end ZJ
