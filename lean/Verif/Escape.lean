import Verif.Heap

/-
Model of the escape and unescape functions (zzzjson.h:872-1151).
-/

namespace ZJ

/-- zzzjson.h:872-878 `zj_hexCodePointForUnEscape`; the last subtraction is done in
`int` and converted to uint32_t. (For bytes from 0x80 up a signed `char` would give
another value; such bytes never reach this function on validated strings.) -/
def hexCodePointU (c : Byte) : Nat :=
  if 0x30 ≤ c ∧ c ≤ 0x39 then c.toNat - 0x30
  else if 0x41 ≤ c ∧ c ≤ 0x46 then c.toNat - 0x41 + 10
  else (2 ^ 32 + c.toNat - 0x61 + 10) % 2 ^ 32

/-- zzzjson.h:894-900 `zj_consumeHexOneForUnEscape` (uint32_t arithmetic). -/
def consumeHexOneU (s : Bytes) (i cp : Nat) : Res (Nat × Nat) := do
  let c ← rd s i
  pure (i + 1, (cp * 16 + hexCodePointU c) % 2 ^ 32)

/-- zzzjson.h:914-921 `zj_consumeHexForUnEscape`. -/
def consumeHexU (s : Bytes) (i cp : Nat) : Res (Nat × Nat) := do
  let (i, cp) ← consumeHexOneU s i cp
  let (i, cp) ← consumeHexOneU s i cp
  let (i, cp) ← consumeHexOneU s i cp
  consumeHexOneU s i cp

/-- The bytes written by zzzjson.h:935-952 `zj_addUTF8`; the cast to `char` keeps the
low eight bits. -/
def utf8Bytes (cp : Nat) : Bytes :=
  if cp ≤ 0x7F then [(cp &&& 0xFF).toUInt8]
  else if cp ≤ 0x7FF then
    [(0xC0 ||| ((cp >>> 6) &&& 0xFF)).toUInt8, (0x80 ||| (cp &&& 0x3F)).toUInt8]
  else if cp ≤ 0xFFFF then
    [(0xE0 ||| ((cp >>> 12) &&& 0xFF)).toUInt8, (0x80 ||| ((cp >>> 6) &&& 0x3F)).toUInt8,
      (0x80 ||| (cp &&& 0x3F)).toUInt8]
  else
    [(0xF0 ||| ((cp >>> 18) &&& 0xFF)).toUInt8, (0x80 ||| ((cp >>> 12) &&& 0x3F)).toUInt8,
      (0x80 ||| ((cp >>> 6) &&& 0x3F)).toUInt8, (0x80 ||| (cp &&& 0x3F)).toUInt8]

/-- `zj_add` / `zj_addUTF8` / `zj_addEnd` (zzzjson.h:924-955): append to an output
block of `cap` bytes of which `out` is written. -/
def addOut (cap : Nat) (out : Bytes) (b : Bytes) : Res Bytes :=
  if out.length + b.length ≤ cap then .ok (out ++ b) else .ub .oob

/-- The cases of the switch at zzzjson.h:966-1006: what is appended for `\c`. -/
def unescLetter (c : Byte) : Option Byte :=
  if c = 0x22 then some 0x22
  else if c = 0x5C then some 0x5C
  else if c = 0x62 then some 0x08
  else if c = 0x66 then some 0x0C
  else if c = 0x6E then some 0x0A
  else if c = 0x72 then some 0x0D
  else if c = 0x74 then some 0x09
  else if c = 0x2F then some 0x2F
  else none

/-- zzzjson.h:1016: the pair combined, in uint32_t arithmetic. -/
def surrogatePair (cp cp1 : Nat) : Nat :=
  ((((cp - 0xD800) <<< 10) ||| ((2 ^ 32 + cp1 - 0xDC00) % 2 ^ 32)) + 0x10000) % 2 ^ 32

/-- zzzjson.h:961-1026, the loop of `zj_unEscapeStr`. `s` are the bytes readable
through `str`. An unknown escape leaves `index` where it is (no `default` case), so
the loop does not end. -/
def unEscapeLoop (s : Bytes) (len cap : Nat) : Nat → Nat → Bytes → Res Bytes
  | 0, _, _ => .timeout
  | fuel + 1, i, out =>
    if i < len then do
      let c ← rd s i
      if c = 0x5C then
        let c ← rd s (i + 1)
        match unescLetter c with
        | some x =>
          let out ← addOut cap out [x]
          unEscapeLoop s len cap fuel (i + 2) out
        | none =>
          if c = 0x75 then
            let (i, cp) ← consumeHexU s (i + 2) 0
            if 0xD800 ≤ cp ∧ cp ≤ 0xDBFF then
              let (i, cp1) ← consumeHexU s (i + 2) 0
              let out ← addOut cap out (utf8Bytes (surrogatePair cp cp1))
              unEscapeLoop s len cap fuel i out
            else
              let out ← addOut cap out (utf8Bytes cp)
              unEscapeLoop s len cap fuel i out
          else unEscapeLoop s len cap fuel i out
      else
        let out ← addOut cap out [c]
        unEscapeLoop s len cap fuel (i + 1) out
    else .ok out

/-- zzzjson.h:957-1029 `zj_unEscapeStr(str, len, s)` with an output block of `cap`
bytes: the bytes written, the terminating NUL included. -/
def unEscapeStr (s : Bytes) (len cap : Nat) : Res Bytes := do
  let out ← unEscapeLoop s len cap (len + 1) 0 []
  addOut cap out [0]

/-- zzzjson.h:1036-1106 `zj_escapeChars`: text and `Len` of every entry, transcribed by
`tools/gen_escape.py`. -/
def escapeTable : List (Bytes × Nat) := [
  ([0x5C, 0x75, 0x30, 0x30, 0x30, 0x30], 6), ([0x5C, 0x75, 0x30, 0x30, 0x30, 0x31], 6), ([0x5C, 0x75, 0x30, 0x30, 0x30, 0x32], 6), ([0x5C, 0x75, 0x30, 0x30, 0x30, 0x33], 6),
  ([0x5C, 0x75, 0x30, 0x30, 0x30, 0x34], 6), ([0x5C, 0x75, 0x30, 0x30, 0x30, 0x35], 6), ([0x5C, 0x75, 0x30, 0x30, 0x30, 0x36], 6), ([0x5C, 0x75, 0x30, 0x30, 0x30, 0x37], 6),
  ([0x5C, 0x62], 2), ([0x5C, 0x74], 2), ([0x5C, 0x6E], 2), ([0x5C, 0x75, 0x30, 0x30, 0x30, 0x62], 6),
  ([0x5C, 0x66], 2), ([0x5C, 0x72], 2), ([0x5C, 0x75, 0x30, 0x30, 0x30, 0x65], 6), ([0x5C, 0x75, 0x30, 0x30, 0x30, 0x66], 6),
  ([0x5C, 0x75, 0x30, 0x30, 0x31, 0x30], 6), ([0x5C, 0x75, 0x30, 0x30, 0x31, 0x31], 6), ([0x5C, 0x75, 0x30, 0x30, 0x31, 0x32], 6), ([0x5C, 0x75, 0x30, 0x30, 0x31, 0x33], 6),
  ([0x5C, 0x75, 0x30, 0x30, 0x31, 0x34], 6), ([0x5C, 0x75, 0x30, 0x30, 0x31, 0x35], 6), ([0x5C, 0x75, 0x30, 0x30, 0x31, 0x36], 6), ([0x5C, 0x75, 0x30, 0x30, 0x31, 0x37], 6),
  ([0x5C, 0x75, 0x30, 0x30, 0x31, 0x38], 6), ([0x5C, 0x75, 0x30, 0x30, 0x31, 0x39], 6), ([0x5C, 0x75, 0x30, 0x30, 0x31, 0x61], 6), ([0x5C, 0x75, 0x30, 0x30, 0x31, 0x62], 6),
  ([0x5C, 0x75, 0x30, 0x30, 0x31, 0x63], 6), ([0x5C, 0x75, 0x30, 0x30, 0x31, 0x64], 6), ([0x5C, 0x75, 0x30, 0x30, 0x31, 0x65], 6), ([0x5C, 0x75, 0x30, 0x30, 0x31, 0x66], 6),
  ([0x20], 1), ([0x21], 1), ([0x5C, 0x22], 2), ([0x23], 1),
  ([0x24], 1), ([0x25], 1), ([0x26], 1), ([0x27], 1),
  ([0x28], 1), ([0x29], 1), ([0x2A], 1), ([0x2B], 1),
  ([0x2C], 1), ([0x2D], 1), ([0x2E], 1), ([0x2F], 1),
  ([0x30], 1), ([0x31], 1), ([0x32], 1), ([0x33], 1),
  ([0x34], 1), ([0x35], 1), ([0x36], 1), ([0x37], 1),
  ([0x38], 1), ([0x39], 1), ([0x3A], 1), ([0x3B], 1),
  ([0x3C], 1), ([0x3D], 1), ([0x3E], 1), ([0x3F], 1),
  ([0x40], 1), ([0x41], 1), ([0x42], 1), ([0x43], 1),
  ([0x44], 1), ([0x45], 1), ([0x46], 1), ([0x47], 1),
  ([0x48], 1), ([0x49], 1), ([0x4A], 1), ([0x4B], 1),
  ([0x4C], 1), ([0x4D], 1), ([0x4E], 1), ([0x4F], 1),
  ([0x50], 1), ([0x51], 1), ([0x52], 1), ([0x53], 1),
  ([0x54], 1), ([0x55], 1), ([0x56], 1), ([0x57], 1),
  ([0x58], 1), ([0x59], 1), ([0x5A], 1), ([0x5B], 1),
  ([0x5C, 0x5C], 2), ([0x5D], 1), ([0x5E], 1), ([0x5F], 1),
  ([0x60], 1), ([0x61], 1), ([0x62], 1), ([0x63], 1),
  ([0x64], 1), ([0x65], 1), ([0x66], 1), ([0x67], 1),
  ([0x68], 1), ([0x69], 1), ([0x6A], 1), ([0x6B], 1),
  ([0x6C], 1), ([0x6D], 1), ([0x6E], 1), ([0x6F], 1),
  ([0x70], 1), ([0x71], 1), ([0x72], 1), ([0x73], 1),
  ([0x74], 1), ([0x75], 1), ([0x76], 1), ([0x77], 1),
  ([0x78], 1), ([0x79], 1), ([0x7A], 1), ([0x7B], 1),
  ([0x7C], 1), ([0x7D], 1), ([0x7E], 1), ([0x7F], 1),
  ([0x80], 1), ([0x81], 1), ([0x82], 1), ([0x83], 1),
  ([0x84], 1), ([0x85], 1), ([0x86], 1), ([0x87], 1),
  ([0x88], 1), ([0x89], 1), ([0x8A], 1), ([0x8B], 1),
  ([0x8C], 1), ([0x8D], 1), ([0x8E], 1), ([0x8F], 1),
  ([0x90], 1), ([0x91], 1), ([0x92], 1), ([0x93], 1),
  ([0x94], 1), ([0x95], 1), ([0x96], 1), ([0x97], 1),
  ([0x98], 1), ([0x99], 1), ([0x9A], 1), ([0x9B], 1),
  ([0x9C], 1), ([0x9D], 1), ([0x9E], 1), ([0x9F], 1),
  ([0xA0], 1), ([0xA1], 1), ([0xA2], 1), ([0xA3], 1),
  ([0xA4], 1), ([0xA5], 1), ([0xA6], 1), ([0xA7], 1),
  ([0xA8], 1), ([0xA9], 1), ([0xAA], 1), ([0xAB], 1),
  ([0xAC], 1), ([0xAD], 1), ([0xAE], 1), ([0xAF], 1),
  ([0xB0], 1), ([0xB1], 1), ([0xB2], 1), ([0xB3], 1),
  ([0xB4], 1), ([0xB5], 1), ([0xB6], 1), ([0xB7], 1),
  ([0xB8], 1), ([0xB9], 1), ([0xBA], 1), ([0xBB], 1),
  ([0xBC], 1), ([0xBD], 1), ([0xBE], 1), ([0xBF], 1),
  ([0xC0], 1), ([0xC1], 1), ([0xC2], 1), ([0xC3], 1),
  ([0xC4], 1), ([0xC5], 1), ([0xC6], 1), ([0xC7], 1),
  ([0xC8], 1), ([0xC9], 1), ([0xCA], 1), ([0xCB], 1),
  ([0xCC], 1), ([0xCD], 1), ([0xCE], 1), ([0xCF], 1),
  ([0xD0], 1), ([0xD1], 1), ([0xD2], 1), ([0xD3], 1),
  ([0xD4], 1), ([0xD5], 1), ([0xD6], 1), ([0xD7], 1),
  ([0xD8], 1), ([0xD9], 1), ([0xDA], 1), ([0xDB], 1),
  ([0xDC], 1), ([0xDD], 1), ([0xDE], 1), ([0xDF], 1),
  ([0xE0], 1), ([0xE1], 1), ([0xE2], 1), ([0xE3], 1),
  ([0xE4], 1), ([0xE5], 1), ([0xE6], 1), ([0xE7], 1),
  ([0xE8], 1), ([0xE9], 1), ([0xEA], 1), ([0xEB], 1),
  ([0xEC], 1), ([0xED], 1), ([0xEE], 1), ([0xEF], 1),
  ([0xF0], 1), ([0xF1], 1), ([0xF2], 1), ([0xF3], 1),
  ([0xF4], 1), ([0xF5], 1), ([0xF6], 1), ([0xF7], 1),
  ([0xF8], 1), ([0xF9], 1), ([0xFA], 1), ([0xFB], 1),
  ([0xFC], 1), ([0xFD], 1), ([0xFE], 1), ([0xFF], 1)]

/-- The bytes `zj_addLen(s, &index, e.Str, e.Len)` copies for character `c`
(`Str` is NUL-terminated). -/
def escapeEntry (c : Byte) : Res Bytes :=
  match escapeTable[c.toNat]? with
  | some (t, n) => if n ≤ t.length + 1 then .ok ((t ++ [0]).take n) else .ub .oob
  | none => .ub .oob

/-- `zj_escapeChars[c].Len` -/
def escapeLen (c : Byte) : Res Nat :=
  match escapeTable[c.toNat]? with
  | some (_, n) => .ok n
  | none => .ub .oob

/-- First loop of zzzjson.h:1109-1126 `zj_escapeStr` (1112-1115): total length. -/
def escLenLoop : Bytes → Nat → Res Nat
  | [], _ => .ub .oob
  | c :: r, l => if c = 0 then .ok l else do
    let n ← escapeLen c
    escLenLoop r (l + n)

/-- Second loop of `zj_escapeStr` (zzzjson.h:1119-1123), writing into `cap` bytes. -/
def escOutLoop (cap : Nat) : Bytes → Bytes → Res Bytes
  | [], _ => .ub .oob
  | c :: r, out => if c = 0 then .ok out else do
    let e ← escapeEntry c
    let out ← addOut cap out e
    escOutLoop cap r out

/-- zzzjson.h:1109-1126 `zj_escapeStr`: size of the block allocated and the bytes
written to it. -/
def escapeStr (s : Bytes) : Res (Nat × Bytes) := do
  let len ← escLenLoop s 0
  let out ← escOutLoop (len + 1) s []
  let out ← addOut (len + 1) out [0]
  pure (len + 1, out)

/-- First loop of zzzjson.h:1129-1151 `zj_escapeStrLen` (1134-1138). -/
def escLenLoopN : Nat → Bytes → Nat → Res Nat
  | 0, _, l => .ok l
  | _ + 1, [], _ => .ub .oob
  | k + 1, c :: r, l => do
    let n ← escapeLen c
    escLenLoopN k r (l + n)

/-- Second loop of `zj_escapeStrLen` (zzzjson.h:1143-1148). -/
def escOutLoopN (cap : Nat) : Nat → Bytes → Bytes → Res Bytes
  | 0, _, out => .ok out
  | _ + 1, [], _ => .ub .oob
  | k + 1, c :: r, out => do
    let e ← escapeEntry c
    let out ← addOut cap out e
    escOutLoopN cap k r out

/-- zzzjson.h:1129-1151 `zj_escapeStrLen`. -/
def escapeStrLen (s : Bytes) (n : Nat) : Res (Nat × Bytes) := do
  let len ← escLenLoopN n s 0
  let out ← escOutLoopN (len + 1) n s []
  let out ← addOut (len + 1) out [0]
  pure (len + 1, out)

end ZJ
