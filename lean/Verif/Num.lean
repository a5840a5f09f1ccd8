import Verif.Heap

/-
Model of the number conversions (zzzjson.h:372-408). The C library functions
`snprintf` and `atoi`/`atol`/`atoll` are modelled by what the C standard says about
them (LP64: int 32 bits, long and long long 64 bits); for `double` the conversions
are parameters (`FP`).
-/

namespace ZJ

/-- Decimal digits of `n`, most significant first (`fuel` bounds their number). -/
def decLoop : Nat → Nat → Bytes → Bytes
  | 0, _, acc => acc
  | fuel + 1, n, acc =>
    let acc := (48 + n % 10).toUInt8 :: acc
    if n < 10 then acc else decLoop fuel (n / 10) acc

/-- What `printf("%d")` prints for a non-negative number. -/
def decNat (n : Nat) : Bytes := decLoop (n + 1) n []

/-- What `printf("%d")`, `("%ld")`, `("%lld")` print. -/
def fmtInt : Int → Bytes
  | .ofNat n => decNat n
  | .negSucc n => 0x2D :: decNat (n + 1)

/-- `snprintf(buff, cap, ...)` producing `text`: bytes written and value returned. -/
def snprintf (cap : Nat) (text : Bytes) : Bytes × Nat := (text.take (cap - 1) ++ [0], text.length)

/-- zzzjson.h:393-396 `zj_intToStr` -/
def intToStr (n : Int) : Bytes × Nat := snprintf 12 (fmtInt n)
/-- zzzjson.h:397-400 `zj_longToStr` -/
def longToStr (n : Int) : Bytes × Nat := snprintf 24 (fmtInt n)
/-- zzzjson.h:401-404 `zj_longLongToStr` -/
def longLongToStr (n : Int) : Bytes × Nat := snprintf 24 (fmtInt n)

/-- The digits part of `atoi`: reads up to the first character that is not a digit. -/
def atoiDigits : Bytes → Nat → Res Nat
  | [], _ => .ub .oob
  | c :: r, acc =>
    if 0x30 ≤ c ∧ c ≤ 0x39 then atoiDigits r (acc * 10 + (c.toNat - 0x30)) else .ok acc

/-- `isspace` in the C locale. -/
def isSpaceC (c : Byte) : Bool := c = 0x20 || (0x09 ≤ c && c ≤ 0x0D)

/-- Optional sign and digits. -/
def atoiSigned (s : Bytes) : Res Int :=
  match s with
  | [] => .ub .oob
  | c :: r =>
    if c = 0x2D then do
      let n ← atoiDigits r 0
      pure (-(n : Int))
    else if c = 0x2B then do
      let n ← atoiDigits r 0
      pure (n : Int)
    else do
      let n ← atoiDigits s 0
      pure (n : Int)

/-- `atoi`/`atol`/`atoll` before the range check. -/
def atoiRaw (s : Bytes) : Res Int := atoiSigned (s.dropWhile isSpaceC)

/-- `atoi` (`bits = 32`), `atol`, `atoll` (`bits = 64`) on the readable bytes `s`; a
result out of range is undefined (C11 7.22.1p1). -/
def atoiBits (bits : Nat) (s : Bytes) : Res Int := do
  let n ← atoiRaw s
  if -(2 ^ (bits - 1) : Int) ≤ n ∧ n < 2 ^ (bits - 1) then pure n else .ub .overflow

/-- `char s[128] = {0}; memcpy(s, str, len);` -/
def stackCopy (t : Bytes) : Res Bytes :=
  if t.length ≤ 128 then .ok (t ++ List.replicate (128 - t.length) 0) else .ub .stackSmash

/-- zzzjson.h:372-376 `zj_strToInt` -/
def strToInt (p : SPtr) (len : Nat) : M Int := do
  let t ← readN p len
  let s ← lift (stackCopy t)
  lift (atoiBits 32 s)

/-- zzzjson.h:377-381 `zj_strToLong`: copies to `s`, then converts `str`. -/
def strToLong (p : SPtr) (len : Nat) : M Int := do
  let t ← readN p len
  let _ ← lift (stackCopy t)
  let (b, _) ← view p
  lift (atoiBits 64 b)

/-- zzzjson.h:382-386 `zj_strToLongLong` -/
def strToLongLong (p : SPtr) (len : Nat) : M Int := do
  let t ← readN p len
  let _ ← lift (stackCopy t)
  let (b, _) ← view p
  lift (atoiBits 64 b)

/-- The floating point conversions of the C library: `fmt d` is what
`printf("%.17g", d)` prints, `conv t` what `strtod` makes of the text `t`. -/
structure FP (D : Type) where
  fmt : D → Bytes
  conv : Bytes → D

/-- zzzjson.h:405-408 `zj_doubleToStr` -/
def doubleToStr {D} (fp : FP D) (d : D) : Bytes × Nat := snprintf 32 (fp.fmt d)

/-- Characters that can occur in the text `atof` converts. -/
def isNumeralChar (c : Byte) : Bool :=
  (0x30 ≤ c && c ≤ 0x39) || (0x41 ≤ c && c ≤ 0x5A) || (0x61 ≤ c && c ≤ 0x7A) ||
    c = 0x2E || c = 0x2B || c = 0x2D

/-- The text `atof` looks at: up to the first character that cannot belong to a numeral. -/
def atofText : Bytes → Res Bytes
  | [] => .ub .oob
  | c :: r => if isNumeralChar c then do
      let t ← atofText r
      pure (c :: t)
    else .ok []

/-- zzzjson.h:387-391 `zj_strToDouble` -/
def strToDouble {D : Type} (fp : FP D) (p : SPtr) (len : Nat) : M D := do
  let t ← readN p len
  let _ ← lift (stackCopy t)
  let (b, _) ← view p
  let n ← lift (atofText b)
  pure (fp.conv n)

end ZJ
