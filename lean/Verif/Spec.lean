import Verif.Basic

/-
The specification side: JSON documents, the JSON grammar (RFC 8259) as an
inductive relation between documents and byte strings, and the compact printer.
Nothing here refers to the model of the code.
-/

namespace ZJ

/-- A JSON document. Numbers and strings keep their source text (`raw`): for a
string this is what stands between the quotes, escapes included. Objects are
ordered and may repeat a key. -/
inductive Json where
  | null
  | bool (b : Bool)
  | num (raw : Bytes)
  | str (raw : Bytes)
  | arr (xs : List Json)
  | obj (ms : List (Bytes × Json))

/-! ### Lexical grammar -/

/-- RFC 8259 section 2: `ws`. -/
def isWs (c : Byte) : Bool := c = 0x20 || c = 0x09 || c = 0x0A || c = 0x0D

def IsWs (b : Bytes) : Prop := ∀ c ∈ b, isWs c = true

/-- `DIGIT` -/
def isDigit (c : Byte) : Bool := 0x30 ≤ c && c ≤ 0x39

/-- `1*DIGIT` -/
def IsDigits (b : Bytes) : Prop := b ≠ [] ∧ ∀ c ∈ b, isDigit c = true

/-- `int = zero / ( digit1-9 *DIGIT )` -/
def IsInt (b : Bytes) : Prop :=
  b = [0x30] ∨ ∃ d ds, b = d :: ds ∧ 0x31 ≤ d ∧ d ≤ 0x39 ∧ ∀ c ∈ ds, isDigit c = true

/-- `[ frac ]`, `frac = decimal-point 1*DIGIT` -/
def IsFrac (b : Bytes) : Prop := b = [] ∨ ∃ ds, b = 0x2E :: ds ∧ IsDigits ds

/-- `[ exp ]`, `exp = e [ minus / plus ] 1*DIGIT` -/
def IsExp (b : Bytes) : Prop :=
  b = [] ∨ ∃ e sg ds, b = e :: (sg ++ ds) ∧ (e = 0x65 ∨ e = 0x45) ∧
    (sg = [] ∨ sg = [0x2B] ∨ sg = [0x2D]) ∧ IsDigits ds

/-- `number = [ minus ] int [ frac ] [ exp ]` -/
def IsNum (b : Bytes) : Prop :=
  ∃ m i f e, b = m ++ (i ++ (f ++ e)) ∧ (m = [] ∨ m = [0x2D]) ∧ IsInt i ∧ IsFrac f ∧ IsExp e

/-- Value of a hexadecimal digit. -/
def hexVal (c : Byte) : Option Nat :=
  if 0x30 ≤ c ∧ c ≤ 0x39 then some (c.toNat - 0x30)
  else if 0x41 ≤ c ∧ c ≤ 0x46 then some (c.toNat - 0x41 + 10)
  else if 0x61 ≤ c ∧ c ≤ 0x66 then some (c.toNat - 0x61 + 10)
  else none

/-- `4HEXDIG`, with its value. -/
def Hex4 (a b c d : Byte) (n : Nat) : Prop :=
  ∃ x y z w, hexVal a = some x ∧ hexVal b = some y ∧ hexVal c = some z ∧ hexVal d = some w ∧
    n = x * 4096 + y * 256 + z * 16 + w

def IsHighSurrogate (n : Nat) : Prop := 0xD800 ≤ n ∧ n ≤ 0xDBFF
def IsLowSurrogate (n : Nat) : Prop := 0xDC00 ≤ n ∧ n ≤ 0xDFFF

/-- The two-character escapes: `\" \\ \/ \b \f \n \r \t`, with the byte each denotes. -/
def simpleEscape (c : Byte) : Option Byte :=
  if c = 0x22 then some 0x22
  else if c = 0x5C then some 0x5C
  else if c = 0x2F then some 0x2F
  else if c = 0x62 then some 0x08
  else if c = 0x66 then some 0x0C
  else if c = 0x6E then some 0x0A
  else if c = 0x72 then some 0x0D
  else if c = 0x74 then some 0x09
  else none

/-- `*char` of RFC 8259 section 7, on bytes: any byte from 0x20 up except `"` and
`\`, two-character escapes, and `\uXXXX`. The library's extra rule: surrogate
escapes must come as a pair, high then low. (The bytes of multi-byte UTF-8
characters are not checked further.) -/
inductive IsStrBody : Bytes → Prop where
  | nil : IsStrBody []
  | plain {c r} : 0x20 ≤ c → c ≠ 0x22 → c ≠ 0x5C → IsStrBody r → IsStrBody (c :: r)
  | esc {c x r} : simpleEscape c = some x → IsStrBody r → IsStrBody (0x5C :: c :: r)
  | uni {a b c d n r} : Hex4 a b c d n → ¬ IsHighSurrogate n → ¬ IsLowSurrogate n →
      IsStrBody r → IsStrBody (0x5C :: 0x75 :: a :: b :: c :: d :: r)
  | pair {a b c d n a' b' c' d' n' r} : Hex4 a b c d n → IsHighSurrogate n →
      Hex4 a' b' c' d' n' → IsLowSurrogate n' → IsStrBody r →
      IsStrBody (0x5C :: 0x75 :: a :: b :: c :: d :: 0x5C :: 0x75 :: a' :: b' :: c' :: d' :: r)

/-! ### Values and texts -/

mutual
/-- `JValue t b`: the bytes `b` are a JSON value denoting the document `t`. -/
inductive JValue : Json → Bytes → Prop where
  | null : JValue .null b!"null"
  | true : JValue (.bool true) b!"true"
  | false : JValue (.bool false) b!"false"
  | num {raw} : IsNum raw → JValue (.num raw) raw
  | str {raw} : IsStrBody raw → JValue (.str raw) (0x22 :: (raw ++ [0x22]))
  | arrNil {w} : IsWs w → JValue (.arr []) (0x5B :: (w ++ [0x5D]))
  | arr {xs b} : JElems xs b → JValue (.arr xs) (0x5B :: (b ++ [0x5D]))
  | objNil {w} : IsWs w → JValue (.obj []) (0x7B :: (w ++ [0x7D]))
  | obj {ms b} : JMembers ms b → JValue (.obj ms) (0x7B :: (b ++ [0x7D]))
/-- One or more array elements separated by commas, with whitespace around each. -/
inductive JElems : List Json → Bytes → Prop where
  | one {t w b w'} : IsWs w → JValue t b → IsWs w' → JElems [t] (w ++ (b ++ w'))
  | cons {t w b w' ts bs} : IsWs w → JValue t b → IsWs w' → JElems ts bs →
      JElems (t :: ts) (w ++ (b ++ (w' ++ 0x2C :: bs)))
/-- One or more object members separated by commas, with whitespace around each token. -/
inductive JMembers : List (Bytes × Json) → Bytes → Prop where
  | one {k t w w1 w2 b w'} : IsWs w → IsStrBody k → IsWs w1 → IsWs w2 → JValue t b → IsWs w' →
      JMembers [(k, t)] (w ++ (0x22 :: (k ++ (0x22 :: (w1 ++ (0x3A :: (w2 ++ (b ++ w'))))))))
  | cons {k t w w1 w2 b w' ts bs} : IsWs w → IsStrBody k → IsWs w1 → IsWs w2 → JValue t b →
      IsWs w' → JMembers ts bs →
      JMembers ((k, t) :: ts)
        (w ++ (0x22 :: (k ++ (0x22 :: (w1 ++ (0x3A :: (w2 ++ (b ++ (w' ++ 0x2C :: bs)))))))))
end

/-- `JSON-text = ws value ws` -/
def JText (t : Json) (b : Bytes) : Prop :=
  ∃ w v w', b = w ++ (v ++ w') ∧ IsWs w ∧ JValue t v ∧ IsWs w'

/-! ### Compact printer -/

mutual
/-- The text of a document without insignificant whitespace. -/
def Json.print : Json → Bytes
  | .null => b!"null"
  | .bool true => b!"true"
  | .bool false => b!"false"
  | .num raw => raw
  | .str raw => 0x22 :: (raw ++ [0x22])
  | .arr xs => 0x5B :: (Json.printElems xs ++ [0x5D])
  | .obj ms => 0x7B :: (Json.printMembers ms ++ [0x7D])
def Json.printElems : List Json → Bytes
  | [] => []
  | [t] => t.print
  | t :: ts => t.print ++ 0x2C :: Json.printElems ts
def Json.printMembers : List (Bytes × Json) → Bytes
  | [] => []
  | [(k, t)] => 0x22 :: (k ++ (0x22 :: 0x3A :: t.print))
  | (k, t) :: ts => 0x22 :: (k ++ (0x22 :: 0x3A :: t.print)) ++ 0x2C :: Json.printMembers ts
end

mutual
/-- All numbers, strings and keys of the document are well-formed JSON. -/
def Json.Valid : Json → Prop
  | .null => True
  | .bool _ => True
  | .num raw => IsNum raw
  | .str raw => IsStrBody raw
  | .arr xs => Json.ValidElems xs
  | .obj ms => Json.ValidMembers ms
def Json.ValidElems : List Json → Prop
  | [] => True
  | t :: ts => t.Valid ∧ Json.ValidElems ts
def Json.ValidMembers : List (Bytes × Json) → Prop
  | [] => True
  | (k, t) :: ts => IsStrBody k ∧ t.Valid ∧ Json.ValidMembers ts
end

mutual
/-- Bytes of the texts and nodes below a node: 72 for every node, and the texts of the
numbers, strings and keys. -/
def Json.held : Json → Nat
  | .null => 0
  | .bool _ => 0
  | .num raw => raw.length
  | .str raw => raw.length
  | .arr xs => Json.heldElems xs
  | .obj ms => Json.heldMembers ms
def Json.heldElems : List Json → Nat
  | [] => 0
  | t :: ts => 72 + t.held + Json.heldElems ts
def Json.heldMembers : List (Bytes × Json) → Nat
  | [] => 0
  | (k, t) :: ts => 72 + k.length + t.held + Json.heldMembers ts
end

/-! ### Removing insignificant whitespace, on bytes -/

/-- Where a scan of a text is: between tokens, inside a string, after a backslash. -/
inductive Mode where
  | outside | inside | escaped
deriving DecidableEq, Repr

/-- Drops blanks outside strings, keeps everything else. -/
def stripWs : Mode → Bytes → Bytes
  | _, [] => []
  | .outside, c :: r =>
    if isWs c then stripWs .outside r
    else c :: stripWs (if c = 0x22 then .inside else .outside) r
  | .inside, c :: r =>
    c :: stripWs (if c = 0x5C then .escaped else if c = 0x22 then .outside else .inside) r
  | .escaped, c :: r => c :: stripWs .inside r

/-! ### The text a string body denotes -/

/-- UTF-8 encoding of a code point (RFC 3629 section 3). -/
def utf8 (n : Nat) : Bytes :=
  if n < 0x80 then [UInt8.ofNat n]
  else if n < 0x800 then [UInt8.ofNat (0xC0 + n / 64), UInt8.ofNat (0x80 + n % 64)]
  else if n < 0x10000 then
    [UInt8.ofNat (0xE0 + n / 4096), UInt8.ofNat (0x80 + n / 64 % 64), UInt8.ofNat (0x80 + n % 64)]
  else
    [UInt8.ofNat (0xF0 + n / 262144), UInt8.ofNat (0x80 + n / 4096 % 64),
      UInt8.ofNat (0x80 + n / 64 % 64), UInt8.ofNat (0x80 + n % 64)]

/-- `Denotes b d`: the string body `b` (what stands between the quotes) denotes the
bytes `d`. Surrogate pairs are combined as in RFC 2781. -/
inductive Denotes : Bytes → Bytes → Prop where
  | nil : Denotes [] []
  | plain {c r d} : 0x20 ≤ c → c ≠ 0x22 → c ≠ 0x5C → Denotes r d → Denotes (c :: r) (c :: d)
  | esc {c x r d} : simpleEscape c = some x → Denotes r d →
      Denotes (0x5C :: c :: r) (x :: d)
  | uni {a b c e n r d} : Hex4 a b c e n → ¬ IsHighSurrogate n → ¬ IsLowSurrogate n →
      Denotes r d → Denotes (0x5C :: 0x75 :: a :: b :: c :: e :: r) (utf8 n ++ d)
  | pair {a b c e n a' b' c' e' n' r d} : Hex4 a b c e n → IsHighSurrogate n →
      Hex4 a' b' c' e' n' → IsLowSurrogate n' → Denotes r d →
      Denotes (0x5C :: 0x75 :: a :: b :: c :: e :: 0x5C :: 0x75 :: a' :: b' :: c' :: e' :: r)
        (utf8 (0x10000 + (n - 0xD800) * 0x400 + (n' - 0xDC00)) ++ d)

end ZJ
