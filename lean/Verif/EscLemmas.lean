import Verif.CheckLemmas
import Verif.Escape

/-
Escaping and unescaping against `Denotes`.
-/

set_option linter.unusedSimpArgs false

namespace ZJ

/-! ### Spec-side facts -/

theorem utf8_length (n : Nat) : (utf8 n).length ≤ 4 ∧ (n < 0x10000 → (utf8 n).length ≤ 3) := by
  unfold utf8
  split
  · simp
  · split
    · simp
    · split
      · simp
      · simp; omega

theorem Hex4.lt {a b c d : Byte} {n} (h : Hex4 a b c d n) : n < 0x10000 := by
  obtain ⟨x, y, z, w, e1, e2, e3, e4, e5⟩ := h
  have := (hexVal_lt e1).2; have := (hexVal_lt e2).2
  have := (hexVal_lt e3).2; have := (hexVal_lt e4).2
  omega

theorem Denotes.length_le {b d} (h : Denotes b d) : d.length ≤ b.length := by
  induction h with
  | nil => simp
  | plain _ _ _ _ ih => simp; omega
  | esc _ _ ih => simp; omega
  | uni h _ _ _ ih =>
    have := (utf8_length _).2 h.lt
    simp; omega
  | pair h _ h' _ _ ih =>
    simp only [List.length_append, List.length_cons]
    refine Nat.le_trans (Nat.add_le_add_right (utf8_length _).1 _) ?_
    omega

theorem Denotes.body {b d} (h : Denotes b d) : IsStrBody b := by
  induction h with
  | nil => exact .nil
  | plain h1 h2 h3 _ ih => exact .plain h1 h2 h3 ih
  | esc h _ ih => exact .esc h ih
  | uni h h1 h2 _ ih => exact .uni h h1 h2 ih
  | pair h h1 h' h2 _ ih => exact .pair h h1 h' h2 ih

theorem IsStrBody.denotes {b} (h : IsStrBody b) : ∃ d, Denotes b d := by
  induction h with
  | nil => exact ⟨_, .nil⟩
  | plain h1 h2 h3 _ ih => exact ⟨_, .plain h1 h2 h3 ih.choose_spec⟩
  | esc h _ ih => exact ⟨_, .esc h ih.choose_spec⟩
  | uni h h1 h2 _ ih => exact ⟨_, .uni h h1 h2 ih.choose_spec⟩
  | pair h h1 h' h2 _ ih => exact ⟨_, .pair h h1 h' h2 ih.choose_spec⟩

theorem Hex4.det {a b c d : Byte} {n m} (h : Hex4 a b c d n) (h' : Hex4 a b c d m) : n = m := by
  obtain ⟨x, y, z, w, e1, e2, e3, e4, e5⟩ := h
  obtain ⟨x', y', z', w', f1, f2, f3, f4, f5⟩ := h'
  rw [e1] at f1; rw [e2] at f2; rw [e3] at f3; rw [e4] at f4
  cases f1; cases f2; cases f3; cases f4
  rw [e5, f5]

theorem Denotes.det {b d} (h : Denotes b d) : ∀ {d'}, Denotes b d' → d = d' := by
  induction h with
  | nil => intro d' h; cases h; rfl
  | plain h1 h2 h3 _ ih =>
    intro d' h
    cases h with
    | plain _ _ _ h => rw [ih h]
    | esc => exact absurd rfl h3
    | uni => exact absurd rfl h3
    | pair => exact absurd rfl h3
  | esc h1 _ ih =>
    intro d' h
    cases h with
    | plain _ _ h3 h => exact absurd rfl h3
    | esc h2 h => rw [h1] at h2; cases h2; rw [ih h]
    | uni => simp [simpleEscape] at h1
    | pair => simp [simpleEscape] at h1
  | uni h1 h2 h3 _ ih =>
    intro d' h
    cases h with
    | plain _ _ h3 h => exact absurd rfl h3
    | esc h2 h => simp [simpleEscape] at h2
    | uni g1 g2 g3 h => rw [h1.det g1, ih h]
    | pair g1 g2 => rw [h1.det g1] at h2; exact absurd g2 h2
  | pair h1 h2 h3 h4 _ ih =>
    intro d' h
    cases h with
    | plain _ _ h3 h => exact absurd rfl h3
    | esc h2 h => simp [simpleEscape] at h2
    | uni g1 g2 => rw [h1.det g1] at h2; exact absurd h2 g2
    | pair g1 g2 g3 g4 h => rw [h1.det g1, h3.det g3, ih h]

/-! ### Bit arithmetic -/

theorem or_C0 : ∀ x, x < 32 → 0xC0 ||| x = 0xC0 + x := by decide
theorem or_E0 : ∀ x, x < 16 → 0xE0 ||| x = 0xE0 + x := by decide
theorem or_F0 : ∀ x, x < 8 → 0xF0 ||| x = 0xF0 + x := by decide
theorem or_80 : ∀ x, x < 64 → 0x80 ||| x = 0x80 + x := by decide

theorem and_3F (x : Nat) : x &&& 0x3F = x % 64 := Nat.and_two_pow_sub_one_eq_mod x 6
theorem and_FF (x : Nat) : x &&& 0xFF = x % 256 := Nat.and_two_pow_sub_one_eq_mod x 8

theorem utf8Bytes_eq {n : Nat} (h : n < 0x110000) : utf8Bytes n = utf8 n := by
  unfold utf8Bytes utf8
  simp only [and_3F, and_FF, Nat.shiftRight_eq_div_pow]
  by_cases h1 : n < 0x80
  · have g1 : n ≤ 0x7F := by omega
    simp only [h1, g1, if_true]
    rw [Nat.mod_eq_of_lt (by omega)]
  have g1 : ¬ n ≤ 0x7F := by omega
  simp only [h1, g1, if_false]
  by_cases h2 : n < 0x800
  · have g2 : n ≤ 0x7FF := by omega
    simp only [h2, g2, if_true]
    rw [or_C0 _ (by omega), or_80 _ (by omega), Nat.mod_eq_of_lt (by omega)]
  have g2 : ¬ n ≤ 0x7FF := by omega
  simp only [h2, g2, if_false]
  by_cases h3 : n < 0x10000
  · have g3 : n ≤ 0xFFFF := by omega
    simp only [h3, g3, if_true]
    rw [or_E0 _ (by omega), or_80 _ (by omega), or_80 _ (by omega),
      Nat.mod_eq_of_lt (a := n / 2 ^ 12) (by omega)]
  have g3 : ¬ n ≤ 0xFFFF := by omega
  simp only [h3, g3, if_false]
  rw [or_F0 _ (by omega), or_80 _ (by omega), or_80 _ (by omega), or_80 _ (by omega),
    Nat.mod_eq_of_lt (a := n / 2 ^ 18) (by omega)]

/-! ### Unescape -/

theorem unescLetter_eq (c : Byte) : unescLetter c = simpleEscape c := by
  revert c; apply allBytes; decide +kernel

theorem hexCodePointU_eq : ∀ c : Byte, ∀ x, hexVal c = some x → hexCodePointU c = x := by
  have : ∀ c : Byte, ((hexVal c).isSome → hexVal c = some (hexCodePointU c)) := by
    apply allBytes; decide +kernel
  intro c x h
  have := this c (by rw [h]; rfl)
  rw [h] at this
  exact (Option.some.inj this).symm

theorem consumeHexU_complete {s : Bytes} {i n : Nat} {a b c d : Byte} {r : Bytes}
    (h : Hex4 a b c d n) (hd : s.drop i = a :: b :: c :: d :: r) :
    consumeHexU s i 0 = .ok (i + 4, n) := by
  have hn := h.lt
  obtain ⟨x, y, z, w, e1, e2, e3, e4, e5⟩ := h
  have := (hexVal_lt e1).2; have := (hexVal_lt e2).2
  have := (hexVal_lt e3).2; have := (hexVal_lt e4).2
  have d1 := drop_succ hd
  have d2 := drop_succ d1
  have d3 := drop_succ d2
  simp only [consumeHexU, consumeHexOneU, rd_drop hd, rd_drop d1, rd_drop d2, rd_drop d3,
    Res.ok_bind, Res.pure_eq, hexCodePointU_eq _ _ e1, hexCodePointU_eq _ _ e2,
    hexCodePointU_eq _ _ e3, hexCodePointU_eq _ _ e4]
  congr 2
  rw [e5]
  omega

theorem surrogate_combine {n n' : Nat} (h : IsHighSurrogate n) (h' : IsLowSurrogate n') :
    surrogatePair n n' = 0x10000 + (n - 0xD800) * 0x400 + (n' - 0xDC00) := by
  unfold IsHighSurrogate at h
  unfold IsLowSurrogate at h'
  unfold surrogatePair
  have e : (2 ^ 32 + n' - 0xDC00) % 2 ^ 32 = n' - 0xDC00 := by omega
  rw [e, ← Nat.shiftLeft_add_eq_or_of_lt (by omega), Nat.shiftLeft_eq]
  omega

theorem surrogate_lt {n n' : Nat} (h : IsHighSurrogate n) (h' : IsLowSurrogate n') :
    0x10000 + (n - 0xD800) * 0x400 + (n' - 0xDC00) < 0x110000 := by
  unfold IsHighSurrogate at h
  unfold IsLowSurrogate at h'
  omega

theorem unEscapeLoop_pair {s : Bytes} {len cap fuel i n n' m : Nat} {out r : Bytes}
    {a1 a2 a3 a4 b1 b2 b3 b4 : Byte}
    (hd : s.drop i = 0x5C :: 0x75 :: a1 :: a2 :: a3 :: a4 :: 0x5C :: 0x75 :: b1 :: b2 :: b3 :: b4 :: r)
    (h1 : Hex4 a1 a2 a3 a4 n) (h2 : IsHighSurrogate n) (h3 : Hex4 b1 b2 b3 b4 n')
    (hg : surrogatePair n n' = m) (hm : m < 0x110000) (hi : i < len)
    (hcap : out.length + (utf8 m).length ≤ cap) :
    unEscapeLoop s len cap (fuel + 1) i out = unEscapeLoop s len cap fuel (i + 1 + 1 + 4 + 2 + 4) (out ++ utf8 m) := by
  have d1 := drop_succ hd
  have d2 := drop_succ d1
  have d8 : s.drop (i + 1 + 1 + 4 + 2) = b1 :: b2 :: b3 :: b4 :: r := by
    have : s.drop (i + 1 + 1 + 4 + 2) = (s.drop (i + 1 + 1)).drop 6 := by rw [List.drop_drop]
    rw [this, d2]; rfl
  have hh : 0xD800 ≤ n ∧ n ≤ 0xDBFF := h2
  have hx := consumeHexU_complete h1 d2
  have hy := consumeHexU_complete h3 d8
  rw [unEscapeLoop]
  simp only [hi, if_true, rd_drop hd, rd_drop d1, Res.ok_bind, unescLetter_eq,
    show simpleEscape 0x75 = none by decide]
  rw [hx]
  simp only [Res.ok_bind]
  rw [if_pos hh, hy, Res.ok_bind]
  rw [hg, utf8Bytes_eq hm]
  rw [show addOut cap out (utf8 m) = .ok (out ++ utf8 m) by rw [addOut, if_pos hcap], Res.ok_bind]

theorem unEscapeLoop_ok {b d : Bytes} (h : Denotes b d) :
    ∀ {s : Bytes} {len cap fuel i : Nat} {out r : Bytes},
      s.drop i = b ++ r → len = i + b.length → out.length + d.length ≤ cap → b.length < fuel →
      unEscapeLoop s len cap fuel i out = .ok (out ++ d) := by
  induction h with
  | nil =>
    intro s len cap fuel i out r hd hl hc hf
    obtain ⟨fuel, rfl⟩ : ∃ k, fuel = k + 1 := ⟨fuel - 1, by simp at hf; omega⟩
    simp [unEscapeLoop, hl]
  | plain h1 h2 h3 h4 ih =>
    rename_i c b d
    intro s len cap fuel i out r hd hl hc hf
    obtain ⟨fuel, rfl⟩ : ∃ k, fuel = k + 1 := ⟨fuel - 1, by simp at hf; omega⟩
    simp only [List.cons_append, List.length_cons] at hd hl hc hf
    have hi : i < len := by omega
    have hcap : out.length + [c].length ≤ cap := by simp; omega
    simp only [unEscapeLoop, hi, if_true, rd_drop hd, Res.ok_bind, h3, if_false, addOut, hcap]
    rw [ih (drop_succ hd) (by omega) (by simp; omega) (by omega)]
    simp
  | esc h1 h4 ih =>
    rename_i c x b d
    intro s len cap fuel i out r hd hl hc hf
    obtain ⟨fuel, rfl⟩ : ∃ k, fuel = k + 1 := ⟨fuel - 1, by simp at hf; omega⟩
    simp only [List.cons_append, List.length_cons] at hd hl hc hf
    have hi : i < len := by omega
    have hcap : out.length + [x].length ≤ cap := by simp; omega
    have d1 := drop_succ hd
    have d2 := drop_succ d1
    simp only [unEscapeLoop, hi, if_true, rd_drop hd, rd_drop d1, Res.ok_bind, unescLetter_eq, h1,
      addOut, hcap]
    rw [ih d2 (by omega) (by simp; omega) (by omega)]
    simp
  | uni h1 h2 h3 h4 ih =>
    rename_i a1 a2 a3 a4 n b d
    intro s len cap fuel i out r hd hl hc hf
    obtain ⟨fuel, rfl⟩ : ∃ k, fuel = k + 1 := ⟨fuel - 1, by simp at hf; omega⟩
    simp only [List.cons_append, List.length_cons, List.length_append] at hd hl hc hf
    have hi : i < len := by omega
    have d1 := drop_succ hd
    have d2 := drop_succ d1
    have d6 : s.drop (i + 2 + 4) = b ++ r := by
      have : s.drop (i + 2 + 4) = (s.drop (i + 2)).drop 4 := by rw [List.drop_drop]
      rw [this, d2]; rfl
    have hlt := h1.lt
    unfold IsHighSurrogate at h2
    have hcap : out.length + (utf8 n).length ≤ cap := by omega
    simp only [unEscapeLoop, hi, if_true, rd_drop hd, rd_drop d1, Res.ok_bind, unescLetter_eq,
      show simpleEscape 0x75 = none by decide, consumeHexU_complete h1 d2, h2, if_false,
      utf8Bytes_eq (show n < 0x110000 by omega), addOut, hcap]
    rw [ih d6 (by omega) (by simp; omega) (by omega)]
    simp
  | pair h1 h2 h3 h4 h5 ih =>
    rename_i a1 a2 a3 a4 n b1 b2 b3 b4 n' b d
    intro s len cap fuel i out r hd hl hc hf
    obtain ⟨fuel, rfl⟩ : ∃ k, fuel = k + 1 := ⟨fuel - 1, by simp at hf; omega⟩
    have hcomb := surrogate_combine h2 h4
    have hm := surrogate_lt h2 h4
    generalize 0x10000 + (n - 0xD800) * 0x400 + (n' - 0xDC00) = m at hcomb hm hc ⊢
    simp only [List.cons_append, List.length_cons, List.length_append] at hd hl hc hf
    have d12 : s.drop (i + 1 + 1 + 4 + 2 + 4) = b ++ r := by
      have : s.drop (i + 1 + 1 + 4 + 2 + 4) = (s.drop i).drop 12 := by rw [List.drop_drop]
      rw [this, hd]; rfl
    rw [unEscapeLoop_pair hd h1 h2 h3 hcomb hm (by omega) (by omega)]
    rw [ih d12 (by omega) (by simp; omega) (by omega)]
    simp

theorem unEscapeStr_ok {b d : Bytes} (h : Denotes b d) {s r : Bytes} (hs : s = b ++ r) :
    unEscapeStr s b.length (b.length + 1) = .ok (d ++ [0]) := by
  have hl := h.length_le
  unfold unEscapeStr
  rw [unEscapeLoop_ok h (s := s) (i := 0) (out := []) (r := r) (by simpa using hs) (by omega)
    (by simp; omega) (by omega)]
  have : d.length + 1 ≤ b.length + 1 := by omega
  simp [addOut, hl]

/-! ### Escape -/

/-- The text of one byte in the output of the escape functions. -/
def escByte (c : Byte) : Bytes :=
  match escapeEntry c with
  | .ok e => e
  | _ => []

/-- The output of the escape functions. -/
def escBytes (s : Bytes) : Bytes := s.flatMap escByte

theorem escapeEntry_eq (c : Byte) : escapeEntry c = .ok (escByte c) := by
  have h : ∀ c : Byte, (match escapeEntry c with | .ok _ => true | _ => false) = true := by
    apply allBytes; decide +kernel
  have := h c
  unfold escByte
  split at this
  · rename_i e he; rw [he]
  · cases this

theorem escapeLen_eq (c : Byte) : escapeLen c = .ok (escByte c).length := by
  have h : ∀ c : Byte, (match escapeLen c with
      | .ok n => decide (n = (escByte c).length)
      | _ => false) = true := by
    apply allBytes; decide +kernel
  have := h c
  split at this
  · rename_i n hn; rw [hn]; simp at this; rw [this]
  · cases this

/-- How one byte is written. -/
inductive EscForm (c : Byte) : Bytes → Prop where
  | plain : 0x20 ≤ c → c ≠ 0x22 → c ≠ 0x5C → EscForm c [c]
  | esc {e} : simpleEscape e = some c → EscForm c [0x5C, e]
  | uni {a b d e} : Hex4 a b d e c.toNat → c.toNat < 0x20 → EscForm c [0x5C, 0x75, a, b, d, e]

/-- Decidable check behind `escByte_form`. -/
def escFormCheck (c : Byte) : Bool :=
  match escByte c with
  | [x] => x == c && 0x20 ≤ c && c != 0x22 && c != 0x5C
  | [x, e] => x == 0x5C && simpleEscape e == some c
  | [x, y, a, b, d, e] => x == 0x5C && y == 0x75 && c.toNat < 0x20 &&
    (match hexVal a, hexVal b, hexVal d, hexVal e with
     | some a, some b, some d, some e => c.toNat == a * 4096 + b * 256 + d * 16 + e
     | _, _, _, _ => false)
  | _ => false

theorem escByte_form (c : Byte) : EscForm c (escByte c) := by
  have h : ∀ c : Byte, escFormCheck c = true := by
    apply allBytes; decide +kernel
  have h := h c
  unfold escFormCheck at h
  split at h
  · rename_i x hx
    simp at h
    rw [hx, h.1.1.1]
    exact .plain h.1.1.2 h.1.2 h.2
  · rename_i x e hx
    simp at h
    rw [hx, h.1]
    exact .esc h.2
  · rename_i x y a b d e hx
    simp only [Bool.and_eq_true, beq_iff_eq, decide_eq_true_eq] at h
    obtain ⟨⟨⟨h1, h2⟩, h3⟩, h4⟩ := h
    rw [hx, h1, h2]
    split at h4
    · rename_i a' b' d' e' ha hb hd he
      exact .uni ⟨a', b', d', e', ha, hb, hd, he, by simpa using h4⟩ h3
    · cases h4
  · cases h

theorem escBytes_cons (c : Byte) (s : Bytes) : escBytes (c :: s) = escByte c ++ escBytes s := by
  simp [escBytes]

theorem escBytes_set (s : Bytes) : IsSetBody (escBytes s) := by
  induction s with
  | nil => exact .nil
  | cons c s ih =>
    rw [escBytes_cons]
    have := escByte_form c
    generalize escByte c = e at this
    cases this with
    | plain h1 h2 h3 => exact .plain h1 h2 h3 ih
    | esc h => exact .esc h ih
    | uni h hc => exact .uni h (by omega) ih

theorem escBytes_denotes (s : Bytes) : Denotes (escBytes s) s := by
  induction s with
  | nil => exact .nil
  | cons c s ih =>
    rw [escBytes_cons]
    have := escByte_form c
    generalize escByte c = e at this
    cases this with
    | plain h1 h2 h3 => exact .plain h1 h2 h3 ih
    | esc h => exact .esc h ih
    | uni h hc =>
      have : Denotes _ (utf8 c.toNat ++ s) := .uni h (by unfold IsHighSurrogate; omega)
        (by unfold IsLowSurrogate; omega) ih
      have e : utf8 c.toNat = [c] := by
        unfold utf8
        rw [if_pos (by omega)]
        simp
      rw [e] at this
      exact this

/-- Bytes that may stand for themselves are left alone. -/
theorem escBytes_plain {s : Bytes} (h : ∀ c ∈ s, 0x20 ≤ c ∧ c ≠ 0x22 ∧ c ≠ 0x5C) :
    escBytes s = s := by
  have hb : ∀ c : Byte, (0x20 ≤ c ∧ c ≠ 0x22 ∧ c ≠ 0x5C) → escByte c = [c] := by
    have : ∀ c : Byte, (decide (0x20 ≤ c ∧ c ≠ 0x22 ∧ c ≠ 0x5C) → escByte c = [c]) := by
      apply allBytes; decide +kernel
    intro c h; exact this c (by simpa using h)
  induction s with
  | nil => rfl
  | cons c s ih =>
    rw [escBytes_cons, hb c (h c (by simp)), ih (fun x hx => h x (by simp [hx]))]; rfl

theorem escByte_length (c : Byte) : 1 ≤ (escByte c).length ∧ (escByte c).length ≤ 6 := by
  have := escByte_form c
  generalize escByte c = e at this
  cases this <;> simp

theorem escBytes_length (s : Bytes) :
    s.length ≤ (escBytes s).length ∧ (escBytes s).length ≤ 6 * s.length := by
  induction s with
  | nil => simp [escBytes]
  | cons c s ih =>
    have := escByte_length c
    rw [escBytes_cons]; simp; omega

theorem escLenLoop_eq {s r : Bytes} (h : (0 : Byte) ∉ s) (l : Nat) :
    escLenLoop (s ++ 0 :: r) l = .ok (l + (escBytes s).length) := by
  induction s generalizing l with
  | nil => simp [escLenLoop, escBytes]
  | cons c s ih =>
    simp at h
    have hc : c ≠ 0 := fun e => h.1 e.symm
    simp only [List.cons_append, escLenLoop, hc, if_false, escapeLen_eq, Res.ok_bind]
    rw [ih h.2, escBytes_cons]; simp; omega

theorem escOutLoop_eq {s r : Bytes} (h : (0 : Byte) ∉ s) {cap : Nat} (out : Bytes)
    (hc : out.length + (escBytes s).length ≤ cap) :
    escOutLoop cap (s ++ 0 :: r) out = .ok (out ++ escBytes s) := by
  induction s generalizing out with
  | nil => simp [escOutLoop, escBytes]
  | cons c s ih =>
    simp at h
    have h0 : c ≠ 0 := fun e => h.1 e.symm
    rw [escBytes_cons] at hc
    simp at hc
    have g : out.length + (escByte c).length ≤ cap := by omega
    simp only [List.cons_append, escOutLoop, h0, if_false, escapeEntry_eq, Res.ok_bind, addOut, g,
      if_true]
    rw [ih h.2 _ (by simp; omega), escBytes_cons]; simp

theorem escapeStr_eq {s r : Bytes} (h : (0 : Byte) ∉ s) :
    escapeStr (s ++ 0 :: r) = .ok ((escBytes s).length + 1, escBytes s ++ [0]) := by
  unfold escapeStr
  rw [escLenLoop_eq h]
  simp only [Res.ok_bind, Nat.zero_add]
  rw [escOutLoop_eq h _ (by simp)]
  simp [addOut]

theorem escLenLoopN_eq (s r : Bytes) (l : Nat) :
    escLenLoopN s.length (s ++ r) l = .ok (l + (escBytes s).length) := by
  induction s generalizing l with
  | nil => simp [escLenLoopN, escBytes]
  | cons c s ih =>
    simp only [List.cons_append, List.length_cons, escLenLoopN, escapeLen_eq, Res.ok_bind]
    rw [ih, escBytes_cons]; simp; omega

theorem escOutLoopN_eq (s r : Bytes) {cap : Nat} (out : Bytes)
    (hc : out.length + (escBytes s).length ≤ cap) :
    escOutLoopN cap s.length (s ++ r) out = .ok (out ++ escBytes s) := by
  induction s generalizing out with
  | nil => simp [escOutLoopN, escBytes]
  | cons c s ih =>
    rw [escBytes_cons] at hc
    simp at hc
    have g : out.length + (escByte c).length ≤ cap := by omega
    simp only [List.cons_append, List.length_cons, escOutLoopN, escapeEntry_eq, Res.ok_bind,
      addOut, g, if_true]
    rw [ih _ (by simp; omega), escBytes_cons]; simp

theorem escapeStrLen_eq (s r : Bytes) :
    escapeStrLen (s ++ r) s.length = .ok ((escBytes s).length + 1, escBytes s ++ [0]) := by
  unfold escapeStrLen
  rw [escLenLoopN_eq]
  simp only [Res.ok_bind, Nat.zero_add]
  rw [escOutLoopN_eq _ _ _ (by simp)]
  simp [addOut]

end ZJ
