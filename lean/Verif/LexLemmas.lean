import Verif.Lex
import Verif.Spec

/-
The scanning functions against the lexical grammar.
-/

set_option linter.unusedSimpArgs false

namespace ZJ

/-! ### Reading -/

theorem rd_drop {s : Bytes} {i : Nat} {c : Byte} {r : Bytes} (h : s.drop i = c :: r) :
    rd s i = .ok c := by
  have : s[i]? = some c := by
    have := congrArg (fun l => l[0]?) h
    simpa [List.getElem?_drop] using this
  simp [rd, this]

theorem drop_succ {s : Bytes} {i : Nat} {c : Byte} {r : Bytes} (h : s.drop i = c :: r) :
    s.drop (i + 1) = r := by
  have : s.drop (i + 1) = (s.drop i).drop 1 := by simp [List.drop_drop]
  rw [this, h]; rfl

theorem drop_add {s : Bytes} {i : Nat} {a r : Bytes} (h : s.drop i = a ++ r) :
    s.drop (i + a.length) = r := by
  have : s.drop (i + a.length) = (s.drop i).drop a.length := by simp [List.drop_drop]
  rw [this, h]; simp

theorem rd_ok {s : Bytes} {i : Nat} {c : Byte} (h : rd s i = .ok c) :
    s.drop i = c :: s.drop (i + 1) := by
  unfold rd at h
  split at h
  · next c' hc =>
    cases h
    have hi : i < s.length := by
      rcases Nat.lt_or_ge i s.length with h | h
      · exact h
      · simp [List.getElem?_eq_none h] at hc
    rw [List.drop_eq_getElem_cons hi]
    simp [List.getElem?_eq_getElem hi] at hc
    rw [hc]
  · cases h

theorem drop_length_lt {s : Bytes} {i : Nat} {c : Byte} {r : Bytes} (h : s.drop i = c :: r) :
    i < s.length := by
  rcases Nat.lt_or_ge i s.length with h' | h'
  · exact h'
  · simp [List.drop_eq_nil_of_le h'] at h

/-- A NUL is still ahead. -/
def HasNul (s : Bytes) (i : Nat) : Prop := (0 : Byte) ∈ s.drop i

theorem HasNul.cons {s i} (h : HasNul s i) : ∃ c r, s.drop i = c :: r ∧ rd s i = .ok c := by
  unfold HasNul at h
  cases hd : s.drop i with
  | nil => simp [hd] at h
  | cons c r => exact ⟨c, r, rfl, rd_drop hd⟩

theorem HasNul.succ {s i} {c : Byte} (h : HasNul s i) (hc : rd s i = .ok c) (h0 : c ≠ 0) :
    HasNul s (i + 1) := by
  unfold HasNul at *
  rw [rd_ok hc] at h
  simpa [Ne.symm h0] using h

theorem HasNul.lt {s i} (h : HasNul s i) : i < s.length := by
  obtain ⟨c, r, h1, _⟩ := h.cons
  exact drop_length_lt h1

theorem HasNul.rd {s i} (h : HasNul s i) : ∃ c, rd s i = .ok c ∧ (c ≠ 0 → HasNul s (i + 1)) := by
  obtain ⟨c, r, h1, h2⟩ := h.cons
  exact ⟨c, h2, h.succ h2⟩

theorem HasNul.app {s i} {a r : Bytes} (h : HasNul s i) (hd : s.drop i = a ++ r)
    (ha : (0 : Byte) ∉ a) : HasNul s (i + a.length) := by
  unfold HasNul at *
  rw [drop_add hd]
  rw [hd] at h
  simpa [ha] using h

/-! ### Whitespace -/

theorem skin_eq (c : Byte) : skin c = isWs c := rfl

theorem skipLoop_ws {s : Bytes} {w : Bytes} {c : Byte} {r : Bytes} (hw : IsWs w)
    (hc : isWs c = false) : ∀ fuel i, s.drop i = w ++ c :: r → w.length < fuel →
      skipLoop s fuel i = .ok (i + w.length) := by
  induction w with
  | nil =>
    intro fuel i h hf
    cases fuel with
    | zero => simp at hf
    | succ fuel => simp [skipLoop, rd_drop h, skin_eq, hc]
  | cons x w ih =>
    intro fuel i h hf
    cases fuel with
    | zero => simp at hf
    | succ fuel =>
      have hx : isWs x = true := hw x (by simp)
      have h' := drop_succ (by simpa using h)
      simp only [List.length_cons] at hf
      simp only [skipLoop, rd_drop (by simpa using h), Res.ok_bind, skin_eq, hx, if_true]
      rw [ih (fun c hc => hw c (by simp [hc])) fuel (i + 1) h' (by omega)]
      simp; omega

theorem skip_ws {s : Bytes} {w : Bytes} {c : Byte} {r : Bytes} {i : Nat} (hw : IsWs w)
    (hc : isWs c = false) (h : s.drop i = w ++ c :: r) : skip s i = .ok (i + w.length) := by
  apply skipLoop_ws hw hc _ _ h
  have := congrArg List.length h
  simp at this
  omega

/-- Every text with a NUL ahead splits into leading whitespace and a rest. -/
theorem HasNul.ws {s i} (h : HasNul s i) :
    ∃ w c r, s.drop i = w ++ c :: r ∧ IsWs w ∧ isWs c = false ∧ skip s i = .ok (i + w.length) ∧
      HasNul s (i + w.length) := by
  have key : ∀ l : Bytes, (0 : Byte) ∈ l → ∃ w c r, l = w ++ c :: r ∧ IsWs w ∧ isWs c = false := by
    intro l
    induction l with
    | nil => simp
    | cons x l ih =>
      intro hm
      cases hx : isWs x with
      | false => exact ⟨[], x, l, by simp, by simp [IsWs], hx⟩
      | true =>
        have : (0 : Byte) ∈ l := by
          rcases List.mem_cons.1 hm with h | h
          · subst h; simp [isWs] at hx
          · exact h
        obtain ⟨w, c, r, h1, h2, h3⟩ := ih this
        refine ⟨x :: w, c, r, by simp [h1], ?_, h3⟩
        intro c hc
        rcases List.mem_cons.1 hc with h | h
        · subst h; exact hx
        · exact h2 c h
  obtain ⟨w, c, r, h1, h2, h3⟩ := key _ h
  refine ⟨w, c, r, h1, h2, h3, skip_ws h2 h3 h1, h.app h1 ?_⟩
  intro h0
  have := h2 0 h0
  simp [isWs] at this

theorem IsWs.no_nul {w} (h : IsWs w) : (0 : Byte) ∉ w := by
  intro h0
  have := h 0 h0
  simp [isWs] at this

theorem peek_ws {s : Bytes} {w : Bytes} {c : Byte} {r : Bytes} {i : Nat} (hw : IsWs w)
    (hc : isWs c = false) (h : s.drop i = w ++ c :: r) :
    peek s i = .ok (c, i + w.length + 1) := by
  have h' := drop_add h
  simp [peek, skip_ws hw hc h, rd_drop h']

theorem peekAndConsume_ws {s : Bytes} {w : Bytes} {c x : Byte} {r : Bytes} {i : Nat} (hw : IsWs w)
    (hc : isWs c = false) (h : s.drop i = w ++ c :: r) :
    peekAndConsume x s i =
      if c = x then .ok (true, i + w.length + 1) else .ok (false, i + w.length) := by
  have h' := drop_add h
  simp [peekAndConsume, skip_ws hw hc h, rd_drop h']

/-! ### Hexadecimal digits -/

theorem hexCodePoint_eq : ∀ c : Byte,
    (hexVal c = some (hexCodePoint c) ∧ hexCodePoint c < 16) ∨
    (hexVal c = none ∧ hexCodePoint c = 16) := by
  intro c
  unfold hexVal hexCodePoint
  split
  · next h => left; refine ⟨rfl, ?_⟩; have := UInt8.le_iff_toNat_le.1 h.2; simp at this; omega
  · split
    · next h => left; refine ⟨rfl, ?_⟩; have := UInt8.le_iff_toNat_le.1 h.2; simp at this; omega
    · split
      · next h => left; refine ⟨rfl, ?_⟩; have := UInt8.le_iff_toNat_le.1 h.2; simp at this; omega
      · right; exact ⟨rfl, rfl⟩

theorem hexVal_lt {c : Byte} {x} (h : hexVal c = some x) : hexCodePoint c = x ∧ x < 16 := by
  rcases hexCodePoint_eq c with ⟨h1, h2⟩ | ⟨h1, h2⟩
  · rw [h1] at h; cases h; exact ⟨rfl, h2⟩
  · rw [h1] at h; cases h

theorem hexVal_ne_zero {c : Byte} {x} (h : hexVal c = some x) : c ≠ 0 := by
  intro h0; subst h0; simp [hexVal] at h

theorem Hex4.no_nul {a b c d n} (h : Hex4 a b c d n) : a ≠ 0 ∧ b ≠ 0 ∧ c ≠ 0 ∧ d ≠ 0 := by
  obtain ⟨x, y, z, w, h1, h2, h3, h4, _⟩ := h
  exact ⟨hexVal_ne_zero h1, hexVal_ne_zero h2, hexVal_ne_zero h3, hexVal_ne_zero h4⟩

theorem consumeHexOne_eq {s i c cp} (h : rd s i = .ok c) :
    consumeHexOne s i cp = match hexVal c with
      | some x => .ok (true, i + 1, cp * 16 + x)
      | none => .ok (false, i, cp) := by
  rcases hexCodePoint_eq c with ⟨h1, h2⟩ | ⟨h1, h2⟩
  · simp [consumeHexOne, h, h1, h2]
  · simp [consumeHexOne, h, h1, h2]

theorem consumeHex_complete {s i a b c d n r} (h : Hex4 a b c d n)
    (hd : s.drop i = a :: b :: c :: d :: r) : consumeHex s i 0 = .ok (true, i + 4, n) := by
  obtain ⟨x, y, z, w, h1, h2, h3, h4, hn⟩ := h
  have d1 := drop_succ hd
  have d2 := drop_succ d1
  have d3 := drop_succ d2
  simp only [consumeHex, consumeHexOne_eq (rd_drop hd), h1, Res.ok_bind,
    consumeHexOne_eq (rd_drop d1), h2, consumeHexOne_eq (rd_drop d2), h3,
    consumeHexOne_eq (rd_drop d3), h4]
  simp only [Bool.not_true, Bool.false_eq_true, if_false]
  congr 3
  omega

/-- With a NUL ahead `zj_consumeHex` neither reads outside nor gets stuck, and if it
succeeds it has read four hexadecimal digits. -/
theorem consumeHex_total {s i} (h : HasNul s i) :
    ∃ ok j n, consumeHex s i 0 = .ok (ok, j, n) ∧
      (ok = true → ∃ a b c d, s.drop i = a :: b :: c :: d :: s.drop (i + 4) ∧ Hex4 a b c d n ∧
        j = i + 4 ∧ HasNul s (i + 4)) := by
  obtain ⟨c1, r1, n1⟩ := h.rd
  unfold consumeHex
  rw [consumeHexOne_eq r1]
  cases e1 : hexVal c1 with
  | none => exact ⟨false, _, _, rfl, by simp⟩
  | some x1 =>
    have n1 := n1 (hexVal_ne_zero e1)
    obtain ⟨c2, r2, n2⟩ := n1.rd
    simp only [Res.ok_bind]
    rw [consumeHexOne_eq r2]
    cases e2 : hexVal c2 with
    | none => exact ⟨false, _, _, rfl, by simp⟩
    | some x2 =>
      have n2 := n2 (hexVal_ne_zero e2)
      obtain ⟨c3, r3, n3⟩ := n2.rd
      simp only [Res.ok_bind]
      rw [consumeHexOne_eq r3]
      cases e3 : hexVal c3 with
      | none => exact ⟨false, _, _, rfl, by simp⟩
      | some x3 =>
        have n3 := n3 (hexVal_ne_zero e3)
        obtain ⟨c4, r4, n4⟩ := n3.rd
        simp only [Res.ok_bind]
        rw [consumeHexOne_eq r4]
        cases e4 : hexVal c4 with
        | none => exact ⟨false, _, _, rfl, by simp⟩
        | some x4 =>
          have n4 := n4 (hexVal_ne_zero e4)
          refine ⟨true, i + 4, x1 * 4096 + x2 * 256 + x3 * 16 + x4, ?_, ?_⟩
          · simp; omega
          · intro _
            refine ⟨c1, c2, c3, c4, ?_, ⟨x1, x2, x3, x4, e1, e2, e3, e4, rfl⟩, rfl, n4⟩
            rw [rd_ok r1, rd_ok r2, rd_ok r3, rd_ok r4]

theorem isEscLetter_eq : ∀ c : Byte, isEscLetter c = (simpleEscape c).isSome := by
  apply allBytes; decide +kernel

theorem isEscLetter_ne {c : Byte} (h : isEscLetter c = true) : c ≠ 0 := by
  intro h0; subst h0; simp [isEscLetter] at h

theorem simpleEscape_ne {c x : Byte} (h : simpleEscape c = some x) : c ≠ 0 ∧ c ≠ 0x75 := by
  constructor <;> (intro h0; subst h0; simp [simpleEscape] at h)

/-! ### Strings -/

theorem IsStrBody.no_nul {b} (h : IsStrBody b) : (0 : Byte) ∉ b := by
  induction h with
  | nil => simp
  | plain h1 h2 h3 _ ih =>
    simp only [List.mem_cons, not_or]
    refine ⟨?_, ih⟩
    intro h0; subst h0; simp at h1
  | esc h _ ih =>
    have := (simpleEscape_ne h).1
    simp only [List.mem_cons, not_or]
    exact ⟨by decide, fun h => this h.symm, ih⟩
  | uni h _ _ _ ih =>
    obtain ⟨h1, h2, h3, h4⟩ := h.no_nul
    simp only [List.mem_cons, not_or]
    exact ⟨by decide, by decide, fun h => h1 h.symm, fun h => h2 h.symm, fun h => h3 h.symm,
      fun h => h4 h.symm, ih⟩
  | pair h _ h' _ _ ih =>
    obtain ⟨h1, h2, h3, h4⟩ := h.no_nul
    obtain ⟨k1, k2, k3, k4⟩ := h'.no_nul
    simp only [List.mem_cons, not_or]
    exact ⟨by decide, by decide, fun h => h1 h.symm, fun h => h2 h.symm, fun h => h3 h.symm,
      fun h => h4 h.symm, by decide, by decide, fun h => k1 h.symm, fun h => k2 h.symm,
      fun h => k3 h.symm, fun h => k4 h.symm, ih⟩

/-- A valid body followed by a quote is consumed up to and including the quote. -/
theorem consumeStrLoop_complete {b : Bytes} (hb : IsStrBody b) :
    ∀ {s : Bytes} {fuel i : Nat} {c : Byte} {q r : Bytes}, b ++ 0x22 :: r = c :: q →
      s.drop i = q → b.length < fuel →
      consumeStrLoop s fuel c i = .ok (true, i + b.length) := by
  induction hb with
  | nil =>
    intro s fuel i c q r h hd hf
    obtain ⟨fuel, rfl⟩ : ∃ k, fuel = k + 1 := ⟨fuel - 1, by simp at hf; omega⟩
    simp at h
    obtain ⟨rfl, rfl⟩ := h
    simp [consumeStrLoop]
  | plain h1 h2 h3 h4 ih =>
    rename_i x b
    intro s fuel i c q r h hd hf
    obtain ⟨fuel, rfl⟩ : ∃ k, fuel = k + 1 := ⟨fuel - 1, by simp at hf; omega⟩
    simp only [List.cons_append, List.cons.injEq] at h
    obtain ⟨rfl, rfl⟩ := h
    cases hq : b ++ 0x22 :: r with
    | nil => simp at hq
    | cons c' q' =>
      rw [hq] at hd
      have n0 : x ≠ 0 := by grind
      have n1 : ¬ x ≤ 0x1f := by grind
      simp only [consumeStrLoop, n0, n1, h2, h3, if_false, rd_drop hd, Res.ok_bind]
      rw [ih hq (drop_succ hd) (by simp at hf; omega)]
      simp; omega
  | esc h h4 ih =>
    rename_i e y b
    intro s fuel i c q r h' hd hf
    obtain ⟨fuel, rfl⟩ : ∃ k, fuel = k + 1 := ⟨fuel - 1, by simp at hf; omega⟩
    simp only [List.cons_append, List.cons.injEq] at h'
    obtain ⟨rfl, rfl⟩ := h'
    cases hq : b ++ 0x22 :: r with
    | nil => simp at hq
    | cons c' q' =>
      rw [hq] at hd
      have d1 := drop_succ hd
      have he : isEscLetter e = true := by rw [isEscLetter_eq, h]; rfl
      simp only [consumeStrLoop, rd_drop hd, rd_drop d1, Res.ok_bind, he, if_true]
      rw [ih hq (drop_succ d1) (by simp at hf; omega)]
      simp; omega
  | uni h hh hl h4 ih =>
    rename_i a1 a2 a3 a4 n b
    intro s fuel i c q r h' hd hf
    obtain ⟨fuel, rfl⟩ : ∃ k, fuel = k + 1 := ⟨fuel - 1, by simp at hf; omega⟩
    simp only [List.cons_append, List.cons.injEq] at h'
    obtain ⟨rfl, rfl⟩ := h'
    cases hq : b ++ 0x22 :: r with
    | nil => simp at hq
    | cons c' q' =>
      rw [hq] at hd
      have d1 := drop_succ hd
      have hx := consumeHex_complete h d1
      have d5 : s.drop (i + 1 + 4) = c' :: q' := by
        have : s.drop (i + 1 + 4) = (s.drop (i + 1)).drop 4 := by rw [List.drop_drop]
        rw [this, d1]; rfl
      unfold IsHighSurrogate at hh
      unfold IsLowSurrogate at hl
      simp only [consumeStrLoop, rd_drop hd, Res.ok_bind]
      simp only [show isEscLetter 0x75 = false by decide, hx, Res.ok_bind, hl, hh, rd_drop d5]
      simp only [if_false, if_true, Bool.not_true, Bool.false_eq_true,
        show ((0x5C : Byte) = 0) = False by decide, show ((0x5C : Byte) ≤ 0x1f) = False by decide]
      rw [ih hq (drop_succ d5) (by simp at hf; omega)]
      simp; omega
  | pair h hh hk hl h4 ih =>
    rename_i a1 a2 a3 a4 n b1 b2 b3 b4 n' b
    intro s fuel i c q r h' hd hf
    obtain ⟨fuel, rfl⟩ : ∃ k, fuel = k + 1 := ⟨fuel - 1, by simp at hf; omega⟩
    simp only [List.cons_append, List.cons.injEq] at h'
    obtain ⟨rfl, rfl⟩ := h'
    cases hq : b ++ 0x22 :: r with
    | nil => simp at hq
    | cons c' q' =>
      rw [hq] at hd
      have d1 := drop_succ hd
      have hx := consumeHex_complete h d1
      have d5 : s.drop (i + 1 + 4) = 0x5C :: 0x75 :: b1 :: b2 :: b3 :: b4 :: c' :: q' := by
        have : s.drop (i + 1 + 4) = (s.drop (i + 1)).drop 4 := by rw [List.drop_drop]
        rw [this, d1]; rfl
      have d6 := drop_succ d5
      have d7 := drop_succ d6
      have hy := consumeHex_complete hk d7
      have d11 : s.drop (i + 1 + 4 + 1 + 1 + 4) = c' :: q' := by
        have : s.drop (i + 1 + 4 + 1 + 1 + 4) = (s.drop (i + 1 + 4 + 1 + 1)).drop 4 := by
          rw [List.drop_drop]
        rw [this, d7]; rfl
      unfold IsHighSurrogate at hh
      unfold IsLowSurrogate at hl
      have nl : ¬ (0xDC00 ≤ n ∧ n ≤ 0xDFFF) := by omega
      have nl' : ¬ (n' < 0xDC00 ∨ n' > 0xDFFF) := by omega
      simp only [consumeStrLoop, rd_drop hd, Res.ok_bind]
      simp only [show isEscLetter 0x75 = false by decide, hx, Res.ok_bind, nl, hh, consume,
        rd_drop d5, rd_drop d6, hy, nl', rd_drop d11]
      simp only [if_false, if_true, Bool.not_true, Bool.false_eq_true, and_self, Res.ok_bind,
        Res.pure_eq, rd_drop d6, hy, nl', rd_drop d11,
        show ((0x5C : Byte) = 0) = False by decide, show ((0x5C : Byte) ≤ 0x1f) = False by decide]
      rw [ih hq (drop_succ d11) (by simp at hf; omega)]
      simp; omega

theorem consumeStr_complete {b : Bytes} (hb : IsStrBody b) {s : Bytes} {i : Nat} {r : Bytes}
    (hd : s.drop i = b ++ 0x22 :: r) : consumeStr s i = .ok (true, i + b.length + 1) := by
  cases hq : b ++ 0x22 :: r with
  | nil => simp at hq
  | cons c q =>
    rw [hq] at hd
    have hlen : b.length < s.length + 1 := by
      have := congrArg List.length hd
      rw [← hq] at this
      simp at this; omega
    simp only [consumeStr, rd_drop hd, Res.ok_bind]
    rw [consumeStrLoop_complete hb hq (drop_succ hd) hlen]
    congr 2
    omega

/-- With a NUL ahead `zj_consumeStr` ends without reading outside; if it succeeds,
what it went over is a valid body followed by a quote. -/
theorem consumeStrLoop_total : ∀ fuel {s : Bytes} {i : Nat} {c : Byte},
    rd s i = .ok c → HasNul s i → s.length - i < fuel →
    ∃ ok j, consumeStrLoop s fuel c (i + 1) = .ok (ok, j) ∧
      (ok = true → ∃ b, IsStrBody b ∧ s.drop i = b ++ 0x22 :: s.drop j ∧
        j = i + b.length + 1 ∧ HasNul s j) := by
  intro fuel
  induction fuel with
  | zero => intro s i c _ _ h; omega
  | succ fuel ih =>
    intro s i c hr hn hf
    have hi := hn.lt
    unfold consumeStrLoop
    by_cases h0 : c = 0
    · exact ⟨false, i + 1, by simp [h0], by simp⟩
    have hn1 := hn.succ hr h0
    by_cases h1 : c ≤ 0x1f
    · exact ⟨false, i + 1, by simp [h0, h1], by simp⟩
    simp only [h0, h1, if_false]
    by_cases h2 : c = 0x5C
    · simp only [h2, if_true]
      obtain ⟨e, re, ne⟩ := hn1.rd
      simp only [re, Res.ok_bind]
      cases he : isEscLetter e with
      | true =>
        have ne := ne (isEscLetter_ne he)
        obtain ⟨c', rc, _⟩ := ne.rd
        simp only [rc, Res.ok_bind, if_true]
        obtain ⟨ok, j, hj, hs⟩ := ih rc ne (by omega)
        refine ⟨ok, j, hj, fun h => ?_⟩
        obtain ⟨b, hb, hd, hl, hnj⟩ := hs h
        rw [isEscLetter_eq] at he
        obtain ⟨x, hx⟩ := Option.isSome_iff_exists.1 he
        refine ⟨0x5C :: e :: b, .esc hx hb, ?_, by simp; omega, hnj⟩
        rw [rd_ok hr, rd_ok re, hd, h2]; rfl
      | false =>
        by_cases hu : e = 0x75
        · have ne := ne (by rw [hu]; decide)
          simp only [hu, if_true, Bool.false_eq_true, if_false]
          obtain ⟨ok1, j1, n, hx, hxs⟩ := consumeHex_total ne
          simp only [hx, Res.ok_bind]
          cases ok1 with
          | false => exact ⟨false, j1, by simp, by simp⟩
          | true =>
            obtain ⟨a1, a2, a3, a4, hd1, h4, rfl, hn5⟩ := hxs rfl
            simp only [Bool.not_true, Bool.false_eq_true, if_false]
            by_cases hlow : 0xDC00 ≤ n ∧ n ≤ 0xDFFF
            · exact ⟨false, _, by simp only [hlow, and_self, if_true]; rfl, by simp⟩
            simp only [hlow, if_false]
            by_cases hhigh : 0xD800 ≤ n ∧ n ≤ 0xDBFF
            · simp only [hhigh, and_self, if_true]
              obtain ⟨y, ry, ny⟩ := hn5.rd
              simp only [consume, ry, Res.ok_bind]
              by_cases hy : y = 0x5C
              · have ny := ny (by rw [hy]; decide)
                simp only [hy, if_true, Res.pure_eq, Res.ok_bind, Bool.not_true,
                  Bool.false_eq_true, if_false]
                obtain ⟨z, rz, nz⟩ := ny.rd
                simp only [rz, Res.ok_bind]
                by_cases hz : z = 0x75
                · have nz := nz (by rw [hz]; decide)
                  simp only [hz, if_true, Res.ok_bind, Bool.not_true,
                    Bool.false_eq_true, if_false]
                  obtain ⟨ok2, j2, n2, hx2, hxs2⟩ := consumeHex_total nz
                  simp only [hx2, Res.ok_bind]
                  cases ok2 with
                  | false => exact ⟨false, j2, by simp, by simp⟩
                  | true =>
                    obtain ⟨b1, b2, b3, b4, hd2, h42, rfl, hn9⟩ := hxs2 rfl
                    simp only [Bool.not_true, Bool.false_eq_true, if_false]
                    by_cases hl2 : n2 < 0xDC00 ∨ n2 > 0xDFFF
                    · exact ⟨false, _, by simp only [hl2, if_true]; rfl, by simp⟩
                    simp only [hl2, if_false]
                    obtain ⟨c', rc, _⟩ := hn9.rd
                    simp only [rc, Res.ok_bind]
                    obtain ⟨ok, j, hj, hs⟩ := ih rc hn9 (by omega)
                    refine ⟨ok, j, hj, fun h => ?_⟩
                    obtain ⟨b, hb, hd, hl, hnj⟩ := hs h
                    refine ⟨_, .pair h4 hhigh h42 ⟨by omega, by omega⟩ hb, ?_, ?_, hnj⟩
                    · rw [rd_ok hr, rd_ok re, hd1, rd_ok ry, rd_ok rz, hd2, hd, h2, hu, hy, hz]
                      simp
                    · simp; omega
                · exact ⟨false, _, by simp [hz]; rfl, by simp⟩
              · exact ⟨false, _, by simp [hy]; rfl, by simp⟩
            · simp only [hhigh, if_false]
              obtain ⟨c', rc, _⟩ := hn5.rd
              simp only [rc, Res.ok_bind]
              obtain ⟨ok, j, hj, hs⟩ := ih rc hn5 (by omega)
              refine ⟨ok, j, hj, fun h => ?_⟩
              obtain ⟨b, hb, hd, hl, hnj⟩ := hs h
              refine ⟨_, .uni h4 hhigh hlow hb, ?_, by simp; omega, hnj⟩
              rw [rd_ok hr, rd_ok re, hd1, hd, h2, hu]
              simp
        · exact ⟨false, _, by simp [hu]; rfl, by simp⟩
  -- plain character or closing quote
    · simp only [h2, if_false]
      by_cases h3 : c = 0x22
      · refine ⟨true, i + 1, by simp [h3], fun _ => ⟨[], .nil, ?_, by simp, hn1⟩⟩
        rw [rd_ok hr, h3]; rfl
      · simp only [h3, if_false]
        obtain ⟨c', rc, _⟩ := hn1.rd
        simp only [rc, Res.ok_bind]
        obtain ⟨ok, j, hj, hs⟩ := ih rc hn1 (by omega)
        refine ⟨ok, j, hj, fun h => ?_⟩
        obtain ⟨b, hb, hd, hl, hnj⟩ := hs h
        refine ⟨c :: b, .plain (by grind) h3 h2 hb, ?_, by simp; omega, hnj⟩
        rw [rd_ok hr, hd]; rfl

theorem consumeStr_total {s : Bytes} {i : Nat} (hn : HasNul s i) :
    ∃ ok j, consumeStr s i = .ok (ok, j) ∧
      (ok = true → ∃ b, IsStrBody b ∧ s.drop i = b ++ 0x22 :: s.drop j ∧
        j = i + b.length + 1 ∧ HasNul s j) := by
  obtain ⟨c, rc, _⟩ := hn.rd
  simp only [consumeStr, rc, Res.ok_bind]
  exact consumeStrLoop_total _ rc hn (by omega)

end ZJ
