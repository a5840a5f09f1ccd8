import Verif.Grammar

/-
zj_checkStr and zj_checkNum against the grammar.
-/

set_option linter.unusedSimpArgs false

namespace ZJ

/-- String bodies whose `\u` escapes are below U+D800 or surrogate pairs: what the
setters accept. -/
inductive IsSetBody : Bytes → Prop where
  | nil : IsSetBody []
  | plain {c r} : 0x20 ≤ c → c ≠ 0x22 → c ≠ 0x5C → IsSetBody r → IsSetBody (c :: r)
  | esc {c x r} : simpleEscape c = some x → IsSetBody r → IsSetBody (0x5C :: c :: r)
  | uni {a b c d n r} : Hex4 a b c d n → n < 0xD800 →
      IsSetBody r → IsSetBody (0x5C :: 0x75 :: a :: b :: c :: d :: r)
  | pair {a b c d n a' b' c' d' n' r} : Hex4 a b c d n → IsHighSurrogate n →
      Hex4 a' b' c' d' n' → IsLowSurrogate n' → IsSetBody r →
      IsSetBody (0x5C :: 0x75 :: a :: b :: c :: d :: 0x5C :: 0x75 :: a' :: b' :: c' :: d' :: r)

theorem IsSetBody.body {b} (h : IsSetBody b) : IsStrBody b := by
  induction h with
  | nil => exact .nil
  | plain h1 h2 h3 _ ih => exact .plain h1 h2 h3 ih
  | esc h _ ih => exact .esc h ih
  | uni h hn _ ih =>
    exact .uni h (by unfold IsHighSurrogate; omega) (by unfold IsLowSurrogate; omega) ih
  | pair h h1 h' h2 _ ih => exact .pair h h1 h' h2 ih

theorem HasNul.of_zero {s : Bytes} {i : Nat} {r : Bytes} (h : s.drop i = 0 :: r) : HasNul s i := by
  unfold HasNul; rw [h]; simp

theorem checkStrLoop_complete {b : Bytes} (hb : IsSetBody b) :
    ∀ {s : Bytes} {fuel i : Nat} {c : Byte} {q r : Bytes}, b ++ 0 :: r = c :: q →
      s.drop i = q → b.length < fuel →
      checkStrLoop s fuel c i = .ok (some (i + b.length - 1)) := by
  induction hb with
  | nil =>
    intro s fuel i c q r h hd hf
    obtain ⟨fuel, rfl⟩ : ∃ k, fuel = k + 1 := ⟨fuel - 1, by simp at hf; omega⟩
    simp at h
    obtain ⟨rfl, rfl⟩ := h
    simp [checkStrLoop]
  | plain h1 h2 h3 h4 ih =>
    rename_i x b
    intro s fuel i c q r h hd hf
    obtain ⟨fuel, rfl⟩ : ∃ k, fuel = k + 1 := ⟨fuel - 1, by simp at hf; omega⟩
    simp only [List.cons_append, List.cons.injEq] at h
    obtain ⟨rfl, rfl⟩ := h
    cases hq : b ++ 0 :: r with
    | nil => simp at hq
    | cons c' q' =>
      rw [hq] at hd
      have n0 : x ≠ 0 := by grind
      have n1 : ¬ x ≤ 0x1f := by grind
      simp only [checkStrLoop, n0, n1, h2, h3, if_false, rd_drop hd, Res.ok_bind, or_self]
      rw [ih hq (drop_succ hd) (by simp at hf; omega)]
      simp
  | esc h h4 ih =>
    rename_i e y b
    intro s fuel i c q r h' hd hf
    obtain ⟨fuel, rfl⟩ : ∃ k, fuel = k + 1 := ⟨fuel - 1, by simp at hf; omega⟩
    simp only [List.cons_append, List.cons.injEq] at h'
    obtain ⟨rfl, rfl⟩ := h'
    cases hq : b ++ 0 :: r with
    | nil => simp at hq
    | cons c' q' =>
      rw [hq] at hd
      have d1 := drop_succ hd
      have he : isEscLetter e = true := by rw [isEscLetter_eq, h]; rfl
      simp only [checkStrLoop, rd_drop hd, rd_drop d1, Res.ok_bind, he, if_true]
      rw [ih hq (drop_succ d1) (by simp at hf; omega)]
      simp; omega
  | uni h hh h4 ih =>
    rename_i a1 a2 a3 a4 n b
    intro s fuel i c q r h' hd hf
    obtain ⟨fuel, rfl⟩ : ∃ k, fuel = k + 1 := ⟨fuel - 1, by simp at hf; omega⟩
    simp only [List.cons_append, List.cons.injEq] at h'
    obtain ⟨rfl, rfl⟩ := h'
    cases hq : b ++ 0 :: r with
    | nil => simp at hq
    | cons c' q' =>
      rw [hq] at hd
      have d1 := drop_succ hd
      have hx := consumeHex_complete h d1
      have d5 : s.drop (i + 1 + 4) = c' :: q' := by
        have : s.drop (i + 1 + 4) = (s.drop (i + 1)).drop 4 := by rw [List.drop_drop]
        rw [this, d1]; rfl
      have g1 : ¬ (0xDC00 ≤ n ∧ n ≤ 0xDFFFF) := by omega
      have g2 : ¬ (0xD800 ≤ n ∧ n ≤ 0xDBFF) := by omega
      simp only [checkStrLoop, rd_drop hd, Res.ok_bind]
      simp only [show isEscLetter 0x75 = false by decide, hx, Res.ok_bind, g1, g2, rd_drop d5]
      simp only [if_false, if_true, Bool.not_true, Bool.false_eq_true,
        show ((0x5C : Byte) = 0) = False by decide,
        show ((0x5C : Byte) ≤ 0x1f ∨ (0x5C : Byte) = 0x22) = False by decide]
      rw [ih hq (drop_succ d5) (by simp at hf; omega)]
      simp; omega
  | pair h hh hk hl h4 ih =>
    rename_i a1 a2 a3 a4 n b1 b2 b3 b4 n' b
    intro s fuel i c q r h' hd hf
    obtain ⟨fuel, rfl⟩ : ∃ k, fuel = k + 1 := ⟨fuel - 1, by simp at hf; omega⟩
    simp only [List.cons_append, List.cons.injEq] at h'
    obtain ⟨rfl, rfl⟩ := h'
    cases hq : b ++ 0 :: r with
    | nil => simp at hq
    | cons c' q' =>
      rw [hq] at hd
      have d1 := drop_succ hd
      have hx := consumeHex_complete h d1
      have d5 : s.drop (i + 1 + 4) = 0x5C :: 0x75 :: b1 :: b2 :: b3 :: b4 :: c' :: q' := by
        have : s.drop (i + 1 + 4) = (s.drop (i + 1)).drop 4 := by rw [List.drop_drop]
        rw [this, d1]; rfl
      have d6 := drop_succ d5
      have d7 := drop_succ d6
      have hy := consumeHex_complete hk d7
      have d11 : s.drop (i + 1 + 4 + 1 + 1 + 4) = c' :: q' := by
        have : s.drop (i + 1 + 4 + 1 + 1 + 4) = (s.drop (i + 1 + 4 + 1 + 1)).drop 4 := by
          rw [List.drop_drop]
        rw [this, d7]; rfl
      unfold IsHighSurrogate at hh
      unfold IsLowSurrogate at hl
      have nl : ¬ (0xDC00 ≤ n ∧ n ≤ 0xDFFFF) := by omega
      have nl' : ¬ (n' < 0xDC00 ∨ n' > 0xDFFF) := by omega
      simp only [checkStrLoop, rd_drop hd, Res.ok_bind]
      simp only [show isEscLetter 0x75 = false by decide, hx, Res.ok_bind, nl, hh, consume,
        rd_drop d5]
      simp only [if_false, if_true, Bool.not_true, Bool.false_eq_true, and_self, Res.ok_bind,
        Res.pure_eq, rd_drop d6, hy, nl', rd_drop d11,
        show ((0x5C : Byte) = 0) = False by decide,
        show ((0x5C : Byte) ≤ 0x1f ∨ (0x5C : Byte) = 0x22) = False by decide]
      rw [ih hq (drop_succ d11) (by simp at hf; omega)]
      simp; omega

theorem checkStr_complete {b : Bytes} (hb : IsSetBody b) {s junk : Bytes}
    (hs : s = b ++ 0 :: junk) : checkStr s = .ok (some b.length) := by
  cases hq : b ++ 0 :: junk with
  | nil => simp at hq
  | cons c q =>
    have hd : s.drop 0 = c :: q := by rw [hs, hq]; rfl
    have hlen : b.length < s.length + 1 := by rw [hs]; simp; omega
    simp only [checkStr, rd_drop hd, Res.ok_bind]
    rw [checkStrLoop_complete hb hq (drop_succ hd) hlen]
    congr 2
    omega

theorem checkStrLoop_total : ∀ fuel {s : Bytes} {i : Nat} {c : Byte},
    rd s i = .ok c → HasNul s i → s.length - i < fuel →
    ∃ o, checkStrLoop s fuel c (i + 1) = .ok o ∧
      ∀ n, o = some n → ∃ b, IsSetBody b ∧ s.drop i = b ++ 0 :: s.drop (n + 1) ∧
        n = i + b.length := by
  intro fuel
  induction fuel with
  | zero => intro s i c _ _ h; omega
  | succ fuel ih =>
    intro s i c hr hn hf
    have hi := hn.lt
    unfold checkStrLoop
    by_cases h0 : c = 0
    · refine ⟨some i, by simp [h0], ?_⟩
      intro n hn'; cases hn'
      exact ⟨[], .nil, by rw [rd_ok hr, h0]; rfl, by simp⟩
    have hn1 := hn.succ hr h0
    by_cases h1 : c ≤ 0x1f ∨ c = 0x22
    · exact ⟨none, by simp [h0, h1], by simp⟩
    simp only [h0, h1, if_false]
    by_cases h2 : c = 0x5C
    · simp only [h2, if_true]
      obtain ⟨e, re, ne⟩ := hn1.rd
      simp only [re, Res.ok_bind]
      cases he : isEscLetter e with
      | true =>
        have ne := ne (isEscLetter_ne he)
        obtain ⟨c', rc, _⟩ := ne.rd
        simp only [rc, Res.ok_bind, if_true]
        obtain ⟨o, hj, hs⟩ := ih rc ne (by omega)
        refine ⟨o, hj, fun n h => ?_⟩
        obtain ⟨b, hb, hd, hl⟩ := hs n h
        rw [isEscLetter_eq] at he
        obtain ⟨x, hx⟩ := Option.isSome_iff_exists.1 he
        refine ⟨0x5C :: e :: b, .esc hx hb, ?_, by simp; omega⟩
        rw [rd_ok hr, rd_ok re, hd, h2]; rfl
      | false =>
        by_cases hu : e = 0x75
        · have ne := ne (by rw [hu]; decide)
          simp only [hu, if_true, Bool.false_eq_true, if_false]
          obtain ⟨ok1, j1, n, hx, hxs⟩ := consumeHex_total ne
          simp only [hx, Res.ok_bind]
          cases ok1 with
          | false => exact ⟨none, by simp, by simp⟩
          | true =>
            obtain ⟨a1, a2, a3, a4, hd1, h4, rfl, hn5⟩ := hxs rfl
            have hlt : n < 65536 := by
              obtain ⟨x, y, z, w, e1, e2, e3, e4, e5⟩ := h4
              have := (hexVal_lt e1).2; have := (hexVal_lt e2).2
              have := (hexVal_lt e3).2; have := (hexVal_lt e4).2
              omega
            simp only [Bool.not_true, Bool.false_eq_true, if_false]
            by_cases hlow : 0xDC00 ≤ n ∧ n ≤ 0xDFFFF
            · exact ⟨none, by simp only [hlow, and_self, if_true]; rfl, by simp⟩
            simp only [hlow, if_false]
            by_cases hhigh : 0xD800 ≤ n ∧ n ≤ 0xDBFF
            · simp only [hhigh, and_self, if_true]
              obtain ⟨y, ry, ny⟩ := hn5.rd
              simp only [consume, ry, Res.ok_bind]
              by_cases hy : y = 0x5C
              · have ny := ny (by rw [hy]; decide)
                simp only [hy, if_true, Res.pure_eq, Res.ok_bind, Bool.not_true,
                  Bool.false_eq_true, if_false]
                obtain ⟨z, rz, nz⟩ := ny.rd
                simp only [rz, Res.ok_bind]
                by_cases hz : z = 0x75
                · have nz := nz (by rw [hz]; decide)
                  simp only [hz, if_true, Res.ok_bind, Bool.not_true,
                    Bool.false_eq_true, if_false]
                  obtain ⟨ok2, j2, n2, hx2, hxs2⟩ := consumeHex_total nz
                  simp only [hx2, Res.ok_bind]
                  cases ok2 with
                  | false => exact ⟨none, by simp, by simp⟩
                  | true =>
                    obtain ⟨b1, b2, b3, b4, hd2, h42, rfl, hn9⟩ := hxs2 rfl
                    simp only [Bool.not_true, Bool.false_eq_true, if_false]
                    by_cases hl2 : n2 < 0xDC00 ∨ n2 > 0xDFFF
                    · exact ⟨none, by simp only [hl2, if_true], by simp⟩
                    simp only [hl2, if_false]
                    obtain ⟨c', rc, _⟩ := hn9.rd
                    simp only [rc, Res.ok_bind]
                    obtain ⟨o, hj, hs⟩ := ih rc hn9 (by omega)
                    refine ⟨o, hj, fun m h => ?_⟩
                    obtain ⟨b, hb, hd, hl⟩ := hs m h
                    refine ⟨_, .pair h4 hhigh h42 ⟨by omega, by omega⟩ hb, ?_, ?_⟩
                    · rw [rd_ok hr, rd_ok re, hd1, rd_ok ry, rd_ok rz, hd2, hd, h2, hu, hy, hz]
                      simp
                    · simp; omega
                · exact ⟨none, by simp [hz], by simp⟩
              · exact ⟨none, by simp [hy], by simp⟩
            · simp only [hhigh, if_false]
              obtain ⟨c', rc, _⟩ := hn5.rd
              simp only [rc, Res.ok_bind]
              obtain ⟨o, hj, hs⟩ := ih rc hn5 (by omega)
              refine ⟨o, hj, fun m h => ?_⟩
              obtain ⟨b, hb, hd, hl⟩ := hs m h
              refine ⟨_, .uni h4 (by omega) hb, ?_, by simp; omega⟩
              rw [rd_ok hr, rd_ok re, hd1, hd, h2, hu]
              simp
        · exact ⟨none, by simp [hu], by simp⟩
    · simp only [h2, if_false]
      obtain ⟨c', rc, _⟩ := hn1.rd
      simp only [rc, Res.ok_bind]
      obtain ⟨o, hj, hs⟩ := ih rc hn1 (by omega)
      refine ⟨o, hj, fun n h => ?_⟩
      obtain ⟨b, hb, hd, hl⟩ := hs n h
      refine ⟨c :: b, .plain (by grind) (by grind) h2 hb, ?_, by simp; omega⟩
      rw [rd_ok hr, hd]; rfl

/-- Two splittings at the first NUL agree. -/
theorem nul_split {a b r q : Bytes} (ha : (0 : Byte) ∉ a) (hb : (0 : Byte) ∉ b)
    (h : a ++ 0 :: r = b ++ 0 :: q) : a = b := by
  induction a generalizing b with
  | nil =>
    cases b with
    | nil => rfl
    | cons x b => simp at h; simp [← h.1] at hb
  | cons x a ih =>
    cases b with
    | nil => simp at h; simp [h.1] at ha
    | cons y b =>
      simp at h ha hb
      rw [h.1, ih ha.2 hb.2 h.2]

/-- `zj_checkStr` on a C string. -/
theorem checkStr_spec {b junk : Bytes} (h0 : (0 : Byte) ∉ b) :
    (IsSetBody b ∧ checkStr (b ++ 0 :: junk) = .ok (some b.length)) ∨
    (¬ IsSetBody b ∧ checkStr (b ++ 0 :: junk) = .ok none) := by
  have hn : HasNul (b ++ 0 :: junk) 0 := by simp [HasNul]
  obtain ⟨c, rc, _⟩ := hn.rd
  obtain ⟨o, e, ho⟩ := checkStrLoop_total ((b ++ 0 :: junk).length + 1) rc hn (by omega)
  by_cases hb : IsSetBody b
  · exact .inl ⟨hb, checkStr_complete hb rfl⟩
  · right
    refine ⟨hb, ?_⟩
    simp only [checkStr, rc, Res.ok_bind]
    cases o with
    | none => exact e
    | some n =>
      exfalso
      obtain ⟨b', hb', hd, hn'⟩ := ho n rfl
      have : b = b' := nul_split h0 hb'.body.no_nul (by simpa using hd)
      exact hb (this ▸ hb')

/-- `zj_checkNum` on a C string. -/
theorem checkNum_spec {b junk : Bytes} (h0 : (0 : Byte) ∉ b) :
    (IsNum b ∧ checkNum (b ++ 0 :: junk) = .ok (some b.length)) ∨
    (¬ IsNum b ∧ checkNum (b ++ 0 :: junk) = .ok none) := by
  by_cases hb : IsNum b
  · left
    refine ⟨hb, ?_⟩
    have h := scanNum_complete (s := b ++ 0 :: junk) (i := 0) hb
      (show NumEnd 0 by unfold NumEnd; decide) rfl
    have hd : (b ++ 0 :: junk).drop (0 + b.length) = 0 :: junk := by simp
    simp only [checkNum, h, Res.ok_bind, consume, rd_drop hd]
    simp
  · right
    refine ⟨hb, ?_⟩
    have hn : HasNul (b ++ 0 :: junk) 0 := by simp [HasNul]
    obtain ⟨o, e, ho⟩ := scanNum_total hn
    cases o with
    | none => simp [checkNum, e]
    | some j =>
      obtain ⟨b', hb', hd, hj, hnj⟩ := ho j rfl
      obtain ⟨c, rc, _⟩ := hnj.rd
      by_cases hc : c = 0
      · exfalso
        rw [rd_ok rc, hc] at hd
        have : b = b' := nul_split h0 hb'.no_nul (by simpa using hd)
        exact hb (this ▸ hb')
      · simp [checkNum, e, consume, rc, hc]

end ZJ
