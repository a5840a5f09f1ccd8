import Verif.PropOwn
import Verif.Hops

/-
C51: UTF-8 in, UTF-8 out. The library treats texts as bytes; it neither checks nor converts
UTF-8, except that it makes UTF-8 of `\uXXXX` escapes when it unescapes. Here: if every text a
client hands over is well-formed UTF-8, so is every text it gets back.
-/

set_option linter.unusedSimpArgs false
set_option linter.unusedVariables false

namespace ZJ

/-! ### Well-formed UTF-8 -/

/-- RFC 3629: a sequence of encodings of code points other than surrogates. -/
inductive IsUtf8 : Bytes → Prop where
  | nil : IsUtf8 []
  | cons {n r} : n < 0x110000 → ¬ (0xD800 ≤ n ∧ n ≤ 0xDFFF) → IsUtf8 r → IsUtf8 (utf8 n ++ r)

/-- ASCII -/
def IsAscii (b : Bytes) : Prop := ∀ c ∈ b, c < 0x80

instance {b : Bytes} : Decidable (IsAscii b) := inferInstanceAs (Decidable (∀ c ∈ b, c < 0x80))

theorem ofNat_lt {a b : Nat} (hb : b < 256) : UInt8.ofNat a < UInt8.ofNat b ↔ a % 256 < b := by
  rw [UInt8.lt_iff_toNat_lt]; simp; omega
theorem le_ofNat {a b : Nat} (hb : b < 256) : UInt8.ofNat b ≤ UInt8.ofNat a ↔ b ≤ a % 256 := by
  rw [UInt8.le_iff_toNat_le]; simp; omega
theorem ofNat_le {a b : Nat} (hb : b < 256) : UInt8.ofNat a ≤ UInt8.ofNat b ↔ a % 256 ≤ b := by
  rw [UInt8.le_iff_toNat_le]; simp; omega
theorem ofNat_inj {a b : Nat} : UInt8.ofNat a = UInt8.ofNat b ↔ a % 256 = b % 256 := by
  rw [← UInt8.toNat_inj]; simp

/-- One byte below 0x80, or a first byte from 0xC0 on and others from 0x80 to 0xBF. -/
theorem utf8_shape {n : Nat} (h : n < 0x110000) :
    (n < 0x80 ∧ utf8 n = [UInt8.ofNat n] ∧ UInt8.ofNat n < 0x80) ∨
    ∃ c t, utf8 n = c :: t ∧ 0xC0 ≤ c ∧ ∀ x ∈ t, 0x80 ≤ x ∧ x ≤ 0xBF := by
  unfold utf8
  have e80 : (0x80 : Byte) = UInt8.ofNat 128 := rfl
  have eBF : (0xBF : Byte) = UInt8.ofNat 191 := rfl
  have eC0 : (0xC0 : Byte) = UInt8.ofNat 192 := rfl
  split
  · exact .inl ⟨‹_›, rfl, by rw [e80, ofNat_lt (by omega)]; omega⟩
  · right
    split
    · refine ⟨_, _, rfl, by rw [eC0, le_ofNat (by omega)]; omega, fun x hx => ?_⟩
      simp only [List.mem_cons, List.not_mem_nil, or_false] at hx
      subst hx
      rw [e80, eBF, le_ofNat (by omega), ofNat_le (by omega)]; omega
    · split
      · refine ⟨_, _, rfl, by rw [eC0, le_ofNat (by omega)]; omega, fun x hx => ?_⟩
        simp only [List.mem_cons, List.not_mem_nil, or_false] at hx
        rcases hx with rfl | rfl <;> rw [e80, eBF, le_ofNat (by omega), ofNat_le (by omega)] <;> omega
      · refine ⟨_, _, rfl, by rw [eC0, le_ofNat (by omega)]; omega, fun x hx => ?_⟩
        simp only [List.mem_cons, List.not_mem_nil, or_false] at hx
        rcases hx with rfl | rfl | rfl <;> rw [e80, eBF, le_ofNat (by omega), ofNat_le (by omega)] <;> omega

/-- An encoding is not the beginning of another one. -/
theorem utf8_cancel {n m : Nat} (hn : n < 0x110000) (hm : m < 0x110000) {d r : Bytes} (h : utf8 n ++ d = utf8 m ++ r) : d = r := by
  unfold utf8 at h
  repeat' split at h
  all_goals simp only [List.cons_append, List.nil_append, List.cons.injEq, ofNat_inj] at h
  all_goals first
    | exact h.2
    | exact h.2.2
    | exact h.2.2.2
    | exact h.2.2.2.2
    | (exfalso; omega)

theorem IsUtf8.append {a b : Bytes} (ha : IsUtf8 a) (hb : IsUtf8 b) : IsUtf8 (a ++ b) := by
  induction ha with
  | nil => exact hb
  | cons h1 h2 _ ih => rw [List.append_assoc]; exact .cons h1 h2 ih

theorem IsUtf8.one {c : Byte} {r : Bytes} (hc : c < 0x80) (h : IsUtf8 r) : IsUtf8 (c :: r) := by
  have h1 : c.toNat < 0x80 := hc
  have : utf8 c.toNat = [c] := by unfold utf8; rw [if_pos h1]; simp
  have := IsUtf8.cons (n := c.toNat) (by omega) (by omega) h
  rw [‹utf8 c.toNat = [c]›] at this
  exact this

theorem IsAscii.utf8 : ∀ {a : Bytes}, IsAscii a → IsUtf8 a
  | [], _ => .nil
  | c :: r, h => .one (h c (by simp)) (IsAscii.utf8 fun x hx => h x (by simp [hx]))

theorem IsUtf8.tail {c : Byte} {r : Bytes} (hc : c < 0x80) (h : IsUtf8 (c :: r)) : IsUtf8 r := by
  generalize e : c :: r = l at h
  cases h with
  | nil => cases e
  | @cons n r' h1 h2 h3 =>
    rcases utf8_shape h1 with ⟨_, h4, _⟩ | ⟨c', t, h4, h5, _⟩
    · rw [h4] at e; cases e; exact h3
    · rw [h4] at e; cases e
      exfalso
      revert hc h5
      exact fun h1 h2 => absurd (UInt8.lt_of_lt_of_le h1 (by decide : (0x80 : Byte) ≤ 0xC0)) (UInt8.not_lt.2 h2)

/-- An ASCII byte is a character of its own. -/
theorem IsUtf8.split {a b : Bytes} {c : Byte} (hc : c < 0x80) (h : IsUtf8 (a ++ c :: b)) : IsUtf8 a ∧ IsUtf8 b := by
  generalize e : a ++ c :: b = l at h
  induction h generalizing a with
  | nil => simp at e
  | @cons n r h1 h2 h3 ih =>
    cases a with
    | nil =>
      have : IsUtf8 (c :: b) := by rw [show c :: b = utf8 n ++ r from e]; exact .cons h1 h2 h3
      exact ⟨.nil, this.tail hc⟩
    | cons x a =>
      rcases List.append_eq_append_iff.1 e with ⟨q, h4, h5⟩ | ⟨q, h4, h5⟩
      · -- the cut is inside the first character
        rcases q with _ | ⟨y, q⟩
        · rw [List.append_nil] at h4
          have := ih (a := []) h5
          exact ⟨by rw [← h4, ← List.append_nil (utf8 n)]; exact .cons h1 h2 .nil, this.2⟩
        · cases h5
          exfalso
          rcases utf8_shape h1 with ⟨_, h6, _⟩ | ⟨c', t, h6, _, h7⟩
          · rw [h6] at h4; simp at h4
          · rw [h6] at h4
            simp only [List.cons_append, List.cons.injEq] at h4
            have := h7 c (by rw [h4.2]; simp)
            exact absurd hc (UInt8.not_lt.2 this.1)
      · have := ih (a := q) h5.symm
        exact ⟨by rw [h4]; exact .cons h1 h2 this.1, this.2⟩

theorem IsUtf8.drop {p r : Bytes} (hp : IsAscii p) (h : IsUtf8 (p ++ r)) : IsUtf8 r := by
  induction p with
  | nil => exact h
  | cons c p ih => exact ih (fun x hx => hp x (by simp [hx])) (IsUtf8.tail (hp c (by simp)) h)

theorem IsUtf8.dropLast {a p : Bytes} (hp : IsAscii p) (h : IsUtf8 (a ++ p)) : IsUtf8 a := by
  cases p with
  | nil => rwa [List.append_nil] at h
  | cons c p => exact (h.split (hp c (by simp))).1

/-! ### Escapes -/

theorem hexVal_ascii : ∀ c x, hexVal c = some x → c < 0x80 := by
  intro c x h
  have : ∀ c, (hexVal c).isSome = true → c < 0x80 := by apply allBytes; decide +kernel
  exact this c (by simp [h])

theorem simpleEscape_ascii : ∀ c x, simpleEscape c = some x → c < 0x80 ∧ x < 0x80 := by
  intro c x h
  have : ∀ c, (simpleEscape c).all (fun x => decide (c < 0x80 ∧ x < 0x80)) = true := by apply allBytes; decide +kernel
  have := this c
  rw [h] at this
  simpa using this

theorem Hex4.ascii {a b c d : Byte} {n : Nat} (h : Hex4 a b c d n) : a < 0x80 ∧ b < 0x80 ∧ c < 0x80 ∧ d < 0x80 := by
  obtain ⟨x, y, z, w, h1, h2, h3, h4, _⟩ := h
  exact ⟨hexVal_ascii _ _ h1, hexVal_ascii _ _ h2, hexVal_ascii _ _ h3, hexVal_ascii _ _ h4⟩

theorem hexVal_lt16 : ∀ c x, hexVal c = some x → x < 16 := by
  intro c x h
  have : ∀ c, (hexVal c).all (fun x => decide (x < 16)) = true := by apply allBytes; decide +kernel
  have := this c
  rw [h] at this
  simpa using this

theorem Hex4.bound {a b c d : Byte} {n : Nat} (h : Hex4 a b c d n) : n < 0x10000 := by
  obtain ⟨x, y, z, w, h1, h2, h3, h4, rfl⟩ := h
  have := hexVal_lt16 _ _ h1
  have := hexVal_lt16 _ _ h2
  have := hexVal_lt16 _ _ h3
  have := hexVal_lt16 _ _ h4
  omega

theorem ascii6 {a b c d : Byte} {n : Nat} (h : Hex4 a b c d n) : IsAscii [0x5C, 0x75, a, b, c, d] := by
  obtain ⟨h1, h2, h3, h4⟩ := h.ascii
  intro x hx
  simp only [List.mem_cons, List.not_mem_nil, or_false] at hx
  rcases hx with rfl | rfl | rfl | rfl | rfl | rfl
  · decide
  · decide
  all_goals assumption

theorem ascii12 {a b c d a' b' c' d' : Byte} {n n' : Nat} (h : Hex4 a b c d n) (h' : Hex4 a' b' c' d' n') :
    IsAscii [0x5C, 0x75, a, b, c, d, 0x5C, 0x75, a', b', c', d'] := fun x hx =>
  (List.mem_append.1 (show x ∈ [0x5C, 0x75, a, b, c, d] ++ [0x5C, 0x75, a', b', c', d'] from hx)).elim (ascii6 h x) (ascii6 h' x)

/-- Bytes from 0x80 on stand for themselves. -/
theorem Denotes.high : ∀ {t r D : Bytes}, (∀ x ∈ t, 0x80 ≤ x) → Denotes (t ++ r) D → ∃ d, D = t ++ d ∧ Denotes r d
  | [], r, D, _, h => ⟨D, rfl, h⟩
  | c :: t, r, D, ht, h => by
    have hc := ht c (by simp)
    rw [List.cons_append] at h
    generalize hq : t ++ r = q at h
    cases h with
    | plain _ _ _ h =>
      rw [← hq] at h
      obtain ⟨d, e, h'⟩ := Denotes.high (fun x hx => ht x (by simp [hx])) h
      exact ⟨d, by rw [e]; rfl, h'⟩
    | _ => exact absurd hc (by decide)

/-- Bytes from 0x80 to 0xBF at the beginning of what a body denotes stand for themselves: escapes
denote nothing that begins with such a byte. -/
theorem Denotes.cont : ∀ {t r e : Bytes}, (∀ x ∈ t, 0x80 ≤ x ∧ x ≤ 0xBF) → Denotes e (t ++ r) → ∃ e', e = t ++ e' ∧ Denotes e' r
  | [], r, e, _, h => ⟨e, rfl, h⟩
  | c :: t, r, e, ht, h => by
    have hc := ht c (by simp)
    have hu : ∀ {n d}, n < 0x110000 → c :: (t ++ r) = utf8 n ++ d → False := fun {n d} hn h0 => by
      rcases utf8_shape hn with ⟨_, h4, h5⟩ | ⟨c', q, h4, h5, _⟩
      · rw [h4] at h0; rw [(List.cons.inj h0).1] at hc; exact absurd h5 (UInt8.not_lt.2 hc.1)
      · rw [h4] at h0; rw [(List.cons.inj h0).1] at hc
        exact absurd (UInt8.le_trans h5 hc.2) (by decide)
    rw [List.cons_append] at h
    generalize hD : c :: (t ++ r) = D at h
    cases h with
    | nil => cases hD
    | plain _ _ _ h =>
      cases hD
      obtain ⟨e', e1, h'⟩ := Denotes.cont (fun x hx => ht x (by simp [hx])) h
      exact ⟨e', by rw [e1]; rfl, h'⟩
    | esc hx _ => cases hD; exact absurd (simpleEscape_ascii _ _ hx).2 (UInt8.not_lt.2 hc.1)
    | uni h4 _ _ _ => exact (hu (by have := h4.bound; omega) hD).elim
    | pair h4 hh h4' hl _ =>
      refine (hu ?_ hD).elim
      have := hh.2; have := hl.2
      omega

/-- The character a body without lone surrogates denotes. -/
theorem IsUtf8.uni {n : Nat} {d : Bytes} (hn : n < 0x10000) (hh : ¬ IsHighSurrogate n) (hl : ¬ IsLowSurrogate n) : IsUtf8 (utf8 n ++ d) ↔ IsUtf8 d := by
  have hs : ¬ (0xD800 ≤ n ∧ n ≤ 0xDFFF) := by unfold IsHighSurrogate at hh; unfold IsLowSurrogate at hl; omega
  refine ⟨fun h => ?_, .cons (by omega) hs⟩
  generalize e : utf8 n ++ d = l at h
  cases h with
  | nil =>
    rcases utf8_shape (n := n) (by omega) with ⟨_, h4, h5⟩ | ⟨c', q, h4, h5, _⟩ <;> rw [h4] at e <;> cases e
  | cons h1 h2 h3 => rw [utf8_cancel (by omega) h1 e]; exact h3

theorem IsUtf8.pair {n : Nat} {d : Bytes} (h1 : 0x10000 ≤ n) (h2 : n < 0x110000) : IsUtf8 (utf8 n ++ d) ↔ IsUtf8 d := by
  refine ⟨fun h => ?_, .cons h2 (by omega)⟩
  generalize e : utf8 n ++ d = l at h
  cases h with
  | nil =>
    rcases utf8_shape (n := n) (by omega) with ⟨_, h4, h5⟩ | ⟨c', q, h4, h5, _⟩ <;> rw [h4] at e <;> cases e
  | cons h1 h2 h3 => rw [utf8_cancel (by omega) h1 e]; exact h3

theorem IsUtf8.ascii_iff {p r : Bytes} (hp : IsAscii p) : IsUtf8 (p ++ r) ↔ IsUtf8 r := ⟨.drop hp, hp.utf8.append⟩

theorem IsUtf8.one_iff {c : Byte} {r : Bytes} (hc : c < 0x80) : IsUtf8 (c :: r) ↔ IsUtf8 r := ⟨.tail hc, .one hc⟩

/-- The body of a JSON string is UTF-8 exactly if what it denotes is. -/
theorem Denotes.utf8 {e d : Bytes} (h : Denotes e d) : IsUtf8 e ↔ IsUtf8 d := by
  have key : ∀ N e d, e.length < N → Denotes e d → (IsUtf8 e ↔ IsUtf8 d) := by
    intro N
    induction N with
    | zero => intro e d h; omega
    | succ N ih =>
      intro e d hN h
      cases h with
      | nil => exact Iff.rfl
      | @plain c r d h1 h2 h3 h =>
        simp only [List.length_cons] at hN
        by_cases hc : c < 0x80
        · rw [IsUtf8.one_iff hc, IsUtf8.one_iff hc]; exact ih _ _ (by omega) h
        · have hch : ∀ {n r'}, n < 0x110000 → c :: r' = ZJ.utf8 n → ∀ x ∈ r', 0x80 ≤ x ∧ x ≤ 0xBF := fun {n r'} hn e => by
            rcases utf8_shape hn with ⟨_, h4, h5⟩ | ⟨c', q, h4, _, h5⟩
            · rw [h4] at e; cases e; exact absurd h5 hc
            · rw [h4] at e; cases e; exact h5
          have hne : ∀ {n}, n < 0x110000 → ∃ c' t, ZJ.utf8 n = c' :: t := fun {n} hn => by
            rcases utf8_shape hn with ⟨_, h4, h5⟩ | ⟨c', q, h4, _, h5⟩
            · exact ⟨_, _, h4⟩
            · exact ⟨_, _, h4⟩
          constructor
          · intro hu
            generalize e : c :: r = l at hu
            cases hu with
            | nil => cases e
            | @cons n r' hn hs hr' =>
              obtain ⟨c', t, h4⟩ := hne hn
              rw [h4] at e; cases e
              have ht := hch hn h4.symm
              obtain ⟨d', rfl, hd'⟩ := Denotes.high (fun x hx => (ht x hx).1) h
              rw [← List.cons_append, ← h4]
              exact .cons hn hs ((ih _ _ (by simp at hN; omega) hd').1 hr')
          · intro hu
            generalize e : c :: d = l at hu
            cases hu with
            | nil => cases e
            | @cons n r' hn hs hr' =>
              obtain ⟨c', t, h4⟩ := hne hn
              rw [h4] at e; cases e
              have ht := hch hn h4.symm
              obtain ⟨e', rfl, he'⟩ := Denotes.cont ht h
              rw [← List.cons_append, ← h4]
              exact .cons hn hs ((ih _ _ (by simp at hN; omega) he').2 hr')
      | @esc c x r d hx h =>
        obtain ⟨h1, h2⟩ := simpleEscape_ascii _ _ hx
        rw [IsUtf8.one_iff (by decide), IsUtf8.one_iff h1, IsUtf8.one_iff h2]
        exact ih _ _ (by simp at hN; omega) h
      | @uni a b c e n r d h4 hh hl h =>
        rw [IsUtf8.uni h4.bound hh hl, ← ih r d (by simp at hN; omega) h]
        exact IsUtf8.ascii_iff (ascii6 h4)
      | @pair a b c e n a' b' c' e' n' r d h4 hh h4' hl h =>
        have := hh.1; have := hh.2; have := hl.1; have := hl.2
        rw [IsUtf8.pair (by omega) (by omega), ← ih r d (by simp at hN; omega) h]
        exact IsUtf8.ascii_iff (ascii12 h4 h4')
  exact key _ _ _ (Nat.lt_succ_self _) h

/-! ### Documents -/

mutual
/-- All strings and keys of the document satisfy `Q`, as they are written between the quotes. -/
def Json.Texts (Q : Bytes → Prop) : Json → Prop
  | .str raw => Q raw
  | .arr xs => Json.TextsElems Q xs
  | .obj ms => Json.TextsMembers Q ms
  | _ => True
def Json.TextsElems (Q : Bytes → Prop) : List Json → Prop
  | [] => True
  | t :: ts => t.Texts Q ∧ Json.TextsElems Q ts
def Json.TextsMembers (Q : Bytes → Prop) : List (Bytes × Json) → Prop
  | [] => True
  | (k, t) :: ts => Q k ∧ t.Texts Q ∧ Json.TextsMembers Q ts
end

theorem IsWs.ascii {w : Bytes} (h : IsWs w) : IsAscii w := fun c hc => by
  have : ∀ c, isWs c = true → c < 0x80 := by apply allBytes; decide +kernel
  exact this c (h c hc)

theorem digits_ascii {w : Bytes} (h : ∀ c ∈ w, isDigit c = true) : IsAscii w := fun c hc => by
  have : ∀ c, isDigit c = true → c < 0x80 := by apply allBytes; decide +kernel
  exact this c (h c hc)

theorem IsAscii.append {a b : Bytes} (ha : IsAscii a) (hb : IsAscii b) : IsAscii (a ++ b) :=
  fun c hc => (List.mem_append.1 hc).elim (ha c) (hb c)

theorem IsAscii.cons {c : Byte} {b : Bytes} (hc : c < 0x80) (hb : IsAscii b) : IsAscii (c :: b) :=
  fun x hx => (List.mem_cons.1 hx).elim (fun e => e ▸ hc) (hb x)

theorem IsAscii.nil : IsAscii [] := fun _ h => (nomatch h)

/-- Numbers are ASCII. -/
theorem IsNum.ascii {b : Bytes} (h : IsNum b) : IsAscii b := by
  obtain ⟨m, i, f, e, rfl, hm, hi, hf, he⟩ := h
  refine .append ?_ (.append ?_ (.append ?_ ?_))
  · rcases hm with rfl | rfl
    · exact .nil
    · exact .cons (by decide) .nil
  · rcases hi with rfl | ⟨d, ds, rfl, _, h2, h3⟩
    · exact .cons (by decide) .nil
    · exact .cons (UInt8.lt_of_le_of_lt h2 (by decide)) (digits_ascii h3)
  · rcases hf with rfl | ⟨ds, rfl, h1⟩
    · exact .nil
    · exact .cons (by decide) (digits_ascii h1.2)
  · rcases he with rfl | ⟨e, sg, ds, rfl, h1, h2, h3⟩
    · exact .nil
    · refine .cons ?_ (.append ?_ (digits_ascii h3.2))
      · rcases h1 with rfl | rfl <;> decide
      · rcases h2 with rfl | rfl | rfl
        · exact .nil
        · exact .cons (by decide) .nil
        · exact .cons (by decide) .nil

mutual
/-- The strings and keys of a document written in UTF-8 are UTF-8. -/
theorem JValue.utf8 : ∀ {t b}, JValue t b → IsUtf8 b → t.Texts IsUtf8
  | _, _, .null, _ => trivial
  | _, _, .true, _ => trivial
  | _, _, .false, _ => trivial
  | _, _, .num _, _ => trivial
  | _, _, .str _, h => ((h.tail (by decide)).split (by decide)).1
  | _, _, .arrNil _, _ => trivial
  | _, _, .arr h1, h => JElems.utf8 h1 ((h.tail (by decide)).split (by decide)).1
  | _, _, .objNil _, _ => trivial
  | _, _, .obj h1, h => JMembers.utf8 h1 ((h.tail (by decide)).split (by decide)).1
theorem JElems.utf8 : ∀ {xs b}, JElems xs b → IsUtf8 b → Json.TextsElems IsUtf8 xs
  | _, _, .one hw hv hw', h => ⟨hv.utf8 ((h.drop hw.ascii).dropLast hw'.ascii), trivial⟩
  | _, _, .cons (bs := bs) hw hv hw' hr, h => by
    have h := h.drop hw.ascii
    rw [← List.append_assoc] at h
    have h := h.split (by decide)
    exact ⟨hv.utf8 (h.1.dropLast hw'.ascii), hr.utf8 h.2⟩
theorem JMembers.utf8 : ∀ {ms b}, JMembers ms b → IsUtf8 b → Json.TextsMembers IsUtf8 ms
  | _, _, .one hw hk h1 h2 hv hw', h => by
    have h := ((h.drop hw.ascii).tail (by decide)).split (by decide)
    exact ⟨h.1, hv.utf8 ((((h.2.drop h1.ascii).tail (by decide)).drop h2.ascii).dropLast hw'.ascii), trivial⟩
  | _, _, .cons hw hk h1 h2 hv hw' hr, h => by
    have h := ((h.drop hw.ascii).tail (by decide)).split (by decide)
    have h' := ((h.2.drop h1.ascii).tail (by decide)).drop h2.ascii
    rw [← List.append_assoc] at h'
    have h' := h'.split (by decide)
    exact ⟨h.1, hv.utf8 (h'.1.dropLast hw'.ascii), hr.utf8 h'.2⟩
end

theorem JText.utf8 {t : Json} {b : Bytes} (h : JText t b) (hb : IsUtf8 b) : t.Texts IsUtf8 := by
  obtain ⟨w, v, w', rfl, h1, h2, h3⟩ := h
  exact h2.utf8 ((hb.drop h1.ascii).dropLast h3.ascii)

mutual
/-- A document whose strings and keys are UTF-8 is printed in UTF-8. -/
theorem Json.print_utf8 : ∀ {t : Json}, t.Valid → t.Texts IsUtf8 → IsUtf8 t.print
  | .null, _, _ => IsAscii.utf8 (by decide)
  | .bool true, _, _ => IsAscii.utf8 (by decide)
  | .bool false, _, _ => IsAscii.utf8 (by decide)
  | .num _, hv, _ => (IsNum.ascii hv).utf8
  | .str _, _, h => .one (by decide) (.append h (IsAscii.utf8 (by decide)))
  | .arr _, hv, h => .one (by decide) (.append (Json.printElems_utf8 hv h) (IsAscii.utf8 (by decide)))
  | .obj _, hv, h => .one (by decide) (.append (Json.printMembers_utf8 hv h) (IsAscii.utf8 (by decide)))
theorem Json.printElems_utf8 : ∀ {xs : List Json}, Json.ValidElems xs → Json.TextsElems IsUtf8 xs → IsUtf8 (Json.printElems xs)
  | [], _, _ => .nil
  | [t], hv, h => Json.print_utf8 hv.1 h.1
  | _ :: t :: ts, hv, h => .append (Json.print_utf8 hv.1 h.1) (.one (by decide) (Json.printElems_utf8 hv.2 h.2))
theorem Json.printMembers_utf8 : ∀ {xs : List (Bytes × Json)}, Json.ValidMembers xs → Json.TextsMembers IsUtf8 xs → IsUtf8 (Json.printMembers xs)
  | [], _, _ => .nil
  | [(k, t)], hv, h => .one (by decide) (.append h.1 (.one (by decide) (.one (by decide) (Json.print_utf8 hv.2.1 h.2.1))))
  | (k, t) :: u :: ts, hv, h =>
    .append (.one (by decide) (.append h.1 (.one (by decide) (.one (by decide) (Json.print_utf8 hv.2.1 h.2.1)))))
      (.one (by decide) (Json.printMembers_utf8 hv.2.2 h.2.2))
end

/-! ### Stores -/

/-- All strings and keys in the nodes satisfy `Q`. -/
structure GText (Q : Bytes → Prop) (G : Graph) : Prop where
  key : ∀ a g k, G a = some g → g.key = some k → Q k
  str : ∀ a g b, G a = some g → g.val = .str b → Q b

section
variable {D : Type} {fp : FP D} {s s' : Store} {G G' : Graph} {a x f : Addr} {Q : Bytes → Prop}

theorem textsElems_map : ∀ {ms : List (Bytes × Json)}, Json.TextsElems Q (ms.map (·.2)) ↔ ∀ m ∈ ms, m.2.Texts Q
  | [] => by simp [Json.TextsElems]
  | m :: ms => by simp [Json.TextsElems, textsElems_map (ms := ms)]

theorem textsMembers_iff : ∀ {ms : List (Bytes × Json)}, Json.TextsMembers Q ms ↔ ∀ m ∈ ms, Q m.1 ∧ m.2.Texts Q
  | [] => by simp [Json.TextsMembers]
  | (k, t) :: ms => by simp [Json.TextsMembers, textsMembers_iff (ms := ms), and_assoc]

theorem mkCon_texts {o : Bool} {xs : List (Bytes × Json)} : (mkCon o xs).Texts Q ↔ ∀ m ∈ xs, (o = true → Q m.1) ∧ m.2.Texts Q := by
  cases o
  · simp [mkCon, Json.Texts, textsElems_map]
  · simp [mkCon, Json.Texts, textsMembers_iff]

mutual
theorem Unf.spelt (hG : GText Q G) : ∀ {a t}, Unf G a t → t.Texts Q
  | a, _, .mk (gn := gn) ha hv => UnfV.spelt hG hv (fun s e => hG.str a gn s ha e)
theorem UnfV.spelt (hG : GText Q G) : ∀ {gv t}, UnfV G gv t → (∀ s, gv = .str s → Q s) → t.Texts Q
  | gv, _, .scalar hs, h2 => by
    cases gv <;> simp [GVal.doc, Json.Texts, GVal.isCon] at hs ⊢
    exact h2 _ rfl
  | _, _, .con (o := o) hi, _ => mkCon_texts.2 (UnfI.spelt hG hi)
theorem UnfI.spelt (hG : GText Q G) : ∀ {o ks xs}, UnfI G o ks xs → ∀ m ∈ xs, (o = true → Q m.1) ∧ m.2.Texts Q
  | _, _, _, .nil, m, hm => by cases hm
  | _, _, _, .cons (gk := gk) hk hkey hu hr, m, hm => by
    rcases List.mem_cons.1 hm with rfl | hm
    · refine ⟨fun ho => ?_, Unf.spelt hG hu⟩
      subst ho
      exact hG.key _ gk _ hk hkey
    · exact UnfI.spelt hG hr m hm
end

theorem UnfI.kid_texts : ∀ {o ks xs}, UnfI G o ks xs → (∀ m ∈ xs, (o = true → Q m.1) ∧ m.2.Texts Q) → ∀ k ∈ ks,
    ∃ gk t, G k = some gk ∧ Unf G k t ∧ t.Texts Q ∧ ∀ key, gk.key = some key → Q key
  | _, _, _, .nil, _, k, hk => by cases hk
  | o, _, _, .cons (gk := gk) (key := key) (t := t) hk hkey hu hr, h, k, hm => by
    rcases List.mem_cons.1 hm with rfl | hm
    · have := h (key, t) (by simp)
      refine ⟨gk, t, hk, hu, this.2, fun k' e => ?_⟩
      unfold KeyIs at hkey
      split at hkey
      · rename_i ho; rw [hkey] at e; cases e; exact this.1 ho
      · rw [hkey.1] at e; cases e
    · exact UnfI.kid_texts hr (fun m hm => h m (by simp [hm])) k hm

theorem UnfV.kid_texts {gv : GVal} {t : Json} (h : UnfV G gv t) (ht : t.Texts Q) : ∀ k ∈ gv.kids,
    ∃ gk t, G k = some gk ∧ Unf G k t ∧ t.Texts Q ∧ ∀ key, gk.key = some key → Q key := by
  cases h with
  | scalar hs => intro k hk; cases gv <;> simp [GVal.kids, GVal.isCon] at hk hs
  | con hi => exact UnfI.kid_texts hi (mkCon_texts.1 ht)

theorem UnfV.str_texts {b : Bytes} {t : Json} (h : UnfV G (.str b) t) (ht : t.Texts Q) : Q b := by
  cases h with
  | scalar _ => exact ht

/-- The texts below a node. -/
theorem Unf.spelt_below {c : Addr} (hr : Reach G a c) : ∀ {t}, Unf G a t → t.Texts Q → ∀ y, G c = some y →
    (c = a ∨ ∀ k, y.key = some k → Q k) ∧ ∀ b, y.val = .str b → Q b := by
  induction hr with
  | refl =>
    intro t hu ht y hy
    refine ⟨.inl rfl, fun b hb => ?_⟩
    cases hu with
    | mk ha hv => rw [hy] at ha; cases ha; rw [hb] at hv; exact hv.str_texts ht
  | step ha hk _ ih =>
    intro t hu ht y hy
    cases hu with
    | mk ha' hv =>
      rw [ha] at ha'; cases ha'
      obtain ⟨gk, t', h1, h2, h3, h4⟩ := hv.kid_texts ht _ hk
      obtain ⟨h5, h6⟩ := ih h2 h3 y hy
      refine ⟨.inr ?_, h6⟩
      rcases h5 with rfl | h5
      · rw [h1] at hy; cases hy; exact h4
      · exact h5

theorem GText.tame {src : Addr → Addr} (h : Tame src G G') (hv : GText Q G) : GText Q G' where
  key c g' k hc hk := by
    obtain ⟨g, ge, h1, h2, _, h4⟩ := h c g' hc
    rcases h4 with h4 | h4
    · exact hv.key c g k h1 (h4 ▸ hk)
    · rw [h4] at hk; cases hk
  str c g' k hc hk := by
    obtain ⟨g, ge, h1, h2, h3, _⟩ := h c g' hc
    rcases h3 with h3 | h3
    · exact hv.str _ ge k h2 (h3 ▸ hk)
    · rw [hk] at h3; cases h3

theorem GText.set {gn : GNode} (h : GText Q G) (h1 : ∀ k, gn.key = some k → Q k) (h2 : ∀ b, gn.val = .str b → Q b) :
    GText Q (G.set a gn) where
  key c g k hc hk := by
    rw [Graph.set_apply] at hc
    split at hc
    · cases hc; exact h1 k hk
    · exact h.key c g k hc hk
  str c g b hc hb := by
    rw [Graph.set_apply] at hc
    split at hc
    · cases hc; exact h2 b hb
    · exact h.str c g b hc hb

theorem GText.or {g : Graph} (h : GText Q G) (h' : GText Q g) : GText Q (G.or g) where
  key c y k hc hk := by
    rw [Graph.or_apply, Option.or_eq_some_iff] at hc
    exact hc.elim (fun e => h.key c y k e hk) fun e => h'.key c y k e.2 hk
  str c y b hc hb := by
    rw [Graph.or_apply, Option.or_eq_some_iff] at hc
    exact hc.elim (fun e => h.str c y b e hb) fun e => h'.str c y b e.2 hb

theorem GText.graft {ga gx : GNode} {e : Bool} (h : GText Q G) (ha : G a = some ga) (hx : G x = some gx) :
    GText Q (G.graft a x ga gx e) where
  key c y k hc hk := by
    unfold Graph.graft at hc
    repeat' split at hc
    · cases hc; exact h.key a ga k ha hk
    · cases hc
    · cases h0 : G c with
      | none => simp [h0] at hc
      | some g0 => rw [h0] at hc; cases hc; exact h.key c g0 k h0 hk
    · exact h.key c y k hc hk
  str c y k hc hk := by
    unfold Graph.graft at hc
    repeat' split at hc
    · cases hc; exact h.str x gx k hx hk
    · cases hc
    · cases h0 : G c with
      | none => simp [h0] at hc
      | some g0 => rw [h0] at hc; cases hc; exact h.str c g0 k h0 hk
    · exact h.str c y k hc hk

theorem GText.copy {g : Graph} {n : Addr} {gn : GNode} (h : GText Q G) (hc : CopyOf G x g n gn) : GText Q g := by
  obtain ⟨t, h1, h2⟩ := hc.doc
  have ht := h1.spelt h
  have hb := fun c y hy => (h2.spelt_below (hc.links c y hy).2.2.2 ht y hy)
  refine ⟨fun c y k hy hk => ?_, fun c y b hy hk => (hb c y hy).2 b hk⟩
  rcases (hb c y hy).1 with rfl | h3
  · rw [hc.root] at hy; cases hy
    obtain ⟨gx, h4, h5⟩ := hc.key
    exact h.key x gx k h4 (h5 ▸ hk)
  · exact h3 k hk

theorem Target.texts {v A : Addr} {gn : GNode} (h : GText Q s.node) (hT : Target s v A a gn) : ∀ k, gn.key = some k → Q k := by
  intro k hk
  cases hT with
  | old _ ha => exact h.key a gn k ha hk
  | new => simp [blank] at hk

theorem GText.plant {gv : GVal} {g : Graph} {t : Json} {gn : GNode} (h : GText Q G) (hP : PlantOf G a gv g t) (ht : t.Texts Q)
    (hgn : ∀ k, gn.key = some k → Q k) : GText Q (G.plant a gn gv g) := by
  refine .set (.or ?_ h) hgn fun b hb => ?_
  · have hb : ∀ c y, g c = some y → (∀ k, y.key = some k → Q k) ∧ ∀ b, y.val = .str b → Q b := fun c y hy => by
      obtain ⟨_, _, _, k, hk, hr⟩ := hP.links c y hy
      obtain ⟨gk, t', h1, h2, h3, h4⟩ := hP.doc.kid_texts ht k hk
      obtain ⟨h5, h6⟩ := h2.spelt_below hr h3 y hy
      refine ⟨?_, h6⟩
      rcases h5 with rfl | h5
      · rw [h1] at hy; cases hy; exact h4
      · exact h5
    exact ⟨fun c y k hy => (hb c y hy).1 k, fun c y k hy => (hb c y hy).2 k⟩
  · have hb : gv = .str b := hb
    have := hP.doc
    rw [hb] at this
    exact this.str_texts ht

theorem utf8_passed {l : Bool} {b : Bytes} (h : IsUtf8 (passed l b)) : IsUtf8 b := by
  unfold passed at h
  split at h
  · exact h
  · exact h.dropLast (by decide)

theorem IsUtf8.untilNul {b : Bytes} (h : IsUtf8 b) : IsUtf8 (b.takeWhile (· ≠ 0)) := by
  have e := List.takeWhile_append_dropWhile (p := fun c : Byte => decide (c ≠ 0)) (l := b)
  cases hd : b.dropWhile (· ≠ 0) with
  | nil => rw [hd, List.append_nil] at e; rw [e]; exact h
  | cons c r =>
    have hc : c = 0 := by
      have := List.head?_dropWhile_not (fun c : Byte => decide (c ≠ 0)) b
      rw [hd] at this
      simpa using this
    subst hc
    rw [hd] at e
    rw [← e] at h
    exact (h.split (by decide)).1

theorem utf8_cut {f : ParseFn} {b : Bytes} (h : IsUtf8 b) : IsUtf8 (f.cut b) := by
  cases f
  · exact h
  · exact h.untilNul
  · exact h

/-- The call keeps the texts in the store UTF-8. -/
theorem GText.step {c : Call D} {r : Ans D} (h : GText IsUtf8 s.node) (hc : ∀ d ∈ c.texts, IsUtf8 d) (hA : AStep fp s c r s') :
    GText IsUtf8 s'.node := by
  have put : ∀ {v A a gn gv tl}, Target s v A a gn → (∀ b, gv = .str b → IsUtf8 b) → GText IsUtf8 (s.put v A a (gn.put gv) tl).node :=
    fun hT h2 => h.set (fun k hk => hT.texts h k hk) h2
  cases hA with
  | newAlloc => exact h
  | release => exact ⟨fun c y k hc => h.key c y k (Graph.only_some.1 hc).2, fun c y k hc => h.str c y k (Graph.only_some.1 hc).2⟩
  | newValue => exact h
  | parse ht hT hP => exact h.plant hP (ht.utf8 (utf8_cut (utf8_passed (hc _ (by simp [Call.texts]; rfl))))) (hT.texts h)
  | parseNo => exact h
  | text hk hT =>
    have hb := utf8_passed (hc _ (List.mem_singleton.2 rfl))
    refine GText.set (by rw [use_node]; exact h) (fun k hk => hT.texts h k hk) fun b' hb' => ?_
    cases hk with
    | str => cases hb'; exact hb
    | esc _ => cases hb'; rw [quote_eq]; exact (escBytes_denotes _).utf8.2 hb
    | num => cases hb'
  | textNo => rw [use_node]; exact h
  | null hT => exact put hT nofun
  | bool hT => exact put hT nofun
  | array hT => exact put hT nofun
  | object hT => exact put hT nofun
  | int hT => exact put hT nofun
  | double hT => exact put hT nofun
  | key hk hT =>
    have hb := utf8_passed (hc _ (List.mem_singleton.2 rfl))
    refine GText.set (by rw [use_node]; exact h) (fun k' hk' => ?_) fun b' hb' => ?_
    · cases hk' 
      cases hk with
      | plain => exact hb
      | esc _ => rw [quote_eq]; exact (escBytes_denotes _).utf8.2 hb
    · cases hT with
      | old _ ha => exact h.str _ _ _ ha hb'
      | new => cases hb'
  | keyNo => rw [use_node]; exact h
  | keyInArray => rw [use_node]; exact h
  | get => exact h
  | nav => exact h
  | navNo => exact h
  | copy hv hcp => exact h.or (h.copy hcp)
  | copyNo => exact h
  | move hv hm => exact h.tame (.moved hm)
  | moveNo => exact h
  | addFast _ _ hm hx => exact h.tame ((Tame.moved hm).trans ((Tame.item hx).trans .attach))
  | add _ _ hcp => exact (h.or (h.copy hcp)).tame ((Tame.item hcp.here).trans .attach)
  | addNo => exact h
  | delAt => exact h.tame .detach
  | delAtNo => exact h
  | delKey => exact h.tame .detach
  | delKeyNo => exact h
  | setFast _ _ hm ha hx => exact (h.tame (.moved hm)).graft ha hx
  | setFastNew _ _ hm => exact h.tame (.moved hm)
  | set _ _ ha hcp => exact (h.or (h.copy hcp)).graft (Graph.le_or _ _ ha) hcp.here
  | setNew _ _ hcp => exact h.or (h.copy hcp)
  | setNo => exact h

/-- From such a store, texts come back as UTF-8. -/
theorem GText.answer {c : Call D} {b : Bytes} (hw : Wf s) (h : GText IsUtf8 s.node) (hA : AStep fp s c (.bytes (some b)) s') : IsUtf8 b := by
  generalize hr : Ans.bytes (some b) = r at hA
  cases hA with
  | @get m v A x _ hv ha =>
    generalize hg : x.bind s.node = o at ha
    have at_ : ∀ {y}, o = some y → ∃ a, s.node a = some y := fun e => by
      obtain ⟨a, _, h2⟩ := Option.bind_eq_some_iff.1 (hg.trans e)
      exact ⟨a, h2⟩
    cases ha with
    | type | size | null | bool | int | intNone | double | doubleNone => cases hr
    | unStrNone | unKeyNone => cases hr
    | str =>
      obtain ⟨y, hy, e⟩ := Option.bind_eq_some_iff.1 (Ans.bytes.inj hr).symm
      obtain ⟨a, hy⟩ := at_ hy
      split at e
      · rename_i b' hb; cases e; exact h.str a y _ hy hb
      · cases e
    | num =>
      obtain ⟨y, hy, e⟩ := Option.bind_eq_some_iff.1 (Ans.bytes.inj hr).symm
      obtain ⟨a, hy⟩ := at_ hy
      split at e
      · rename_i b' hb; cases e; exact (hw.valid.num a y _ hy hb).ascii.utf8
      · cases e
    | key =>
      obtain ⟨y, hy, e⟩ := Option.bind_eq_some_iff.1 (Ans.bytes.inj hr).symm
      obtain ⟨a, hy⟩ := at_ hy
      exact h.key a y _ hy e
    | unStr hn hd =>
      cases hr
      obtain ⟨a, hy⟩ := at_ rfl
      exact (hd.utf8.1 (h.str a _ _ hy hn)).untilNul
    | unKey hn hd =>
      cases hr
      obtain ⟨a, hy⟩ := at_ rfl
      exact (hd.utf8.1 (h.key a _ _ hy hn)).untilNul
    | print hu => cases hr; exact Json.print_utf8 (hu.valid hw.valid) (hu.spelt h)
    | printNone => cases hr; exact .nil
  | _ => cases hr

theorem GText.gives : ∀ {p : Prog D} {s s' : Store} {rs}, p.Gives fp s rs s' → Wf s → GText IsUtf8 s.node → p.Hands IsUtf8 →
    (∀ b, Ans.bytes (some b) ∈ rs → IsUtf8 b) ∧ GText IsUtf8 s'.node ∧ Wf s'
  | .done, _, _, _, .done, hw, h, _ => ⟨fun _ h => (nomatch h), h, hw⟩
  | .call c k, _, _, _, .call (r := r) hA hw1 hG, hw, h, hp => by
    obtain ⟨h1, h2⟩ := GText.gives hG hw1 (h.step hp.1 hA) (hp.2 r)
    refine ⟨fun b hb => ?_, h2⟩
    rcases List.mem_cons.1 hb with rfl | hb
    · exact h.answer hw hA
    · exact h1 b hb

/-- C51: a client that makes only allowed calls and hands over only UTF-8 gets only UTF-8 back,
whether it asks for strings, keys, numbers or whole documents, as they are written or unescaped.
And all strings and keys of the documents it then has are UTF-8. -/
theorem C51_utf8 {slack : Nat → Nat} {pad : Bool} (hp : pad = true → ∀ b, 3 ≤ slack b) (p : Prog D)
    (hs : p.Safe fp (Store.init pad)) (hu : p.Hands IsUtf8) :
    ∃ c rs st', (∀ F, c ≤ F → p.run fp F (St.init slack cfg) = .ok (rs, st')) ∧ (∀ b, Ans.bytes (some b) ∈ rs → IsUtf8 b) ∧
      ∃ s', p.Gives fp (Store.init pad) rs s' ∧ ∀ v t, s'.Doc v t → Shows st' v t ∧ t.Texts IsUtf8 := by
  obtain ⟨c, rs, st', s', P', e, hG, h⟩ := p.goes (WP.init hp) hs
  obtain ⟨h1, h2, _⟩ := GText.gives hG (WP.init (cfg := {}) (slack := slack) hp).wf ⟨fun _ _ _ h => (nomatch h), fun _ _ _ h => (nomatch h)⟩ hu
  refine ⟨c, rs, st', e, h1, s', hG, fun v t ⟨a, A, hv, ht⟩ => ?_⟩
  exact ⟨h.inv.shows (h.hnd v _ hv).1 ht, ht.spelt h2⟩

end

/-- The escapes of a string body, in both directions: it is UTF-8 exactly if what it denotes is. -/
theorem C51_escapes {e d : Bytes} (h : Denotes e d) : IsUtf8 e ↔ IsUtf8 d := h.utf8

/-- The library does not check this: `zj_Parse` accepts the byte 0xFF in a string, which is in
no UTF-8 text, and returns it, although the text is not one RFC 8259 section 8.1 allows. -/
theorem C51_unchecked : ((Prog.seq [.newAlloc, .newValue 0, .parse .parse 0 [0x22, 0xFF, 0x22], .get .str 0]).run
    (⟨fun _ => [], fun _ => ()⟩ : FP Unit) 99 (St.init fun _ => 0)).out =
    .ok [.alloc 0, .handle (some 0), .bool true, .bytes (some [0xFF])] ∧ ¬ IsUtf8 [0xFF] := by
  refine ⟨by decide +kernel, fun h => ?_⟩
  generalize e : ([0xFF] : Bytes) = l at h
  cases h with
  | nil => cases e
  | @cons n r h1 h2 h3 =>
    unfold utf8 at e
    have e255 : (0xFF : Byte) = UInt8.ofNat 255 := rfl
    repeat' split at e
    all_goals
      simp only [List.cons_append, List.nil_append, List.cons.injEq, e255, ofNat_inj] at e
      try (exact absurd e.1 (by omega))
      try (exact absurd e.2 (by simp))

/-- U+00E9, a quotation mark and U+1F600 as UTF-8 -/
theorem utf8_example : IsUtf8 [0xC3, 0xA9, 0x22, 0xF0, 0x9F, 0x98, 0x80] :=
  .cons (n := 0xE9) (r := [0x22, 0xF0, 0x9F, 0x98, 0x80]) (by decide) (by decide)
    (.one (by decide) (.cons (n := 0x1F600) (r := []) (by decide) (by decide) .nil))

/-- A surrogate (CESU-8), a NUL written with two bytes, and half of a character are not UTF-8. -/
theorem not_utf8_example : ¬ IsUtf8 [0xED, 0xA0, 0x80] ∧ ¬ IsUtf8 [0xC0, 0x80] ∧ ¬ IsUtf8 [0xC3] := by
  have key : ∀ l : Bytes, IsUtf8 l → l = [0xED, 0xA0, 0x80] ∨ l = [0xC0, 0x80] ∨ l = [0xC3] → False := by
    intro l h e
    cases h with
    | nil => rcases e with e | e | e <;> cases e
    | @cons n r h1 h2 h3 =>
      have a1 : (0xED : Byte) = UInt8.ofNat 0xED := rfl
      have a2 : (0xA0 : Byte) = UInt8.ofNat 0xA0 := rfl
      have a3 : (0x80 : Byte) = UInt8.ofNat 0x80 := rfl
      have a4 : (0xC0 : Byte) = UInt8.ofNat 0xC0 := rfl
      have a5 : (0xC3 : Byte) = UInt8.ofNat 0xC3 := rfl
      unfold utf8 at e
      repeat' split at e
      all_goals
        simp only [List.cons_append, List.nil_append, List.cons.injEq, a1, a2, a3, a4, a5, ofNat_inj, reduceCtorEq, and_false, or_false] at e
        try omega
  exact ⟨fun h => key _ h (.inl rfl), fun h => key _ h (.inr (.inl rfl)), fun h => key _ h (.inr (.inr rfl))⟩

/-- A client that sets a string, and reads it in three ways. -/
def utf8Client {D : Type} : Prog D :=
  .call .newAlloc fun
  | .alloc A => .call (.newValue A) fun
    | .handle (some v) => .call (.text .strEsc v [0xC3, 0xA9, 0x22, 0xF0, 0x9F, 0x98, 0x80]) fun _ => .call (.get .str v) fun _ =>
        .call (.get .unStr v) fun _ => .call (.get .print v) fun _ => .done
    | _ => .done
  | _ => .done

/-- It meets the hypotheses of `C51_utf8`. -/
theorem utf8Client_ok {D : Type} {fp : FP D} : (utf8Client : Prog D).Safe fp (Store.init false) ∧ (utf8Client : Prog D).Hands IsUtf8 := by
  constructor
  · refine ⟨trivial, fun r s1 h1 _ => ?_⟩
    cases h1 with | @newAlloc A hA => ?_
    refine ⟨by simp [Legit, upd], fun r s2 h2 _ => ?_⟩
    cases h2 with | @newValue _ v hl hn => ?_
    refine ⟨⟨by simp [Store.alive, Store.handle, upd], .inr (by decide), nofun⟩, fun r s3 h3 _ => ?_⟩
    have hs3 : s3.alive v := by
      cases h3 with
      | text _ hT => simp [Store.alive, Store.put, upd]
      | textNo hv => simp [Store.alive, Store.use, TextFn.scratch, hv]
    refine ⟨⟨hs3, fun _ _ _ _ _ _ _ => trivial⟩, fun r s4 h4 _ => ?_⟩
    cases h4
    refine ⟨⟨hs3, fun _ _ _ _ _ _ _ => trivial⟩, fun r s5 h5 _ => ?_⟩
    cases h5
    exact ⟨⟨hs3, fun _ _ _ _ _ _ _ => trivial⟩, fun _ _ _ _ => trivial⟩
  · refine ⟨fun _ h => (nomatch h), fun r => ?_⟩
    cases r with
    | alloc A =>
      refine ⟨fun _ h => (nomatch h), fun r => ?_⟩
      dsimp only
      split
      · refine ⟨fun d hd => ?_, fun _ => ⟨fun _ h => (nomatch h), fun _ => ⟨fun _ h => (nomatch h), fun _ => ⟨fun _ h => (nomatch h), fun _ => trivial⟩⟩⟩⟩
        cases List.mem_singleton.1 hd
        exact utf8_example.append (IsAscii.utf8 (by decide))
      · trivial
    | _ => trivial

example : ((utf8Client : Prog Unit).run (⟨fun _ => [], fun _ => ()⟩ : FP Unit) 99 (St.init fun _ => 0)).out =
    .ok [.alloc 0, .handle (some 0), .bool true, .bytes (some [0xC3, 0xA9, 0x5C, 0x22, 0xF0, 0x9F, 0x98, 0x80]),
      .bytes (some [0xC3, 0xA9, 0x22, 0xF0, 0x9F, 0x98, 0x80]), .bytes (some [0x22, 0xC3, 0xA9, 0x5C, 0x22, 0xF0, 0x9F, 0x98, 0x80, 0x22])] := by
  decide +kernel

end ZJ
