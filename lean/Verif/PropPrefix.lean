import Verif.PropParse

/-
C73: a text that was cut off, or that goes on after its end, is noticed.
-/

set_option linter.unusedVariables false

namespace ZJ

/-- The document is a number. -/
def Json.IsNumber (t : Json) : Prop := ∃ raw, t = .num raw

/-- As `pScalar_complete`, for strings and literals: what follows them does not matter. -/
theorem pScalar_any {t b} (h : JValue t b) (hn : ¬ t.IsNumber) {s : Bytes} {lim i : Nat} {c : Byte} {q : Bytes}
    (hb : b = c :: q) (h1 : c ≠ 0x5B) (h2 : c ≠ 0x7B) {r : Bytes}
    (hd : s.drop i = b ++ r) (hl : s.length ≤ lim) :
    pScalar s lim c (i + 1) = .ok (some (t, i + b.length)) := by
  cases h with
  | null =>
    cases hb
    have hd' : s.drop (i + 1 - 1) = b!"null" ++ r := by simpa using hd
    simp only [pScalar, consumeNull, load4Eq_true (by rfl) hd' hl]
    simp
  | true =>
    cases hb
    have hd' : s.drop (i + 1 - 1) = b!"true" ++ r := by simpa using hd
    simp only [pScalar, consumeTrue, load4Eq_true (by rfl) hd' hl]
    simp
  | false =>
    cases hb
    have hd' : s.drop (i + 1) = b!"alse" ++ r := drop_succ (by simpa using hd)
    simp only [pScalar, consumeFalse, load4Eq_true (by rfl) hd' hl]
    simp
  | num h => exact absurd ⟨_, rfl⟩ hn
  | @str raw h =>
    cases hb
    have hd1 : s.drop (i + 1) = raw ++ 0x22 :: r := drop_succ (by simpa using hd)
    have hs := consumeStr_complete h hd1
    by_cases hr : raw = []
    · subst hr
      have hd1 : s.drop (i + 1) = 0x22 :: r := by simpa using hd1
      simp [pScalar, consume, rd_drop hd1]
    · obtain ⟨y, raw', rfl⟩ := List.exists_cons_of_ne_nil hr
      have hd1' : s.drop (i + 1) = y :: (raw' ++ 0x22 :: r) := by simpa using hd1
      have hy : y ≠ 0x22 := by cases h <;> first | assumption | decide
      simp only [pScalar, consume, rd_drop hd1', hy, hs, Res.ok_bind, Res.pure_eq, if_true, if_false,
        Bool.false_eq_true, Bool.not_true]
      have e : i + 1 + (y :: raw').length + 1 - (i + 1) - 1 = (y :: raw').length := by omega
      rw [take_mid hd1 e]
      simp; omega
  | arrNil => cases hb; simp at h1
  | arr => cases hb; simp at h1
  | objNil => cases hb; simp at h2
  | obj => cases hb; simp at h2

/-- As `pVal_complete`, for documents other than numbers: what follows them does not matter. -/
theorem pVal_any {t b} (h : JValue t b) (hn : ¬ t.IsNumber) {s : Bytes} {lim fuel i : Nat} {w : Bytes}
    {r : Bytes} (hw : IsWs w) (hd : s.drop i = w ++ (b ++ r)) (hl : s.length ≤ lim)
    (hf : 3 * b.length ≤ fuel) : pVal s lim fuel i = .ok (some (t, i + w.length + b.length)) := by
  have scalar : (∃ c q, b = c :: q ∧ c ≠ 0x5B ∧ c ≠ 0x7B) →
      pVal s lim fuel i = .ok (some (t, i + w.length + b.length)) := by
    rintro ⟨c, q, hb, h1, h2⟩
    obtain ⟨c', q', hb', hc⟩ := h.head
    have : c' = c := by rw [hb] at hb'; cases hb'; rfl
    subst this
    have hd' : s.drop i = w ++ c' :: (q ++ r) := by rw [hd, hb]; simp
    have hp := peek_ws hw hc.1 hd'
    obtain ⟨fuel, rfl⟩ : ∃ k, fuel = k + 1 := ⟨fuel - 1, by rw [hb] at hf; simp at hf; omega⟩
    simp only [pVal, hp, Res.ok_bind, h1, h2, if_false]
    exact pScalar_any h hn hb h1 h2 (drop_add hd) hl
  cases h with
  | null => exact scalar (by simp)
  | true => exact scalar (by simp)
  | false => exact scalar (by simp)
  | str => exact scalar (by simp)
  | num => exact absurd ⟨_, rfl⟩ hn
  | @arrNil w0 h0 =>
    have hd' : s.drop i = w ++ 0x5B :: (w0 ++ 0x5D :: r) := by simpa using hd
    have hp := peek_ws hw (by decide) hd'
    have hd1 := drop_succ (drop_add hd')
    simp only [List.length_cons, List.length_append, List.length_nil] at hf
    obtain ⟨fuel, rfl⟩ : ∃ k, fuel = k + 2 := ⟨fuel - 2, by omega⟩
    simp only [pVal, hp, Res.ok_bind, if_true, pCon_nil (o := false) h0 hd1]
    simp [mkCon]; omega
  | @objNil w0 h0 =>
    have hd' : s.drop i = w ++ 0x7B :: (w0 ++ 0x7D :: r) := by simpa using hd
    have hp := peek_ws hw (by decide) hd'
    have hd1 := drop_succ (drop_add hd')
    simp only [List.length_cons, List.length_append, List.length_nil] at hf
    obtain ⟨fuel, rfl⟩ : ∃ k, fuel = k + 2 := ⟨fuel - 2, by omega⟩
    simp only [pVal, hp, Res.ok_bind, if_true, pCon_nil (o := true) h0 hd1,
      show ((0x7B : Byte) = 0x5B) = False by decide, if_false]
    simp [mkCon]; omega
  | @arr xs b0 h0 =>
    have hd' : s.drop i = w ++ 0x5B :: (b0 ++ 0x5D :: r) := by simpa using hd
    have hp := peek_ws hw (by decide) hd'
    have hd1 := drop_succ (drop_add hd')
    simp only [List.length_cons, List.length_append, List.length_nil] at hf
    obtain ⟨fuel, rfl⟩ : ∃ k, fuel = k + 2 := ⟨fuel - 2, by omega⟩
    have hit := pElems_complete h0 (lim := lim) (fuel := fuel) hd1 hl (by omega)
    obtain ⟨w1, y, q1, hb0, hw1, hy⟩ := h0.head
    have hd2 : s.drop (i + w.length + 1) = w1 ++ y :: (q1 ++ 0x5D :: r) := by
      rw [hd1, hb0]; simp
    simp only [pVal, hp, Res.ok_bind, if_true, pCon_items (o := false) hw1 hy.1 hd2 hy.2.2.1 hit]
    simp [mkCon, Function.comp_def]; omega
  | @obj xs b0 h0 =>
    have hd' : s.drop i = w ++ 0x7B :: (b0 ++ 0x7D :: r) := by simpa using hd
    have hp := peek_ws hw (by decide) hd'
    have hd1 := drop_succ (drop_add hd')
    simp only [List.length_cons, List.length_append, List.length_nil] at hf
    obtain ⟨fuel, rfl⟩ : ∃ k, fuel = k + 2 := ⟨fuel - 2, by omega⟩
    have hit := pMembers_complete h0 (lim := lim) (fuel := fuel) hd1 hl (by omega)
    obtain ⟨w1, q1, hb0, hw1⟩ := h0.head
    have hd2 : s.drop (i + w.length + 1) = w1 ++ 0x22 :: (q1 ++ 0x7D :: r) := by
      rw [hd1, hb0]; simp
    simp only [pVal, hp, Res.ok_bind, if_true, pCon_items (o := true) hw1 (by decide) hd2 (by decide) hit,
      show ((0x7B : Byte) = 0x5B) = False by decide, if_false]
    simp [mkCon]; omega

/-- C73, about texts: whatever follows the text of an array, an object, a string or a literal, the
whole is a text only if it is blank. -/
theorem C73_trailing {t t' : Json} {b y : Bytes} (h : JText t b) (hn : ¬ t.IsNumber) (h' : JText t' (b ++ y)) :
    t' = t ∧ IsWs y := by
  obtain ⟨w, v, w', rfl, hw, hv, hw'⟩ := h
  obtain ⟨u, v1, u', e, hu, hv1, hu'⟩ := h'
  have e1 := pVal_any hv hn (s := w ++ (v ++ w') ++ y ++ [0]) (i := 0) (r := w' ++ y ++ [0])
    (fuel := 3 * v.length + 3 * v1.length) hw (by simp) (Nat.le_refl _) (by omega)
  obtain ⟨x, r, ex, hx⟩ : ∃ x r, u' ++ [0] = x :: r ∧ NumEnd x := by
    cases u' with
    | nil => exact ⟨0, [], rfl, by unfold NumEnd; decide⟩
    | cons x r => exact ⟨x, r ++ [0], rfl, NumEnd_ws (hu' x (by simp))⟩
  have e2 := pVal_complete hv1 (s := w ++ (v ++ w') ++ y ++ [0]) (i := 0) (x := x) (r := r)
    (fuel := 3 * v.length + 3 * v1.length) hu (by rw [e]; simp [ex]) hx (Nat.le_refl _) (by omega)
  rw [e1] at e2
  simp only [Res.ok.injEq, Option.some.injEq, Prod.mk.injEq] at e2
  refine ⟨e2.1.symm, fun c hc => ?_⟩
  have e3 : (w ++ v) ++ (w' ++ y) = (u ++ v1) ++ u' := by simpa using e
  have e4 := (List.append_inj e3 (by simp; omega)).2
  exact hu' c (by rw [← e4]; simp [hc])

/-- The first character tells numbers from all other documents. -/
theorem number_head {t t' : Json} {b y : Bytes} (h : JText t b) (h' : JText t' (b ++ y)) (hn : t.IsNumber) :
    t'.IsNumber := by
  obtain ⟨w, v, w', rfl, hw, hv, hw'⟩ := h
  obtain ⟨u, v1, u', e, hu, hv1, hu'⟩ := h'
  obtain ⟨raw, rfl⟩ := hn
  cases hv with
  | num hraw =>
  obtain ⟨c, r, hc, hd⟩ := hraw.ne_nil
  obtain ⟨hs, h1, h2, h3, h4, h5, h6⟩ := isDigit_start c hd
  obtain ⟨c', r', hc', hs'⟩ := hv1.head
  have e1 := peek_ws (s := w ++ (v ++ w') ++ y) (i := 0) (c := c) (r := r ++ w' ++ y) hw hs.1 (by simp [hc])
  have e2 := peek_ws (s := w ++ (v ++ w') ++ y) (i := 0) (c := c') (r := r' ++ u') hu hs'.1 (by rw [e]; simp [hc'])
  rw [e1] at e2
  simp only [Res.ok.injEq, Prod.mk.injEq] at e2
  obtain ⟨rfl, _⟩ := e2
  cases hv1 with
  | num => exact ⟨_, rfl⟩
  | _ => cases hc'; simp at *

/-- C73, about texts: if something other than blanks is cut off the end of the text of an array, an
object, a string or a literal, the rest is no text. -/
theorem C73_truncated {t : Json} {b q y : Bytes} (h : JText t b) (hn : ¬ t.IsNumber) (hb : b = q ++ y)
    (hy : ¬ IsWs y) : ¬ ∃ t', JText t' q := by
  rintro ⟨t', h'⟩
  subst hb
  by_cases hn' : t'.IsNumber
  · exact hn (number_head h' h hn')
  · exact hy (C73_trailing h' hn' h).2

/-- The last character of an array, object, string or literal is not a blank. -/
theorem JValue.last {t b} (h : JValue t b) (hn : ¬ t.IsNumber) : ∃ q c, b = q ++ [c] ∧ isWs c = Bool.false := by
  cases h with
  | null => exact ⟨b!"nul", 0x6C, rfl, by decide⟩
  | true => exact ⟨b!"tru", 0x65, rfl, by decide⟩
  | false => exact ⟨b!"fals", 0x65, rfl, by decide⟩
  | num => exact absurd ⟨_, rfl⟩ hn
  | str => exact ⟨_, _, (List.cons_append).symm, by decide⟩
  | arrNil => exact ⟨_, _, (List.cons_append).symm, by decide⟩
  | arr => exact ⟨_, _, (List.cons_append).symm, by decide⟩
  | objNil => exact ⟨_, _, (List.cons_append).symm, by decide⟩
  | obj => exact ⟨_, _, (List.cons_append).symm, by decide⟩

/-- Blanks may be cut off. -/
theorem JText.trim {t : Json} {b q y : Bytes} (h : JText t b) (hn : ¬ t.IsNumber) (hb : b = q ++ y)
    (hy : IsWs y) : JText t q := by
  obtain ⟨w, v, w', rfl, hw, hv, hw'⟩ := h
  obtain ⟨v0, c, rfl, hc⟩ := hv.last hn
  have hb' : (w ++ (v0 ++ [c])) ++ w' = q ++ y := by simpa using hb
  rcases List.append_eq_append_iff.1 hb' with ⟨z, e1, e2⟩ | ⟨z, e1, e2⟩
  · exact ⟨w, _, z, by rw [e1]; simp, hw, hv, fun d hd => hw' d (by rw [e2]; simp [hd])⟩
  · have hz : z = [] := by
      by_cases hz : z = []
      · exact hz
      have hl : (w ++ (v0 ++ [c])).getLast? = some c := by simp
      rw [e1, List.getLast?_append, List.getLast?_eq_some_getLast hz, Option.some_or] at hl
      have : c ∈ z := by
        have e := Option.some.inj hl
        rw [← e]; exact List.getLast_mem hz
      have := hy c (by rw [e2]; simp [this])
      rw [hc] at this; cases this
    subst hz
    exact ⟨w, _, [], by simpa using e1.symm, hw, hv, by simp [IsWs]⟩

section
variable {st st' : St} {P : Addr → Prop} {G : Graph} {v A : Addr} {x : Option Addr} {p : SPtr} {b c y : Bytes}
  {t : Json}

/-- C73 for `zj_Parse`: handed the beginning of a text that was cut off it does not return true; it
returns false and leaves everything as it was, unless it reads past the copy of the text (C05). -/
theorem C73_parse (h : Ready st P G v x A) (hs : CStr st p c) (ht : JText t (c ++ y)) (hn : ¬ t.IsNumber)
    (hy : ¬ IsWs y) :
    (∃ st', parse v p st = .ok (false, st') ∧ Unchanged st st' ∧ Ready st' P G v x A) ∨
    (parse v p st = .ub .oob ∧ st.slack st.nb < 3) := by
  have hno := C73_truncated ht hn rfl hy
  rcases parse_cases h hs with ⟨t', ht', _⟩ | ⟨_, ⟨st', h1, h2, _⟩ | h1⟩
  · exact absurd ⟨t', ht'⟩ hno
  · exact .inl ⟨st', h1, h2, (C04_parse_failed h hs h1).1⟩
  · exact .inr h1

/-- C73 for `zj_ParseFast`. -/
theorem C73_parseFast (h : Ready st P G v x A) (hs : CStr st p c) (hl : Lent st p) (ht : JText t (c ++ y))
    (hn : ¬ t.IsNumber) (hy : ¬ IsWs y) :
    (∃ st', parseFast v p st = .ok (false, st') ∧ Unchanged st st' ∧ Ready st' P G v x A) ∨
    (parseFast v p st = .ub .oob ∧ ∀ s lim, view p st = .ok ((s, lim), st) → lim < c.length + 4) := by
  have hno := C73_truncated ht hn rfl hy
  rcases parseFast_cases h hs hl with ⟨t', ht', _⟩ | ⟨_, ⟨st', h1, h2, _⟩ | h1⟩
  · exact absurd ⟨t', ht'⟩ hno
  · exact .inl ⟨st', h1, h2, (C04_parseFast_failed h hs hl h1).1⟩
  · exact .inr h1

/-- C73 for what follows a text: `zj_Parse` returns true on a text with more bytes behind it only
if these are blanks, and the document is that of the text. -/
theorem C73_parse_trailing (h : Ready st P G v x A) (hs : CStr st p (b ++ y)) (ht : JText t b) (hn : ¬ t.IsNumber)
    (hr : parse v p st = .ok (true, st')) : IsWs y ∧ Shows st' v t := by
  rcases parse_cases h hs with ⟨t', ht', st2, h1, h2, _⟩ | ⟨_, ⟨_, h1, _⟩ | ⟨h1, _⟩⟩
  · rw [hr] at h1; cases h1
    obtain ⟨rfl, hw⟩ := C73_trailing ht hn ht'
    exact ⟨hw, h2⟩
  · rw [hr] at h1; cases h1
  · rw [hr] at h1; cases h1

/-- Fewer bytes can be read where more can. -/
theorem Reads.take (h : Reads st p b) (n : Nat) : Reads st p (b.take n) := by
  unfold Reads readN at *
  cases p with
  | lit s =>
    simp only at h ⊢
    split at h
    · simp only [Res.ok.injEq, Prod.mk.injEq, and_true] at h
      rw [if_pos (by simp; omega)]
      simp only [Res.ok.injEq, Prod.mk.injEq, and_true]
      conv => rhs; rw [← h]
      rw [List.take_take, List.length_take]
    · cases h
  | buf d off =>
    simp only at h ⊢
    split at h
    · rename_i bf hbf
      by_cases h0 : (b.take n).length = 0
      · rw [if_pos h0, List.eq_nil_of_length_eq_zero h0]
      rw [if_neg h0]
      have hle : (b.take n).length ≤ b.length := by simp; omega
      by_cases h1 : b.length = 0
      · omega
      rw [if_neg h1] at h
      split at h
      · cases h
      split at h
      · cases h
      rw [if_neg (by omega), if_neg (by omega)]
      simp only [Res.ok.injEq, Prod.mk.injEq, and_true] at h ⊢
      conv => rhs; rw [← h]
      rw [List.take_take, List.length_take]
    · cases h

/-- C73 for a text arriving in pieces: of the bytes of a text, `zj_ParseLen` of the first `n` returns
true exactly when at most blanks are missing, and then the document is the whole one. -/
theorem C73_parseLen (h : Ready st P G v x A) (hs : Reads st p b) (ht : JText t b) (hn : ¬ t.IsNumber) {n : Nat}
    (hle : n ≤ b.length) :
    (IsWs (b.drop n) → ∃ st', parseLen v p n st = .ok (true, st') ∧ Shows st' v t) ∧
    (¬ IsWs (b.drop n) →
      (∃ st', parseLen v p n st = .ok (false, st') ∧ Unchanged st st' ∧ Ready st' P G v x A) ∨
      (parseLen v p n st = .ub .oob ∧ st.slack st.nb < 3)) := by
  have hs' := hs.take n
  have hlen : (b.take n).length = n := by simp; omega
  have hb : b = b.take n ++ b.drop n := by simp
  constructor
  · intro hw
    have ht' := ht.trim hn hb hw
    obtain ⟨st', gv, g, h1, h2, h3, h4, _⟩ := parseLen_accept h.inv h.val h.node hs' rfl ht'
    rw [hlen] at h1
    exact ⟨st', h1, h2.shows h4 h3⟩
  · intro hw
    have hno := C73_truncated ht hn hb hw
    have h0 : (0 : Byte) ∉ b.take n := fun hm => ht.no_nul (List.mem_of_mem_take hm)
    rcases parseLen_reject h.inv h.val h.node hs' rfl h0 hno with ⟨st', h1, h2, _⟩ | ⟨h1, h2⟩
    · have h3 := (C04_parseLen_failed h hs' h1).1
      rw [hlen] at h1
      exact .inl ⟨st', h1, h2, h3⟩
    · rw [hlen] at h1
      exact .inr ⟨h1, by omega⟩

end

/-- C73 leaves numbers out, for they are different: cut off, a number may be another number, and the
parser cannot know. -/
theorem C73_numbers : ∃ t t' b q y, JText t b ∧ b = q ++ y ∧ ¬ IsWs y ∧ JText t' q ∧ t ≠ t' ∧
    ∀ {st P G v x A p}, Ready st P G v x A → CStr st p q →
      ∃ st', parse v p st = .ok (true, st') ∧ Shows st' v t' := by
  have h1 : IsNum b!"1" := ⟨[], b!"1", [], [], rfl, .inl rfl,
    .inr ⟨0x31, [], rfl, by decide, by decide, by simp⟩, .inl rfl, .inl rfl⟩
  have h2 : IsNum b!"12" := ⟨[], b!"12", [], [], rfl, .inl rfl,
    .inr ⟨0x31, b!"2", rfl, by decide, by decide, by simp; decide⟩, .inl rfl, .inl rfl⟩
  have num : ∀ {r : Bytes}, IsNum r → JText (.num r) r := fun h => ⟨[], _, [], by simp, by simp [IsWs], .num h, by simp [IsWs]⟩
  refine ⟨_, _, _, b!"1", b!"2", num h2, rfl, by simp [IsWs]; decide, num h1, by simp, fun h hs => ?_⟩
  obtain ⟨st', hr⟩ := (C01_parse_true_iff h hs).2 ⟨_, num h1⟩
  obtain ⟨t, ht, hsh, _⟩ := C02_parse_document h hs hr
  cases JText_unique ht (num h1)
  exact ⟨st', hr, hsh⟩

def someDoc : Json := .obj [(b!"a", .arr [.bool true, .str b!"x y"])]

theorem someDoc_text : JText someDoc (b!"{\"a\":[tru" ++ b!"e,\"x y\"]}") :=
  print_text (t := someDoc) (by
    refine ⟨?_, ⟨trivial, ?_, trivial⟩, trivial⟩
    · exact IsStrBody.plain (by decide) (by decide) (by decide) .nil
    · exact IsStrBody.plain (by decide) (by decide) (by decide) (.plain (by decide) (by decide) (by decide)
        (.plain (by decide) (by decide) (by decide) .nil)))

/-- The hypotheses of C73 are met by a half of a text, in a handle that has a value. -/
example : ∃ st P G v x A p t, Ready st P G v x A ∧ CStr st p b!"{\"a\":[tru" ∧ Lent st p ∧ x ≠ none ∧
    JText t (b!"{\"a\":[tru" ++ b!"e,\"x y\"]}") ∧ ¬ t.IsNumber ∧ ¬ IsWs b!"e,\"x y\"]}" := by
  obtain ⟨st, P, G, v, a, h, _⟩ := exists_example (t := .arr [.bool true, .null]) (by simp [Json.Valid, Json.ValidElems]) (fun _ => 0)
  exact ⟨_, P, G, v, _, 0, _, _, h.ready.addC (d := b!"{\"a\":[tru" ++ [0]), addC_cstr (by decide), addC_lent h.inv.ok,
    by simp, someDoc_text, (fun ⟨_, h⟩ => nomatch h), by simp [IsWs]; decide⟩

/-- Those of `C73_parseLen` are met by the whole text in the caller's memory. -/
example : ∃ st P G v x A p, Ready st P G v x A ∧ Reads st p b!"{\"a\":[true,\"x y\"]}" ∧ x = none ∧
    JText someDoc b!"{\"a\":[true,\"x y\"]}" ∧ ¬ someDoc.IsNumber :=
  ⟨_, _, _, 0, _, 0, _, (start_ready (fun _ => 0)).addC (d := b!"{\"a\":[true,\"x y\"]}"), addC_reads, rfl,
    someDoc_text, fun ⟨_, h⟩ => by cases h⟩

/-- Run: cut off, cut off in a literal, in a string, and two texts in one. -/
example : ((make 0 b!"{\"a\":[1, 2]") (start fun _ => 3)).out = .ok (1, false) := by decide +kernel
example : ((make 0 b!"[tru") (start fun _ => 3)).out = .ok (1, false) := by decide +kernel
example : ((make 0 b!"\"ab") (start fun _ => 3)).out = .ok (1, false) := by decide +kernel
example : ((make 0 b!"{} {}") (start fun _ => 3)).out = .ok (1, false) := by decide +kernel
example : ((make 0 b!"[1]5") (start fun _ => 3)).out = .ok (1, false) := by decide +kernel
example : ((make 0 b!"{\"a\":[1, 2]} ") (start fun _ => 3)).out = .ok (1, true) := by decide +kernel

end ZJ
