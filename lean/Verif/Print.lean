import Verif.Grammar

/-
The compact printer against the grammar.
-/

set_option linter.unusedSimpArgs false

namespace ZJ

/-! ### Printing gives JSON -/

mutual
theorem print_value : ∀ t : Json, t.Valid → JValue t t.print
  | .null, _ => .null
  | .bool true, _ => .true
  | .bool false, _ => .false
  | .num _, h => .num h
  | .str _, h => .str h
  | .arr ts, h => by
    by_cases hne : ts = []
    · subst hne; exact .arrNil (w := []) (by simp [IsWs])
    · exact .arr (print_elems ts h hne)
  | .obj ms, h => by
    by_cases hne : ms = []
    · subst hne; exact .objNil (w := []) (by simp [IsWs])
    · exact .obj (print_members ms h hne)
theorem print_elems : ∀ (ts : List Json), Json.ValidElems ts → ts ≠ [] →
    JElems ts (Json.printElems ts)
  | [], _, h => absurd rfl h
  | t :: ts, h, _ => by
    by_cases hne : ts = []
    · subst hne
      have := JElems.one (w := []) (w' := []) (by simp [IsWs]) (print_value t h.1) (by simp [IsWs])
      simpa [Json.printElems] using this
    · have := JElems.cons (w := []) (w' := []) (by simp [IsWs]) (print_value t h.1)
        (by simp [IsWs]) (print_elems ts h.2 hne)
      obtain ⟨t', ts', rfl⟩ := List.exists_cons_of_ne_nil hne
      simpa [Json.printElems] using this
theorem print_members : ∀ (ms : List (Bytes × Json)),
    Json.ValidMembers ms → ms ≠ [] → JMembers ms (Json.printMembers ms)
  | [], _, h => absurd rfl h
  | (k, t) :: ms, h, _ => by
    by_cases hne : ms = []
    · subst hne
      have := JMembers.one (w := []) (w1 := []) (w2 := []) (w' := []) (by simp [IsWs]) h.1
        (by simp [IsWs]) (by simp [IsWs]) (print_value t h.2.1) (by simp [IsWs])
      simpa [Json.printMembers] using this
    · have := JMembers.cons (w := []) (w1 := []) (w2 := []) (w' := []) (by simp [IsWs]) h.1
        (by simp [IsWs]) (by simp [IsWs]) (print_value t h.2.1) (by simp [IsWs])
        (print_members ms h.2.2 hne)
      obtain ⟨m', ms', rfl⟩ := List.exists_cons_of_ne_nil hne
      simpa [Json.printMembers] using this
end

theorem print_text {t : Json} (h : t.Valid) : JText t t.print :=
  ⟨[], t.print, [], by simp, by simp [IsWs], print_value t h, by simp [IsWs]⟩

/-! ### Documents of texts are valid -/

mutual
theorem JValue.valid : ∀ {t b}, JValue t b → t.Valid
  | _, _, .null => trivial
  | _, _, .true => trivial
  | _, _, .false => trivial
  | _, _, .num h => h
  | _, _, .str h => h
  | _, _, .arrNil _ => trivial
  | _, _, .objNil _ => trivial
  | _, _, .arr h => h.valid
  | _, _, .obj h => h.valid
theorem JElems.valid : ∀ {t b}, JElems t b → Json.ValidElems t
  | _, _, .one _ hv _ => ⟨hv.valid, trivial⟩
  | _, _, .cons _ hv _ hr => ⟨hv.valid, hr.valid⟩
theorem JMembers.valid : ∀ {t b}, JMembers t b → Json.ValidMembers t
  | _, _, .one _ hk _ _ hv _ => ⟨hk, hv.valid, trivial⟩
  | _, _, .cons _ hk _ _ hv _ hr => ⟨hk, hv.valid, hr.valid⟩
end

theorem JText.valid {t b} (h : JText t b) : t.Valid := by
  obtain ⟨w, v, w', rfl, hw, hv, hw'⟩ := h
  exact hv.valid

/-- A document is valid exactly if its printed form is a text of it. -/
theorem valid_iff_text (t : Json) : t.Valid ↔ JText t t.print :=
  ⟨print_text, JText.valid⟩

/-! ### Stripping whitespace -/

theorem strip_ws {w : Bytes} (h : IsWs w) (r : Bytes) :
    stripWs .outside (w ++ r) = stripWs .outside r := by
  induction w with
  | nil => rfl
  | cons c w ih =>
    simp only [List.cons_append, stripWs, h c (by simp), if_true]
    exact ih (fun c hc => h c (by simp [hc]))

theorem strip_char {c : Byte} (h1 : isWs c = false) (h2 : c ≠ 0x22) (r : Bytes) :
    stripWs .outside (c :: r) = c :: stripWs .outside r := by
  simp [stripWs, h1, h2]

theorem strip_plain {b : Bytes} (h : ∀ c ∈ b, isWs c = false ∧ c ≠ 0x22) (r : Bytes) :
    stripWs .outside (b ++ r) = b ++ stripWs .outside r := by
  induction b with
  | nil => rfl
  | cons c b ih =>
    have := h c (by simp)
    rw [List.cons_append, strip_char this.1 this.2, ih (fun c hc => h c (by simp [hc]))]
    rfl

theorem hexVal_plain : ∀ c : Byte, (hexVal c).isSome → c ≠ 0x22 ∧ c ≠ 0x5C := by
  apply allBytes; decide +kernel

theorem strip_hex4 {a b c d : Byte} {n} (h : Hex4 a b c d n) (r : Bytes) :
    stripWs .inside (a :: b :: c :: d :: r) = a :: b :: c :: d :: stripWs .inside r := by
  obtain ⟨x, y, z, w, h1, h2, h3, h4, _⟩ := h
  have h1 := hexVal_plain a (by simp [h1])
  have h2 := hexVal_plain b (by simp [h2])
  have h3 := hexVal_plain c (by simp [h3])
  have h4 := hexVal_plain d (by simp [h4])
  simp [stripWs, h1, h2, h3, h4]

theorem strip_esc (c : Byte) (r : Bytes) :
    stripWs .inside (0x5C :: c :: r) = 0x5C :: c :: stripWs .inside r := by
  simp [stripWs]

theorem strip_body {b : Bytes} (h : IsStrBody b) (r : Bytes) :
    stripWs .inside (b ++ 0x22 :: r) = b ++ 0x22 :: stripWs .outside r := by
  induction h with
  | nil => simp [stripWs]
  | plain h1 h2 h3 _ ih => simp [stripWs, h2, h3, ih]
  | esc h _ ih => simp [stripWs, ih]
  | uni h _ _ _ ih =>
    simp only [List.cons_append]
    rw [strip_esc, strip_hex4 h, ih]
  | pair h _ h' _ _ ih =>
    simp only [List.cons_append]
    rw [strip_esc, strip_hex4 h, strip_esc, strip_hex4 h', ih]

theorem strip_str {b : Bytes} (h : IsStrBody b) (r : Bytes) :
    stripWs .outside (0x22 :: (b ++ 0x22 :: r)) = 0x22 :: (b ++ 0x22 :: stripWs .outside r) := by
  simp [stripWs, strip_body h, show isWs 0x22 = false by decide]

theorem num_plain {b : Bytes} (h : IsNum b) : ∀ c ∈ b, isWs c = false ∧ c ≠ 0x22 := by
  intro c hc
  have := isDigit_num_mem h c hc
  revert this; revert c
  have : ∀ c : Byte, (isDigit c = true ∨ c = 0x2D ∨ c = 0x2B ∨ c = 0x2E ∨ c = 0x65 ∨ c = 0x45) →
      isWs c = false ∧ c ≠ 0x22 := by
    unfold isDigit isWs
    apply allBytes; decide +kernel
  intro c _; exact this c

mutual
theorem strip_value : ∀ {t b}, JValue t b → ∀ r,
    stripWs .outside (b ++ r) = t.print ++ stripWs .outside r
  | _, _, .null, r => rfl
  | _, _, .true, r => rfl
  | _, _, .false, r => rfl
  | _, _, .num h, r => strip_plain (num_plain h) r
  | _, _, .str h, r => by simpa [Json.print] using strip_str h r
  | _, _, .arrNil h, r => by
    simp only [Json.print, Json.printElems, List.cons_append, List.append_assoc, List.nil_append]
    rw [strip_char (by decide) (by decide), strip_ws h, strip_char (by decide) (by decide)]
  | _, _, .objNil h, r => by
    simp only [Json.print, Json.printMembers, List.cons_append, List.append_assoc, List.nil_append]
    rw [strip_char (by decide) (by decide), strip_ws h, strip_char (by decide) (by decide)]
  | _, _, .arr h, r => by
    simp only [Json.print, List.cons_append, List.append_assoc, List.nil_append]
    rw [strip_char (by decide) (by decide), strip_elems h, strip_char (by decide) (by decide)]
  | _, _, .obj h, r => by
    simp only [Json.print, List.cons_append, List.append_assoc, List.nil_append]
    rw [strip_char (by decide) (by decide), strip_members h, strip_char (by decide) (by decide)]
theorem strip_elems : ∀ {ts b}, JElems ts b → ∀ r,
    stripWs .outside (b ++ r) = Json.printElems ts ++ stripWs .outside r
  | _, _, .one hw hv hw', r => by
    simp only [Json.printElems, List.append_assoc]
    rw [strip_ws hw, strip_value hv, strip_ws hw']
  | _, _, .cons (ts := ts) hw hv hw' hr, r => by
    have hne : ts ≠ [] := by cases hr <;> simp
    obtain ⟨t', ts', rfl⟩ := List.exists_cons_of_ne_nil hne
    simp only [Json.printElems, List.append_assoc, List.cons_append]
    rw [strip_ws hw, strip_value hv, strip_ws hw', strip_char (by decide) (by decide),
      strip_elems hr]
theorem strip_members : ∀ {ts b}, JMembers ts b → ∀ r,
    stripWs .outside (b ++ r) = Json.printMembers ts ++ stripWs .outside r
  | _, _, .one hw hk hw1 hw2 hv hw', r => by
    simp only [Json.printMembers, List.append_assoc, List.cons_append]
    rw [strip_ws hw, strip_str hk, strip_ws hw1, strip_char (by decide) (by decide), strip_ws hw2,
      strip_value hv, strip_ws hw']
  | _, _, .cons (ts := ts) hw hk hw1 hw2 hv hw' hr, r => by
    have hne : ts ≠ [] := by cases hr <;> simp
    obtain ⟨t', ts', rfl⟩ := List.exists_cons_of_ne_nil hne
    simp only [Json.printMembers, List.append_assoc, List.cons_append]
    rw [strip_ws hw, strip_str hk, strip_ws hw1, strip_char (by decide) (by decide), strip_ws hw2,
      strip_value hv, strip_ws hw', strip_char (by decide) (by decide), strip_members hr]
end

/-- The printed document is the text without insignificant whitespace. -/
theorem print_eq_strip {t b} (h : JText t b) : t.print = stripWs .outside b := by
  obtain ⟨w, v, w', rfl, hw, hv, hw'⟩ := h
  rw [strip_ws hw, strip_value hv]
  have := strip_ws hw' []
  simp at this
  simp [this, stripWs]

end ZJ
