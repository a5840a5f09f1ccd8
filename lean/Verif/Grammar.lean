import Verif.NumLemmas

/-
A recursive parser on indices, built from the model's scanning functions. It is a
stepping stone of the proofs: it is compared with the grammar here, and the
pointer-manipulating loop of zj_ParseFast is compared with it in `ParseSim.lean`.
-/

set_option linter.unusedSimpArgs false

namespace ZJ

/-- The key of an object member (zzzjson.h:1537-1569 without the stores). -/
def pKey (s : Bytes) (i : Nat) : Res (Option (Bytes × Nat)) := do
  let (ok, i) ← peekAndConsume 0x22 s i
  if !ok then return none
  let start := i
  let (ok, i) ← consume 0x22 s i
  if ok then
    let (ok, i) ← peekAndConsume 0x3A s i
    if !ok then return none
    return some ([], i)
  else
    let (ok, i) ← consumeStr s i
    if !ok then return none
    let k := (s.drop start).take (i - start - 1)
    let (ok, i) ← peekAndConsume 0x3A s i
    if !ok then return none
    return some (k, i)

def pKeyOpt (o : Bool) (s : Bytes) (i : Nat) : Res (Option (Bytes × Nat)) :=
  if o then pKey s i else .ok (some ([], i))

/-- Scalars (zzzjson.h:1465-1534 without the stores). `c` is the first character,
`i` the index after it. -/
def pScalar (s : Bytes) (lim : Nat) (c : Byte) (i : Nat) : Res (Option (Json × Nat)) := do
  if c = 0x6E then
    let (ok, i) ← consumeNull s lim i
    if !ok then return none
    return some (.null, i)
  else if c = 0x66 then
    let (ok, i) ← consumeFalse s lim i
    if !ok then return none
    return some (.bool false, i)
  else if c = 0x74 then
    let (ok, i) ← consumeTrue s lim i
    if !ok then return none
    return some (.bool true, i)
  else if c = 0x22 then
    let start := i
    let (ok, i) ← consume 0x22 s i
    if ok then return some (.str [], i)
    let (ok, i) ← consumeStr s i
    if !ok then return none
    return some (.str ((s.drop start).take (i - start - 1)), i)
  else
    match ← consumeNum s i with
    | none => return none
    | some j => return some (.num ((s.drop (i - 1)).take (j - (i - 1))), j)

/-- The document made of the items of a container. -/
def mkCon (o : Bool) (xs : List (Bytes × Json)) : Json :=
  if o then .obj xs else .arr (xs.map (·.2))

def closer (o : Bool) : Byte := if o then 0x7D else 0x5D

mutual
def pVal (s : Bytes) (lim : Nat) : Nat → Nat → Res (Option (Json × Nat))
  | 0, _ => .timeout
  | fuel + 1, i => do
    let (c, i) ← peek s i
    if c = 0x5B then pCon s lim false fuel i
    else if c = 0x7B then pCon s lim true fuel i
    else pScalar s lim c i
def pCon (s : Bytes) (lim : Nat) (o : Bool) : Nat → Nat → Res (Option (Json × Nat))
  | 0, _ => .timeout
  | fuel + 1, i => do
    let (ok, i) ← peekAndConsume (closer o) s i
    if ok then return some (mkCon o [], i)
    match ← pItems s lim o fuel i with
    | none => return none
    | some (xs, i) => return some (mkCon o xs, i)
def pItems (s : Bytes) (lim : Nat) (o : Bool) : Nat → Nat →
    Res (Option (List (Bytes × Json) × Nat))
  | 0, _ => .timeout
  | fuel + 1, i => do
    match ← pKeyOpt o s i with
    | none => return none
    | some (k, i) =>
      match ← pVal s lim fuel i with
      | none => return none
      | some (t, i) =>
        let (ok, i) ← peekAndConsume 0x2C s i
        if ok then
          match ← pItems s lim o fuel i with
          | none => return none
          | some (xs, i) => return some ((k, t) :: xs, i)
        else
          let (c, i) ← peek s i
          if c = closer o then return some ([(k, t)], i) else return none
end

/-! ### First characters -/

/-- A byte at which a value can start. -/
def ValStart (c : Byte) : Prop :=
  isWs c = false ∧ c ≠ 0 ∧ c ≠ 0x5D ∧ c ≠ 0x7D ∧ c ≠ 0x2C ∧ c ≠ 0x3A

theorem isDigit_start : ∀ c : Byte, (isDigit c = true ∨ c = 0x2D) →
    ValStart c ∧ c ≠ 0x5B ∧ c ≠ 0x7B ∧ c ≠ 0x6E ∧ c ≠ 0x66 ∧ c ≠ 0x74 ∧ c ≠ 0x22 := by
  unfold ValStart isDigit isWs
  apply allBytes; decide +kernel

theorem JValue.head {t b} (h : JValue t b) : ∃ c q, b = c :: q ∧ ValStart c := by
  cases h with
  | null => exact ⟨_, _, rfl, by unfold ValStart; decide⟩
  | true => exact ⟨_, _, rfl, by unfold ValStart; decide⟩
  | false => exact ⟨_, _, rfl, by unfold ValStart; decide⟩
  | num h =>
    obtain ⟨c, r, rfl, hc⟩ := h.ne_nil
    exact ⟨c, r, rfl, (isDigit_start c hc).1⟩
  | str _ => exact ⟨_, _, rfl, by unfold ValStart; decide⟩
  | arrNil _ => exact ⟨_, _, rfl, by unfold ValStart; decide⟩
  | arr _ => exact ⟨_, _, rfl, by unfold ValStart; decide⟩
  | objNil _ => exact ⟨_, _, rfl, by unfold ValStart; decide⟩
  | obj _ => exact ⟨_, _, rfl, by unfold ValStart; decide⟩

theorem JElems.head {ts b} (h : JElems ts b) : ∃ w c q, b = w ++ c :: q ∧ IsWs w ∧ ValStart c := by
  cases h with
  | one hw hv _ =>
    obtain ⟨c, q, rfl, hc⟩ := hv.head
    exact ⟨_, c, _, rfl, hw, hc⟩
  | cons hw hv _ _ =>
    obtain ⟨c, q, rfl, hc⟩ := hv.head
    exact ⟨_, c, _, rfl, hw, hc⟩

theorem JMembers.head {ts b} (h : JMembers ts b) :
    ∃ w q, b = w ++ 0x22 :: q ∧ IsWs w := by
  cases h with
  | one hw => exact ⟨_, _, rfl, hw⟩
  | cons hw => exact ⟨_, _, rfl, hw⟩

theorem NumEnd_ws {c : Byte} (h : isWs c = true) : NumEnd c := by
  revert h; revert c
  unfold NumEnd isWs isDigit
  apply allBytes; decide +kernel

/-- What follows a value is whitespace and then `c`: its first byte ends numbers. -/
theorem follow {w : Bytes} {c : Byte} {r : Bytes} (hw : IsWs w) (hc : NumEnd c) :
    ∃ x q, w ++ c :: r = x :: q ∧ NumEnd x := by
  cases w with
  | nil => exact ⟨c, r, rfl, hc⟩
  | cons x w => exact ⟨x, _, rfl, NumEnd_ws (hw x (by simp))⟩

/-! ### Completeness -/

theorem load4Eq_true {w s : Bytes} {lim i : Nat} {r : Bytes} (hw : w.length = 4)
    (h : s.drop i = w ++ r) (hl : s.length ≤ lim) : load4Eq w s lim i = .ok true := by
  have h1 : i + 4 ≤ lim := by
    have := congrArg List.length h
    simp at this; omega
  have h2 : (s.drop i).take 4 = w := by rw [h, ← hw]; simp
  simp [load4Eq, h1, h2]

theorem take_mid {s a r : Bytes} {i n : Nat} (h : s.drop i = a ++ r) (hn : n = a.length) :
    (s.drop i).take n = a := by
  rw [h, hn]; simp

theorem drop_pred {s : Bytes} {i : Nat} {c : Byte} {r : Bytes} (h : s.drop i = c :: r) :
    s.drop (i + 1 - 1) = c :: r := by simpa using h

theorem pScalar_complete {t b} (h : JValue t b) {s : Bytes} {lim i : Nat} {c : Byte} {q : Bytes}
    (hb : b = c :: q) (h1 : c ≠ 0x5B) (h2 : c ≠ 0x7B) {x : Byte} {r : Bytes}
    (hd : s.drop i = b ++ x :: r) (hx : NumEnd x) (hl : s.length ≤ lim) :
    pScalar s lim c (i + 1) = .ok (some (t, i + b.length)) := by
  cases h with
  | null =>
    cases hb
    have hd' : s.drop (i + 1 - 1) = b!"null" ++ x :: r := by simpa using hd
    simp only [pScalar, consumeNull, load4Eq_true (by rfl) hd' hl]
    simp
  | true =>
    cases hb
    have hd' : s.drop (i + 1 - 1) = b!"true" ++ x :: r := by simpa using hd
    simp only [pScalar, consumeTrue, load4Eq_true (by rfl) hd' hl]
    simp
  | false =>
    cases hb
    have hd' : s.drop (i + 1) = b!"alse" ++ x :: r := drop_succ (by simpa using hd)
    simp only [pScalar, consumeFalse, load4Eq_true (by rfl) hd' hl]
    simp
  | num h =>
    obtain ⟨c', r', e, hc⟩ := h.ne_nil
    rw [hb] at e; cases e
    obtain ⟨_, _, _, n1, n2, n3, n4⟩ := isDigit_start c hc
    have hs := scanNum_complete h hx hd
    simp only [pScalar, n1, n2, n3, n4, if_false, consumeNum, Nat.add_sub_cancel, hs, Res.ok_bind,
      Res.pure_eq]
    rw [take_mid hd (by omega)]
  | @str raw h =>
    cases hb
    have hd1 : s.drop (i + 1) = raw ++ 0x22 :: x :: r := drop_succ (by simpa using hd)
    have hs := consumeStr_complete h hd1
    by_cases hr : raw = []
    · subst hr
      have hd1 : s.drop (i + 1) = 0x22 :: x :: r := by simpa using hd1
      simp [pScalar, consume, rd_drop hd1]
    · obtain ⟨y, raw', rfl⟩ := List.exists_cons_of_ne_nil hr
      have hd1' : s.drop (i + 1) = y :: (raw' ++ 0x22 :: x :: r) := by simpa using hd1
      have hy : y ≠ 0x22 := by cases h <;> first | assumption | decide
      simp only [pScalar, consume, rd_drop hd1', hy, hs, Res.ok_bind, Res.pure_eq, if_true, if_false,
        Bool.false_eq_true, Bool.not_true]
      have e : i + 1 + (y :: raw').length + 1 - (i + 1) - 1 = (y :: raw').length := by omega
      rw [take_mid hd1 e]
      simp; omega
  | arrNil => cases hb; simp at h1
  | arr => cases hb; simp at h1
  | objNil => cases hb; simp at h2
  | obj => cases hb; simp at h2

theorem pKey_complete {k : Bytes} (hk : IsStrBody k) {s : Bytes} {i : Nat} {w w1 : Bytes}
    {r : Bytes} (hw : IsWs w) (hw1 : IsWs w1)
    (hd : s.drop i = w ++ (0x22 :: (k ++ (0x22 :: (w1 ++ (0x3A :: r)))))) :
    pKey s i = .ok (some (k, i + w.length + 1 + k.length + 1 + w1.length + 1)) := by
  have e1 := peekAndConsume_ws (x := 0x22) hw (by decide) hd
  have hd1 := drop_succ (drop_add hd)
  have hd2 := drop_succ (drop_add hd1)
  have e2 := peekAndConsume_ws (x := 0x3A) hw1 (by decide) hd2
  have hs := consumeStr_complete hk hd1
  by_cases hr : k = []
  · subst hr
    have hd1 : s.drop (i + w.length + 1) = 0x22 :: (w1 ++ (0x3A :: r)) := by simpa using hd1
    simp only [List.length_nil, Nat.add_zero] at e2
    simp [pKey, e1, consume, rd_drop hd1, e2]
  · obtain ⟨y, raw', rfl⟩ := List.exists_cons_of_ne_nil hr
    have hd1' : s.drop (i + w.length + 1) = y :: (raw' ++ 0x22 :: (w1 ++ (0x3A :: r))) := by
      simpa using hd1
    have hy : y ≠ 0x22 := by cases hk <;> first | assumption | decide
    simp only [pKey, e1, consume, rd_drop hd1', hy, hs, Res.ok_bind, Res.pure_eq, if_true, if_false,
        Bool.false_eq_true, Bool.not_true, e2]
    rw [take_mid hd1 (by omega)]

theorem pVal_scalar {t b} (h : JValue t b) (hb : ∃ c q, b = c :: q ∧ c ≠ 0x5B ∧ c ≠ 0x7B) :
    ∀ {s : Bytes} {lim fuel i : Nat} {w : Bytes}
    {x : Byte} {r : Bytes}, IsWs w → s.drop i = w ++ (b ++ x :: r) → NumEnd x → s.length ≤ lim →
    3 * b.length ≤ fuel → pVal s lim fuel i = .ok (some (t, i + w.length + b.length)) := by
  intro s lim fuel i w x r hw hd hx hl hf
  obtain ⟨c, q, hb, h1, h2⟩ := hb
  obtain ⟨c', q', hb', hc⟩ := h.head
  have : c' = c := by rw [hb] at hb'; cases hb'; rfl
  subst this
  have hd' : s.drop i = w ++ c' :: (q ++ x :: r) := by rw [hd, hb]; simp
  have hp := peek_ws hw hc.1 hd'
  obtain ⟨fuel, rfl⟩ : ∃ k, fuel = k + 1 := ⟨fuel - 1, by rw [hb] at hf; simp at hf; omega⟩
  simp only [pVal, hp, Res.ok_bind, h1, h2, if_false]
  exact pScalar_complete h hb h1 h2 (drop_add hd) hx hl

/-! Leading whitespace may be skipped beforehand. -/

theorem skip_shift {s w : Bytes} {c : Byte} {r : Bytes} {i : Nat} (hw : IsWs w)
    (hc : isWs c = false) (h : s.drop i = w ++ c :: r) : skip s (i + w.length) = skip s i := by
  rw [skip_ws hw hc h, skip_ws (w := []) (by simp [IsWs]) hc (drop_add h)]; simp

theorem pVal_shift {s w : Bytes} {c : Byte} {r : Bytes} {i lim fuel : Nat} (hw : IsWs w)
    (hc : isWs c = false) (h : s.drop i = w ++ c :: r) :
    pVal s lim fuel (i + w.length) = pVal s lim fuel i := by
  cases fuel with
  | zero => rfl
  | succ fuel => simp only [pVal, peek, skip_shift hw hc h]

theorem pItems_shift {s w : Bytes} {c : Byte} {r : Bytes} {i lim fuel : Nat} {o : Bool}
    (hw : IsWs w) (hc : isWs c = false) (h : s.drop i = w ++ c :: r) :
    pItems s lim o fuel (i + w.length) = pItems s lim o fuel i := by
  cases fuel with
  | zero => rfl
  | succ fuel =>
    cases o with
    | true => simp only [pItems, pKeyOpt, pKey, peekAndConsume, skip_shift hw hc h, if_true]
    | false =>
      simp only [pItems, pKeyOpt, Bool.false_eq_true, if_false, Res.ok_bind, pVal_shift hw hc h]

/-- A container whose items are not empty. -/
theorem pCon_items {s w : Bytes} {c : Byte} {r : Bytes} {i lim fuel : Nat} {o : Bool}
    (hw : IsWs w) (hc : isWs c = false) (h : s.drop i = w ++ c :: r) (hne : c ≠ closer o) {xs j}
    (hit : pItems s lim o fuel i = .ok (some (xs, j))) :
    pCon s lim o (fuel + 1) i = .ok (some (mkCon o xs, j)) := by
  have e := peekAndConsume_ws (x := closer o) hw hc h
  simp only [pCon, e, hne, if_false, Res.ok_bind, Bool.false_eq_true, pItems_shift hw hc h, hit,
    Res.pure_eq]

theorem pCon_nil {s w : Bytes} {r : Bytes} {i lim fuel : Nat} {o : Bool}
    (hw : IsWs w) (h : s.drop i = w ++ closer o :: r) :
    pCon s lim o (fuel + 1) i = .ok (some (mkCon o [], i + w.length + 1)) := by
  have hc : isWs (closer o) = false := by cases o <;> decide
  simp [pCon, peekAndConsume_ws (x := closer o) hw hc h]

/-- The end of an item: no comma, then the closing bracket. -/
theorem pItems_last {s w' : Bytes} {r : Bytes} {i j lim fuel : Nat} {o : Bool} {k : Bytes}
    {t : Json} {i'} (hk : pKeyOpt o s i' = .ok (some (k, i)))
    (hv : pVal s lim fuel i = .ok (some (t, j)))
    (hw : IsWs w') (h : s.drop j = w' ++ closer o :: r) :
    pItems s lim o (fuel + 1) i' = .ok (some ([(k, t)], j + w'.length + 1)) := by
  have hc : isWs (closer o) = false := by cases o <;> decide
  have hne : closer o ≠ 0x2C := by cases o <;> decide
  have e := peekAndConsume_ws (x := 0x2C) hw hc h
  have e2 := peek_ws (w := []) (by simp [IsWs]) hc (drop_add h)
  simp only [pItems, hk, hv, e, hne, if_false, Res.ok_bind, Bool.false_eq_true, e2, if_true,
    Res.pure_eq]
  simp

theorem pItems_more {s w' : Bytes} {r : Bytes} {i j lim fuel : Nat} {o : Bool} {k : Bytes}
    {t : Json} {i' xs j'} (hk : pKeyOpt o s i' = .ok (some (k, i)))
    (hv : pVal s lim fuel i = .ok (some (t, j)))
    (hw : IsWs w') (h : s.drop j = w' ++ 0x2C :: r)
    (hr : pItems s lim o fuel (j + w'.length + 1) = .ok (some (xs, j'))) :
    pItems s lim o (fuel + 1) i' = .ok (some ((k, t) :: xs, j')) := by
  have e := peekAndConsume_ws (x := 0x2C) hw (by decide) h
  simp only [pItems, hk, hv, e, if_true, Res.ok_bind, hr, Res.pure_eq]

theorem closer_numEnd (o : Bool) : NumEnd (closer o) := by
  cases o <;> (unfold NumEnd; decide)

mutual
theorem pVal_complete : ∀ {t b}, JValue t b → ∀ {s : Bytes} {lim fuel i : Nat} {w : Bytes}
    {x : Byte} {r : Bytes}, IsWs w → s.drop i = w ++ (b ++ x :: r) → NumEnd x → s.length ≤ lim →
    3 * b.length ≤ fuel → pVal s lim fuel i = .ok (some (t, i + w.length + b.length))
  | _, _, .arrNil (w := w0) h0 => by
    intro hw hd hx hl hf
    rename_i s lim fuel i w x r
    have hd' : s.drop i = w ++ 0x5B :: (w0 ++ 0x5D :: x :: r) := by simpa using hd
    have hp := peek_ws hw (by decide) hd'
    have hd1 := drop_succ (drop_add hd')
    simp only [List.length_cons, List.length_append, List.length_nil] at hf
    obtain ⟨fuel, rfl⟩ : ∃ k, fuel = k + 2 := ⟨fuel - 2, by omega⟩
    simp only [pVal, hp, Res.ok_bind, if_true, pCon_nil (o := false) h0 hd1]
    simp [mkCon]; omega
  | _, _, .objNil (w := w0) h0 => by
    intro hw hd hx hl hf
    rename_i s lim fuel i w x r
    have hd' : s.drop i = w ++ 0x7B :: (w0 ++ 0x7D :: x :: r) := by simpa using hd
    have hp := peek_ws hw (by decide) hd'
    have hd1 := drop_succ (drop_add hd')
    simp only [List.length_cons, List.length_append, List.length_nil] at hf
    obtain ⟨fuel, rfl⟩ : ∃ k, fuel = k + 2 := ⟨fuel - 2, by omega⟩
    simp only [pVal, hp, Res.ok_bind, if_true, pCon_nil (o := true) h0 hd1,
      show ((0x7B : Byte) = 0x5B) = False by decide, if_false]
    simp [mkCon]; omega
  | _, _, .arr (xs := xs) (b := b0) h0 => by
    intro hw hd hx hl hf
    rename_i s lim fuel i w x r
    have hd' : s.drop i = w ++ 0x5B :: (b0 ++ 0x5D :: x :: r) := by simpa using hd
    have hp := peek_ws hw (by decide) hd'
    have hd1 := drop_succ (drop_add hd')
    simp only [List.length_cons, List.length_append, List.length_nil] at hf
    obtain ⟨fuel, rfl⟩ : ∃ k, fuel = k + 2 := ⟨fuel - 2, by omega⟩
    have hit := pElems_complete h0 (lim := lim) (fuel := fuel) hd1 hl (by omega)
    obtain ⟨w1, y, q1, hb0, hw1, hy⟩ := h0.head
    have hd2 : s.drop (i + w.length + 1) = w1 ++ y :: (q1 ++ 0x5D :: x :: r) := by
      rw [hd1, hb0]; simp
    simp only [pVal, hp, Res.ok_bind, if_true, pCon_items (o := false) hw1 hy.1 hd2 hy.2.2.1 hit]
    simp [mkCon, Function.comp_def]; omega
  | _, _, .obj (ms := xs) (b := b0) h0 => by
    intro hw hd hx hl hf
    rename_i s lim fuel i w x r
    have hd' : s.drop i = w ++ 0x7B :: (b0 ++ 0x7D :: x :: r) := by simpa using hd
    have hp := peek_ws hw (by decide) hd'
    have hd1 := drop_succ (drop_add hd')
    simp only [List.length_cons, List.length_append, List.length_nil] at hf
    obtain ⟨fuel, rfl⟩ : ∃ k, fuel = k + 2 := ⟨fuel - 2, by omega⟩
    have hit := pMembers_complete h0 (lim := lim) (fuel := fuel) hd1 hl (by omega)
    obtain ⟨w1, q1, hb0, hw1⟩ := h0.head
    have hd2 : s.drop (i + w.length + 1) = w1 ++ 0x22 :: (q1 ++ 0x7D :: x :: r) := by
      rw [hd1, hb0]; simp
    simp only [pVal, hp, Res.ok_bind, if_true, pCon_items (o := true) hw1 (by decide) hd2 (by decide) hit,
      show ((0x7B : Byte) = 0x5B) = False by decide, if_false]
    simp [mkCon]; omega
  | _, _, .null => pVal_scalar .null (by simp)
  | _, _, .true => pVal_scalar .true (by simp)
  | _, _, .false => pVal_scalar .false (by simp)
  | _, _, .num h => pVal_scalar (.num h) (by
      obtain ⟨c, r, rfl, hc⟩ := h.ne_nil
      obtain ⟨_, h1, h2, _⟩ := isDigit_start c hc
      exact ⟨c, r, rfl, h1, h2⟩)
  | _, _, .str h => pVal_scalar (.str h) (by simp)
theorem pElems_complete : ∀ {ts b}, JElems ts b → ∀ {s : Bytes} {lim fuel i : Nat}
    {r : Bytes}, s.drop i = b ++ 0x5D :: r → s.length ≤ lim → 3 * b.length + 1 ≤ fuel →
    pItems s lim false fuel i = .ok (some (ts.map (([] : Bytes), ·), i + b.length + 1))
  | _, _, .one (t := t) (w := w) (b := b) (w' := w') hw hv hw' => by
    intro hd hl hf
    rename_i s lim fuel i r
    simp only [List.length_append] at hf
    obtain ⟨fuel, rfl⟩ : ∃ k, fuel = k + 1 := ⟨fuel - 1, by omega⟩
    have hd' : s.drop i = w ++ (b ++ (w' ++ 0x5D :: r)) := by simpa using hd
    obtain ⟨x, q, hx, hx'⟩ := follow (r := r) hw' (closer_numEnd false)
    have e := pVal_complete hv (lim := lim) (fuel := fuel) hw (by rw [hd', ← hx]; rfl) hx' hl
      (by omega)
    have hd2 := drop_add (drop_add hd')
    rw [pItems_last (o := false) (k := []) (i := i) rfl e hw' hd2]
    simp; omega
  | _, _, .cons (t := t) (w := w) (b := b) (w' := w') (ts := ts) (bs := bs) hw hv hw' hr => by
    intro hd hl hf
    rename_i s lim fuel i r
    simp only [List.length_append, List.length_cons] at hf
    obtain ⟨fuel, rfl⟩ : ∃ k, fuel = k + 1 := ⟨fuel - 1, by omega⟩
    have hd' : s.drop i = w ++ (b ++ (w' ++ 0x2C :: (bs ++ 0x5D :: r))) := by simpa using hd
    obtain ⟨x, q, hx, hx'⟩ := follow (r := bs ++ 0x5D :: r) hw'
      (show NumEnd 0x2C by unfold NumEnd; decide)
    have e := pVal_complete hv (lim := lim) (fuel := fuel) hw (by rw [hd', ← hx]) hx' hl
      (by omega)
    have hd2 := drop_add (drop_add hd')
    have e2 := pElems_complete hr (lim := lim) (fuel := fuel) (drop_succ (drop_add hd2)) hl
      (by omega)
    rw [pItems_more (k := []) (i := i) rfl e hw' hd2 e2]
    simp; omega
theorem pMembers_complete : ∀ {ts b}, JMembers ts b → ∀ {s : Bytes} {lim fuel i : Nat}
    {r : Bytes}, s.drop i = b ++ 0x7D :: r → s.length ≤ lim → 3 * b.length + 1 ≤ fuel →
    pItems s lim true fuel i = .ok (some (ts, i + b.length + 1))
  | _, _, .one (t := t) (k := k) (w := w) (w1 := w1) (w2 := w2) (b := b) (w' := w') hw hk hw1 hw2 hv hw' => by
    intro hd hl hf
    rename_i s lim fuel i r
    simp only [List.length_append, List.length_cons] at hf
    obtain ⟨fuel, rfl⟩ : ∃ k, fuel = k + 1 := ⟨fuel - 1, by omega⟩
    have hd' : s.drop i = w ++ (0x22 :: (k ++ (0x22 :: (w1 ++ (0x3A :: (w2 ++ (b ++ (w' ++ 0x7D :: r)))))))) := by
      simpa using hd
    have ek := pKey_complete hk hw hw1 hd'
    have hd1 := drop_succ (drop_add (drop_succ (drop_add (drop_succ (drop_add hd')))))
    obtain ⟨x, q, hx, hx'⟩ := follow (r := r) hw' (closer_numEnd true)
    have e := pVal_complete hv (lim := lim) (fuel := fuel) hw2 (by rw [hd1, ← hx]; rfl) hx' hl
      (by omega)
    have hd2 := drop_add (drop_add hd1)
    rw [pItems_last (o := true) (by rw [pKeyOpt]; simpa using ek) e hw' hd2]
    simp; omega
  | _, _, .cons (t := t) (k := k) (w := w) (w1 := w1) (w2 := w2) (b := b) (w' := w') (ts := ts) (bs := bs)
      hw hk hw1 hw2 hv hw' hr => by
    intro hd hl hf
    rename_i s lim fuel i r
    simp only [List.length_append, List.length_cons] at hf
    obtain ⟨fuel, rfl⟩ : ∃ k, fuel = k + 1 := ⟨fuel - 1, by omega⟩
    have hd' : s.drop i = w ++ (0x22 :: (k ++ (0x22 :: (w1 ++ (0x3A :: (w2 ++ (b ++ (w' ++ 0x2C :: (bs ++ 0x7D :: r))))))))) := by
      simpa using hd
    have ek := pKey_complete hk hw hw1 hd'
    have hd1 := drop_succ (drop_add (drop_succ (drop_add (drop_succ (drop_add hd')))))
    obtain ⟨x, q, hx, hx'⟩ := follow (r := bs ++ 0x7D :: r) hw'
      (show NumEnd 0x2C by unfold NumEnd; decide)
    have e := pVal_complete hv (lim := lim) (fuel := fuel) hw2 (by rw [hd1, ← hx]) hx' hl
      (by omega)
    have hd2 := drop_add (drop_add hd1)
    have e2 := pMembers_complete hr (lim := lim) (fuel := fuel) (drop_succ (drop_add hd2)) hl
      (by omega)
    rw [pItems_more (by rw [pKeyOpt]; simpa using ek) e hw' hd2 e2]
    simp; omega
end

/-! ### Soundness and totality -/

/-- `i` is at or before the first NUL of `s`. -/
def At (s : Bytes) (i : Nat) : Prop := HasNul s i ∧ (0 : Byte) ∉ s.take i

/-- The four-byte loads are inside the readable memory. -/
def Room (s : Bytes) (lim : Nat) : Prop := ∀ i, At s i → i + 4 ≤ lim

theorem At.app {s a : Bytes} {i j : Nat} (h : At s i) (hd : s.drop i = a ++ s.drop j)
    (hj : j = i + a.length) (ha : (0 : Byte) ∉ a) : At s j := by
  subst hj
  refine ⟨h.1.app hd ha, ?_⟩
  rw [List.take_add, take_mid hd rfl]
  simp [h.2, ha]

theorem At.succ {s : Bytes} {i : Nat} {c : Byte} (h : At s i) (hc : rd s i = .ok c) (h0 : c ≠ 0) :
    At s (i + 1) :=
  h.app (a := [c]) (by rw [rd_ok hc]; rfl) rfl (by simp [Ne.symm h0])

/-- What is known about the result of a parsing step: it ended; if it succeeded, `P`
holds of the result; the only undefined behaviour is an over-read, and only if the
readable memory is too short. -/
def Out {α : Type} (s : Bytes) (lim : Nat) (P : α → Prop) : Res (Option α) → Prop
  | .ok none => True
  | .ok (some a) => P a
  | .ub u => u = .oob ∧ ¬ Room s lim
  | .timeout => False

theorem Out.bind {α β : Type} {s : Bytes} {lim : Nat} {P : α → Prop} {Q : β → Prop}
    {x : Res (Option α)} {f : Option α → Res (Option β)} (hx : Out s lim P x)
    (hn : f none = .ok none) (hf : ∀ a, P a → Out s lim Q (f (some a))) :
    Out s lim Q (x >>= f) := by
  cases x with
  | ok o =>
    cases o with
    | none => simp [hn, Out]
    | some a => exact hf a hx
  | ub u => exact hx
  | timeout => exact hx

theorem At.peek {s i} (h : At s i) : ∃ w c, IsWs w ∧ isWs c = false ∧
    peek s i = .ok (c, i + w.length + 1) ∧ s.drop i = w ++ c :: s.drop (i + w.length + 1) ∧
    At s (i + w.length) ∧ rd s (i + w.length) = .ok c := by
  obtain ⟨w, c, r, hd, hw, hc, hs, hn⟩ := h.1.ws
  have h1 := drop_add hd
  have h2 := drop_succ h1
  refine ⟨w, c, hw, hc, peek_ws hw hc hd, by rw [hd, h2], h.app (by rw [hd, h1]) rfl hw.no_nul,
    rd_drop h1⟩

theorem At.peekAndConsume {s i} (x : Byte) (hx : x ≠ 0) (h : At s i) :
    (∃ w, IsWs w ∧ peekAndConsume x s i = .ok (true, i + w.length + 1) ∧
      s.drop i = w ++ x :: s.drop (i + w.length + 1) ∧ At s (i + w.length + 1)) ∨
    (∃ w c, IsWs w ∧ isWs c = false ∧ c ≠ x ∧ ZJ.peekAndConsume x s i = .ok (false, i + w.length) ∧
      s.drop i = w ++ s.drop (i + w.length) ∧ At s (i + w.length) ∧ rd s (i + w.length) = .ok c) := by
  obtain ⟨w, c, r, hd, hw, hc, hs, hn⟩ := h.1.ws
  have h1 := drop_add hd
  have h2 := drop_succ h1
  have ha : At s (i + w.length) := h.app (by rw [hd, h1]) rfl hw.no_nul
  have hp := peekAndConsume_ws (x := x) hw hc hd
  by_cases e : c = x
  · subst e
    left
    exact ⟨w, hw, by simpa using hp, by rw [hd, h2], ha.succ (rd_drop h1) hx⟩
  · right
    exact ⟨w, c, hw, hc, e, by simpa [e] using hp, by rw [hd, h1], ha, rd_drop h1⟩

theorem load4Eq_out {w s : Bytes} {lim i : Nat} (hw : w.length = 4) (h0 : (0 : Byte) ∉ w)
    (h : At s i) : (load4Eq w s lim i = .ok true ∧ s.drop i = w ++ s.drop (i + 4)) ∨
      load4Eq w s lim i = .ok false ∨ (load4Eq w s lim i = .ub .oob ∧ ¬ Room s lim) := by
  unfold load4Eq
  by_cases hl : i + 4 ≤ lim
  · simp only [hl, if_true]
    by_cases hk : (s.drop i).take 4 = w
    · left
      refine ⟨by simp [hk], ?_⟩
      have : s.drop i = (s.drop i).take 4 ++ (s.drop i).drop 4 := (List.take_append_drop 4 _).symm
      rw [List.drop_drop, hk] at this
      exact this
    · right; left
      simp only [hk, if_false]
      have : ((s.drop i).take 4).isPrefixOf w = false := by
        cases hp : ((s.drop i).take 4).isPrefixOf w with
        | false => rfl
        | true =>
          rw [List.isPrefixOf_iff_prefix] at hp
          exfalso
          have hlen := hp.length_le
          by_cases h4 : 4 ≤ (s.drop i).length
          · apply hk
            apply hp.eq_of_length
            simp [hw] at *; omega
          · have : (s.drop i).take 4 = s.drop i := List.take_of_length_le (by omega)
            rw [this] at hp
            exact h0 (hp.subset h.1)
      simp [this]
  · right; right
    simp only [hl, if_false]
    exact ⟨trivial, fun hr => hl (hr i h)⟩

/-- What `pVal` says about the text when it succeeds with `(t, j)`. -/
def ValAt (s : Bytes) (i : Nat) (x : Json × Nat) : Prop :=
  ∃ w b, IsWs w ∧ JValue x.1 b ∧ s.drop i = w ++ (b ++ s.drop x.2) ∧
    x.2 = i + w.length + b.length ∧ At s x.2

theorem isStrBody_quote {s : Bytes} {i j : Nat} {b : Bytes} (hb : IsStrBody b)
    (hd : s.drop i = b ++ 0x22 :: s.drop j) (hj : j = i + b.length + 1) (ha : At s i) : At s j := by
  apply ha.app (a := b ++ [0x22]) (by rw [hd]; simp) (by simp; omega)
  simp [hb.no_nul]

/-- `consume '"'` followed by `zj_consumeStr`, as both callers use it. -/
theorem strBody_out {s : Bytes} {i : Nat} (h : At s i) :
    (consume 0x22 s i = .ok (true, i + 1) ∧ s.drop i = 0x22 :: s.drop (i + 1) ∧ At s (i + 1)) ∨
    (consume 0x22 s i = .ok (false, i) ∧ ∃ ok j, consumeStr s i = .ok (ok, j) ∧
      (ok = true → ∃ b, IsStrBody b ∧ s.drop i = b ++ 0x22 :: s.drop j ∧
        j = i + b.length + 1 ∧ At s j)) := by
  obtain ⟨c, rc, nc⟩ := h.1.rd
  by_cases e : c = 0x22
  · left
    refine ⟨by simp [consume, rc, e], by rw [rd_ok rc, e], h.succ rc (by rw [e]; decide)⟩
  · right
    refine ⟨by simp [consume, rc, e], ?_⟩
    obtain ⟨ok, j, h1, h2⟩ := consumeStr_total h.1
    refine ⟨ok, j, h1, fun hok => ?_⟩
    obtain ⟨b, hb, hd, hj, _⟩ := h2 hok
    exact ⟨b, hb, hd, hj, isStrBody_quote hb hd hj h⟩

theorem pKey_out {s : Bytes} {i lim : Nat} (h : At s i) :
    Out s lim (fun x => ∃ w w1, IsWs w ∧ IsStrBody x.1 ∧ IsWs w1 ∧
      s.drop i = w ++ (0x22 :: (x.1 ++ (0x22 :: (w1 ++ (0x3A :: s.drop x.2))))) ∧
      x.2 = i + w.length + 1 + x.1.length + 1 + w1.length + 1 ∧ At s x.2) (pKey s i) := by
  unfold pKey
  rcases h.peekAndConsume 0x22 (by decide) with ⟨w, hw, e, hd, ha⟩ | ⟨w, c, hw, _, _, e, _⟩
  · simp only [e, Res.ok_bind, Bool.not_true, Bool.false_eq_true, if_false]
    rcases strBody_out ha with ⟨e1, hd1, ha1⟩ | ⟨e1, ok, j, e2, h2⟩
    · simp only [e1, Res.ok_bind, if_true]
      rcases ha1.peekAndConsume 0x3A (by decide) with ⟨w1, hw1, e3, hd3, ha3⟩ | ⟨w1, c, _, _, _, e3, _⟩
      · simp only [e3, Res.ok_bind, Bool.not_true, Bool.false_eq_true, if_false, Res.pure_eq, Out]
        exact ⟨w, w1, hw, .nil, hw1, by rw [hd, hd1, hd3]; simp, by simp, ha3⟩
      · simp [e3, Out]
    · simp only [e1, Res.ok_bind, Bool.false_eq_true, if_false, e2]
      cases ok with
      | false => simp [Out]
      | true =>
        obtain ⟨b, hb, hd2, hj, ha2⟩ := h2 rfl
        simp only [Bool.not_true, Bool.false_eq_true, if_false]
        rcases ha2.peekAndConsume 0x3A (by decide) with ⟨w1, hw1, e3, hd3, ha3⟩ | ⟨w1, c, _, _, _, e3, _⟩
        · simp only [e3, Res.ok_bind, Bool.not_true, Bool.false_eq_true, if_false, Res.pure_eq, Out]
          have hk : (s.drop (i + w.length + 1)).take (j - (i + w.length + 1) - 1) = b :=
            take_mid hd2 (by omega)
          rw [hk]
          exact ⟨w, w1, hw, hb, hw1, by rw [hd, hd2, hd3], by omega, ha3⟩
        · simp [e3, Out]
  · simp [e, Out]

theorem pScalar_out {s : Bytes} {i lim : Nat} {c : Byte} (h : At s i) (hc : rd s i = .ok c)
:
    Out s lim (fun x => ∃ b, JValue x.1 b ∧ s.drop i = b ++ s.drop x.2 ∧ x.2 = i + b.length ∧
      At s x.2) (pScalar s lim c (i + 1)) := by
  unfold pScalar
  by_cases n1 : c = 0x6E
  · simp only [n1, if_true, consumeNull, Nat.add_sub_cancel]
    rcases load4Eq_out (w := b!"null") (lim := lim) rfl (by decide) h with ⟨e, hd⟩ | e | ⟨e, hr⟩
    · simp only [e, Res.ok_bind, if_true, Res.pure_eq, Bool.not_true, Bool.false_eq_true, if_false,
        Out]
      exact ⟨_, .null, hd, rfl, h.app hd rfl (by decide)⟩
    · simp [e, Out]
    · simp only [e, Res.ub_bind, Out]; exact ⟨trivial, hr⟩
  by_cases n2 : c = 0x66
  · simp only [n1, n2, if_true, if_false, consumeFalse, show ((0x66 : Byte) = 0x6E) = False by decide]
    have h' := h.succ hc (by rw [n2]; decide)
    rcases load4Eq_out (w := b!"alse") (lim := lim) rfl (by decide) h' with ⟨e, hd⟩ | e | ⟨e, hr⟩
    · simp only [e, Res.ok_bind, if_true, Res.pure_eq, Bool.not_true, Bool.false_eq_true, if_false,
        Out]
      exact ⟨_, .false, by rw [rd_ok hc, hd, n2]; rfl, by simp, h'.app hd rfl (by decide)⟩
    · simp [e, Out]
    · simp only [e, Res.ub_bind, Out]; exact ⟨trivial, hr⟩
  by_cases n3 : c = 0x74
  · simp only [n3, if_true, if_false, consumeTrue, Nat.add_sub_cancel,
      show ((0x74 : Byte) = 0x6E) = False by decide, show ((0x74 : Byte) = 0x66) = False by decide]
    rcases load4Eq_out (w := b!"true") (lim := lim) rfl (by decide) h with ⟨e, hd⟩ | e | ⟨e, hr⟩
    · simp only [e, Res.ok_bind, if_true, Res.pure_eq, Bool.not_true, Bool.false_eq_true, if_false,
        Out]
      exact ⟨_, .true, hd, rfl, h.app hd rfl (by decide)⟩
    · simp [e, Out]
    · simp only [e, Res.ub_bind, Out]; exact ⟨trivial, hr⟩
  by_cases n4 : c = 0x22
  · simp only [n4, if_true, if_false, show ((0x22 : Byte) = 0x6E) = False by decide,
      show ((0x22 : Byte) = 0x66) = False by decide, show ((0x22 : Byte) = 0x74) = False by decide]
    have h' := h.succ hc (by rw [n4]; decide)
    rcases strBody_out h' with ⟨e1, hd1, ha1⟩ | ⟨e1, ok, j, e2, h2⟩
    · simp only [e1, Res.ok_bind, if_true, Res.pure_eq, Out]
      exact ⟨_, .str .nil, by rw [rd_ok hc, hd1, n4]; rfl, rfl, ha1⟩
    · simp only [e1, Res.ok_bind, Bool.false_eq_true, if_false, e2]
      cases ok with
      | false => simp [Out]
      | true =>
        obtain ⟨b, hb, hd2, hj, ha2⟩ := h2 rfl
        simp only [Bool.not_true, Bool.false_eq_true, if_false, Res.pure_eq, Out]
        rw [take_mid hd2 (by omega)]
        exact ⟨_, .str hb, by rw [rd_ok hc, hd2, n4]; simp, by simp; omega, ha2⟩
  · simp only [n1, n2, n3, n4, if_false, consumeNum, Nat.add_sub_cancel]
    obtain ⟨o, e, ho⟩ := scanNum_total h.1
    cases o with
    | none => simp [e, Out]
    | some j =>
      obtain ⟨b, hb, hd, hj, _⟩ := ho j rfl
      simp only [e, Res.ok_bind, Res.pure_eq, Out]
      rw [take_mid hd (by omega)]
      exact ⟨b, .num hb, hd, hj, h.app hd hj hb.no_nul⟩

/-- Items as they stand in the grammar, for arrays (`o = false`) and objects. -/
def JItems (o : Bool) (xs : List (Bytes × Json)) (b : Bytes) : Prop :=
  if o then JMembers xs b else JElems (xs.map (·.2)) b

theorem mkCon_items {o xs b} (h : JItems o xs b) :
    JValue (mkCon o xs) ((if o then 0x7B else 0x5B) :: (b ++ [closer o])) := by
  cases o with
  | true => exact .obj (by simpa [JItems] using h)
  | false => exact .arr (by simpa [JItems] using h)

mutual
theorem pVal_out (s : Bytes) (lim : Nat) : ∀ fuel i, At s i → 3 * (s.length - i) + 1 ≤ fuel →
    Out s lim (ValAt s i) (pVal s lim fuel i)
  | 0, _, _, hf => by omega
  | fuel + 1, i, h, hf => by
    obtain ⟨w, c, hw, hc, hp, hd, ha, hr⟩ := h.peek
    have := ha.1.lt
    simp only [pVal, hp, Res.ok_bind]
    have con : ∀ o, c = (if o then 0x7B else 0x5B) →
        Out s lim (ValAt s i) (pCon s lim o fuel (i + w.length + 1)) := by
      intro o ho
      have hc0 : c ≠ 0 := by rw [ho]; cases o <;> decide
      have h' := pCon_out s lim o fuel (i + w.length + 1) (ha.succ hr hc0) (by omega)
      revert h'
      cases pCon s lim o fuel (i + w.length + 1) with
      | ok x =>
        cases x with
        | none => simp [Out]
        | some x =>
          simp only [Out]
          rintro ⟨b, hb, hd2, hj, ha2⟩
          refine ⟨w, _, hw, hb, ?_, by simp; omega, ha2⟩
          rw [hd, hd2, ho]; simp
      | ub u => exact id
      | timeout => exact id
    by_cases h1 : c = 0x5B
    · simp only [h1, if_true]; exact con false h1
    by_cases h2 : c = 0x7B
    · simp only [h2, if_true, if_false, show ((0x7B : Byte) = 0x5B) = False by decide]
      exact con true h2
    · simp only [h1, h2, if_false]
      have h' := pScalar_out (lim := lim) ha hr
      revert h'
      cases pScalar s lim c (i + w.length + 1) with
      | ok x =>
        cases x with
        | none => simp [Out]
        | some x =>
          simp only [Out]
          rintro ⟨b, hb, hd2, hj, ha2⟩
          refine ⟨w, b, hw, hb, ?_, hj, ha2⟩
          rw [hd, ← rd_ok hr, hd2]
      | ub u => exact id
      | timeout => exact id
theorem pCon_out (s : Bytes) (lim : Nat) (o : Bool) : ∀ fuel i, At s i →
    3 * (s.length - i) + 3 ≤ fuel →
    Out s lim (fun x => ∃ b, JValue x.1 ((if o then 0x7B else 0x5B) :: (b ++ [closer o])) ∧
      s.drop i = b ++ closer o :: s.drop x.2 ∧ x.2 = i + b.length + 1 ∧ At s x.2)
      (pCon s lim o fuel i)
  | 0, _, _, hf => by omega
  | fuel + 1, i, h, hf => by
    have := h.1.lt
    have hcl : closer o ≠ 0 := by cases o <;> decide
    rcases h.peekAndConsume (closer o) hcl with ⟨w, hw, e, hd, ha⟩ | ⟨w, c, hw, hc, hne, e, hd, ha, hr⟩
    · simp only [pCon, e, Res.ok_bind, if_true, Res.pure_eq, Out]
      refine ⟨w, ?_, hd, rfl, ha⟩
      cases o with
      | true => exact .objNil hw
      | false => exact .arrNil hw
    · have hd' : s.drop i = w ++ c :: s.drop (i + w.length + 1) := by rw [hd, rd_ok hr]
      simp only [pCon, e, Res.ok_bind, Bool.false_eq_true, if_false, pItems_shift hw hc hd']
      refine Out.bind (pItems_out s lim o fuel i h (by omega)) rfl ?_
      rintro ⟨xs, j⟩ ⟨b, hb, hd2, hj, ha2⟩
      simp only [Res.pure_eq, Out]
      exact ⟨b, mkCon_items hb, hd2, hj, ha2⟩
theorem pItems_out (s : Bytes) (lim : Nat) (o : Bool) : ∀ fuel i, At s i →
    3 * (s.length - i) + 2 ≤ fuel →
    Out s lim (fun x => ∃ b, JItems o x.1 b ∧ s.drop i = b ++ closer o :: s.drop x.2 ∧
      x.2 = i + b.length + 1 ∧ At s x.2) (pItems s lim o fuel i)
  | 0, _, _, hf => by omega
  | fuel + 1, i, h, hf => by
    have := h.1.lt
    simp only [pItems]
    have hk : Out s lim (fun x => (o = false ∧ x = ([], i)) ∨ (o = true ∧
        ∃ w w1, IsWs w ∧ IsStrBody x.1 ∧ IsWs w1 ∧
        s.drop i = w ++ (0x22 :: (x.1 ++ (0x22 :: (w1 ++ (0x3A :: s.drop x.2))))) ∧
        x.2 = i + w.length + 1 + x.1.length + 1 + w1.length + 1 ∧ At s x.2)) (pKeyOpt o s i) := by
      cases o with
      | false => simp [pKeyOpt, Out]
      | true =>
        have := pKey_out (lim := lim) h
        simp only [pKeyOpt, if_true]
        revert this
        cases pKey s i with
        | ok x => cases x <;> simp [Out]
        | ub u => exact id
        | timeout => exact id
    refine Out.bind hk rfl ?_
    rintro ⟨k, i1⟩ hki
    have hi1 : At s i1 ∧ i ≤ i1 := by
      rcases hki with ⟨_, e⟩ | ⟨_, w, w1, _, _, _, _, e, ha⟩
      · cases e; exact ⟨h, Nat.le_refl _⟩
      · simp only at e ha; exact ⟨ha, by omega⟩
    refine Out.bind (pVal_out s lim fuel i1 hi1.1 (by omega)) rfl ?_
    rintro ⟨t, j⟩ ⟨wv, bv, hwv, hv, hdv, hj, hav⟩
    simp only at hdv hj hav hv
    have hbv : 0 < bv.length := by
      obtain ⟨c, q, hb, _⟩ := hv.head
      rw [hb]; simp
    rcases hav.peekAndConsume 0x2C (by decide) with ⟨w, hw, e, hd, ha⟩ | ⟨w, c, hw, hc, hne, e, hd, ha, hr⟩
    · simp only [e, Res.ok_bind, if_true]
      have h' := pItems_out s lim o fuel (j + w.length + 1) ha (by omega)
      refine Out.bind h' rfl ?_
      rintro ⟨xs, j2⟩ ⟨b, hb, hd2, hj2, ha2⟩
      simp only [Res.pure_eq, Out]
      simp only at hd2 hj2 ha2 hb
      rcases hki with ⟨rfl, e⟩ | ⟨rfl, w0, w1, hw0, hk, hw1, hdk, e, _⟩
      · cases e
        refine ⟨wv ++ (bv ++ (w ++ 0x2C :: b)), ?_, ?_, by simp; omega, ha2⟩
        · exact JElems.cons hwv hv hw (by simpa [JItems] using hb)
        · rw [hdv, hd, hd2]; simp
      · simp only at hk hdk e
        refine ⟨w0 ++ (0x22 :: (k ++ (0x22 :: (w1 ++ (0x3A :: (wv ++ (bv ++ (w ++ 0x2C :: b)))))))),
          ?_, ?_, by simp; omega, ha2⟩
        · exact JMembers.cons hw0 hk hw1 hwv hv hw (by simpa [JItems] using hb)
        · rw [hdk, hdv, hd, hd2]; simp
    · have hp2 := peek_ws (w := []) (by simp [IsWs]) hc (rd_ok hr)
      simp only [e, Res.ok_bind, Bool.false_eq_true, if_false, hp2]
      by_cases ecl : c = closer o
      · simp only [ecl, if_true, Res.pure_eq, Out]
        have hcl : closer o ≠ 0 := by cases o <;> decide
        have hd3 : s.drop (j + w.length) = closer o :: s.drop (j + w.length + 1) := by
          rw [rd_ok hr, ecl]
        rcases hki with ⟨rfl, e⟩ | ⟨rfl, w0, w1, hw0, hk, hw1, hdk, e, _⟩
        · cases e
          refine ⟨wv ++ (bv ++ w), ?_, ?_, by simp; omega, ?_⟩
          · exact JElems.one hwv hv hw
          · rw [hdv, hd, hd3]; simp
          · simpa using ha.succ hr (by rw [ecl]; exact hcl)
        · simp only at hk hdk e
          refine ⟨w0 ++ (0x22 :: (k ++ (0x22 :: (w1 ++ (0x3A :: (wv ++ (bv ++ w))))))), ?_, ?_,
            by simp; omega, ?_⟩
          · exact JMembers.one hw0 hk hw1 hwv hv hw
          · rw [hdk, hdv, hd, hd3]; simp
          · simpa using ha.succ hr (by rw [ecl]; exact hcl)
      · simp [ecl, Out]
end

/-! ### Whole texts -/

/-- A value, then whitespace and the NUL (zzzjson.h:1720-1730 without the stores). -/
def pText (s : Bytes) (lim fuel : Nat) : Res (Option Json) := do
  match ← pVal s lim fuel 0 with
  | none => return none
  | some (t, i) =>
    let (ok, _) ← peekAndConsume 0 s i
    if ok then return some t else return none

theorem pText_complete {t b} (h : JText t b) {s junk : Bytes} {lim fuel : Nat}
    (hs : s = b ++ 0 :: junk) (hl : s.length ≤ lim) (hf : 3 * b.length ≤ fuel) :
    pText s lim fuel = .ok (some t) := by
  obtain ⟨w, v, w', rfl, hw, hv, hw'⟩ := h
  have h0 : NumEnd 0 := by unfold NumEnd; decide
  obtain ⟨x, q, hx, hx'⟩ := follow (r := junk) hw' h0
  have hd : s.drop 0 = w ++ (v ++ (w' ++ 0 :: junk)) := by simp [hs]
  have e := pVal_complete hv (lim := lim) (fuel := fuel) hw (by rw [hd, hx]) hx' hl
    (by simp at hf; omega)
  have e2 := peekAndConsume_ws (x := 0) hw' (by decide) (drop_add (drop_add hd))
  simp only [pText, e, Res.ok_bind, e2, if_true, Res.pure_eq]

theorem pText_out {s : Bytes} {lim fuel : Nat} (h0 : (0 : Byte) ∈ s)
    (hf : 3 * s.length + 1 ≤ fuel) :
    Out s lim (fun t => ∃ b junk, s = b ++ 0 :: junk ∧ JText t b) (pText s lim fuel) := by
  have ha : At s 0 := ⟨by simpa [HasNul] using h0, by simp⟩
  refine Out.bind (pVal_out s lim fuel 0 ha (by omega)) rfl ?_
  rintro ⟨t, i⟩ ⟨w, b, hw, hb, hd, hi, hai⟩
  simp only at hd hi hai hb
  obtain ⟨w', c, r, hd', hw', hc, _, _⟩ := hai.1.ws
  have e := peekAndConsume_ws (x := 0) hw' hc hd'
  by_cases hc0 : c = 0
  · simp only [e, hc0, if_true, Res.ok_bind, Res.pure_eq, Out]
    refine ⟨w ++ (b ++ w'), r, ?_, w, b, w', rfl, hw, hb, hw'⟩
    rw [hd', hc0] at hd
    simpa using hd
  · simp [e, hc0, Out]

/-- The grammar is unambiguous. -/
theorem JText_unique {t t' b} (h : JText t b) (h' : JText t' b) : t = t' := by
  have e := pText_complete h (s := b ++ [0]) (junk := []) rfl (Nat.le_refl _) (Nat.le_refl _)
  have e' := pText_complete h' (s := b ++ [0]) (junk := []) rfl (Nat.le_refl _) (Nat.le_refl _)
  rw [e] at e'
  simpa using e'

mutual
theorem JValue.no_nul : ∀ {t b}, JValue t b → (0 : Byte) ∉ b
  | _, _, .null => by decide
  | _, _, .true => by decide
  | _, _, .false => by decide
  | _, _, .num h => h.no_nul
  | _, _, .str h => by simp [h.no_nul]
  | _, _, .arrNil h => by simp [h.no_nul]
  | _, _, .objNil h => by simp [h.no_nul]
  | _, _, .arr h => by simp [h.no_nul]
  | _, _, .obj h => by simp [h.no_nul]
theorem JElems.no_nul : ∀ {t b}, JElems t b → (0 : Byte) ∉ b
  | _, _, .one hw hv hw' => by simp [hw.no_nul, hv.no_nul, hw'.no_nul]
  | _, _, .cons hw hv hw' hr => by simp [hw.no_nul, hv.no_nul, hw'.no_nul, hr.no_nul]
theorem JMembers.no_nul : ∀ {t b}, JMembers t b → (0 : Byte) ∉ b
  | _, _, .one hw hk hw1 hw2 hv hw' => by
    simp [hw.no_nul, hk.no_nul, hw1.no_nul, hw2.no_nul, hv.no_nul, hw'.no_nul]
  | _, _, .cons hw hk hw1 hw2 hv hw' hr => by
    simp [hw.no_nul, hk.no_nul, hw1.no_nul, hw2.no_nul, hv.no_nul, hw'.no_nul, hr.no_nul]
end

theorem JText.no_nul {t b} (h : JText t b) : (0 : Byte) ∉ b := by
  obtain ⟨w, v, w', rfl, hw, hv, hw'⟩ := h
  simp [hw.no_nul, hv.no_nul, hw'.no_nul]

end ZJ
