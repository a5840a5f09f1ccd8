import Verif.PropEsc

/-
Property theorems about the setters of keys, in the terms of C15, C17 and C18: what they accept, how
the variants with a length agree with those without, and that a refused call changes nothing. And
C15 for every body: which valid bodies all eight setters refuse.
-/

namespace ZJ

section
variable {st st' : St} {P P' : Addr → Prop} {G : Graph} {v w A B a : Addr} {x y : Option Addr} {p q : SPtr} {b s k : Bytes}
  {t : Json}

/-! ### C15 for keys, and C15 as a whole -/

/-- C15 for keys: `zj_SetKey` and `zj_SetKeyFast` on a value that can have a key (see C43) return true
exactly on the bodies `zj_SetStr` accepts: valid string bodies without an escape from \uE000 on.
Missing for the full property: those escapes, see `C15_refused`. -/
theorem C15_setKey_partial (h : Ready st P G v x A) (hs : CStr st p k) (hl : Lent st p) (ha : AcceptsKey G x) :
    ((∃ st', setKeyC v p st = .ok (true, st')) ↔ IsStrBody k ∧ NoHighEscape k) ∧
    ((∃ st', setKeyFast v p st = .ok (true, st')) ↔ IsStrBody k ∧ NoHighEscape k) ∧
    ((∃ st', setKeyC v p st = .ok (false, st')) ↔ ¬ (IsStrBody k ∧ NoHighEscape k)) ∧
    ((∃ st', setKeyFast v p st = .ok (false, st')) ↔ ¬ (IsStrBody k ∧ NoHighEscape k)) := by
  rw [← isSetBody_iff]
  rcases C43_setKey h hs hl ha with ⟨h1, ⟨s1, e1, _⟩, s2, e2, _⟩ | ⟨h1, e1, e2⟩
  · rw [e1, e2]
    exact ⟨⟨fun _ => h1, fun _ => ⟨_, rfl⟩⟩, ⟨fun _ => h1, fun _ => ⟨_, rfl⟩⟩,
      ⟨(fun ⟨_, h⟩ => nomatch h), fun h => absurd h1 h⟩, ⟨(fun ⟨_, h⟩ => nomatch h), fun h => absurd h1 h⟩⟩
  · rw [e1, e2]
    exact ⟨⟨(fun ⟨_, h⟩ => nomatch h), fun h => absurd h h1⟩, ⟨(fun ⟨_, h⟩ => nomatch h), fun h => absurd h h1⟩,
      ⟨fun _ => h1, fun _ => ⟨_, rfl⟩⟩, ⟨fun _ => h1, fun _ => ⟨_, rfl⟩⟩⟩

/-- C15 is false for every body that can stand between quotes and has an escape from \uE000 on: the
quoted text is JSON, and `zj_SetStr`, `zj_SetStrFast`, `zj_SetKey` and `zj_SetKeyFast` refuse it, on every
value. -/
theorem C15_refused (h : Ready st P G v x A) (hs : CStr st p s) (hl : Lent st p) (hb : IsStrBody s) (hn : ¬ NoHighEscape s) :
    (∃ t, JText t (0x22 :: (s ++ [0x22]))) ∧
    setStr v p st = .ok (false, st) ∧ setStrFast v p st = .ok (false, st) ∧
    setKeyC v p st = .ok (false, st) ∧ setKeyFast v p st = .ok (false, st) := by
  have h0 : ¬ IsSetBody s := fun h => hn (isSetBody_iff.1 h).2
  exact ⟨quoted_iff.2 hb, ((C15_setStr h hs).resolve_left fun h => h0 h.1).2,
    ((C15_setStrFast h hs hl).resolve_left fun h => h0 h.1).2, (setKeyC_run h.inv h.val h.node hs).2 (.inl h0),
    (setKeyFast_run (h.lend hl).inv h.val h.node hs inP_pinned).2 (.inl h0)⟩

/-- C15, put the other way round: on the bodies without such escapes the property holds, for
all four setters. -/
theorem C15_agree_partial (h : Ready st P G v x A) (hs : CStr st p s) (hl : Lent st p) (ha : AcceptsKey G x) (hn : NoHighEscape s) :
    ((∃ st', setStr v p st = .ok (true, st')) ↔ ∃ t, JText t (0x22 :: (s ++ [0x22]))) ∧
    ((∃ st', setStrFast v p st = .ok (true, st')) ↔ ∃ t, JText t (0x22 :: (s ++ [0x22]))) ∧
    ((∃ st', setKeyC v p st = .ok (true, st')) ↔ ∃ t, JText t (0x22 :: (s ++ [0x22]))) ∧
    ((∃ st', setKeyFast v p st = .ok (true, st')) ↔ ∃ t, JText t (0x22 :: (s ++ [0x22]))) := by
  rw [quoted_iff]
  have e : IsSetBody s ↔ IsStrBody s := isSetBody_iff.trans (and_iff_left hn)
  obtain ⟨h1, h2, _⟩ := C15_partial h hs hl
  obtain ⟨h3, h4, _⟩ := C15_setKey_partial h hs hl ha
  exact ⟨h1.trans e, h2.trans e, h3.trans (and_iff_left hn), h4.trans (and_iff_left hn)⟩

/-- A proper state for these, with a body that has such an escape behind other text. -/
example : ∃ st P G v x A p, Ready st P G v x A ∧ CStr st p b!"a\\uFFFD" ∧ Lent st p ∧ IsStrBody b!"a\\uFFFD" ∧
    ¬ NoHighEscape b!"a\\uFFFD" ∧ AcceptsKey G x ∧ x ≠ none := by
  obtain ⟨st, P, G, v, a, h, _⟩ := exists_example (t := .arr [.bool true, .null]) (by simp [Json.Valid, Json.ValidElems]) (fun _ => 0)
  have h4 : Hex4 0x46 0x46 0x46 0x44 0xFFFD := ⟨15, 15, 15, 13, by decide, by decide, by decide, by decide, by decide⟩
  refine ⟨_, P, G, v, _, 0, _, h.ready.addC (d := b!"a\\uFFFD" ++ [0]), addC_cstr (by decide), addC_lent h.inv.ok,
    .plain (by decide) (by decide) (by decide) (.uni h4 ?_ ?_ .nil), fun hn => ?_, ?_, by simp⟩
  · unfold IsHighSurrogate; omega
  · unfold IsLowSurrogate; omega
  · have := hn.1 _ h4
    omega
  · intro b gb f hb hgb hp
    cases hb
    obtain ⟨gn, h1, h2, _⟩ := h.root
    rw [h1] at hgb; cases hgb
    rw [h2] at hp; cases hp

/-! ### C17 for keys -/

/-- C17 for keys: `zj_SetKeyLen` and `zj_SetKeyLenFast` with `(k, n)`, for any `n` bytes: the answer is
the one of `zj_SetKey` for these bytes as a C string; the stored key is those `n` bytes. -/
theorem C17_setKeyLen (h : Ready st P G v x A) (hs : Reads st p k) (hl : Lent st p) (ha : AcceptsKey G x) :
    ((IsSetBody k ∧ ∃ st' P', setKeyLenC v p k.length st = .ok (true, st') ∧ Keyed st st' P P' G v x A k) ∨
      (¬ IsSetBody k ∧ ∃ st', setKeyLenC v p k.length st = .ok (false, st') ∧ Same st st' P G v x A)) ∧
    ((IsSetBody k ∧ ∃ st', setKeyLenFast v p k.length st = .ok (true, st') ∧ Keyed st st' P (pinned P p) G v x A k) ∨
      (¬ IsSetBody k ∧ ∃ st', setKeyLenFast v p k.length st = .ok (false, st') ∧ Same st st' P G v x A)) := by
  rcases C43_setKeyLen h hs hl ha with ⟨h1, h2, h3⟩ | ⟨h1, h2, h3⟩
  · exact ⟨.inl ⟨h1, h2⟩, .inl ⟨h1, h3⟩⟩
  · exact ⟨.inr ⟨h1, h2⟩, .inr ⟨h1, h3⟩⟩

/-- Keys with a NUL are refused, on every value. -/
theorem C17_key_nul (h : Ready st P G v x A) (hs : Reads st p k) (hl : Lent st p) (h0 : (0 : Byte) ∈ k) :
    (∃ st', setKeyLenC v p k.length st = .ok (false, st') ∧ Same st st' P G v x A) ∧
    (∃ st', setKeyLenFast v p k.length st = .ok (false, st') ∧ Same st st' P G v x A) := by
  have n1 : ¬ IsSetBody k := fun h => h.no_nul h0
  have h' := h.lend hl
  obtain ⟨s1, e1, k1⟩ := (setKeyLenC_run h.inv h.cok h.val h.node hs hl.notCache).2 (.inl n1)
  obtain ⟨s2, e2, k2⟩ := (setKeyLenFast_run h'.inv h.cok h.val h.node hs inP_pinned).2 (.inl n1)
  exact ⟨⟨s1, e1, k1.same h (fun _ h => h)⟩, s2, e2, (k2.same h' (fun _ h => h)).unlend h (fun _ h => .inl h)⟩

/-- C17 for keys, as a comparison of two calls: `zj_SetKeyLen(v, p, n)` and `zj_SetKey(v, q)` where `q` is
the C string of the same `n` bytes give the same answer and afterwards the value has the same
key; likewise the two Fast variants. -/
theorem C17_key_agree (h : Ready st P G v x A) (hp : Reads st p k) (hl : Lent st p) (hq : CStr st q k) (hlq : Lent st q)
    (ha : AcceptsKey G x ∨ InArray G x) :
    (∃ r st1 st2, setKeyLenC v p k.length st = .ok (r, st1) ∧ setKeyC v q st = .ok (r, st2) ∧
      (r = true → ∃ P1 P2, Keyed st st1 P P1 G v x A k ∧ Keyed st st2 P P2 G v x A k) ∧
      (r = false → Same st st1 P G v x A ∧ st2 = st)) ∧
    (∃ r st1 st2, setKeyLenFast v p k.length st = .ok (r, st1) ∧ setKeyFast v q st = .ok (r, st2) ∧
      (r = true → ∃ P1 P2, Keyed st st1 P P1 G v x A k ∧ Keyed st st2 P P2 G v x A k) ∧
      (r = false → Same st st1 P G v x A ∧ st2 = st)) := by
  rcases ha with ha | ha
  · rcases C43_setKey h hq hlq ha with ⟨h1, ⟨s1, e1, k1⟩, s2, e2, k2⟩ | ⟨h1, e1, e2⟩
    · rcases C43_setKeyLen h hp hl ha with ⟨_, ⟨s3, P3, e3, k3⟩, s4, e4, k4⟩ | ⟨h2, _⟩
      · exact ⟨⟨true, s3, s1, e3, e1, fun _ => ⟨_, _, k3, k1⟩, (fun h => nomatch h)⟩,
          true, s4, s2, e4, e2, fun _ => ⟨_, _, k4, k2⟩, (fun h => nomatch h)⟩
      · exact absurd h1 h2
    · rcases C43_setKeyLen h hp hl ha with ⟨h2, _⟩ | ⟨_, ⟨s3, e3, k3⟩, s4, e4, k4⟩
      · exact absurd h2 h1
      · exact ⟨⟨false, s3, st, e3, e1, (fun h => nomatch h), fun _ => ⟨k3, rfl⟩⟩,
          false, s4, st, e4, e2, (fun h => nomatch h), fun _ => ⟨k4, rfl⟩⟩
  · have h' := h.lend hl
    obtain ⟨e1, e2, _⟩ := C43_refused h hq hlq ha
    obtain ⟨s3, e3, k3⟩ := (setKeyLenC_run h.inv h.cok h.val h.node hp hl.notCache).2 (.inr ha)
    obtain ⟨s4, e4, k4⟩ := (setKeyLenFast_run h'.inv h.cok h.val h.node hp inP_pinned).2 (.inr ha)
    exact ⟨⟨false, s3, st, e3, e1, (fun h => nomatch h), fun _ => ⟨k3.same h (fun _ h => h), rfl⟩⟩,
      false, s4, st, e4, e2, (fun h => nomatch h),
      fun _ => ⟨(k4.same h' (fun _ h => h)).unlend h (fun _ h => .inl h), rfl⟩⟩

/-- A run with a used scratch string: a long key, a shorter one, one with a NUL inside, and one with
a bad escape; the key that is left is the second. -/
example : ((do
    let p ← callerText b!"abcdefghij"
    let q ← callerText [0x61, 0x62, 0, 0x63]
    let z ← callerText b!"\\x"
    let a ← setKeyLenC 0 p 10
    let b ← setKeyLenC 0 q 2
    let c ← setKeyLenC 0 q 3
    let d ← setKeyLenFast 0 q 4
    let e ← setKeyLenC 0 z 2
    let s := (← getKey 0).getD (.lit { bytes := [] })
    return [[a, b, c, d, e].map fun b => if b then 1 else 0, ← readN s 3] : M (List Bytes)) (start fun _ => 0)).out =
    .ok [[1, 1, 0, 0, 0], b!"ab" ++ [0]] := by decide +kernel

/-! ### C18 for keys -/

/-- C18 for keys: a setter of keys that returns false changed nothing (the variants with a length
have used the scratch string, those with escaping a new block). -/
theorem C18_key (h : Ready st P G v x A) (ha : AcceptsKey G x ∨ InArray G x) :
    (CStr st p k → (setKeyC v p st = .ok (false, st') → st' = st)) ∧
    (CStr st p k → Lent st p → (setKeyFast v p st = .ok (false, st') → st' = st)) ∧
    (Reads st p k → Lent st p →
      (setKeyLenC v p k.length st = .ok (false, st') → Same st st' P G v x A) ∧
      (setKeyLenFast v p k.length st = .ok (false, st') → Same st st' P G v x A)) ∧
    (CStr st p k → (setKeyEscape v p st = .ok (false, st') → Same st st' P G v x A)) ∧
    (Reads st p k → (setKeyLenEscape v p k.length st = .ok (false, st') → Same st st' P G v x A)) := by
  refine ⟨fun hs hr => ?_, fun hs hl hr => ?_, fun hs hl => ⟨fun hr => ?_, fun hr => ?_⟩, fun hs hr => ?_, fun hs hr => ?_⟩
  · obtain ⟨h1, h2⟩ := setKeyC_run h.inv h.val h.node hs
    by_cases hb : IsSetBody k ∧ AcceptsKey G x
    · obtain ⟨s1, e, _⟩ := h1 hb.1 hb.2
      rw [e] at hr; cases hr
    · rw [h2 (by by_cases h3 : IsSetBody k; exact .inr (ha.resolve_left fun h4 => hb ⟨h3, h4⟩); exact .inl h3)] at hr
      cases hr; rfl
  · obtain ⟨h1, h2⟩ := setKeyFast_run (h.lend hl).inv h.val h.node hs inP_pinned
    by_cases hb : IsSetBody k ∧ AcceptsKey G x
    · obtain ⟨s1, e, _⟩ := h1 hb.1 hb.2
      rw [e] at hr; cases hr
    · rw [h2 (by by_cases h3 : IsSetBody k; exact .inr (ha.resolve_left fun h4 => hb ⟨h3, h4⟩); exact .inl h3)] at hr
      cases hr; rfl
  · obtain ⟨h1, h2⟩ := setKeyLenC_run h.inv h.cok h.val h.node hs hl.notCache
    by_cases hb : IsSetBody k ∧ AcceptsKey G x
    · obtain ⟨s1, P1, e, _⟩ := h1 hb.1 hb.2
      rw [e] at hr; cases hr
    · obtain ⟨s1, e, k1⟩ := h2 (by by_cases h3 : IsSetBody k; exact .inr (ha.resolve_left fun h4 => hb ⟨h3, h4⟩); exact .inl h3)
      rw [e] at hr; cases hr
      exact k1.same h (fun _ h => h)
  · have h' := h.lend hl
    obtain ⟨h1, h2⟩ := setKeyLenFast_run h'.inv h.cok h.val h.node hs inP_pinned
    by_cases hb : IsSetBody k ∧ AcceptsKey G x
    · obtain ⟨s1, e, _⟩ := h1 hb.1 hb.2
      rw [e] at hr; cases hr
    · obtain ⟨s1, e, k1⟩ := h2 (by by_cases h3 : IsSetBody k; exact .inr (ha.resolve_left fun h4 => hb ⟨h3, h4⟩); exact .inl h3)
      rw [e] at hr; cases hr
      exact (k1.same h' (fun _ h => h)).unlend h (fun _ h => .inl h)
  · obtain ⟨h1, h2⟩ := setKeyEscape_run h.inv h.val h.node hs
    rcases ha with ha | ha
    · obtain ⟨s1, e, _⟩ := h1 ha
      rw [e] at hr; cases hr
    · obtain ⟨s1, e, k1⟩ := h2 ha
      rw [e] at hr; cases hr
      exact k1.same h (fun _ h => h.elim)
  · obtain ⟨h1, h2⟩ := setKeyLenEscape_run h.inv h.val h.node hs
    rcases ha with ha | ha
    · obtain ⟨s1, e, _⟩ := h1 ha
      rw [e] at hr; cases hr
    · obtain ⟨s1, e, k1⟩ := h2 ha
      rw [e] at hr; cases hr
      exact k1.same h (fun _ h => h.elim)

/-- An element of an array and a text for it: every setter of keys refuses, with what it read. -/
example : ((do
    let t ← callerText (b!"[1,2]" ++ [0])
    let _ ← parse 0 t
    let w ← deref (← arrayGet 9 0 1)
    let q ← callerText (b!"k" ++ [0])
    let a ← setKeyC w q
    let b ← setKeyFast w q
    let c ← setKeyLenC w q 1
    let d ← setKeyLenFast w q 1
    let e ← setKeyEscape w q
    let f ← setKeyLenEscape w q 1
    let r ← stringify 99 0
    return [[a, b, c, d, e, f].map fun b => if b then 1 else 0, ← readN r 6] : M (List Bytes)) (start fun _ => 0)).out =
    .ok [[0, 0, 0, 0, 0, 0], b!"[1,2]" ++ [0]] := by decide +kernel

end

end ZJ
