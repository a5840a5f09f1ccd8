import Verif.Path

/-
Property theorems about the setters: C10 (setters), C15-C19, C43.
-/

set_option linter.unusedSimpArgs false

namespace ZJ

section
variable {st st' : St} {P P' : Addr → Prop} {G : Graph} {v w A B a : Addr} {x y : Option Addr} {p q : SPtr} {b s k : Bytes}
  {t : Json}

/-- The effect of a successful setter on the handle `v`: `v` shows `t`. In the store of
documents only the value of the node of `v` is different: it has its old key, its old
parent and (since the parent is unchanged) its old place among its siblings. In memory only
this node, the handle `v`, the scratch string and new memory were written. -/
structure Becomes (st st' : St) (P P' : Addr → Prop) (G : Graph) (v : Addr) (x : Option Addr) (A : Nat) (t : Json) : Prop where
  shows : Shows st' v t
  store : ∃ gn, Ready st' P' (G.set (rootOf st x) gn) v (some (rootOf st x)) A ∧
    gn.key = (baseNode G x).key ∧ gn.par = (baseNode G x).par
  pin : ∀ b, P b → P' b
  mem : Frame (· = rootOf st x) (· = v) (CacheB st) st st'

/-- Nothing happened: same store, same handles, same memory except for the scratch string. -/
structure Same (st st' : St) (P : Addr → Prop) (G : Graph) (v : Addr) (x : Option Addr) (A : Nat) : Prop where
  ready : Ready st' P G v x A
  mem : Frame (fun _ => False) (fun _ => False) (CacheB st) st st'

theorem SetTo.becomes {B gv} (h : SetTo B st st' P P' G v x A gv t) (hr : Ready st P G v x A)
    (hB : ∀ b, B b → CacheB st b) : Becomes st st' P P' G v x A t where
  shows := h.inv.shows h.vals h.doc
  store := ⟨(baseNode G x).put gv, ⟨h.inv, h.cok hr.cok, h.vals, fun a ha => by cases ha; simp⟩, rfl, rfl⟩
  pin := h.pin
  mem := h.frame.weaken (fun _ h => h) (fun _ h => h) hB

theorem Kept.same {B} (h : Kept B st st' P G) (hr : Ready st P G v x A) (hB : ∀ b, B b → CacheB st b) :
    Same st st' P G v x A where
  ready := ⟨h.inv, h.cok hr.cok, by rw [h.frame.vals v (hr.inv.ok.val_lt hr.val) id]; exact hr.val, hr.node⟩
  mem := h.frame.weaken (fun _ h => h) (fun _ h => h) hB

theorem Same.refl (hr : Ready st P G v x A) : Same st st P G v x A := ⟨hr, .refl _⟩

/-- Other handles keep their nodes. -/
theorem Becomes.keep (h : Becomes st st' P P' G v x A t) (hw : Ready st P G w y B) (hne : w ≠ v) :
    ∃ gn, Ready st' P' (G.set (rootOf st x) gn) w y B ∧ Ready st' P' (G.set (rootOf st x) gn) v (some (rootOf st x)) A ∧
      gn.key = (baseNode G x).key ∧ gn.par = (baseNode G x).par := by
  obtain ⟨gn, h1, h2, h3⟩ := h.store
  refine ⟨gn, ⟨h1.inv, h1.cok, ?_, fun b hb => ?_⟩, h1, h2, h3⟩
  · rw [h.mem.vals w (hw.inv.ok.val_lt hw.val) hne]; exact hw.val
  · rw [Graph.set_apply]; split
    · rfl
    · exact hw.node b hb

theorem base_key (hr : Ready st P G v x A) {g} (hg : G (rootOf st x) = some g) : (baseNode G x) = g := by
  cases x with
  | none => exact absurd (hr.inv.lt hg) (by simp [rootOf])
  | some a => simp [rootOf] at hg; simp [baseNode, hg]

/-- The place of the value is kept: every other document is the old one with the new value
in the place of the old one, if it contains the node of `v`; otherwise it is the old one. -/
theorem Becomes.elsewhere (h : Becomes st st' P P' G v x A t) (hr : Ready st P G v x A) (hw : Ready st P G w (some a) B)
    (hne : w ≠ v) {T} (hs : Shows st w T) :
    (¬ Reach G a (rootOf st x) → Shows st' w T) ∧
    (∀ pth, PathTo G a pth (rootOf st x) → Shows st' w (T.replace pth t)) := by
  obtain ⟨gn, h1, h2, h3, _⟩ := h.keep hw hne
  have hd : EditAt G (G.set (rootOf st x) gn) (rootOf st x) t :=
    EditAt.set (h2.unf h.shows) (fun g hg => by rw [h3, base_key hr hg])
  exact hd.shows hw h1 hs

/-- The store without the loan, if nothing refers to it yet. -/
theorem Same.unlend (h : Same st st' P' G v x A) (hr : Ready st P G v x A) (hP : ∀ b, P b → P' b) : Same st st' P G v x A :=
  ⟨⟨⟨h.ready.inv.ok, fun b hb => h.ready.inv.pin b (hP b hb),
    hr.inv.rep.mono (fun b hb => h.mem.nodes b (by
      obtain ⟨gn, hg⟩ := Option.isSome_iff_exists.1 hb
      exact hr.inv.lt hg) id) (fun _ h => h) (fun b hb => h.mem.bufs b (by
      obtain ⟨bf, hbf⟩ := Option.isSome_iff_exists.1 (hr.inv.pin b hb).1
      exact hr.inv.ok.buf_lt hbf) (fun ⟨z, hz, e⟩ => ((hr.inv.pin b hb).2 z hz).2 e)), hr.inv.fin⟩,
    h.ready.cok, h.ready.val, h.ready.node⟩, h.mem⟩

/-- What "nothing happened" means to the caller: every handle shows what it showed. -/
theorem Same.shows (h : Same st st' P G v x A) (hw : Ready st P G w y B) {T} (hs : Shows st w T) :
    Shows st' w T ∧ Ready st' P G w y B := by
  have hv : st'.vals w = some ⟨y, B⟩ := by
    rw [h.mem.vals w (hw.inv.ok.val_lt hw.val) id]; exact hw.val
  have hr : Ready st' P G w y B := ⟨h.ready.inv, h.ready.cok, hv, hw.node⟩
  refine ⟨?_, hr⟩
  obtain ⟨c, gn, rfl, _⟩ := hw.node_of hs
  exact hr.shows (hw.unf hs)

theorem Lent.notCache (h : Lent st p) : NotCache st p := fun b off z hp hz => ((h b off hp).2 z hz).2

/-! ### C15: SetStr accepts exactly ... -/

/-- A quoted text is JSON exactly if its inside is a valid string body. -/
theorem quoted_iff {s : Bytes} : (∃ t, JText t (0x22 :: (s ++ [0x22]))) ↔ IsStrBody s := by
  constructor
  · rintro ⟨t, w, u, w', he, hw, hv, hw'⟩
    have hw0 : w = [] := by
      cases w with
      | nil => rfl
      | cons c r =>
        have : c = 0x22 := by simp at he; exact he.1.symm
        have := hw c (by simp)
        simp_all [isWs]
    subst hw0
    have hw0 : w' = [] := by
      rcases List.eq_nil_or_concat w' with h | ⟨r, c, rfl⟩
      · exact h
      · have e : (0x22 :: s) ++ [0x22] = (u ++ r) ++ [c] := by simpa using he
        have := List.append_inj' e rfl
        have hc : c = 0x22 := by simpa using this.2.symm
        have := hw' c (by simp)
        simp_all [isWs]
    subst hw0
    simp only [List.nil_append, List.append_nil] at he
    subst he
    generalize hu : (0x22 :: (s ++ [0x22]) : Bytes) = u at hv
    cases hv with
    | str h =>
      rename_i raw
      have : s ++ [0x22] = raw ++ [0x22] := by simpa using hu
      rw [List.append_cancel_right this]; exact h
    | num h =>
      exfalso
      have := (h.numeral) 0x22 (by rw [← hu]; simp)
      revert this; decide
    | null => cases hu
    | true => cases hu
    | false => cases hu
    | arrNil => cases hu
    | arr => cases hu
    | objNil => cases hu
    | obj => cases hu
  · intro h
    exact ⟨.str s, [], _, [], by simp, fun _ h => (by cases h), .str h, fun _ h => (by cases h)⟩

/-- C15 is false: `zj_SetStr(v, "\\uE000")` returns false, although the text is a valid
JSON string body and `zj_Parse` accepts it in quotes (zzzjson.h:1240 has 0xDFFFF for 0xDFFF
in the wrong place: every single escape from \uE000 on is rejected). -/
theorem C15_false :
    ((do
      let p ← callerText (b!"\\uE000" ++ [0])
      setStr 0 p : M Bool) (start fun _ => 0)).out = .ok false ∧
    ((do
      let p ← callerText (b!"\\uE000" ++ [0])
      setKeyC 0 p : M Bool) (start fun _ => 0)).out = .ok false ∧
    ((do
      let p ← callerText (b!"\"\\uE000\"" ++ [0])
      parse 0 p : M Bool) (start fun _ => 0)).out = .ok true ∧
    IsStrBody b!"\\uE000" := by
  refine ⟨by decide +kernel, by decide +kernel, by decide +kernel, ?_⟩
  refine .uni (n := 0xE000) ⟨14, 0, 0, 0, by decide, by decide, by decide, by decide, by decide⟩ ?_ ?_ .nil
  · unfold IsHighSurrogate; omega
  · unfold IsLowSurrogate; omega

/-- C15, exact: `zj_SetStr` returns true exactly on the bodies of `IsSetBody`: valid JSON
string bodies whose escapes without surrogates are below \uD800. -/
theorem C15_setStr (h : Ready st P G v x A) (hs : CStr st p s) :
    (IsSetBody s ∧ ∃ st', setStr v p st = .ok (true, st') ∧
      Becomes st st' P (fun b => P b ∨ b = st.nb) G v x A (.str s)) ∨
    (¬ IsSetBody s ∧ setStr v p st = .ok (false, st)) := by
  rcases setStr_run h.inv h.val h.node hs with ⟨h1, st', h2, h3⟩ | h1
  · exact .inl ⟨h1, st', h2, h3.becomes h (fun _ h => h.elim)⟩
  · exact .inr h1

/-- The same for `zj_SetStrFast`. -/
theorem C15_setStrFast (h : Ready st P G v x A) (hs : CStr st p s) (hl : Lent st p) :
    (IsSetBody s ∧ ∃ st', setStrFast v p st = .ok (true, st') ∧ Becomes st st' P (pinned P p) G v x A (.str s)) ∨
    (¬ IsSetBody s ∧ setStrFast v p st = .ok (false, st)) := by
  have h' := h.lend hl
  rcases setStrFast_run h'.inv h.val h.node hs inP_pinned with ⟨h1, st', h2, h3⟩ | h1
  · have := h3.becomes h' (fun _ h => h.elim)
    exact .inl ⟨h1, st', h2, this.shows, this.store, fun _ h => .inl h, this.mem⟩
  · exact .inr h1

/-- C15, the part that holds. What `zj_SetStr` accepts is a valid string body; a valid body
is accepted, unless it has an escape from \uE000 on. Missing for the full property: those
escapes, see `C15_false`. -/
theorem C15_partial (h : Ready st P G v x A) (hs : CStr st p s) (hl : Lent st p) :
    ((∃ st', setStr v p st = .ok (true, st')) ↔ IsSetBody s) ∧
    ((∃ st', setStrFast v p st = .ok (true, st')) ↔ IsSetBody s) ∧
    (IsSetBody s → ∃ t, JText t (0x22 :: (s ++ [0x22]))) := by
  refine ⟨?_, ?_, fun hb => quoted_iff.2 hb.body⟩
  · rcases C15_setStr h hs with ⟨h1, st', h2, _⟩ | ⟨h1, h2⟩
    · exact ⟨fun _ => h1, fun _ => ⟨st', h2⟩⟩
    · refine ⟨fun ⟨st', h3⟩ => ?_, fun h3 => absurd h3 h1⟩
      rw [h2] at h3; cases h3
  · rcases C15_setStrFast h hs hl with ⟨h1, st', h2, _⟩ | ⟨h1, h2⟩
    · exact ⟨fun _ => h1, fun _ => ⟨st', h2⟩⟩
    · refine ⟨fun ⟨st', h3⟩ => ?_, fun h3 => absurd h3 h1⟩
      rw [h2] at h3; cases h3

/-- No escape `\uE000` or above (a scan over the bytes, escapes taken two bytes at a time). -/
def NoHighEscape : Bytes → Prop
  | 0x5C :: 0x75 :: a :: b :: c :: d :: r => (∀ n, Hex4 a b c d n → n < 0xE000) ∧ NoHighEscape r
  | 0x5C :: _ :: r => NoHighEscape r
  | _ :: r => NoHighEscape r
  | [] => True

theorem simpleEscape_not_u : simpleEscape 0x75 = none := by decide

theorem noHighEscape_esc {c : Byte} {r : Bytes} (h : c ≠ 0x75) : NoHighEscape (0x5C :: c :: r) = NoHighEscape r := by
  rw [NoHighEscape]
  intros; contradiction

/-- The two descriptions of what is accepted agree. -/
theorem isSetBody_iff {s : Bytes} : IsSetBody s ↔ IsStrBody s ∧ NoHighEscape s := by
  constructor
  · intro h
    refine ⟨h.body, ?_⟩
    induction h with
    | nil => trivial
    | plain h1 h2 h3 _ ih => unfold NoHighEscape; split <;> simp_all
    | esc h1 _ ih =>
      rename_i c x r _
      have : c ≠ 0x75 := by rintro rfl; rw [simpleEscape_not_u] at h1; cases h1
      rw [noHighEscape_esc this]; exact ih
    | uni h1 h2 _ ih =>
      unfold NoHighEscape
      exact ⟨fun n hn => by rw [hn.det h1]; omega, ih⟩
    | pair h1 h2 h3 h4 _ ih =>
      unfold IsHighSurrogate at h2
      unfold IsLowSurrogate at h4
      unfold NoHighEscape
      refine ⟨fun n hn => by rw [hn.det h1]; omega, ?_⟩
      unfold NoHighEscape
      exact ⟨fun n hn => by rw [hn.det h3]; omega, ih⟩
  · rintro ⟨h, hn⟩
    induction h with
    | nil => exact .nil
    | plain h1 h2 h3 _ ih =>
      refine .plain h1 h2 h3 (ih ?_)
      unfold NoHighEscape at hn
      split at hn <;> simp_all
    | esc h1 _ ih =>
      rename_i c x r _
      have : c ≠ 0x75 := by rintro rfl; rw [simpleEscape_not_u] at h1; cases h1
      rw [noHighEscape_esc this] at hn
      exact .esc h1 (ih hn)
    | uni h1 h2 h3 _ ih =>
      unfold NoHighEscape at hn
      have := hn.1 _ h1
      unfold IsHighSurrogate at h2
      unfold IsLowSurrogate at h3
      exact .uni h1 (by omega) (ih hn.2)
    | pair h1 h2 h3 h4 _ ih =>
      unfold NoHighEscape at hn
      have := hn.2
      unfold NoHighEscape at this
      exact .pair h1 h2 h3 h4 (ih this.2)

/-- Accepted and refused bodies, run: plain text, an escape, a pair, a lone high surrogate,
a quote, a bad escape. -/
example : ((do
    let t (s : Bytes) : M Bool := do setStr 0 (← callerText (s ++ [0]))
    return [← t b!"abc", ← t b!"a\\n\\u0041", ← t b!"\\uD83D\\uDE00", ← t b!"\\uD83D", ← t b!"a\"b", ← t b!"\\x"] : M _)
    (start fun _ => 0)).out = .ok [true, true, true, false, false, false] := by decide +kernel

/-- A proper state for C15, with a handle inside a document. -/
example : ∃ st P G v x A p, Ready st P G v x A ∧ CStr st p b!"a\\n" ∧ Lent st p ∧ IsSetBody b!"a\\n" ∧ x ≠ none := by
  obtain ⟨st, P, G, v, a, h, _⟩ := exists_example (t := .arr [.bool true, .null]) (by simp [Json.Valid, Json.ValidElems]) (fun _ => 0)
  exact ⟨_, P, G, v, _, 0, _, h.ready.addC (d := b!"a\\n" ++ [0]), addC_cstr (by decide), addC_lent h.inv.ok,
    .plain (by decide) (by decide) (by decide) (.esc (x := 0x0A) (by decide) .nil), by simp⟩

/-! ### C16: SetNumStr accepts exactly JSON numbers -/

/-- C16. `zj_SetNumStr` returns true exactly on JSON numbers; then `v` is that number. -/
theorem C16_setNumStr (h : Ready st P G v x A) (hs : CStr st p s) :
    (IsNum s ∧ ∃ st', setNumStr v p st = .ok (true, st') ∧
      Becomes st st' P (fun b => P b ∨ b = st.nb) G v x A (.num s)) ∨
    (¬ IsNum s ∧ setNumStr v p st = .ok (false, st)) := by
  rcases setNumStr_run h.inv h.val h.node hs with ⟨h1, st', h2, h3⟩ | h1
  · exact .inl ⟨h1, st', h2, h3.becomes h (fun _ h => h.elim)⟩
  · exact .inr h1

theorem C16_setNumStrFast (h : Ready st P G v x A) (hs : CStr st p s) (hl : Lent st p) :
    (IsNum s ∧ ∃ st', setNumStrFast v p st = .ok (true, st') ∧ Becomes st st' P (pinned P p) G v x A (.num s)) ∨
    (¬ IsNum s ∧ setNumStrFast v p st = .ok (false, st)) := by
  have h' := h.lend hl
  rcases setNumStrFast_run h'.inv h.val h.node hs inP_pinned with ⟨h1, st', h2, h3⟩ | h1
  · have := h3.becomes h' (fun _ h => h.elim)
    exact .inl ⟨h1, st', h2, this.shows, this.store, fun _ h => .inl h, this.mem⟩
  · exact .inr h1

theorem C16_true_iff (h : Ready st P G v x A) (hs : CStr st p s) (hl : Lent st p) :
    ((∃ st', setNumStr v p st = .ok (true, st')) ↔ IsNum s) ∧
    ((∃ st', setNumStrFast v p st = .ok (true, st')) ↔ IsNum s) := by
  refine ⟨?_, ?_⟩
  · rcases C16_setNumStr h hs with ⟨h1, st', h2, _⟩ | ⟨h1, h2⟩
    · exact ⟨fun _ => h1, fun _ => ⟨st', h2⟩⟩
    · refine ⟨fun ⟨st', h3⟩ => ?_, fun h3 => absurd h3 h1⟩
      rw [h2] at h3; cases h3
  · rcases C16_setNumStrFast h hs hl with ⟨h1, st', h2, _⟩ | ⟨h1, h2⟩
    · exact ⟨fun _ => h1, fun _ => ⟨st', h2⟩⟩
    · refine ⟨fun ⟨st', h3⟩ => ?_, fun h3 => absurd h3 h1⟩
      rw [h2] at h3; cases h3

example : ((do
    let t (s : Bytes) : M Bool := do setNumStr 0 (← callerText (s ++ [0]))
    return [← t b!"0", ← t b!"-12.5e+3", ← t b!"1E5", ← t b!"01", ← t b!"1.", ← t b!"-", ← t b!"1e", ← t b!" 1", ← t b!""] : M _)
    (start fun _ => 0)).out = .ok [true, true, true, false, false, false, false, false, false] := by decide +kernel

example : ∃ st P G v x A p, Ready st P G v x A ∧ CStr st p b!"1.5" ∧ Lent st p ∧ x ≠ none := by
  obtain ⟨st, P, G, v, a, h, _⟩ := exists_example (t := .arr [.bool true, .null]) (by simp [Json.Valid, Json.ValidElems]) (fun _ => 0)
  exact ⟨_, P, G, v, _, 0, _, h.ready.addC (d := b!"1.5" ++ [0]), addC_cstr (by decide), addC_lent h.inv.ok, by simp⟩

/-! ### C17: the Len variants agree with the NUL-terminated ones -/

/-- C17. `zj_SetStrLen` and `zj_SetStrLenFast` with `(s, n)`, for any `n` bytes: the answer
is the one of `zj_SetStr` for these bytes as a C string (`C15_setStr`); bytes with a NUL are
refused; the stored text is those `n` bytes. The scratch string may have any contents. -/
theorem C17_setStrLen (h : Ready st P G v x A) (hs : Reads st p s) (hl : Lent st p) :
    ((IsSetBody s ∧ ∃ st' P', setStrLen v p s.length st = .ok (true, st') ∧ Becomes st st' P P' G v x A (.str s)) ∨
      (¬ IsSetBody s ∧ ∃ st', setStrLen v p s.length st = .ok (false, st') ∧ Same st st' P G v x A)) ∧
    ((IsSetBody s ∧ ∃ st', setStrLenFast v p s.length st = .ok (true, st') ∧
        Becomes st st' P (pinned P p) G v x A (.str s)) ∨
      (¬ IsSetBody s ∧ ∃ st', setStrLenFast v p s.length st = .ok (false, st') ∧ Same st st' P G v x A)) := by
  constructor
  · rcases setStrLen_run h.inv h.cok h.val h.node hs hl.notCache with ⟨h1, st', P', h2, h3⟩ | ⟨h1, st', h2, h3⟩
    · exact .inl ⟨h1, st', P', h2, h3.becomes h (fun _ h => h)⟩
    · exact .inr ⟨h1, st', h2, h3.same h (fun _ h => h)⟩
  · have h' := h.lend hl
    rcases setStrLenFast_run h'.inv h.cok h.val h.node hs inP_pinned with ⟨h1, st', h2, h3⟩ | ⟨h1, st', h2, h3⟩
    · have := h3.becomes h' (fun _ h => h)
      exact .inl ⟨h1, st', h2, this.shows, this.store, fun _ h => .inl h, this.mem⟩
    · exact .inr ⟨h1, st', h2, (h3.same h' (fun _ h => h)).unlend h (fun _ h => .inl h)⟩

theorem C17_setNumStrLen (h : Ready st P G v x A) (hs : Reads st p s) (hl : Lent st p) :
    ((IsNum s ∧ ∃ st' P', setNumStrLen v p s.length st = .ok (true, st') ∧ Becomes st st' P P' G v x A (.num s)) ∨
      (¬ IsNum s ∧ ∃ st', setNumStrLen v p s.length st = .ok (false, st') ∧ Same st st' P G v x A)) ∧
    ((IsNum s ∧ ∃ st', setNumStrLenFast v p s.length st = .ok (true, st') ∧
        Becomes st st' P (pinned P p) G v x A (.num s)) ∨
      (¬ IsNum s ∧ ∃ st', setNumStrLenFast v p s.length st = .ok (false, st') ∧ Same st st' P G v x A)) := by
  constructor
  · rcases setNumStrLen_run h.inv h.cok h.val h.node hs hl.notCache with ⟨h1, st', P', h2, h3⟩ | ⟨h1, st', h2, h3⟩
    · exact .inl ⟨h1, st', P', h2, h3.becomes h (fun _ h => h)⟩
    · exact .inr ⟨h1, st', h2, h3.same h (fun _ h => h)⟩
  · have h' := h.lend hl
    rcases setNumStrLenFast_run h'.inv h.cok h.val h.node hs inP_pinned with ⟨h1, st', h2, h3⟩ | ⟨h1, st', h2, h3⟩
    · have := h3.becomes h' (fun _ h => h)
      exact .inl ⟨h1, st', h2, this.shows, this.store, fun _ h => .inl h, this.mem⟩
    · exact .inr ⟨h1, st', h2, (h3.same h' (fun _ h => h)).unlend h (fun _ h => .inl h)⟩

/-- Bytes with a NUL are refused. -/
theorem C17_nul (h : Ready st P G v x A) (hs : Reads st p s) (hl : Lent st p) (h0 : (0 : Byte) ∈ s) :
    (∃ st', setStrLen v p s.length st = .ok (false, st') ∧ Same st st' P G v x A) ∧
    (∃ st', setStrLenFast v p s.length st = .ok (false, st') ∧ Same st st' P G v x A) ∧
    (∃ st', setNumStrLen v p s.length st = .ok (false, st') ∧ Same st st' P G v x A) ∧
    (∃ st', setNumStrLenFast v p s.length st = .ok (false, st') ∧ Same st st' P G v x A) := by
  have n1 : ¬ IsSetBody s := fun h => h.no_nul h0
  have n2 : ¬ IsNum s := fun h => by
    have := h.numeral 0 h0
    revert this; decide
  obtain ⟨h1, h2⟩ := C17_setStrLen h hs hl
  obtain ⟨h3, h4⟩ := C17_setNumStrLen h hs hl
  exact ⟨(h1.resolve_left fun h => n1 h.1).2, (h2.resolve_left fun h => n1 h.1).2, (h3.resolve_left fun h => n2 h.1).2,
    (h4.resolve_left fun h => n2 h.1).2⟩

/-- C17, as a comparison of two calls: `zj_SetStrLen(v, p, n)` and `zj_SetStr(v, q)` where
`q` is the C string of the same `n` bytes give the same answer and the same document. -/
theorem C17_agree (h : Ready st P G v x A) (hp : Reads st p s) (hl : Lent st p) (hq : CStr st q s) :
    (∃ r st1 st2, setStrLen v p s.length st = .ok (r, st1) ∧ setStr v q st = .ok (r, st2) ∧
      (∀ t, Shows st1 v t ↔ Shows st2 v t)) ∧
    (∃ r st1 st2, setNumStrLen v p s.length st = .ok (r, st1) ∧ setNumStr v q st = .ok (r, st2) ∧
      (∀ t, Shows st1 v t ↔ Shows st2 v t)) := by
  have same : ∀ {st1 st2 t0}, Shows st1 v t0 → Shows st2 v t0 → ∀ t, Shows st1 v t ↔ Shows st2 v t :=
    fun h1 h2 t => ⟨fun h => (h1.det h) ▸ h2, fun h => (h2.det h) ▸ h1⟩
  have same' : ∀ {st1}, Same st st1 P G v x A → ∀ t, Shows st1 v t ↔ Shows st v t := by
    intro st1 hS t
    refine ⟨fun h1 => ?_, fun h1 => (hS.shows h h1).1⟩
    obtain ⟨c, gn, rfl, _⟩ := hS.ready.node_of h1
    exact h.shows (hS.ready.unf h1)
  constructor
  · rcases (C17_setStrLen h hp hl).1 with ⟨h1, st1, P1, h2, h3⟩ | ⟨h1, st1, h2, h3⟩
    · rcases C15_setStr h hq with ⟨_, st2, h4, h5⟩ | ⟨h4, _⟩
      · exact ⟨true, st1, st2, h2, h4, same h3.shows h5.shows⟩
      · exact absurd h1 h4
    · rcases C15_setStr h hq with ⟨h4, _⟩ | ⟨_, h4⟩
      · exact absurd h4 h1
      · exact ⟨false, st1, st, h2, h4, same' h3⟩
  · rcases (C17_setNumStrLen h hp hl).1 with ⟨h1, st1, P1, h2, h3⟩ | ⟨h1, st1, h2, h3⟩
    · rcases C16_setNumStr h hq with ⟨_, st2, h4, h5⟩ | ⟨h4, _⟩
      · exact ⟨true, st1, st2, h2, h4, same h3.shows h5.shows⟩
      · exact absurd h1 h4
    · rcases C16_setNumStr h hq with ⟨h4, _⟩ | ⟨_, h4⟩
      · exact absurd h4 h1
      · exact ⟨false, st1, st, h2, h4, same' h3⟩

/-- A run with used scratch string: a long text first, then shorter ones, with and without
a NUL inside, and a text that is longer than the length passed. -/
example : ((do
    let p ← callerText b!"abcdefghij"
    let q ← callerText [0x31, 0x32, 0, 0x33]
    let a ← setStrLen 0 p 10
    let b ← setNumStrLen 0 q 2
    let c ← setNumStrLen 0 q 3
    let d ← setStrLen 0 q 4
    let e ← setStrLen 0 p 3
    let s := (← getStr 0).getD (.lit { bytes := [] })
    return [[a, b, c, d, e].map fun b => if b then 1 else 0, ← readN s 4] : M (List Bytes)) (start fun _ => 0)).out =
    .ok [[1, 1, 0, 0, 1], b!"abc" ++ [0]] := by decide +kernel

/-! ### C18: a rejected setter changes nothing -/

/-- C18. -/
theorem C18_rejected (h : Ready st P G v x A) :
    (CStr st p s → (setStr v p st = .ok (false, st') → st' = st) ∧ (setNumStr v p st = .ok (false, st') → st' = st)) ∧
    (CStr st p s → Lent st p →
      (setStrFast v p st = .ok (false, st') → st' = st) ∧ (setNumStrFast v p st = .ok (false, st') → st' = st)) ∧
    (Reads st p s → Lent st p →
      (setStrLen v p s.length st = .ok (false, st') → Same st st' P G v x A) ∧
      (setStrLenFast v p s.length st = .ok (false, st') → Same st st' P G v x A) ∧
      (setNumStrLen v p s.length st = .ok (false, st') → Same st st' P G v x A) ∧
      (setNumStrLenFast v p s.length st = .ok (false, st') → Same st st' P G v x A)) := by
  refine ⟨fun hs => ⟨fun hr => ?_, fun hr => ?_⟩, fun hs hl => ⟨fun hr => ?_, fun hr => ?_⟩,
    fun hs hl => ⟨fun hr => ?_, fun hr => ?_, fun hr => ?_, fun hr => ?_⟩⟩
  · rcases C15_setStr h hs with ⟨_, _, h2, _⟩ | ⟨_, h2⟩ <;> rw [h2] at hr <;> cases hr; rfl
  · rcases C16_setNumStr h hs with ⟨_, _, h2, _⟩ | ⟨_, h2⟩ <;> rw [h2] at hr <;> cases hr; rfl
  · rcases C15_setStrFast h hs hl with ⟨_, _, h2, _⟩ | ⟨_, h2⟩ <;> rw [h2] at hr <;> cases hr; rfl
  · rcases C16_setNumStrFast h hs hl with ⟨_, _, h2, _⟩ | ⟨_, h2⟩ <;> rw [h2] at hr <;> cases hr; rfl
  · rcases (C17_setStrLen h hs hl).1 with ⟨_, _, _, h2, _⟩ | ⟨_, _, h2, h3⟩ <;> rw [h2] at hr <;> cases hr; exact h3
  · rcases (C17_setStrLen h hs hl).2 with ⟨_, _, h2, _⟩ | ⟨_, _, h2, h3⟩ <;> rw [h2] at hr <;> cases hr; exact h3
  · rcases (C17_setNumStrLen h hs hl).1 with ⟨_, _, _, h2, _⟩ | ⟨_, _, h2, h3⟩ <;> rw [h2] at hr <;> cases hr; exact h3
  · rcases (C17_setNumStrLen h hs hl).2 with ⟨_, _, h2, _⟩ | ⟨_, _, h2, h3⟩ <;> rw [h2] at hr <;> cases hr; exact h3

/-- C18 in terms of documents: the handles show what they showed. -/
theorem C18_documents (h : Same st st' P G v x A) (hw : Ready st P G w y B) {T} : Shows st' w T ↔ Shows st w T := by
  refine ⟨fun h1 => ?_, fun h1 => (h.shows hw h1).1⟩
  have hw' : Ready st' P G w y B := ⟨h.ready.inv, h.ready.cok, by
    rw [h.mem.vals w (hw.inv.ok.val_lt hw.val) id]; exact hw.val, hw.node⟩
  obtain ⟨c, gn, rfl, _⟩ := hw'.node_of h1
  exact hw.shows (hw'.unf h1)

example : ∃ st P G v x A p, Ready st P G v x A ∧ Reads st p [0x31, 0] ∧ Lent st p ∧ x ≠ none := by
  obtain ⟨st, P, G, v, a, h, _⟩ := exists_example (t := .arr [.bool true, .null]) (by simp [Json.Valid, Json.ValidElems]) (fun _ => 0)
  exact ⟨_, P, G, v, _, 0, _, h.ready.addC (d := [0x31, 0]), addC_reads, addC_lent h.inv.ok, by simp⟩

/-! ### C19: scalar set/get agreement -/

/-- C19, the setters without text: `zj_SetNull`, `zj_SetBool`, `zj_SetArray`, `zj_SetObj`. -/
theorem C19_set (h : Ready st P G v x A) :
    (∃ st', setNull v st = .ok ((), st') ∧ Becomes st st' P P G v x A .null) ∧
    (∀ b, ∃ st', setBool v b st = .ok ((), st') ∧ Becomes st st' P P G v x A (.bool b)) ∧
    (∃ st', setArray v st = .ok ((), st') ∧ Becomes st st' P P G v x A (.arr [])) ∧
    (∃ st', setObj v st = .ok ((), st') ∧ Becomes st st' P P G v x A (.obj [])) := by
  refine ⟨?_, fun b => ?_, ?_, ?_⟩
  · obtain ⟨st', e, h'⟩ := setNull_run h.inv h.val h.node
    exact ⟨st', e, (h'.setTo h.inv.ok).becomes h (fun _ h => h.elim)⟩
  · obtain ⟨st', e, h'⟩ := setBool_run h.inv h.val h.node b
    exact ⟨st', e, (h'.setTo h.inv.ok).becomes h (fun _ h => h.elim)⟩
  · obtain ⟨st', e, h'⟩ := setArray_run h.inv h.val h.node
    exact ⟨st', e, (h'.setTo h.inv.ok).becomes h (fun _ h => h.elim)⟩
  · obtain ⟨st', e, h'⟩ := setObj_run h.inv h.val h.node
    exact ⟨st', e, (h'.setTo h.inv.ok).becomes h (fun _ h => h.elim)⟩

/-- C19: what the getters and `zj_Stringify` return after any of the setters above and
those of C15-C17, on the value that was set. -/
theorem C19_get (h : Becomes st st' P P' G v x A t) :
    getType v st' = .ok (some t.type, st') ∧ isNull v st' = .ok (t.isNull, st') ∧ getBool v st' = .ok (t.asBool, st') ∧
    sizeOf v st' = .ok (t.items.length, st') ∧
    (∀ s, t = .str s →
      (∃ p st2, getStr v st' = .ok (some p, st2) ∧ HoldsText st2 p s) ∧
      (∃ p, getStrFast v st' = .ok (some (p, s.length), st') ∧ Points st' p s)) ∧
    (∀ s, t = .num s →
      (∃ p st2, getNumStr v st' = .ok (some p, st2) ∧ HoldsText st2 p s) ∧
      (∃ p, getNumFast v st' = .ok (some (p, s.length), st') ∧ Points st' p s)) ∧
    (∃ c p st2, (∀ fuel, c ≤ fuel → stringify fuel v st' = .ok (p, st2)) ∧ HoldsText st2 p t.print) := by
  obtain ⟨gn, hr, _, _⟩ := h.store
  obtain ⟨h1, h2, h3, h4⟩ := C20_inspect hr h.shows
  refine ⟨h1, h2, h3, h4, ?_, ?_, ?_⟩
  · rintro s rfl
    obtain ⟨⟨p, st2, e1, e2, _⟩, e3⟩ := C20_getStr hr h.shows
    exact ⟨⟨p, st2, e1, e2⟩, e3⟩
  · rintro s rfl
    obtain ⟨⟨p, st2, e1, e2, _⟩, e3⟩ := C20_getNumStr hr h.shows
    exact ⟨⟨p, st2, e1, e2⟩, e3⟩
  · obtain ⟨c, p, st2, e1, e2, _⟩ := C09_stringify hr h.shows
    exact ⟨c, p, st2, e1, e2⟩

/-- The key of the value is kept: `zj_GetKey` gives what it gave. -/
theorem C19_key (h : Becomes st st' P P' G v x A t) (hr : Ready st P G v x A) :
    (getKey v st = .ok (none, st) ∧ getKey v st' = .ok (none, st')) ∨
    ∃ k p st1 q st2, getKey v st = .ok (some p, st1) ∧ HoldsText st1 p k ∧ getKey v st' = .ok (some q, st2) ∧ HoldsText st2 q k := by
  obtain ⟨gn, hr', hk, _⟩ := h.store
  have hg : (G.set (rootOf st x) gn) (rootOf st x) = some gn := by simp
  cases x with
  | none =>
    have : gn.key = none := by rw [hk]; rfl
    exact .inl ⟨(get_empty (fp := (⟨fun _ => [], fun _ => 0⟩ : FP Nat)) hr.val).2.2.2.2.2.2.2.2.2.2.2.1,
      (getKey_none hr'.inv hr'.val hg this).1⟩
  | some a =>
    obtain ⟨ga, ha⟩ := Option.isSome_iff_exists.1 (hr.node a rfl)
    have hk' : gn.key = ga.key := by rw [hk]; simp [baseNode, ha]
    cases hka : ga.key with
    | none => exact .inl ⟨(getKey_none hr.inv hr.val ha hka).1, (getKey_none hr'.inv hr'.val hg (hk'.trans hka)).1⟩
    | some k =>
      exact .inr ⟨k, _, _, _, _, (getKey_run hr.inv hr.val ha hka).1, holds_addB,
        (getKey_run hr'.inv hr'.val hg (hk'.trans hka)).1, holds_addB⟩

/-- The place of the value is kept: a handle `w` above `v` shows the same document with
the new value at the place of `v` (and everything else in it as before), a handle on a
document without `v` shows the same document. -/
theorem C19_place (h : Becomes st st' P P' G v x A t) (hr : Ready st P G v (some c) A) (hx : x = some c)
    (hw : Ready st P G w (some a) B) (hne : w ≠ v) {T} (hs : Shows st w T) :
    (¬ Reach G a c → Shows st' w T) ∧
    (∀ pth, PathTo G a pth c → Shows st' w (T.replace pth t) ∧ ∃ u, T.at pth = some u ∧ Shows st v u) := by
  subst hx
  refine ⟨(h.elsewhere hr hw hne hs).1, fun pth hp => ⟨(h.elsewhere hr hw hne hs).2 pth hp, ?_⟩⟩
  obtain ⟨u, h1, h2⟩ := hp.at (hw.unf hs)
  exact ⟨u, h2, hr.shows h1⟩

/-- C19 for a program: take an element of an array and set it. -/
theorem C19_element (h : Ready st P G v x A) {ts : List Json} (hs : Shows st v (.arr ts)) {fuel : Nat}
    (hf : ts.length < fuel) {i : Nat} (hi : i < ts.length) (b : Bool) :
    ∃ st', (do
        let w ← deref (← arrayGet fuel v i)
        setBool w b : M Unit) st = .ok ((), st') ∧ Shows st' v (.arr (ts.set i (.bool b))) := by
  rcases C26_arrayGet h hs hf i with ⟨h1, _⟩ | ⟨u, w, k, st1, h1, h2, h3, h4, h5, h6, a, gn, rfl, h7, h8⟩
  · rw [List.getElem?_eq_getElem hi] at h1; cases h1
  · obtain ⟨st2, e, hb⟩ := (C19_set h5).2.1 b
    refine ⟨st2, ?_, ?_⟩
    · mstep h2
      simp only [deref_some]
      mstep M.pure_run _ _
      exact e
    · have hp : PathTo G a [i] k := .cons h7 h8 .nil
      have hs' : Shows st1 v (.arr ts) := h6.shows (h.unf hs)
      have hne : v ≠ w := by
        rintro rfl
        have := h5.val.symm.trans h6.val
        simp at this; subst this
        obtain ⟨ta, hta⟩ := h.inv.fin _ _ h7
        exact hta.kid_ne h7 (List.mem_of_getElem? h8) .refl rfl
      have := (hb.elsewhere h5 h6 hne hs').2 [i] hp
      have e2 : Json.replace (.arr ts) [i] (.bool b) = .arr (ts.set i (.bool b)) := by
        simp only [Json.replace, Json.edit, Json.arr.injEq]
        apply List.ext_getElem?
        intro j
        simp only [List.getElem?_modify, List.getElem?_set]
        by_cases hij : i = j
        · subst hij; simp [hi, Json.edit, List.getElem?_eq_getElem hi]
        · simp [hij]
      rwa [e2] at this

example : ((do
    let p ← callerText (b!"[1,{\"k\":2},3]" ++ [0])
    let _ ← parse 0 p
    let w ← deref (← arrayGet 9 0 1)
    let u ← deref (← begin_ w)
    setBool u true
    let q ← stringify 99 0
    readN q 17 : M _) (start fun _ => 0)).out = .ok (b!"[1,{\"k\":true},3]" ++ [0]) := by decide +kernel

/-- A proper state for `C19_place`: two handles, one above the other. -/
example : ∃ st P G v c w a, Ready st P G v (some c) 0 ∧ Ready st P G w (some a) 0 ∧ w ≠ v ∧ PathTo G a [1] c ∧
    Shows st w (.arr [.bool true, .null]) := by
  obtain ⟨st, P, G, v, a, h, _⟩ := exists_example (t := .arr [.bool true, .null]) (by simp [Json.Valid, Json.ValidElems]) (fun _ => 0)
  have hs := h.ready.shows h.doc
  rcases C26_arrayGet h.ready hs (fuel := 9) (by decide) 1 with ⟨h1, _⟩ | ⟨u, w, k, st1, h1, h2, h3, h4, h5, h6, a', gn, e, h7, h8⟩
  · cases h1
  · cases e
    refine ⟨st1, P, G, w, k, v, a, h5, h6, ?_, .cons h7 h8 .nil, h6.shows (h.ready.unf hs)⟩
    rintro rfl
    have := h5.val.symm.trans h6.val
    simp at this; subst this
    obtain ⟨ta, hta⟩ := h.inv.fin _ _ h7
    exact hta.kid_ne h7 (List.mem_of_getElem? h8) .refl rfl

/-! ### C43: keys -/

/-- The effect of a successful `zj_SetKey`: only the key of the node of `v` is different
(an empty handle is a null value now). -/
structure Keyed (st st' : St) (P P' : Addr → Prop) (G : Graph) (v : Addr) (x : Option Addr) (A : Nat) (k : Bytes) : Prop where
  ready : Ready st' P' (G.set (rootOf st x) { baseNode G x with key := some k }) v (some (rootOf st x)) A
  pin : ∀ b, P b → P' b
  mem : Frame (· = rootOf st x) (· = v) (CacheB st) st st'

theorem KeyTo.keyed {B} (h : KeyTo B st st' P P' G v x A k) (hr : Ready st P G v x A) (hB : ∀ b, B b → CacheB st b) :
    Keyed st st' P P' G v x A k :=
  ⟨⟨h.inv, h.cok hr.cok, h.vals, fun a ha => by cases ha; simp⟩, h.pin, h.frame.weaken (fun _ h => h) (fun _ h => h) hB⟩

/-- C43. The key setters on a value that is not in an array: true exactly for the bodies of
`IsSetBody` (see C15); then the key is set. -/
theorem C43_setKey (h : Ready st P G v x A) (hs : CStr st p k) (hl : Lent st p) (ha : AcceptsKey G x) :
    ((IsSetBody k ∧ (∃ st', setKeyC v p st = .ok (true, st') ∧ Keyed st st' P (fun b => P b ∨ b = st.nb) G v x A k) ∧
        ∃ st', setKeyFast v p st = .ok (true, st') ∧ Keyed st st' P (pinned P p) G v x A k) ∨
      (¬ IsSetBody k ∧ setKeyC v p st = .ok (false, st) ∧ setKeyFast v p st = .ok (false, st))) := by
  have h' := h.lend hl
  obtain ⟨h1, h2⟩ := setKeyC_run h.inv h.val h.node hs
  obtain ⟨h3, h4⟩ := setKeyFast_run h'.inv h.val h.node hs inP_pinned
  by_cases hk : IsSetBody k
  · obtain ⟨st1, e1, k1⟩ := h1 hk ha
    obtain ⟨st2, e2, k2⟩ := h3 hk ha
    have := k2.keyed h' (fun _ h => h.elim)
    exact .inl ⟨hk, ⟨st1, e1, k1.keyed h (fun _ h => h.elim)⟩, st2, e2, this.ready, fun _ h => .inl h, this.mem⟩
  · exact .inr ⟨hk, h2 (.inl hk), h4 (.inl hk)⟩

/-- The same for the variants with a length. -/
theorem C43_setKeyLen (h : Ready st P G v x A) (hs : Reads st p k) (hl : Lent st p) (ha : AcceptsKey G x) :
    ((IsSetBody k ∧ (∃ st' P', setKeyLenC v p k.length st = .ok (true, st') ∧ Keyed st st' P P' G v x A k) ∧
        ∃ st', setKeyLenFast v p k.length st = .ok (true, st') ∧ Keyed st st' P (pinned P p) G v x A k) ∨
      (¬ IsSetBody k ∧ (∃ st', setKeyLenC v p k.length st = .ok (false, st') ∧ Same st st' P G v x A) ∧
        ∃ st', setKeyLenFast v p k.length st = .ok (false, st') ∧ Same st st' P G v x A)) := by
  have h' := h.lend hl
  obtain ⟨h1, h2⟩ := setKeyLenC_run h.inv h.cok h.val h.node hs hl.notCache
  obtain ⟨h3, h4⟩ := setKeyLenFast_run h'.inv h.cok h.val h.node hs inP_pinned
  by_cases hk : IsSetBody k
  · obtain ⟨st1, P1, e1, k1⟩ := h1 hk ha
    obtain ⟨st2, e2, k2⟩ := h3 hk ha
    have := k2.keyed h' (fun _ h => h)
    exact .inl ⟨hk, ⟨st1, P1, e1, k1.keyed h (fun _ h => h)⟩, st2, e2, this.ready, fun _ h => .inl h, this.mem⟩
  · obtain ⟨st1, e1, k1⟩ := h2 (.inl hk)
    obtain ⟨st2, e2, k2⟩ := h4 (.inl hk)
    exact .inr ⟨hk, ⟨st1, e1, k1.same h (fun _ h => h)⟩, st2, e2, (k2.same h' (fun _ h => h)).unlend h (fun _ h => .inl h)⟩

/-- C43, elements of arrays: all key setters refuse and change nothing. -/
theorem C43_refused (h : Ready st P G v x A) (hs : CStr st p k) (hl : Lent st p) (ha : InArray G x) :
    setKeyC v p st = .ok (false, st) ∧ setKeyFast v p st = .ok (false, st) ∧
    (∃ st', setKeyLenC v p k.length st = .ok (false, st') ∧ Same st st' P G v x A) ∧
    (∃ st', setKeyLenFast v p k.length st = .ok (false, st') ∧ Same st st' P G v x A) ∧
    (∃ st', setKeyEscape v p st = .ok (false, st') ∧ Same st st' P G v x A) ∧
    (∃ st', setKeyLenEscape v p k.length st = .ok (false, st') ∧ Same st st' P G v x A) := by
  have h' := h.lend hl
  have hr : Reads st p k := hs.reads h.inv.ok
  obtain ⟨s1, e1, k1⟩ := (setKeyLenC_run h.inv h.cok h.val h.node hr hl.notCache).2 (.inr ha)
  obtain ⟨s2, e2, k2⟩ := (setKeyLenFast_run h'.inv h.cok h.val h.node hr inP_pinned).2 (.inr ha)
  obtain ⟨s3, e3, k3⟩ := (setKeyEscape_run h.inv h.val h.node hs).2 ha
  obtain ⟨s4, e4, k4⟩ := (setKeyLenEscape_run h.inv h.val h.node hr).2 ha
  exact ⟨(setKeyC_run h.inv h.val h.node hs).2 (.inr ha), (setKeyFast_run h'.inv h.val h.node hs inP_pinned).2 (.inr ha),
    ⟨s1, e1, k1.same h (fun _ h => h)⟩, ⟨s2, e2, (k2.same h' (fun _ h => h)).unlend h (fun _ h => .inl h)⟩,
    ⟨s3, e3, k3.same h (fun _ h => h.elim)⟩, ⟨s4, e4, k4.same h (fun _ h => h.elim)⟩⟩

/-- An element of an array is `InArray`; a member of an object and a root are not. -/
theorem C43_where (h : Ready st P G v (some a) A) {i c : Nat} {gn} (ha : G a = some gn) (hk : gn.val.kids[i]? = some c) :
    (∀ ts, Shows st v (.arr ts) → InArray G (some c)) ∧ (∀ ms, Shows st v (.obj ms) → AcceptsKey G (some c)) := by
  obtain ⟨gc, hc, hp⟩ := h.inv.kid ha (List.mem_of_getElem? hk)
  constructor
  · intro ts hs
    obtain ⟨ha', hv⟩ := h.unf hs
    rw [ha] at ha'; cases ha'
    obtain ⟨ks, e, _⟩ := hv.arr_inv
    exact ⟨c, gc, a, gn, rfl, hc, hp, ha, by rw [e]; simp [GVal.type, conType]⟩
  · intro ms hs b gb f hb hgb hpb
    cases hb
    rw [hc] at hgb; cases hgb
    rw [hp] at hpb; cases hpb
    obtain ⟨ha', hv⟩ := h.unf hs
    rw [ha] at ha'; cases ha'
    obtain ⟨ks, e, _⟩ := hv.obj_inv
    exact ⟨gn, ks, ha, e⟩

/-- After a key setter, `zj_GetKey` and `zj_GetKeyFast` return the raw key; the value
itself is what it was (null for an empty handle). -/
theorem C43_get (h : Keyed st st' P P' G v x A k) (hr : Ready st P G v x A) :
    (∃ p st2, getKey v st' = .ok (some p, st2) ∧ HoldsText st2 p k) ∧
    (∃ p, getKeyFast v st' = .ok (some (p, k.length), st') ∧ Points st' p k) ∧
    (∀ t, Shows st v t → Shows st' v t) ∧ (x = none → Shows st' v .null) := by
  have hg : (G.set (rootOf st x) { baseNode G x with key := some k }) (rootOf st x) = some { baseNode G x with key := some k } := by
    simp
  obtain ⟨e1, p, e2, e3⟩ := getKey_run h.ready.inv h.ready.val hg rfl
  refine ⟨⟨_, _, e1, holds_addB⟩, ⟨p, e2, e3.points⟩, fun t ht => ?_, ?_⟩
  · obtain ⟨a, ga, rfl, ha, hv⟩ := hr.node_of ht
    refine h.ready.shows ?_
    simp only [rootOf, Option.getD_some]
    refine Unf.set_top (.mk ha hv) ha ?_
    simp [baseNode, ha]
  · rintro rfl
    exact h.ready.shows (.mk hg (.scalar rfl))

theorem UnfI.each {G G' : Graph} : ∀ {o ks xs}, UnfI G o ks xs → (∀ m ∈ ks, ∀ u, Unf G m u → Unf G' m u) →
    (∀ m ∈ ks, G' m = G m) → UnfI G' o ks xs
  | _, _, _, .nil, _, _ => .nil
  | _, _, _, .cons h4 h5 h6 h7, h1, h2 =>
    .cons (by rw [h2 _ (by simp)]; exact h4) h5 (h1 _ (by simp) _ h6)
      (h7.each (fun m hm => h1 m (by simp [hm])) (fun m hm => h2 m (by simp [hm])))

theorem UnfI.rekey {G G' : Graph} {c : Addr} {gc : GNode} : ∀ {ks ms} {i : Nat}, UnfI G true ks ms → ks.Nodup → ks[i]? = some c →
    (∀ m ∈ ks, ∀ u, Unf G m u → Unf G' m u) → (∀ m ∈ ks, m ≠ c → G' m = G m) → G' c = some gc → gc.key = some k →
    UnfI G' true ks (ms.modify i fun m => (k, m.2))
  | [], _, _, _, _, hk, _, _, _, _ => by simp at hk
  | m :: ks, _, 0, .cons h4 h5 h6 h7, hn, hk, h1, h2, h3, hkey => by
    have hn := List.nodup_cons.1 hn
    simp at hk; subst hk
    simp only [List.modify_zero_cons]
    exact .cons h3 (by simp [KeyIs, hkey]) (h1 _ (by simp) _ h6)
      (h7.each (fun m hm => h1 m (by simp [hm])) (fun d hd => h2 d (by simp [hd]) (fun e => hn.1 (e ▸ hd))))
  | m :: ks, _, i + 1, .cons h4 h5 h6 h7, hn, hk, h1, h2, h3, hkey => by
    have hn := List.nodup_cons.1 hn
    have hk' : ks[i]? = some c := by simpa using hk
    simp only [List.modify_succ_cons]
    have hmc : m ≠ c := fun e => hn.1 (e ▸ List.mem_of_getElem? hk')
    exact .cons (by rw [h2 m (by simp) hmc]; exact h4) h5 (h1 _ (by simp) _ h6)
      (UnfI.rekey h7 hn.2 hk' (fun m hm => h1 m (by simp [hm])) (fun m hm => h2 m (by simp [hm])) h3 hkey)

/-- The member of an object has the new key in the object; the rest of the object, and
everything above it, is as it was: a handle `u` with the object at the path `pth` shows the
same document with the changed object there. -/
theorem C43_member (h : Keyed st st' P P' G v (some c) A k) (hr : Ready st P G v (some c) A)
    {i : Nat} {gn} (ha : G a = some gn) (hk : gn.val.kids[i]? = some c)
    {d : Addr} (hw : Ready st P G w (some d) B) (hne : w ≠ v) {pth} (hp : PathTo G d pth a) {T} (hs : Shows st w T)
    {ms : List (Bytes × Json)} (hT : T.at pth = some (.obj ms)) :
    Shows st' w (T.replace pth (.obj (ms.modify i fun m => (k, m.2)))) := by
  obtain ⟨gc, hc⟩ := Option.isSome_iff_exists.1 (hr.node c rfl)
  have hb : baseNode G (some c) = gc := by simp [baseNode, hc]
  have hrd := h.ready
  simp only [hb, rootOf, Option.getD_some] at hrd
  have hw' : Ready st' P' (G.set c { gc with key := some k }) w (some d) B := by
    refine ⟨hrd.inv, hrd.cok, ?_, fun b hb => ?_⟩
    · rw [h.mem.vals w (hw.inv.ok.val_lt hw.val) hne]; exact hw.val
    · cases hb
      rw [Graph.set_apply]; split
      · rfl
      · exact hw.node _ rfl
  have hca : a ≠ c := by
    rintro rfl
    obtain ⟨ta, hta⟩ := hw.inv.fin _ _ ha
    exact hta.kid_ne ha (List.mem_of_getElem? hk) .refl rfl
  obtain ⟨u, hu, hu'⟩ := hp.at (hw.unf hs)
  rw [hT] at hu'; cases hu'
  have par : ∀ {d gd}, G d = some gd → c ∈ gd.val.kids → d = a := by
    intro d gd hd hcd
    obtain ⟨g1, q1, q2⟩ := hw.inv.kid hd hcd
    obtain ⟨g2, q3, q4⟩ := hw.inv.kid ha (List.mem_of_getElem? hk)
    rw [q1] at q3; cases q3
    rw [q2] at q4; cases q4; rfl
  have hval : ∀ d gd, G d = some gd → ∃ gd', (G.set c { gc with key := some k }) d = some gd' ∧ gd'.val = gd.val := by
    intro d gd hd
    rw [Graph.set_apply]; split
    · subst_vars; rw [hc] at hd; cases hd; exact ⟨_, rfl, rfl⟩
    · exact ⟨gd, hd, rfl⟩
  have hkey : ∀ d gd m gm, d ≠ a → G d = some gd → m ∈ gd.val.kids → G m = some gm →
      ∃ gm', (G.set c { gc with key := some k }) m = some gm' ∧ gm'.key = gm.key := by
    intro d gd m gm hda hd hm hgm
    refine ⟨gm, ?_, rfl⟩
    rw [Graph.set_ne _ _ ?_]; · exact hgm
    rintro rfl
    exact hda (par hd hm)
  have he : EditAt G (G.set c { gc with key := some k }) a (.obj (ms.modify i fun m => (k, m.2))) := by
    refine ⟨fun d gd _ hd => hval d gd hd, hkey, ?_⟩
    obtain ⟨ha', hv⟩ := hu
    rw [ha] at ha'; cases ha'
    obtain ⟨ks, e, hi⟩ := hv.obj_inv
    refine .mk (gn := gn) (by rw [Graph.set_ne _ _ hca]; exact ha) ?_
    have hnd := hw.inv.kids_nodup ha
    rw [e] at hk hnd ⊢
    have sub : ∀ m ∈ ks, ∀ u, Unf G m u → Unf (G.set c { gc with key := some k }) m u := by
      intro m hm u hu
      refine hu.same ⟨fun d gd hr hd => hval d gd hd, fun d gd k' gk' hr hd hk' hg' => hkey d gd k' gk' ?_ hd hk' hg'⟩
      rintro rfl
      obtain ⟨ta, hta⟩ := hw.inv.fin _ _ ha
      exact hta.kid_ne ha (by rw [e]; exact hm) hr rfl
    exact .con (UnfI.rekey hi hnd hk sub (fun m hm hmc => Graph.set_ne _ _ hmc) (Graph.set_same _ _ _) rfl)
  exact (he.shows hw hw' hs).2 pth hp

/-- C43: an element of an array has no key; the member of an object at position `i` has the
key of the object there. -/
theorem C43_kids (h : Ready st P G v (some a) A) {gn} (ha : G a = some gn) {i c : Nat} (hk : gn.val.kids[i]? = some c)
    (hw : Ready st P G w (some c) B) :
    (∀ ts, Shows st v (.arr ts) → getKey w st = .ok (none, st) ∧ getKeyFast w st = .ok (none, st)) ∧
    (∀ ms, Shows st v (.obj ms) → ∃ key u, ms[i]? = some (key, u) ∧
      (∃ p st', getKey w st = .ok (some p, st') ∧ HoldsText st' p key) ∧
      ∃ p, getKeyFast w st = .ok (some (p, key.length), st) ∧ Points st p key) := by
  constructor
  · intro ts hs
    obtain ⟨ha', hv⟩ := h.unf hs
    rw [ha] at ha'; cases ha'
    obtain ⟨ks, e, hi⟩ := hv.arr_inv
    rw [e] at hk
    rcases hi.at i with ⟨e1, _⟩ | ⟨k', gk, key, u, e1, _, e3, e4, _⟩
    · simp only [GVal.kids] at hk; rw [hk] at e1; cases e1
    · simp only [GVal.kids] at hk; rw [hk] at e1; cases e1
      simp only [KeyIs, Bool.false_eq_true, if_false] at e4
      obtain ⟨g1, g2, _⟩ := getKey_none hw.inv hw.val e3 e4.1
      exact ⟨g1, g2⟩
  · intro ms hs
    obtain ⟨ha', hv⟩ := h.unf hs
    rw [ha] at ha'; cases ha'
    obtain ⟨ks, e, hi⟩ := hv.obj_inv
    rw [e] at hk
    rcases hi.at i with ⟨e1, _⟩ | ⟨k', gk, key, u, e1, e2, e3, e4, _⟩
    · simp only [GVal.kids] at hk; rw [hk] at e1; cases e1
    · simp only [GVal.kids] at hk; rw [hk] at e1; cases e1
      simp only [KeyIs, if_true] at e4
      obtain ⟨g1, p, g2, g3⟩ := getKey_run hw.inv hw.val e3 e4
      exact ⟨key, u, e2, ⟨_, _, g1, holds_addB⟩, p, g2, g3.points⟩

example : ((do
    let p ← callerText (b!"{\"k\":[1]}" ++ [0])
    let _ ← parse 0 p
    let m ← deref (← begin_ 0)
    let e ← deref (← begin_ m)
    let q ← callerText (b!"new" ++ [0])
    let a ← setKeyC m q
    let b ← setKeyC e q
    let c ← setKeyC 0 q
    let r ← stringify 99 0
    return [[a, b, c].map fun b => if b then 1 else 0, ← readN r 12] : M (List Bytes)) (start fun _ => 0)).out =
    .ok [[1, 0, 1], b!"{\"new\":[1]}" ++ [0]] := by decide +kernel

/-- A proper state for C43: a member of an object. -/
example : ∃ st P G v c w a gn p, Ready st P G v (some c) 0 ∧ Ready st P G w (some a) 0 ∧ w ≠ v ∧ PathTo G a [] a ∧
    G a = some gn ∧ gn.val.kids[0]? = some c ∧ AcceptsKey G (some c) ∧ CStr st p b!"new" ∧ Lent st p ∧
    Shows st w (.obj [(b!"k", .null)]) := by
  obtain ⟨st, P, G, v, a, h, _⟩ := exists_example (t := .obj [(b!"k", .null)])
    (by simp [Json.Valid, Json.ValidMembers]; exact .plain (by decide) (by decide) (by decide) .nil) (fun _ => 0)
  have hs := h.ready.shows h.doc
  obtain ⟨ha, hv⟩ := h.doc
  rename_i gn
  obtain ⟨ks, e, hi⟩ := hv.obj_inv
  rcases hi.at 0 with ⟨e1, e2⟩ | ⟨k, gk, key, u, e1, e2, e3, e4, e5⟩
  · cases e2
  · have hk : gn.val.kids[0]? = some k := by rw [e]; exact e1
    obtain ⟨r1, r2, r3⟩ := h.ready.addV e3
    refine ⟨_, P, G, _, k, v, a, gn, _, r1.addC (d := b!"new" ++ [0]), r2.addC, ?_, .nil, ha, hk,
      (C43_where r2 ha hk).2 _ (r2.shows (h.ready.unf hs)), addC_cstr (by decide), addC_lent r2.inv.ok,
      r2.addC.shows (h.ready.unf hs)⟩
    exact Nat.ne_of_lt (h.inv.ok.val_lt h.handle)

/-! ### C10: the setters that copy their argument own the text -/

/-- A caller's block `c` that nothing refers to. -/
theorem SetTo.clobber {gv B} (h : SetTo B st st' P P' G v x A gv t) (hc : ¬ P c) (hlt : c < st.nb)
    {o : Option Buf} (ho : ∀ bf, o = some bf → bf.data.length ≤ bf.size) :
    Shows (st'.clobber c o) v t := by
  have hn : ¬ P' c := fun h' => by
    rcases h.new c h' with h1 | h1
    · exact hc h1
    · omega
  exact (h.inv.clobber hn ho (by have := h.frame.nb; omega)).shows h.vals h.doc

theorem KeyTo.clobber {B} (h : KeyTo B st st' P P' G v x A k) (hc : ¬ P c) (hlt : c < st.nb)
    {o : Option Buf} (ho : ∀ bf, o = some bf → bf.data.length ≤ bf.size) :
    ∃ p st2, getKey v (st'.clobber c o) = .ok (some p, st2) ∧ HoldsText st2 p k := by
  have hn : ¬ P' c := fun h' => by
    rcases h.new c h' with h1 | h1
    · exact hc h1
    · omega
  have hI := h.inv.clobber hn ho (by have := h.frame.nb; omega)
  obtain ⟨e1, _⟩ := getKey_run (v := v) (A := A) hI h.vals (Graph.set_same _ _ _) rfl
  exact ⟨_, _, e1, holds_addB⟩

/-- C10. After `zj_SetStr`, `zj_SetNumStr`, `zj_SetStrLen`, `zj_SetNumStrLen` and the
escaping variants the caller may overwrite or free the block passed (`o` is anything or
nothing): the value is the same. -/
theorem C10_set_owns (h : Ready st P G v x A) {c off : Nat} (hP : ¬ P c) (hlt : c < st.nb)
    (hl : Lent st (.buf c off)) {o : Option Buf} (ho : ∀ bf, o = some bf → bf.data.length ≤ bf.size) :
    (CStr st (.buf c off) s →
      (setStr v (.buf c off) st = .ok (true, st') → Shows (st'.clobber c o) v (.str s)) ∧
      (setNumStr v (.buf c off) st = .ok (true, st') → Shows (st'.clobber c o) v (.num s)) ∧
      (setStrEscape v (.buf c off) st = .ok (true, st') → Shows (st'.clobber c o) v (.str (escBytes s)))) ∧
    (Reads st (.buf c off) s →
      (setStrLen v (.buf c off) s.length st = .ok (true, st') → Shows (st'.clobber c o) v (.str s)) ∧
      (setNumStrLen v (.buf c off) s.length st = .ok (true, st') → Shows (st'.clobber c o) v (.num s)) ∧
      (setStrLenEscape v (.buf c off) s.length st = .ok (true, st') → Shows (st'.clobber c o) v (.str (escBytes s)))) := by
  refine ⟨fun hs => ⟨fun hr => ?_, fun hr => ?_, fun hr => ?_⟩, fun hs => ⟨fun hr => ?_, fun hr => ?_, fun hr => ?_⟩⟩
  · rcases setStr_run h.inv h.val h.node hs with ⟨_, _, e, k⟩ | ⟨_, e⟩ <;> rw [e] at hr <;> cases hr
    exact k.clobber hP hlt ho
  · rcases setNumStr_run h.inv h.val h.node hs with ⟨_, _, e, k⟩ | ⟨_, e⟩ <;> rw [e] at hr <;> cases hr
    exact k.clobber hP hlt ho
  · obtain ⟨_, e, k⟩ := setStrEscape_run h.inv h.val h.node hs
    rw [e] at hr; cases hr
    exact k.clobber hP hlt ho
  · rcases setStrLen_run h.inv h.cok h.val h.node hs hl.notCache with ⟨_, _, _, e, k⟩ | ⟨_, _, e, _⟩ <;> rw [e] at hr <;> cases hr
    exact k.clobber hP hlt ho
  · rcases setNumStrLen_run h.inv h.cok h.val h.node hs hl.notCache with ⟨_, _, _, e, k⟩ | ⟨_, _, e, _⟩ <;> rw [e] at hr <;> cases hr
    exact k.clobber hP hlt ho
  · obtain ⟨_, e, k⟩ := setStrLenEscape_run h.inv h.val h.node hs
    rw [e] at hr; cases hr
    exact k.clobber hP hlt ho

/-- C10 for keys. -/
theorem C10_setKey_owns (h : Ready st P G v x A) {c off : Nat} (hP : ¬ P c) (hlt : c < st.nb)
    (hl : Lent st (.buf c off)) (ha : AcceptsKey G x) {o : Option Buf} (ho : ∀ bf, o = some bf → bf.data.length ≤ bf.size) :
    (CStr st (.buf c off) k → setKeyC v (.buf c off) st = .ok (true, st') →
      ∃ p st2, getKey v (st'.clobber c o) = .ok (some p, st2) ∧ HoldsText st2 p k) ∧
    (Reads st (.buf c off) k → setKeyLenC v (.buf c off) k.length st = .ok (true, st') →
      ∃ p st2, getKey v (st'.clobber c o) = .ok (some p, st2) ∧ HoldsText st2 p k) := by
  refine ⟨fun hs hr => ?_, fun hs hr => ?_⟩
  · have hrun := setKeyC_run h.inv h.val h.node hs
    by_cases hb : IsSetBody k
    · obtain ⟨_, e, k⟩ := hrun.1 hb ha
      rw [e] at hr; cases hr
      exact k.clobber hP hlt ho
    · rw [hrun.2 (.inl hb)] at hr; cases hr
  · have hrun := setKeyLenC_run h.inv h.cok h.val h.node hs hl.notCache
    by_cases hb : IsSetBody k
    · obtain ⟨_, _, e, k⟩ := hrun.1 hb ha
      rw [e] at hr; cases hr
      exact k.clobber hP hlt ho
    · obtain ⟨_, e, _⟩ := hrun.2 (.inl hb)
      rw [e] at hr; cases hr

/-- C10: the Fast setters keep the pointer of the caller: when the caller overwrites its
block the string, the number and the key change. -/
theorem C10_setFast_borrows : ((do
    let p ← callerText (b!"12" ++ [0])
    let q ← callerText (b!"ab" ++ [0])
    let k ← callerText (b!"kk" ++ [0])
    setObj 0
    let u ← newValue 0
    let w ← newValue 0
    let _ ← setNumStrFast u p
    let _ ← setStrFast w q
    let _ ← setKeyFast u k
    let _ ← setKeyFast w k
    let _ ← objAddFast 0 u
    let _ ← objAddFast 0 w
    (fun st => .ok ((), ((st.clobber 0 (some ⟨none, 3, 0, b!"34" ++ [0]⟩)).clobber 1 (some ⟨none, 3, 0, b!"cd" ++ [0]⟩)).clobber 2
      (some ⟨none, 3, 0, b!"xy" ++ [0]⟩)) : M Unit)
    let r ← stringify 99 0
    readN r 20 : M _) (start fun _ => 0)).out = .ok (b!"{\"xy\":34,\"xy\":\"cd\"}" ++ [0]) := by decide +kernel

/-- A proper state for `C10_set_owns`. -/
example : ∃ st P G v x A c, Ready st P G v x A ∧ ¬ P c ∧ c < st.nb ∧ Lent st (.buf c 0) ∧ CStr st (.buf c 0) b!"ab" ∧
    ∃ st', setStr v (.buf c 0) st = .ok (true, st') := by
  have hr := (start_ready fun _ => 0).addC (d := b!"ab" ++ [0])
  refine ⟨_, _, _, 0, none, 0, 0, hr, id, by decide, addC_lent (start_ready fun _ => 0).inv.ok, addC_cstr (by decide), ?_⟩
  exact Res.out_ok (by decide +kernel)

end

end ZJ
