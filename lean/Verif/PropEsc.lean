import Verif.PropSet

/-
Property theorems about escaping and unescaping: C11-C14.
-/

set_option linter.unusedSimpArgs false

namespace ZJ

section
variable {st st' : St} {P P' : Addr → Prop} {G : Graph} {v w A B a : Addr} {x y : Option Addr} {p q : SPtr} {b s k d : Bytes}
  {t : Json}

/-! ### C12: escaping always succeeds -/

/-- C12. `zj_SetStrEscape` returns true for every C string, `zj_SetStrLenEscape` for every
byte string (NULs included). The text stored is a valid JSON string body that denotes the
argument. -/
theorem C12_setStrEscape (h : Ready st P G v x A) :
    (CStr st p s → ∃ st' e, setStrEscape v p st = .ok (true, st') ∧ IsStrBody e ∧ Denotes e s ∧
      Becomes st st' P (fun b => P b ∨ b = st.nb) G v x A (.str e)) ∧
    (Reads st p s → ∃ st' e, setStrLenEscape v p s.length st = .ok (true, st') ∧ IsStrBody e ∧ Denotes e s ∧
      Becomes st st' P (fun b => P b ∨ b = st.nb) G v x A (.str e)) := by
  constructor
  · intro hs
    obtain ⟨st', e, k⟩ := setStrEscape_run h.inv h.val h.node hs
    exact ⟨st', escBytes s, e, (escBytes_set s).body, escBytes_denotes s, k.becomes h (fun _ h => h.elim)⟩
  · intro hs
    obtain ⟨st', e, k⟩ := setStrLenEscape_run h.inv h.val h.node hs
    exact ⟨st', escBytes s, e, (escBytes_set s).body, escBytes_denotes s, k.becomes h (fun _ h => h.elim)⟩

/-- C12 for keys (of values that may have one, see C43). -/
theorem C12_setKeyEscape (h : Ready st P G v x A) (ha : AcceptsKey G x) :
    (CStr st p s → ∃ st' e, setKeyEscape v p st = .ok (true, st') ∧ IsStrBody e ∧ Denotes e s ∧
      Keyed st st' P (fun b => P b ∨ b = st.nb) G v x A e) ∧
    (Reads st p s → ∃ st' e, setKeyLenEscape v p s.length st = .ok (true, st') ∧ IsStrBody e ∧ Denotes e s ∧
      Keyed st st' P (fun b => P b ∨ b = st.nb) G v x A e) := by
  constructor
  · intro hs
    obtain ⟨st', e, k⟩ := (setKeyEscape_run h.inv h.val h.node hs).1 ha
    exact ⟨st', escBytes s, e, (escBytes_set s).body, escBytes_denotes s, k.keyed h (fun _ h => h.elim)⟩
  · intro hs
    obtain ⟨st', e, k⟩ := (setKeyLenEscape_run h.inv h.val h.node hs).1 ha
    exact ⟨st', escBytes s, e, (escBytes_set s).body, escBytes_denotes s, k.keyed h (fun _ h => h.elim)⟩

/-- What is stored is at least as long as the argument and at most six times as long. -/
theorem C12_size (h : Ready st P G v x A) (hs : Reads st p s) {e} (hr : setStrLenEscape v p s.length st = .ok (true, st'))
    (he : Shows st' v (.str e)) : s.length ≤ e.length ∧ e.length ≤ 6 * s.length := by
  obtain ⟨st1, e1, k⟩ := setStrLenEscape_run h.inv h.val h.node hs
  rw [e1] at hr; cases hr
  have := (k.becomes h (fun _ h => h.elim)).shows.det he
  cases this
  exact escBytes_length s

/-! ### C13: unescaping decodes -/

/-- C13. On a string value with the body `b` that denotes the bytes `d` (`Denotes` is the
decoding of RFC 8259 section 7, with surrogate pairs), `zj_GetUnEscapeStr` returns `d`. -/
theorem C13_getUnEscapeStr (h : Ready st P G v x A) (hs : Shows st v (.str b)) (hd : Denotes b d) :
    ∃ p st', getUnEscapeStr v st = .ok (some p, st') ∧ HoldsText st' p d ∧ Unchanged st st' ∧ Ready st' P G v x A := by
  obtain ⟨a, gn, rfl, ha, hv⟩ := h.node_of hs
  have hg := hv.str_inv
  obtain ⟨r1, r2⟩ := h.addB (d := d ++ [0]) (sz := b.length + 1) (by have := hd.length_le; simp; omega)
  exact ⟨_, _, getUnEscapeStr_run h.inv h.val ha hg hd, holds_addB, r2, r1⟩

/-- Every valid string body denotes exactly one byte string, so that
`C13_getUnEscapeStr` covers every valid string value. -/
theorem C13_total (hb : IsStrBody b) : ∃ d, Denotes b d ∧ ∀ d', Denotes b d' → d' = d := by
  obtain ⟨d, hd⟩ := hb.denotes
  exact ⟨d, hd, fun d' hd' => hd'.det hd⟩

/-- C13 for keys: the key of a value, unescaped. -/
theorem C13_getUnEscapeKey (h : Ready st P G v (some a) A) {gn} (ha : G a = some gn) (hk : gn.key = some k) (hd : Denotes k d) :
    ∃ p st', getUnEscapeKey v st = .ok (some p, st') ∧ HoldsText st' p d ∧ Unchanged st st' ∧ Ready st' P G v (some a) A := by
  obtain ⟨r1, r2⟩ := h.addB (d := d ++ [0]) (sz := k.length + 1) (by have := hd.length_le; simp; omega)
  exact ⟨_, _, getUnEscapeKey_run h.inv h.val ha hk hd, holds_addB, r2, r1⟩

/-- The same in terms of documents: the members of an object. -/
theorem C13_member_key (h : Ready st P G v (some a) A) {gn} (ha : G a = some gn) {i c : Nat} (hk : gn.val.kids[i]? = some c)
    (hw : Ready st P G w (some c) B) {ms : List (Bytes × Json)} (hs : Shows st v (.obj ms)) {u} (hm : ms[i]? = some (k, u))
    (hd : Denotes k d) : ∃ p st', getUnEscapeKey w st = .ok (some p, st') ∧ HoldsText st' p d := by
  obtain ⟨ha', hv⟩ := h.unf hs
  rw [ha] at ha'; cases ha'
  obtain ⟨ks, e, hi⟩ := hv.obj_inv
  rw [e] at hk
  rcases hi.at i with ⟨e1, _⟩ | ⟨k', gk, key, u', e1, e2, e3, e4, _⟩
  · simp only [GVal.kids] at hk; rw [hk] at e1; cases e1
  · simp only [GVal.kids] at hk; rw [hk] at e1; cases e1
    rw [hm] at e2; cases e2
    simp only [KeyIs, if_true] at e4
    obtain ⟨p, st', g1, g2, _⟩ := C13_getUnEscapeKey hw e3 e4 hd
    exact ⟨p, st', g1, g2⟩

/-- Decoded: two-character escapes, a code point of each UTF-8 length, a surrogate pair. -/
example : ((do
    let r ← parse 0 (← callerText (b!"\"a\\n\\u0041\\u00e9\\u20AC\\uD83D\\uDE00\\uFFFD\"" ++ [0]))
    let q := (← getUnEscapeStr 0).getD (.lit { bytes := [] })
    return (r, ← readN q 16) : M (Bool × Bytes)) (start fun _ => 0)).out =
    .ok (true, [0x61, 0x0A, 0x41, 0xC3, 0xA9, 0xE2, 0x82, 0xAC, 0xF0, 0x9F, 0x98, 0x80, 0xEF, 0xBF, 0xBD, 0]) := by decide +kernel

example : ∃ st P G v x A, Ready st P G v x A ∧ Shows st v (.str b!"\\u0041\\n") ∧ Denotes b!"\\u0041\\n" [0x41, 0x0A] := by
  have hd : Denotes b!"\\u0041\\n" [0x41, 0x0A] :=
    .uni (n := 0x41) (d := [0x0A]) ⟨0, 0, 4, 1, by decide, by decide, by decide, by decide, by decide⟩ (by unfold IsHighSurrogate; omega)
      (by unfold IsLowSurrogate; omega) (.esc (x := 0x0A) (by decide) .nil)
  obtain ⟨st, P, G, v, a, h, _⟩ := exists_example (t := .str b!"\\u0041\\n") (by simp only [Json.Valid]; exact hd.body) (fun _ => 0)
  exact ⟨st, P, G, v, _, _, h.ready, h.ready.shows h.doc, hd⟩

/-! ### C11: unescaping inverts escaping -/

/-- C11. After `zj_SetStrEscape(v, s)`, `zj_GetUnEscapeStr(v)` is `s`; after
`zj_SetStrLenEscape(v, s, n)` it is the `n` bytes, NULs included. -/
theorem C11_str (h : Ready st P G v x A) :
    (CStr st p s → ∃ st1 q st2, setStrEscape v p st = .ok (true, st1) ∧ getUnEscapeStr v st1 = .ok (some q, st2) ∧
      HoldsText st2 q s) ∧
    (Reads st p s → ∃ st1 q st2, setStrLenEscape v p s.length st = .ok (true, st1) ∧
      getUnEscapeStr v st1 = .ok (some q, st2) ∧ HoldsText st2 q s) := by
  constructor
  · intro hs
    obtain ⟨st1, e, h1, _, h3, h4⟩ := (C12_setStrEscape h).1 hs
    obtain ⟨gn, hr, _⟩ := h4.store
    obtain ⟨q, st2, g1, g2, _⟩ := C13_getUnEscapeStr hr h4.shows h3
    exact ⟨st1, q, st2, h1, g1, g2⟩
  · intro hs
    obtain ⟨st1, e, h1, _, h3, h4⟩ := (C12_setStrEscape h).2 hs
    obtain ⟨gn, hr, _⟩ := h4.store
    obtain ⟨q, st2, g1, g2, _⟩ := C13_getUnEscapeStr hr h4.shows h3
    exact ⟨st1, q, st2, h1, g1, g2⟩

/-- C11 for keys. -/
theorem C11_key (h : Ready st P G v x A) (ha : AcceptsKey G x) :
    (CStr st p s → ∃ st1 q st2, setKeyEscape v p st = .ok (true, st1) ∧ getUnEscapeKey v st1 = .ok (some q, st2) ∧
      HoldsText st2 q s) ∧
    (Reads st p s → ∃ st1 q st2, setKeyLenEscape v p s.length st = .ok (true, st1) ∧
      getUnEscapeKey v st1 = .ok (some q, st2) ∧ HoldsText st2 q s) := by
  constructor
  · intro hs
    obtain ⟨st1, e, h1, _, h3, h4⟩ := (C12_setKeyEscape h ha).1 hs
    obtain ⟨q, st2, g1, g2, _⟩ := C13_getUnEscapeKey h4.ready (Graph.set_same _ _ _) rfl h3
    exact ⟨st1, q, st2, h1, g1, g2⟩
  · intro hs
    obtain ⟨st1, e, h1, _, h3, h4⟩ := (C12_setKeyEscape h ha).2 hs
    obtain ⟨q, st2, g1, g2, _⟩ := C13_getUnEscapeKey h4.ready (Graph.set_same _ _ _) rfl h3
    exact ⟨st1, q, st2, h1, g1, g2⟩

/-- C11 through a printed document: escape, print, parse, unescape. -/
theorem C11_through_text (h : Ready st P G v x A) (hw : Ready st P G w y B) (hne : w ≠ v) (hs : Reads st p s) :
    ∃ c, ∀ fuel, c ≤ fuel → ∃ q st', (do
        let _ ← setStrLenEscape v p s.length
        let t ← stringify fuel v
        let _ ← parse w t
        getUnEscapeStr w : M (Option SPtr)) st = .ok (some q, st') ∧ HoldsText st' q s := by
  obtain ⟨st1, e, h1, h2, h3, h4⟩ := (C12_setStrEscape h).2 hs
  obtain ⟨gn, hw1, hv1, _⟩ := h4.keep hw hne
  obtain ⟨c, t, st2, h5, h6, _, _, h8⟩ := C09_stringify hv1 h4.shows
  refine ⟨c, fun fuel hf => ?_⟩
  obtain ⟨st3, h9, h10⟩ := C07_parse_stringify hv1 h4.shows (by simp only [Json.Valid]; exact h2) hw1 (h5 fuel hf)
  have hw2 := hw1.unchanged (C09_result hv1 h4.shows (h5 fuel hf)).2.1 h8.inv.ok
  have h0 : (0 : Byte) ∉ (Json.str e).print := by
    simp only [Json.print, List.mem_cons, List.mem_append, List.not_mem_nil, or_false]
    rintro (h | h | h)
    · revert h; decide
    · exact h2.no_nul h
    · revert h; decide
  obtain ⟨P3, G3, h11, _⟩ := (C02_parse_frame hw2 (h6.cstr h0) h9).2
  obtain ⟨q, st4, h12, h13, _⟩ := C13_getUnEscapeStr h11 h10 h3
  refine ⟨q, st4, ?_, h13⟩
  mstep h1
  mstep h5 fuel hf
  mstep h9
  exact h12

example : ((do
    let p ← callerText [0x61, 0, 0x22, 0x5C, 0x0A, 0x1F, 0xFF, 0x2F]
    let r ← setStrLenEscape 0 p 8
    let q := (← getUnEscapeStr 0).getD (.lit { bytes := [] })
    let s ← stringify 9 0
    return (r, ← readN q 9, ← readN s 24) : M (Bool × Bytes × Bytes)) (start fun _ => 0)).out =
    .ok (true, [0x61, 0, 0x22, 0x5C, 0x0A, 0x1F, 0xFF, 0x2F, 0],
      b!"\"a\\u0000\\\"\\\\\\n\\u001f" ++ [0xFF] ++ b!"/\"" ++ [0]) := by decide +kernel

example : ∃ st P G v x A p, Ready st P G v x A ∧ Reads st p [0x61, 0, 0x22] ∧ AcceptsKey G x ∧ x ≠ none := by
  obtain ⟨st, P, G, v, a, h, _⟩ := exists_example (t := .arr [.bool true, .null]) (by simp [Json.Valid, Json.ValidElems]) (fun _ => 0)
  refine ⟨_, P, G, v, _, 0, _, h.ready.addC (d := [0x61, 0, 0x22]), addC_reads, ?_, by simp⟩
  intro b gb f hb hgb hp
  cases hb
  obtain ⟨gn, h1, h2, _⟩ := h.root
  rw [h1] at hgb; cases hgb
  rw [h2] at hp; cases hp

/-! ### C14: no overflow, no read outside -/

/-- C14. The block for the result has `Len + 1` bytes and the result fits into it; the call
ends and performs no undefined access (the result is `ok`). -/
theorem C14_getUnEscapeStr (h : Ready st P G v x A) (hs : Shows st v (.str b)) (hb : IsStrBody b) :
    ∃ c st' bf, getUnEscapeStr v st = .ok (some (.buf c 0), st') ∧ st'.bufs c = some bf ∧ st.nb ≤ c ∧
      bf.size = b.length + 1 ∧ bf.data.length ≤ b.length + 1 := by
  obtain ⟨a, gn, rfl, ha, hv⟩ := h.node_of hs
  have hg := hv.str_inv
  obtain ⟨d, hd⟩ := hb.denotes
  have := hd.length_le
  exact ⟨_, _, _, getUnEscapeStr_run h.inv h.val ha hg hd, by simp; rfl, Nat.le_refl _, rfl, by simp; omega⟩

theorem C14_getUnEscapeKey (h : Ready st P G v (some a) A) {gn} (ha : G a = some gn) (hk : gn.key = some b) (hb : IsStrBody b) :
    ∃ c st' bf, getUnEscapeKey v st = .ok (some (.buf c 0), st') ∧ st'.bufs c = some bf ∧ st.nb ≤ c ∧
      bf.size = b.length + 1 ∧ bf.data.length ≤ b.length + 1 := by
  obtain ⟨d, hd⟩ := hb.denotes
  have := hd.length_le
  exact ⟨_, _, _, getUnEscapeKey_run h.inv h.val ha hk hd, by simp; rfl, Nat.le_refl _, rfl, by simp; omega⟩

/-- C14: the loop reads only the `Len` bytes of the string. It succeeds although nothing
else is readable (any access outside `b` is `ub`), and what follows in memory has no
influence. -/
theorem C14_reads_only (hb : IsStrBody b) :
    ∃ d, unEscapeStr b b.length (b.length + 1) = .ok d ∧ d.length ≤ b.length + 1 ∧
      ∀ r, unEscapeStr (b ++ r) b.length (b.length + 1) = .ok d := by
  obtain ⟨d, hd⟩ := hb.denotes
  have := hd.length_le
  exact ⟨d ++ [0], unEscapeStr_ok hd (List.append_nil b).symm, by simp; omega, fun r => unEscapeStr_ok hd rfl⟩

/-- The bound is reached: text without escapes needs all of the block. -/
theorem C14_tight : ∃ b d, IsStrBody b ∧ Denotes b d ∧ d.length = b.length ∧ b ≠ [] :=
  ⟨b!"a", b!"a", .plain (by decide) (by decide) (by decide) .nil, .plain (by decide) (by decide) (by decide) .nil, rfl, by decide⟩

/-- Without the validity of the body the loop is not safe: an unknown escape makes it run
forever (the model runs out of fuel), a trailing backslash makes it read outside. No text
that passed the checks of the library is like this (C01, C15). -/
theorem C14_needs_valid : unEscapeStr b!"\\x" 2 3 = .timeout ∧ unEscapeStr b!"\\" 1 2 = .ub .oob := by decide +kernel

/-- For an unknown escape no amount of fuel helps. -/
theorem C14_invalid_loops : ∀ fuel, unEscapeLoop b!"\\x" 2 3 fuel 0 [] = .timeout
  | 0 => rfl
  | fuel + 1 => by
    have ih := C14_invalid_loops fuel
    unfold unEscapeLoop
    exact ih

example : IsStrBody b!"\\uD83D\\uDE00x" :=
  .pair (n := 0xD83D) (n' := 0xDE00) ⟨13, 8, 3, 13, by decide, by decide, by decide, by decide, by decide⟩
    (by unfold IsHighSurrogate; omega) ⟨13, 14, 0, 0, by decide, by decide, by decide, by decide, by decide⟩
    (by unfold IsLowSurrogate; omega) (.plain (by decide) (by decide) (by decide) .nil)

end

end ZJ
