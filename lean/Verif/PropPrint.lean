import Verif.PropParse
import Verif.Fuel

/-
Property theorems about printing: C07, C08, C09.
-/

set_option linter.unusedSimpArgs false

namespace ZJ

section
variable {st st' : St} {P : Addr → Prop} {G : Graph} {v w A B a : Addr} {x y : Option Addr} {p q : SPtr} {b : Bytes}
  {t : Json}

/-- What a handle of a proper state shows is the document of the store. -/
theorem Ready.unf (h : Ready st P G v (some a) A) (hs : Shows st v t) : Unf G a t := by
  obtain ⟨gn, hg⟩ := Option.isSome_iff_exists.1 (h.node a rfl)
  obtain ⟨t', hu⟩ := h.inv.fin a gn hg
  rw [hs.det (h.inv.shows h.val hu)]
  exact hu

theorem Ready.shows (h : Ready st P G v (some a) A) (hu : Unf G a t) : Shows st v t := h.inv.shows h.val hu

/-- Every handle that is not empty shows a document. -/
theorem Ready.shows_some (h : Ready st P G v (some a) A) : ∃ t, Shows st v t := by
  obtain ⟨gn, hg⟩ := Option.isSome_iff_exists.1 (h.node a rfl)
  obtain ⟨t', hu⟩ := h.inv.fin a gn hg
  exact ⟨t', h.shows hu⟩

theorem Ready.unchanged (h : Ready st P G v x A) (hu : Unchanged st st') (ho : StOK st') : Ready st' P G v x A :=
  ⟨h.inv.unchanged hu ho, h.cok.frame h.inv.ok hu.1 hu.2,
    by rw [hu.1.vals v (h.inv.ok.val_lt h.val) id]; exact h.val, h.node⟩

/-- The bytes of a C string result: block `c` holds them and the NUL, nothing else. -/
def HoldsText (st : St) (p : SPtr) (s : Bytes) : Prop :=
  ∃ c bf, p = .buf c 0 ∧ st.bufs c = some bf ∧ bf.data = s ++ [0]

theorem HoldsText.cstr (h : HoldsText st p b) (h0 : (0 : Byte) ∉ b) : CStr st p b := by
  obtain ⟨c, bf, rfl, h1, h2⟩ := h
  exact ⟨h0, [], bf.size + bf.slack - 0, by simp only [view, h1, h2, List.drop_zero]⟩

theorem HoldsText.reads (h : HoldsText st p b) (ho : StOK st) : Reads st p b := by
  obtain ⟨c, bf, rfl, h1, h2⟩ := h
  exact StrAt.reads (P := fun _ => True) ⟨trivial, bf, [0], h1, by simp [h2]⟩ ho

/-! ### C09: Stringify is the canonical printer and terminates -/

/-- C09. `zj_Stringify` on a handle that shows `t` (a root or a member inside a larger
document) ends after finitely many rounds, returns a new block with exactly the compact
text of `t` and its NUL, and changes nothing that existed before. -/
theorem C09_stringify (h : Ready st P G v x A) (hs : Shows st v t) :
    ∃ c p st', (∀ fuel, c ≤ fuel → stringify fuel v st = .ok (p, st')) ∧ HoldsText st' p t.print ∧
      (∀ b off, p = .buf b off → st.nb ≤ b) ∧ Unchanged st st' ∧ Ready st' P G v x A := by
  obtain ⟨a, A', h1, hm⟩ := hs
  obtain rfl : x = some a := by
    have := h.val; rw [h1] at this; cases this; rfl
  obtain ⟨c, st', b, h2, h3, h4, h5, bf, h6, h7⟩ := stringify_run h.inv h.val (h.unf ⟨a, A', h1, hm⟩)
  exact ⟨c, .buf b 0, st', h2, ⟨b, bf, rfl, h6, h7⟩, fun _ _ e => by cases e; exact h5, h3, h.unchanged h3 h4⟩

/-- C09, the empty handle prints as the empty string, with the static literal `""`. -/
theorem C09_stringify_empty (h : Ready st P G v none A) (fuel : Nat) :
    ∃ st', stringify fuel v st = .ok (.lit { bytes := [] }, st') ∧ st' = st := by
  refine ⟨st, ?_, rfl⟩
  unfold stringify
  mstep rdVal_run h.val
  rfl

/-- C09, whenever `zj_Stringify` returns, it returns the compact text. -/
theorem C09_result (h : Ready st P G v x A) (hs : Shows st v t) {fuel : Nat} (hr : stringify fuel v st = .ok (p, st')) :
    HoldsText st' p t.print ∧ Unchanged st st' ∧ Ready st' P G v x A := by
  obtain ⟨c, p', st2, h1, h2, _, h3, h4⟩ := C09_stringify h hs
  have e := (stringify_mono (v := v) (Nat.le_max_left fuel c)).ok hr
  rw [h1 _ (Nat.le_max_right _ _)] at e
  cases e
  exact ⟨h2, h3, h4⟩

/-- C09, the printed text depends on the document only, not on how it is laid out, where
it is in its parent, or which calls made it; and different documents print differently, if
they are valid. -/
theorem C09_canonical {st1 P1 G1 v1 x1 A1 st2 P2 G2 v2 x2 A2 f1 f2 p1 p2 st1' st2' t1 t2 s1 s2}
    (h1 : Ready st1 P1 G1 v1 x1 A1) (h2 : Ready st2 P2 G2 v2 x2 A2) (hs1 : Shows st1 v1 t1) (hs2 : Shows st2 v2 t2)
    (hv1 : t1.Valid) (hv2 : t2.Valid)
    (hr1 : stringify f1 v1 st1 = .ok (p1, st1')) (hr2 : stringify f2 v2 st2 = .ok (p2, st2'))
    (ht1 : HoldsText st1' p1 s1) (ht2 : HoldsText st2' p2 s2) : s1 = s2 ↔ t1 = t2 := by
  have e1 : s1 = t1.print := by
    obtain ⟨c, bf, rfl, g1, g2⟩ := (C09_result h1 hs1 hr1).1
    obtain ⟨c', bf', e, g1', g2'⟩ := ht1
    cases e
    rw [g1] at g1'; cases g1'
    exact List.append_cancel_right (g2'.symm.trans g2)
  have e2 : s2 = t2.print := by
    obtain ⟨c, bf, rfl, g1, g2⟩ := (C09_result h2 hs2 hr2).1
    obtain ⟨c', bf', e, g1', g2'⟩ := ht2
    cases e
    rw [g1] at g1'; cases g1'
    exact List.append_cancel_right (g2'.symm.trans g2)
  subst e1 e2
  refine ⟨fun e => ?_, fun e => by rw [e]⟩
  exact JText_unique (print_text hv1) (e ▸ print_text hv2)

/-- A member inside a larger document: the handle is on `{"a":null}`, which has a sibling
on both sides, and only it is printed. -/
example : ((do
    let (v, _) ← make 0 b!"[1, {\"a\" : null}, 2]"
    let some w ← arrayGet 9 v 1 | return []
    let p ← stringify 99 w
    readN p 11 : M Bytes) (start fun _ => 0)).out = .ok (b!"{\"a\":null}" ++ [0]) := by decide +kernel

/-- A proper state with that document. -/
example : ∃ st P G v x A, Ready st P G v x A ∧ Shows st v (.arr [.obj [(b!"a", .null)], .bool false]) := by
  obtain ⟨st, P, G, v, a, h, _⟩ := exists_example (t := .arr [.obj [(b!"a", .null)], .bool false])
    (by simp [Json.Valid, Json.ValidElems, Json.ValidMembers]
        exact .plain (by decide) (by decide) (by decide) .nil) (fun _ => 0)
  exact ⟨st, P, G, v, _, 0, h.ready, h.ready.shows h.doc⟩

/-! ### C07: Parse(Stringify(v)) is v -/

/-- C07. If `v` shows a valid document `t`, then `zj_Parse` of what `zj_Stringify(v)`
returned, into any handle `w` (`v` itself, a part of `v`, any other, or an empty one),
returns true, and `w` shows `t`. -/
theorem C07_parse_stringify (h : Ready st P G v x A) (hs : Shows st v t) (ht : t.Valid) (hw : Ready st P G w y B)
    {fuel : Nat} (hr : stringify fuel v st = .ok (p, st')) :
    ∃ st'', parse w p st' = .ok (true, st'') ∧ Shows st'' w t := by
  obtain ⟨h1, h2, h3⟩ := C09_result h hs hr
  have hw' : Ready st' P G w y B := hw.unchanged h2 h3.inv.ok
  have hc : CStr st' p t.print := h1.cstr (print_text ht).no_nul
  obtain ⟨st'', hp⟩ := (C01_parse_true_iff hw' hc).2 ⟨t, print_text ht⟩
  obtain ⟨t', h5, h6, h7⟩ := C02_parse_document hw' hc hp
  rw [h7 t (print_text ht)]
  exact ⟨st'', hp, h6⟩

/-- C07 for `zj_ParseFast`. -/
theorem C07_parseFast_stringify (h : Ready st P G v x A) (hs : Shows st v t) (ht : t.Valid) (hw : Ready st P G w y B)
    {fuel : Nat} (hr : stringify fuel v st = .ok (p, st')) :
    ∃ st'', parseFast w p st' = .ok (true, st'') ∧ Shows st'' w t := by
  obtain ⟨h1, h2, h3⟩ := C09_result h hs hr
  have hl : Lent st' p := by
    obtain ⟨c0, _, _, g1, g2, g3, g4, _⟩ := C09_stringify h hs
    have e := (stringify_mono (v := v) (Nat.le_max_left fuel c0)).ok hr
    rw [g1 _ (Nat.le_max_right _ _)] at e
    cases e
    intro b off hp
    obtain ⟨c, bf, hp', g5, _⟩ := h1
    rw [hp] at hp'; cases hp'
    refine ⟨by simp [g5], fun z hz => ?_⟩
    rw [h2.2] at hz
    have := h.inv.ok.cache z hz
    have := g3 b _ hp
    omega
  have hw' : Ready st' P G w y B := hw.unchanged h2 h3.inv.ok
  have hc : CStr st' p t.print := h1.cstr (print_text ht).no_nul
  obtain ⟨st'', hp⟩ := (C01_parseFast_true_iff hw' hc hl).2 ⟨t, print_text ht⟩
  obtain ⟨t', h5, h6, h7⟩ := C02_parseFast_document hw' hc hl hp
  rw [h7 t (print_text ht)]
  exact ⟨st'', hp, h6⟩

/-- The hypotheses of C07 can be met, with `v` and `w` different or equal. -/
example : ∃ st P G v x A w y B, Ready st P G v x A ∧ Ready st P G w y B ∧ v ≠ w ∧
    Shows st v (.arr [.bool false, .null]) ∧ ∃ fuel p st', stringify fuel v st = .ok (p, st') := by
  obtain ⟨st, P, G, v, a, h, h0⟩ := exists_example (t := .arr [.bool false, .null])
    (by simp [Json.Valid, Json.ValidElems]) (fun _ => 0)
  obtain ⟨c, p, st', h1, _⟩ := C09_stringify h.ready (h.ready.shows h.doc)
  refine ⟨st, P, G, v, _, 0, 0, none, 0, h.ready, ⟨h.inv, h.cok, h0, fun _ h => (by cases h)⟩, ?_,
    h.ready.shows h.doc, c, p, st', h1 c (Nat.le_refl _)⟩
  rintro rfl
  rw [h.handle] at h0; cases h0

/-! ### C08: Stringify(Parse(text)) is the text without insignificant whitespace -/

/-- C08. After an accepted `zj_Parse` of `b`, `zj_Stringify` ends and returns exactly `b`
without the whitespace outside of strings. -/
theorem C08_stringify_parse (h : Ready st P G v x A) (hs : CStr st q b) (hr : parse v q st = .ok (true, st')) :
    ∃ c p st'', (∀ fuel, c ≤ fuel → stringify fuel v st' = .ok (p, st'')) ∧ HoldsText st'' p (stripWs .outside b) := by
  obtain ⟨t, ht, h1, _⟩ := C02_parse_document h hs hr
  obtain ⟨_, P', G', h2, _⟩ := C02_parse_frame h hs hr
  obtain ⟨c, p, st'', h3, h4, _⟩ := C09_stringify h2 h1
  exact ⟨c, p, st'', h3, by rw [← print_eq_strip ht]; exact h4⟩

/-- C08 for `zj_ParseFast`. -/
theorem C08_stringify_parseFast (h : Ready st P G v x A) (hs : CStr st q b) (hl : Lent st q)
    (hr : parseFast v q st = .ok (true, st')) :
    ∃ c p st'', (∀ fuel, c ≤ fuel → stringify fuel v st' = .ok (p, st'')) ∧ HoldsText st'' p (stripWs .outside b) := by
  obtain ⟨t, ht, h1, _⟩ := C02_parseFast_document h hs hl hr
  have h' := h.lend hl
  obtain ⟨st2, gv, g, g1, g2, g3, g4, g5, _, g7, _⟩ := parseFast_accept h'.inv h'.val h'.node hs inP_pinned ht
  rw [hr] at g1; cases g1
  have h2 : Ready st' _ _ v (some (rootOf st x)) A := ⟨g2, h'.cok.frame h'.inv.ok g7 g5, g4, fun a ha => by
    cases ha; obtain ⟨ha, _⟩ := g3; simp [ha]⟩
  obtain ⟨c, p, st'', h3, h4, _⟩ := C09_stringify h2 h1
  exact ⟨c, p, st'', h3, by rw [← print_eq_strip ht]; exact h4⟩

/-- C08, a second round changes nothing. -/
theorem C08_idempotent {b : Bytes} (h : ∃ t, JText t b) :
    (∃ t, JText t (stripWs .outside b)) ∧ stripWs .outside (stripWs .outside b) = stripWs .outside b := by
  obtain ⟨t, ht⟩ := h
  have e := print_eq_strip ht
  have h2 := print_text ht.valid
  rw [e] at h2
  exact ⟨⟨t, h2⟩, by rw [← print_eq_strip h2, e]⟩

/-- C08, a text with no byte to remove is reproduced byte for byte: `stripWs` keeps the
bytes in order, drops only whitespace, and drops nothing inside of strings. -/
theorem C08_strip_sublist : ∀ (m : Mode) (b : Bytes), (stripWs m b).Sublist b ∧
    (∀ c, isWs c = false → (stripWs m b).count c = b.count c)
  | m, [] => by cases m <;> simp [stripWs]
  | .outside, c :: r => by
    unfold stripWs
    split
    · obtain ⟨h1, h2⟩ := C08_strip_sublist .outside r
      refine ⟨h1.cons c, fun d hd => ?_⟩
      rw [h2 d hd, List.count_cons]
      have : c ≠ d := by rintro rfl; simp_all
      simp [this]
    · obtain ⟨h1, h2⟩ := C08_strip_sublist (if c = 0x22 then .inside else .outside) r
      exact ⟨h1.cons_cons c, fun d hd => by rw [List.count_cons, List.count_cons, h2 d hd]⟩
  | .inside, c :: r => by
    unfold stripWs
    obtain ⟨h1, h2⟩ := C08_strip_sublist (if c = 0x5C then .escaped else if c = 0x22 then .outside else .inside) r
    exact ⟨h1.cons_cons c, fun d hd => by rw [List.count_cons, List.count_cons, h2 d hd]⟩
  | .escaped, c :: r => by
    unfold stripWs
    obtain ⟨h1, h2⟩ := C08_strip_sublist .inside r
    exact ⟨h1.cons_cons c, fun d hd => by rw [List.count_cons, List.count_cons, h2 d hd]⟩

/-- C07 and C08 for whole programs: allocator, value, text, `zj_Parse`, `zj_Stringify`,
`zj_Parse` of the result into the same value, `zj_Stringify` again. For every JSON text `b` the
program runs without undefined behaviour, both parses succeed and both printed strings are
`b` without insignificant whitespace. -/
theorem C08_program (slack : Nat → Nat) {b : Bytes} (h : ∃ t, JText t b) :
    ∃ c, ∀ fuel, c ≤ fuel → ((do
        let A ← newAllocator
        let v ← newValue A
        let p ← callerText (b ++ [0])
        let r ← parse v p
        let q ← stringify fuel v
        let r' ← parse v q
        let q' ← stringify fuel v
        return (r, r', ← readN q (stripWs .outside b).length, ← readN q' (stripWs .outside b).length) : M _)
          (St.init slack cfg)).out = .ok (true, true, stripWs .outside b, stripWs .outside b) := by
  have h0 : (0 : Byte) ∉ b := by obtain ⟨t, ht⟩ := h; exact ht.no_nul
  have hR := (start_ready slack cfg).addC (d := b ++ [0])
  have hc := addC_cstr (st := start slack cfg) h0
  obtain ⟨st1, h1⟩ := (C01_parse_true_iff hR hc).2 h
  obtain ⟨t, ht, hs1, _⟩ := C02_parse_document hR hc h1
  obtain ⟨_, P1, G1, hR1, _⟩ := C02_parse_frame hR hc h1
  obtain ⟨c1, q, st2, h2, hq, _, hu, hR2⟩ := C09_stringify hR1 hs1
  have hqc : CStr st2 q t.print := hq.cstr (print_text ht.valid).no_nul
  have hp2 : ∃ t', JText t' t.print := ⟨t, print_text ht.valid⟩
  obtain ⟨st3, h3⟩ := (C01_parse_true_iff hR2 hqc).2 hp2
  obtain ⟨t', _, hs3, hun⟩ := C02_parse_document hR2 hqc h3
  obtain rfl := hun t (print_text ht.valid)
  obtain ⟨hf3, P3, G3, hR3, _⟩ := C02_parse_frame hR2 hqc h3
  obtain ⟨c2, q', st4, h4, hq', _, hu4, hR4⟩ := C09_stringify hR3 hs3
  refine ⟨max c1 c2, fun fuel hf => ?_⟩
  have e := print_eq_strip ht
  rw [← e]
  have hr1 : Reads st4 q t.print := by
    obtain ⟨c, bf, rfl, g1, g2⟩ := hq
    have hlt := hR2.inv.ok.buf_lt g1
    refine HoldsText.reads ⟨c, bf, rfl, ?_, g2⟩ hR4.inv.ok
    rw [hu4.1.bufs c (Nat.lt_of_lt_of_le hlt hf3.nb) id, hf3.bufs c hlt id, g1]
  have hr2 : Reads st4 q' t.print := hq'.reads hR4.inv.ok
  have hrun : (do
      let p ← callerText (b ++ [0])
      let r ← parse 0 p
      let q ← stringify fuel 0
      let r' ← parse 0 q
      let q' ← stringify fuel 0
      return (r, r', ← readN q t.print.length, ← readN q' t.print.length) : M _) (start slack cfg)
        = .ok ((true, true, t.print, t.print), st4) := by
    mstep callerText_run _ _
    mstep h1
    mstep h2 fuel (by omega)
    mstep h3
    mstep h4 fuel (by omega)
    mstep hr1
    mstep hr2
    rfl
  exact congrArg Res.out hrun

theorem Res.out_ok {α : Type} {r : Res (α × St)} {a : α} (h : r.out = .ok a) : ∃ st, r = .ok (a, st) := by
  cases r with
  | ok x => obtain ⟨b, st⟩ := x; cases h; exact ⟨st, rfl⟩
  | ub => cases h
  | timeout => cases h

example : ∃ t, JText t b!" [ 1 , \"a b\" ] " :=
  (C01_program (cfg := {}) (fun _ => 0) _ (by decide)).1 (Res.out_ok (by decide +kernel))

example : stripWs .outside b!" [ 1 , \"a b\" ] " = b!"[1,\"a b\"]" := by decide

end

end ZJ
