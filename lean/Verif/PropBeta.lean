import Verif.BetaSim

/-
C71: the parser of the older header (`beta/zzzjson_beta.h`).
C72: what the getters of the older header return.
-/

set_option linter.unusedVariables false

namespace ZJ.Beta

section
variable {D : Type} {s s' : BSt D} {P : Addr → Prop} {G : Graph} {v A : Addr} {x : Option Addr} {p : SPtr}
  {b : Bytes} {t : Json}

theorem bind_run {α β : Type} (m : BM D α) (f : α → BM D β) (s : BSt D) :
    (m >>= f) s = match m s with
      | .ok (a, s') => f a s'
      | .ub u => .ub u
      | .timeout => .timeout := rfl

theorem bind_ok {α β : Type} {m : BM D α} {f : α → BM D β} {s s' : BSt D} {a : α} (h : m s = .ok (a, s')) :
    (m >>= f) s = f a s' := by rw [bind_run, h]

theorem up_ok {α : Type} {m : M α} {s : BSt D} {a : α} {st : St} (h : m s.st = .ok (a, st)) :
    up m s = .ok (a, ⟨st, s.mem⟩) := by unfold up; rw [h]

/-- The result of a run without the final state. -/
def out {α : Type} : Res (α × BSt D) → Res α
  | .ok (a, _) => .ok a
  | .ub u => .ub u
  | .timeout => .timeout

theorem parseFast_run (v : Addr) (p : SPtr) (s : BSt D) :
    parseFast v p s = up (parseNodes v p) ⟨s.st, upd s.mem v {}⟩ := rfl

/-- The three ways `z_ValueParseFast` can end. -/
theorem parseFast_cases (h : Ready s.st P G v x A) (hs : CStr s.st p b) (hl : Lent s.st p) :
    (∃ t, JText t b ∧ ∃ s' P' G', parseFast v p s = .ok (true, s') ∧ Shows s'.st v t ∧
      Ready s'.st P' G' v (some (rootOf s.st x)) A ∧ s'.mem v = {} ∧
      Frame (· = rootOf s.st x) (· = v) (fun _ => False) s.st s'.st) ∨
    ((¬ ∃ t, JText t b) ∧ ((∃ s', parseFast v p s = .ok (false, s') ∧ Unchanged s.st s'.st ∧
        Ready s'.st P G v x A ∧ s'.mem v = {}) ∨
      (parseFast v p s = .ub .oob ∧ ∀ r lim, view p s.st = .ok ((r, lim), s.st) → lim < b.length + 4))) := by
  have sim := parseNodes_sim v p s.st
  have frame : ∀ {N V B} {φ : Addr → Option (Option Addr)} {st1 : St}, (∀ a, a < s.st.nn → φ a = none) →
      Frame N V B s.st st1 → Frame N V B s.st (fill φ st1) := fun hφ hf =>
    { hf with nodes := fun a ha hN => by rw [fill_old hφ ha]; exact hf.nodes a ha hN }
  by_cases ht : ∃ t, JText t b
  · obtain ⟨t, ht⟩ := ht
    have h' := h.lend hl
    obtain ⟨st1, gv, g, h1, h2, h3, h4, h5, _, h7, _⟩ := parseFast_accept h'.inv h'.val h'.node hs inP_pinned ht
    rw [h1] at sim
    obtain ⟨φ, hφ, _, e⟩ := sim
    have hR : Ready st1 _ _ v (some (rootOf s.st x)) A :=
      ⟨h2, h.cok.frame h.inv.ok h7 h5, h4, fun a ha => by cases ha; simp [Graph.plant]⟩
    refine .inl ⟨t, ht, ⟨fill φ st1, upd s.mem v {}⟩, _, _, ?_, fill_shows (h2.shows h4 h3), fill_ready hR,
      upd_same _ _ _, frame hφ h7⟩
    rw [parseFast_run]
    exact up_ok e
  · refine .inr ⟨ht, ?_⟩
    rcases ZJ.parseFast_cases h hs hl with ⟨t, h1, _⟩ | ⟨_, ⟨st1, h1, h2, h3⟩ | ⟨h1, h2⟩⟩
    · exact absurd ⟨t, h1⟩ ht
    · rw [h1] at sim
      obtain ⟨φ, hφ, _, e⟩ := sim
      refine .inl ⟨⟨fill φ st1, upd s.mem v {}⟩, ?_, ⟨frame hφ h2.1, h2.2⟩,
        fill_ready (h.unchanged h2 h3.ok), upd_same _ _ _⟩
      rw [parseFast_run]
      exact up_ok e
    · rw [h1] at sim
      refine .inr ⟨?_, h2⟩
      rw [parseFast_run]
      unfold up
      rw [show parseNodes v p s.st = .ub .oob from sim]

/-! ### C71 -/

/-- C71. `z_ValueParseFast` returns true exactly on the texts of the RFC 8259 grammar. -/
theorem C71_accepts (h : Ready s.st P G v x A) (hs : CStr s.st p b) (hl : Lent s.st p) :
    (∃ s', parseFast v p s = .ok (true, s')) ↔ ∃ t, JText t b := by
  constructor
  · rintro ⟨s', h1⟩
    rcases parseFast_cases h hs hl with ⟨t, ht, _⟩ | ⟨_, ⟨_, h2, _⟩ | ⟨h2, _⟩⟩
    · exact ⟨t, ht⟩
    · rw [h1] at h2; cases h2
    · rw [h1] at h2; cases h2
  · rintro ⟨t, ht⟩
    rcases parseFast_cases h hs hl with ⟨_, _, s', _, _, h1, _⟩ | ⟨hn, _⟩
    · exact ⟨s', h1⟩
    · exact absurd ⟨t, ht⟩ hn

/-- C71, the other answer, if three bytes behind the text are readable. -/
theorem C71_rejects (h : Ready s.st P G v x A) (h0 : (0 : Byte) ∉ b) {r lim}
    (hv : view p s.st = .ok ((b ++ 0 :: r, lim), s.st)) (hl : Lent s.st p) (hk : b.length + 4 ≤ lim) :
    (∃ s', parseFast v p s = .ok (false, s')) ↔ ¬ ∃ t, JText t b := by
  rcases parseFast_cases h ⟨h0, r, lim, hv⟩ hl with ⟨t, ht, s', _, _, h1, _⟩ | ⟨hn, ⟨s', h2, _⟩ | ⟨_, h2⟩⟩
  · refine ⟨fun ⟨s2, h2⟩ => ?_, fun hn => absurd ⟨t, ht⟩ hn⟩
    rw [h1] at h2; cases h2
  · exact ⟨fun _ => hn, fun _ => ⟨s', h2⟩⟩
  · have := h2 _ _ hv
    omega

/-- C71. After `true` the handle shows the document of the text, and `z_ValueStringify` prints it. -/
theorem C71_document (h : Ready s.st P G v x A) (hs : CStr s.st p b) (hl : Lent s.st p)
    (hr : parseFast v p s = .ok (true, s')) :
    ∃ t, JText t b ∧ Shows s'.st v t ∧ (∀ t', JText t' b → t' = t) ∧
      ∃ c q s2, (∀ fuel, c ≤ fuel → stringify fuel v s' = .ok (q, s2)) ∧ HoldsText s2.st q t.print := by
  rcases parseFast_cases h hs hl with ⟨t, ht, s1, P', G', h1, h2, h3, _⟩ | ⟨_, ⟨_, h2, _⟩ | ⟨h2, _⟩⟩
  · rw [hr] at h1; cases h1
    obtain ⟨c, q, st2, e1, e2, _⟩ := C09_stringify h3 h2
    exact ⟨t, ht, h2, fun t' ht' => JText_unique ht' ht, c, q, ⟨st2, s'.mem⟩, fun f hf => up_ok (e1 f hf), e2⟩
  · rw [hr] at h2; cases h2
  · rw [hr] at h2; cases h2

/-- C71. After `false` everything that was there before is as it was. -/
theorem C71_failed (h : Ready s.st P G v x A) (hs : CStr s.st p b) (hl : Lent s.st p)
    (hr : parseFast v p s = .ok (false, s')) :
    Ready s'.st P G v x A ∧ (∀ a, a < s.st.nn → s'.st.nodes a = s.st.nodes a) ∧
    (∀ w, w < s.st.nv → s'.st.vals w = s.st.vals w) ∧ (∀ c, c < s.st.nb → s'.st.bufs c = s.st.bufs c) := by
  rcases parseFast_cases h hs hl with ⟨_, _, _, _, _, h1, _⟩ | ⟨_, ⟨_, h1, h2, h3, _⟩ | ⟨h1, _⟩⟩
  · rw [hr] at h1; cases h1
  · rw [hr] at h1; cases h1
    exact ⟨h3, fun a ha => h2.1.nodes a ha id, fun a ha => h2.1.vals a ha id, fun a ha => h2.1.bufs a ha id⟩
  · rw [hr] at h1; cases h1

/-- C71 is false of `z_ValueParseLen`, for every text and every length: whatever `len` says, the
answer is the one for the whole text up to its NUL. -/
theorem C71_len_ignored (h : Ready s.st P G v x A) (hs : CStr s.st p b) (hl : Lent s.st p) {d : Bytes}
    (hd : Reads s.st p d) :
    (∃ s', parseLen v p d.length s = .ok (true, s')) ↔ ∃ t, JText t b := by
  have e : parseLen v p d.length s =
      parseFast v p ⟨s.st.addB A (d.length + 1) (d ++ [0]), s.mem⟩ := by
    unfold parseLen
    refine bind_ok (a := ()) (up_ok ?_)
    mstep rdVal_run h.val
    mstep hd
    mstep newBuf_run h.alloc (by simp)
    rfl
  rw [e]
  obtain ⟨hR, hu⟩ := h.addB (d := d ++ [0]) (sz := d.length + 1) (by simp)
  refine C71_accepts (s := ⟨s.st.addB A (d.length + 1) (d ++ [0]), s.mem⟩) hR ?_ ?_
  · obtain ⟨h0, r, lim, hv⟩ := hs
    refine ⟨h0, r, lim, ?_⟩
    cases p with
    | lit q =>
      simp only [view] at hv ⊢
      injection hv with e
      injection e with e _
      rw [e]
    | buf c off =>
      obtain ⟨hb, _⟩ := hl c off rfl
      obtain ⟨bf, hb⟩ := Option.isSome_iff_exists.1 hb
      unfold view at hv ⊢
      have := hu.1.bufs c (h.inv.ok.buf_lt hb) id
      simp only [this, hb] at hv ⊢
      injection hv with e
      injection e with e _
      rw [e]
  · intro c off hp
    obtain ⟨hb, hz⟩ := hl c off hp
    obtain ⟨bf, hb'⟩ := Option.isSome_iff_exists.1 hb
    exact ⟨by rw [hu.1.bufs c (h.inv.ok.buf_lt hb') id]; exact hb, hz⟩

end

/-- The first state: an allocator and an empty handle, nothing remembered. -/
def start (D : Type) : BSt D := ⟨ZJ.start fun _ => 8, fun _ => {}⟩

/-- C71 is false of `z_ValueParseLen`: the first three bytes of `[1] x` are JSON, and are refused. -/
theorem C71_false_len :
    out ((do
      let p ← up (callerText (b!"[1] x" ++ [0]))
      parseLen 0 p 3 : BM Unit Bool) (start Unit)) = .ok false ∧
    out ((do
      let p ← up (callerText (b!"[1]" ++ [0]))
      parseLen 0 p 3 : BM Unit Bool) (start Unit)) = .ok true := by
  refine ⟨by decide +kernel, by decide +kernel⟩

/-- C71 is false of `z_ValueParse`, which is to keep a copy: printing after the caller freed the text
reads freed memory. With `zj_Parse` the same program prints the document. -/
theorem C71_false_own :
    out ((do
      let p ← up (callerText (b!"[12]" ++ [0]))
      let r ← parse 0 p
      up (freeText p)
      let q ← stringify 99 0
      return (r, ← up (readN q 4)) : BM Unit (Bool × Bytes)) (start Unit)) = .ub .wild ∧
    ((do
      let p ← callerText (b!"[12]" ++ [0])
      let r ← ZJ.parse 0 p
      freeText p
      let q ← ZJ.stringify 99 0
      return (r, ← readN q 4) : M (Bool × Bytes)) (ZJ.start fun _ => 8)).out = .ok (true, b!"[12]") := by
  refine ⟨by decide +kernel, by decide +kernel⟩

/-- The hypotheses of C71 are met: the first state with a text of the caller. -/
example : Ready (ZJ.start fun _ => 8) (fun _ => False) (fun _ => none) 0 none 0 := start_ready _

/-- An object in an object, parsed and printed. -/
example : out ((do
    let p ← up (callerText (b!" {\"a\":{\"b\":[1, 2]},\"c\":null}" ++ [0]))
    let r ← parseFast 0 p
    let q ← stringify 99 0
    return (r, ← up (readN q 26)) : BM Unit (Bool × Bytes)) (start Unit)) =
      .ok (true, b!"{\"a\":{\"b\":[1,2]},\"c\":null}") := by decide +kernel

/-! ### C72 -/

section
variable {D : Type} {s s' : BSt D} {P : Addr → Prop} {G : Graph} {v A : Addr} {x : Option Addr} {p : SPtr}
  {b d : Bytes} {t : Json}

/-- The first call for a string or the text of a number is a call of the getter of `zzzjson.h`. -/
theorem getText_first (ty : JType) (hty : ty = .string ∨ ty = .number) (h : Ready s.st P G v x A)
    (hs : Shows s.st v (if ty = .string then .str b else .num b)) (hc : (s.mem v).str = none) :
    ∃ st', getText ty v s = .ok (some (.buf s.st.nb 0), ⟨st', upd s.mem v { s.mem v with str := some (.buf s.st.nb 0) }⟩) ∧
      HoldsText st' (.buf s.st.nb 0) b ∧ Unchanged s.st st' ∧ Ready st' P G v x A := by
  obtain ⟨a, gn, rfl, ha, hu⟩ := h.node_of hs
  have hg : gn.val = if ty = .string then .str b else .num b := by
    rcases hty with rfl | rfl
    · simp only [if_true] at hu ⊢; exact hu.str_inv
    · simp only [reduceCtorEq, if_false] at hu ⊢; exact hu.num_inv
  obtain ⟨nd, q, h1, h2, h3, h4, h5, _⟩ := h.inv.scalar ha (by rw [hg]; split <;> rfl)
  have h2' : nd.type = some ty := by rw [h2, hg]; rcases hty with rfl | rfl <;> rfl
  have ht : gn.val.text = b := by rw [hg]; split <;> rfl
  rw [ht] at h4
  have h5 : StrAt s.st P q b := by rw [← ht]; exact h5
  obtain ⟨hR, hU⟩ := h.addB (d := b ++ [0]) (sz := b.length + 1) (by simp)
  refine ⟨_, ?_, holds_addB, hU, hR⟩
  unfold getText
  have e1 : typed v ty s.st = .ok (some a, s.st) := by
    unfold typed
    mstep rdVal_run h.val
    simp only
    mstep nType_run h1 h2'
    simp
  rw [bind_ok (up_ok e1)]
  simp only
  rw [bind_ok (a := s.mem v) (s' := ⟨s.st, s.mem⟩) rfl]
  simp only [hc]
  refine (bind_ok (up_ok (a := .buf s.st.nb 0) (st := s.st.addB A (b.length + 1) (b ++ [0])) ?_)).trans rfl
  show (do copyOut (← rdVal v).a (← nStr a) (← nLen a) : M _) s.st = _
  mstep rdVal_run h.val
  mstep nStr_run h1 h3
  mstep nLen_run h1 h4
  exact copyOut_run h.inv.ok h.alloc h5

/-- Later calls return what is remembered. -/
theorem getText_again (ty : JType) (hty : ty = .string ∨ ty = .number) (h : Ready s.st P G v x A)
    (hs : Shows s.st v (if ty = .string then .str b else .num b)) (hc : (s.mem v).str = some p) :
    getText ty v s = .ok (some p, s) := by
  obtain ⟨a, gn, rfl, ha, hu⟩ := h.node_of hs
  have hg : gn.val = if ty = .string then .str b else .num b := by
    rcases hty with rfl | rfl
    · simp only [if_true] at hu ⊢; exact hu.str_inv
    · simp only [reduceCtorEq, if_false] at hu ⊢; exact hu.num_inv
  obtain ⟨nd, q, h1, h2, _⟩ := h.inv.scalar ha (by rw [hg]; split <;> rfl)
  have h2' : nd.type = some ty := by rw [h2, hg]; rcases hty with rfl | rfl <;> rfl
  unfold getText
  have e1 : typed v ty s.st = .ok (some a, s.st) := by
    unfold typed
    mstep rdVal_run h.val
    simp only
    mstep nType_run h1 h2'
    simp
  rw [bind_ok (up_ok e1)]
  simp only
  rw [bind_ok (a := s.mem v) (s' := ⟨s.st, s.mem⟩) rfl]
  simp only [hc]
  rfl

/-- What is remembered is returned whatever the value holds by now: with a string `b` in the value and
another text remembered, `z_ValueGetString` returns the other text. -/
theorem C72_stale (h : Ready s.st P G v x A) (hs : Shows s.st v (.str b)) (hc : (s.mem v).str = some p)
    (hd : HoldsText s.st p d) : getString v s = .ok (some p, s) ∧ HoldsText s.st p d :=
  ⟨getText_again .string (.inl rfl) h hs hc, hd⟩

/-- The handle shows the string `b`, and if it remembers a text, this is `b`. -/
def Tells (s : BSt D) (v A : Addr) (b : Bytes) : Prop :=
  ∃ P G x, Ready s.st P G v x A ∧ Shows s.st v (.str b) ∧ ∀ p, (s.mem v).str = some p → HoldsText s.st p b

theorem HoldsText.unch {st st' : St} (h : HoldsText st p b) (ho : StOK st) (hu : Unchanged st st') :
    HoldsText st' p b := by
  obtain ⟨c, bf, rfl, h1, h2⟩ := h
  exact ⟨c, bf, rfl, by rw [hu.1.bufs c (ho.buf_lt h1) id]; exact h1, h2⟩

/-- C72, reading: as long as what the handle remembers is right, `z_ValueGetString` returns the string
the value holds, and it stays right. -/
theorem C72_get_partial (h : Tells s v A b) :
    ∃ p s', getString v s = .ok (some p, s') ∧ HoldsText s'.st p b ∧ Tells s' v A b ∧
      (s'.mem v).str = some p ∧ Unchanged s.st s'.st := by
  obtain ⟨P, G, x, hR, hs, hc⟩ := h
  cases e : (s.mem v).str with
  | none =>
    obtain ⟨st', h1, h2, h3, h4⟩ := getText_first .string (.inl rfl) hR hs e
    refine ⟨_, _, h1, h2, ⟨P, G, x, h4, ?_, fun p hp => ?_⟩, by simp, h3⟩
    · obtain ⟨a, gn, rfl, ha, hu⟩ := hR.node_of hs
      exact h4.shows (.mk ha hu)
    · simp only [upd_same, Option.some.injEq] at hp
      subst hp; exact h2
  | some p =>
    exact ⟨p, s, getText_again .string (.inl rfl) hR hs e, hc p e, ⟨P, G, x, hR, hs, hc⟩, e,
      ⟨Frame.refl _, rfl⟩⟩

/-- C72 after parsing through the handle: nothing old is remembered. -/
theorem C72_parse_partial {r : Bytes} (h : Ready s.st P G v x A) (hs : CStr s.st p b) (hl : Lent s.st p)
    (ht : JText (.str r) b) : ∃ s', parseFast v p s = .ok (true, s') ∧ Tells s' v A r := by
  rcases parseFast_cases h hs hl with ⟨t, h1, s', P', G', h2, h3, h4, h5, _⟩ | ⟨hn, _⟩
  · obtain rfl := JText_unique ht h1
    exact ⟨s', h2, P', G', _, h4, h3, fun q hq => by rw [h5] at hq; cases hq⟩
  · exact absurd ⟨_, ht⟩ hn

/-- C72, writing through the same handle: after `z_ValueSetStr` returned true, nothing old is
remembered; after false nothing has changed. -/
theorem C72_set_partial (h : Ready s.st P G v x A) (hs : CStr s.st p d) :
    (IsSetBody d ∧ ∃ s', setStr v p s = .ok (true, s') ∧ Tells s' v A d) ∨
    (¬ IsSetBody d ∧ setStr v p s = .ok (false, s)) := by
  rcases C15_setStr h hs with ⟨h1, st', h2, h3⟩ | ⟨h1, h2⟩
  · obtain ⟨gn, hr, _⟩ := h3.store
    refine .inl ⟨h1, ⟨st', upd s.mem v {}⟩, (bind_ok (up_ok h2)).trans rfl, _, _, _, hr, h3.shows, fun q hq => ?_⟩
    simp at hq
  · exact .inr ⟨h1, (bind_ok (up_ok h2)).trans rfl⟩

end

/-- C72 is false with two handles on one value: the first has read the string, the second replaces
it, and the first still returns the old text, while printing shows the new one. -/
theorem C72_false :
    out ((do
      let p ← up (callerText (b!"[\"old\"]" ++ [0]))
      let _ ← parse 0 p
      match ← begin_ 0, ← begin_ 0 with
      | some v, some w =>
        let _ ← getString v
        let q ← up (callerText (b!"new" ++ [0]))
        let _ ← setStr w q
        match ← getString v with
        | some r => return (← up (readN r 3), ← up (readN (← stringify 99 0) 7))
        | none => return ([], [])
      | _, _ => return ([], []) : BM Unit (Bytes × Bytes)) (start Unit)) = .ok (b!"old", b!"[\"new\"]") := by
  decide +kernel

/-- C72 is false with two handles in a worse way: one handle remembers the unescaped string, the other
makes the value a number; then `z_ValueGetNum` takes the text for a number. -/
theorem C72_false_union :
    out ((do
      let p ← up (callerText (b!"[\"old\"]" ++ [0]))
      let _ ← parse 0 p
      match ← begin_ 0, ← begin_ 0 with
      | some v, some w =>
        let _ ← getUnEscapeString v
        let q ← up (callerText (b!"7" ++ [0]))
        let _ ← setNumStr w q
        getNum ⟨id, id⟩ v
      | _, _ => return none : BM Bytes (Option Bytes)) (start Bytes)) = .ub .badUnion := by
  decide +kernel

/-- A handle that tells what it holds exists: set a string in the first state. -/
example : ∃ s' : BSt Unit, Tells s' 0 0 b!"a" := by
  have h := (start_ready (fun _ => 8)).addC (d := b!"a" ++ [0])
  rcases C72_set_partial (s := ⟨(ZJ.start fun _ => 8).addC (b!"a" ++ [0]), fun _ => {}⟩) h (addC_cstr (by decide)) with
    ⟨_, s', _, h⟩ | ⟨h, _⟩
  · exact ⟨s', h⟩
  · exact absurd (.plain (by decide) (by decide) (by decide) .nil) h

end ZJ.Beta
