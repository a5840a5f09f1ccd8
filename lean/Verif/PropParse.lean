import Verif.View

/-
Property theorems about parsing: C01-C06 and C10.
-/

set_option linter.unusedSimpArgs false

namespace ZJ

/-- The situation before a call: the memory represents the store `G` (documents rely on the
byte blocks of `P`), the scratch string is usable, and `v` is an empty handle (`x = none`)
or a handle on a value of the store, from allocator `A`. -/
structure Ready (st : St) (P : Addr → Prop) (G : Graph) (v : Addr) (x : Option Addr) (A : Nat) : Prop where
  inv : Inv st P G
  cok : CacheOK st
  val : st.vals v = some ⟨x, A⟩
  node : ∀ a, x = some a → (G a).isSome

/-- The pointer does not point into the library's scratch string or into freed memory. -/
def Lent (st : St) (p : SPtr) : Prop :=
  ∀ b off, p = .buf b off → (st.bufs b).isSome ∧ ∀ z, st.cache = some z → b ≠ z.hdr ∧ b ≠ z.data

/-- `P` and the block `p` points into. -/
def pinned (P : Addr → Prop) (p : SPtr) : Addr → Prop := fun b => P b ∨ ∃ off, p = .buf b off

/-- The result of a run without the final state. -/
def Res.out {α : Type} : Res (α × St) → Res α
  | .ok (a, _) => .ok a
  | .ub u => .ub u
  | .timeout => .timeout

section
variable {st st' : St} {P : Addr → Prop} {G : Graph} {v A : Addr} {x : Option Addr} {p q : SPtr} {b : Bytes}
  {t : Json}

theorem Ready.lend (h : Ready st P G v x A) (hl : Lent st p) : Ready st (pinned P p) G v x A :=
  { h with inv := h.inv.mono_pin (fun _ h => .inl h) (fun c hc => by
      rcases hc with hc | ⟨off, rfl⟩
      · exact h.inv.pin c hc
      · exact hl c off rfl) }

theorem inP_pinned : InP (pinned P p) p := fun _ off h => .inr ⟨off, h⟩

theorem Example.ready {a} (h : Example st P G v a t) : Ready st P G v (some a) 0 :=
  ⟨h.inv, h.cok, h.handle, fun c hc => by
    cases hc
    obtain ⟨gn, hg, _⟩ := h.root
    simp [hg]⟩

theorem Ready.alloc (h : Ready st P G v x A) : st.allocs A = true := h.inv.ok.live _ _ h.val

theorem Ready.addC (h : Ready st P G v x A) {d : Bytes} : Ready (st.addC d) P G v x A :=
  ⟨h.inv.addC, h.cok.addC h.inv.ok, h.val, h.node⟩

theorem start_ready (slack : Nat → Nat) (cfg : Cfg := {}) : Ready (start slack cfg) (fun _ => False) (fun _ => none) 0 none 0 :=
  ⟨start_inv slack cfg, start_cache slack cfg, start_vals slack cfg, fun _ h => by cases h⟩

theorem addC_lent (ho : StOK st) {d : Bytes} : Lent (st.addC d) (.buf st.nb 0) := by
  intro c off h
  cases h
  refine ⟨by simp [St.addC], fun z hz => ?_⟩
  have := ho.cache z hz
  omega

/-- Whether a text is JSON, for both kinds of callers. -/
theorem parse_cases (h : Ready st P G v x A) (hs : CStr st p b) :
    (∃ t, JText t b ∧ ∃ st', parse v p st = .ok (true, st') ∧ Shows st' v t ∧
      Frame (· = rootOf st x) (· = v) (fun _ => False) st st') ∨
    ((¬ ∃ t, JText t b) ∧ ((∃ st', parse v p st = .ok (false, st') ∧ Unchanged st st' ∧ Inv st' P G) ∨
      (parse v p st = .ub .oob ∧ st.slack st.nb < 3))) := by
  by_cases ht : ∃ t, JText t b
  · obtain ⟨t, ht⟩ := ht
    obtain ⟨st', gv, g, h1, h2, h3, h4, _, _, h7, _⟩ := parse_accept h.inv h.val h.node hs ht
    exact .inl ⟨t, ht, st', h1, h2.shows h4 h3, h7⟩
  · refine .inr ⟨ht, ?_⟩
    rcases parse_reject h.inv h.val h.node hs ht with ⟨st', h1, h2, h3⟩ | h1
    · exact .inl ⟨st', h1, h2, h.inv.unchanged h2 h3⟩
    · exact .inr h1

theorem parseFast_cases (h : Ready st P G v x A) (hs : CStr st p b) (hl : Lent st p) :
    (∃ t, JText t b ∧ ∃ st', parseFast v p st = .ok (true, st') ∧ Shows st' v t ∧
      Frame (· = rootOf st x) (· = v) (fun _ => False) st st') ∨
    ((¬ ∃ t, JText t b) ∧ ((∃ st', parseFast v p st = .ok (false, st') ∧ Unchanged st st' ∧ Inv st' P G) ∨
      (parseFast v p st = .ub .oob ∧ ∀ s lim, view p st = .ok ((s, lim), st) → lim < b.length + 4))) := by
  have h' := h.lend hl
  by_cases ht : ∃ t, JText t b
  · obtain ⟨t, ht⟩ := ht
    obtain ⟨st', gv, g, h1, h2, h3, h4, _, _, h7, _⟩ := parseFast_accept h'.inv h'.val h'.node hs inP_pinned ht
    exact .inl ⟨t, ht, st', h1, h2.shows h4 h3, h7⟩
  · refine .inr ⟨ht, ?_⟩
    obtain ⟨h0, r, lim, hv⟩ := hs
    rcases parseFast_reject h'.inv h'.val h'.node h0 hv inP_pinned ht with ⟨st', h1, h2, h3⟩ | ⟨h1, h2⟩
    · exact .inl ⟨st', h1, h2, h.inv.unchanged h2 h3⟩
    · refine .inr ⟨h1, fun s lim' hv' => ?_⟩
      rw [hv] at hv'; cases hv'; exact h2

/-! ### C01: Parse accepts exactly JSON -/

/-- C01. `zj_Parse` returns true exactly on the texts of the RFC 8259 grammar. -/
theorem C01_parse_true_iff (h : Ready st P G v x A) (hs : CStr st p b) :
    (∃ st', parse v p st = .ok (true, st')) ↔ ∃ t, JText t b := by
  constructor
  · rintro ⟨st', h1⟩
    rcases parse_cases h hs with ⟨t, ht, _⟩ | ⟨_, ⟨_, h2, _⟩ | ⟨h2, _⟩⟩
    · exact ⟨t, ht⟩
    · rw [h1] at h2; cases h2
    · rw [h1] at h2; cases h2
  · rintro ⟨t, ht⟩
    rcases parse_cases h hs with ⟨_, _, st', h1, _⟩ | ⟨hn, _⟩
    · exact ⟨st', h1⟩
    · exact absurd ⟨t, ht⟩ hn

/-- C01 for `zj_ParseFast`. -/
theorem C01_parseFast_true_iff (h : Ready st P G v x A) (hs : CStr st p b) (hl : Lent st p) :
    (∃ st', parseFast v p st = .ok (true, st')) ↔ ∃ t, JText t b := by
  constructor
  · rintro ⟨st', h1⟩
    rcases parseFast_cases h hs hl with ⟨t, ht, _⟩ | ⟨_, ⟨_, h2, _⟩ | ⟨h2, _⟩⟩
    · exact ⟨t, ht⟩
    · rw [h1] at h2; cases h2
    · rw [h1] at h2; cases h2
  · rintro ⟨t, ht⟩
    rcases parseFast_cases h hs hl with ⟨_, _, st', h1, _⟩ | ⟨hn, _⟩
    · exact ⟨st', h1⟩
    · exact absurd ⟨t, ht⟩ hn

/-- C01, the other answer: on every other text `zj_Parse` returns false, if the block the
library copies the text into is followed by three readable bytes (see C05). -/
theorem C01_parse_false_iff (h : Ready st P G v x A) (hs : CStr st p b) (hk : 3 ≤ st.slack st.nb) :
    (∃ st', parse v p st = .ok (false, st')) ↔ ¬ ∃ t, JText t b := by
  rcases parse_cases h hs with ⟨t, ht, st', h1, _⟩ | ⟨hn, ⟨st', h2, _⟩ | ⟨_, h2⟩⟩
  · refine ⟨fun ⟨st2, h2⟩ => ?_, fun hn => absurd ⟨t, ht⟩ hn⟩
    rw [h1] at h2; cases h2
  · exact ⟨fun _ => hn, fun _ => ⟨st', h2⟩⟩
  · omega

/-- C01, the other answer, for `zj_ParseFast`. -/
theorem C01_parseFast_false_iff (h : Ready st P G v x A) (h0 : (0 : Byte) ∉ b) {r lim}
    (hv : view p st = .ok ((b ++ 0 :: r, lim), st)) (hl : Lent st p) (hk : b.length + 4 ≤ lim) :
    (∃ st', parseFast v p st = .ok (false, st')) ↔ ¬ ∃ t, JText t b := by
  rcases parseFast_cases h ⟨h0, r, lim, hv⟩ hl with ⟨t, ht, st', h1, _⟩ | ⟨hn, ⟨st', h2, _⟩ | ⟨_, h2⟩⟩
  · refine ⟨fun ⟨st2, h2⟩ => ?_, fun hn => absurd ⟨t, ht⟩ hn⟩
    rw [h1] at h2; cases h2
  · exact ⟨fun _ => hn, fun _ => ⟨st', h2⟩⟩
  · have := h2 _ _ hv
    omega

/-- C01 for whole programs: from an empty memory, allocator, value, text of the caller,
`zj_Parse`. No hypothesis besides: the text has no NUL inside. -/
theorem C01_program (slack : Nat → Nat) (b : Bytes) (h0 : (0 : Byte) ∉ b) :
    (∃ st', (do
        let A ← newAllocator
        let v ← newValue A
        let p ← callerText (b ++ [0])
        parse v p : M Bool) (St.init slack cfg) = .ok (true, st')) ↔ ∃ t, JText t b :=
  C01_parse_true_iff (start_ready slack cfg).addC (addC_cstr h0)

/-- The hypotheses of C01 can be met, with an empty handle and with one on a value. -/
example : ∃ st P G v x A p, Ready st P G v x A ∧ CStr st p b!"[1, {\"a\": null}]" ∧ Lent st p ∧ x ≠ none := by
  obtain ⟨st, P, G, v, a, h, _⟩ := exists_example (t := .arr [.bool true, .null]) (by simp [Json.Valid, Json.ValidElems]) (fun _ => 0)
  exact ⟨_, P, G, v, _, 0, _, h.ready.addC (d := b!"[1, {\"a\": null}]" ++ [0]), addC_cstr (by decide), addC_lent h.inv.ok,
    by simp⟩

example : ∃ st P G v x A p, Ready st P G v x A ∧ CStr st p b!"[1, tru]" ∧ Lent st p ∧ x = none ∧
    3 ≤ st.slack st.nb :=
  ⟨_, _, _, 0, _, 0, _, (start_ready (fun _ => 7)).addC (d := b!"[1, tru]" ++ [0]), addC_cstr (by decide), addC_lent (start_ok _),
    rfl, by decide⟩

/-- Accepted and rejected texts, run. -/
example : ((make 0 b!" [1 , {\"a\":null}] ") (start fun _ => 0)).out = .ok (1, true) := by decide +kernel
example : ((make 0 b!"[1,]") (start fun _ => 0)).out = .ok (1, false) := by decide +kernel
example : ((make 0 b!"") (start fun _ => 0)).out = .ok (1, false) := by decide +kernel
example : ((make 0 b!"\"\\ud800\"") (start fun _ => 0)).out = .ok (1, false) := by decide +kernel

/-! ### C02: the parsed value is the document -/

/-- C02. If `zj_Parse` returns true, the memory reachable from `v` is the document the
grammar assigns to the text, and there is only one such document. -/
theorem C02_parse_document (h : Ready st P G v x A) (hs : CStr st p b) (hr : parse v p st = .ok (true, st')) :
    ∃ t, JText t b ∧ Shows st' v t ∧ ∀ t', JText t' b → t' = t := by
  rcases parse_cases h hs with ⟨t, ht, st2, h1, h2, _⟩ | ⟨_, ⟨_, h2, _⟩ | ⟨h2, _⟩⟩
  · rw [hr] at h1; cases h1
    exact ⟨t, ht, h2, fun t' ht' => JText_unique ht' ht⟩
  · rw [hr] at h2; cases h2
  · rw [hr] at h2; cases h2

/-- C02 for `zj_ParseFast`. -/
theorem C02_parseFast_document (h : Ready st P G v x A) (hs : CStr st p b) (hl : Lent st p)
    (hr : parseFast v p st = .ok (true, st')) :
    ∃ t, JText t b ∧ Shows st' v t ∧ ∀ t', JText t' b → t' = t := by
  rcases parseFast_cases h hs hl with ⟨t, ht, st2, h1, h2, _⟩ | ⟨_, ⟨_, h2, _⟩ | ⟨h2, _⟩⟩
  · rw [hr] at h1; cases h1
    exact ⟨t, ht, h2, fun t' ht' => JText_unique ht' ht⟩
  · rw [hr] at h2; cases h2
  · rw [hr] at h2; cases h2

/-- What is shown is determined: no second document can be read from the same memory. -/
theorem C02_shown_unique {t t' : Json} (h : Shows st v t) (h' : Shows st v t') : t = t' := h.det h'

/-- C02, the rest of the memory: only the node of `v` and the handle `v` are written, and
the parsed value keeps the key, the parent and the place among its siblings that `v` had. -/
theorem C02_parse_frame (h : Ready st P G v x A) (hs : CStr st p b) (hr : parse v p st = .ok (true, st')) :
    Frame (· = rootOf st x) (· = v) (fun _ => False) st st' ∧
    ∃ P' G', Ready st' P' G' v (some (rootOf st x)) A ∧
      (∀ c gc, c ≠ rootOf st x → G c = some gc → G' c = some gc) ∧
      ∃ gn, G' (rootOf st x) = some gn ∧ gn.key = (baseNode G x).key ∧ gn.par = (baseNode G x).par := by
  obtain ⟨t, ht⟩ := (C01_parse_true_iff h hs).1 ⟨_, hr⟩
  obtain ⟨st2, gv, g, h1, h2, h3, h4, h5, h6, h7, _⟩ := parse_accept h.inv h.val h.node hs ht
  rw [hr] at h1; cases h1
  refine ⟨h7, _, _, ⟨h2, h.cok.frame h.inv.ok h7 h5, h4, ?_⟩, ?_, ?_⟩
  · intro a ha
    cases ha
    simp [Graph.plant]
  · intro c gc hc hg
    unfold Graph.plant
    rw [Graph.set_ne _ _ hc, Graph.or_apply]
    cases hgc : g c with
    | none => simpa using hg
    | some y => have := h6 c y hgc; have := h.inv.lt hg; omega
  · exact ⟨(baseNode G x).put gv, by simp [Graph.plant], rfl, rfl⟩

/-- What is read back from the parsed memory, run: the second element of the array. -/
example : ((do
    let (v, _) ← make 0 b!"[true, [ \"x\\n\" ,-1.5e3]]"
    let some w ← arrayGet 9 v 1 | return (none, none)
    let some y ← arrayGet 9 w 0 | return (none, none)
    let some z ← arrayGet 9 w 1 | return (none, none)
    let some (p, n) ← getStrFast y | return (none, none)
    let some (q, m) ← getNumFast z | return (none, none)
    return (some (← readN p n), some (← readN q m)) : M _) (start fun _ => 0)).out
    = .ok (some b!"x\\n", some b!"-1.5e3") := by decide +kernel

/-! ### C03: parsing terminates -/

/-- C03. The loops of `zj_ParseFast` and `zj_Parse` never exceed `3 * n + 3` rounds on a
text with `n` readable bytes, at any nesting depth: the outcome is an answer (or an access
outside the memory, see C05), never an endless loop. -/
theorem C03_terminates (h : Ready st P G v x A) (hs : CStr st p b) (hl : Lent st p) :
    parseFast v p st ≠ .timeout ∧ parse v p st ≠ .timeout := by
  constructor
  · rcases parseFast_cases h hs hl with ⟨_, _, _, h1, _⟩ | ⟨_, ⟨_, h1, _⟩ | ⟨h1, _⟩⟩ <;> rw [h1] <;> simp
  · rcases parse_cases h hs with ⟨_, _, _, h1, _⟩ | ⟨_, ⟨_, h1, _⟩ | ⟨h1, _⟩⟩ <;> rw [h1] <;> simp

/-- The text `[[[...` of `n` brackets. -/
def deep (n : Nat) : Bytes := List.replicate n 0x5B ++ List.replicate n 0x5D

/-- Nesting depth is not limited: `n` nested arrays are JSON for every `n ≥ 1` ... -/
theorem deep_value : ∀ n, ∃ t, JValue t (deep (n + 1))
  | 0 => ⟨_, JValue.arrNil (w := []) (fun _ h => by cases h)⟩
  | n + 1 => by
    obtain ⟨t, ht⟩ := deep_value n
    refine ⟨.arr [t], ?_⟩
    have h := JValue.arr (JElems.one (t := t) (w := []) (b := deep (n + 1)) (w' := []) (fun _ h => by cases h) ht
      (fun _ h => by cases h))
    have e : deep (n + 1 + 1) = 0x5B :: ([] ++ (deep (n + 1) ++ []) ++ [0x5D]) := by
      unfold deep
      rw [List.replicate_succ (n := n + 1), List.replicate_succ' (n := n + 1) (a := (0x5D : UInt8))]
      simp
    rw [e]; exact h

/-- ... and are accepted. -/
theorem C03_any_depth (n : Nat) (h : Ready st P G v x A) (hs : CStr st p (deep (n + 1))) :
    ∃ st', parse v p st = .ok (true, st') := by
  obtain ⟨t, ht⟩ := deep_value n
  exact (C01_parse_true_iff h hs).2 ⟨t, [], _, [], by simp, fun _ h => (by cases h), ht, fun _ h => (by cases h)⟩

/-- The state of C03_any_depth exists, here for depth 1000. -/
example : ∃ st P G v x A p, Ready st P G v x A ∧ CStr st p (deep 1000) :=
  ⟨_, _, _, 0, _, 0, _, (start_ready (fun _ => 0)).addC (d := deep 1000 ++ [0]), addC_cstr (by
    unfold deep
    rw [List.mem_append, List.mem_replicate, List.mem_replicate]
    decide)⟩

/-! ### C04: a failed parse changes nothing -/

/-- C04. If `zj_Parse` returns false, every node, handle and byte block that existed has
the same contents as before (so `v` is still empty, or still shows what it showed, with the
same key, parent and siblings); the memory represents the same store of documents. -/
theorem C04_parse_failed (h : Ready st P G v x A) (hs : CStr st p b) (hr : parse v p st = .ok (false, st')) :
    Ready st' P G v x A ∧
    (∀ a, a < st.nn → st'.nodes a = st.nodes a) ∧ (∀ w, w < st.nv → st'.vals w = st.vals w) ∧
    (∀ c, c < st.nb → st'.bufs c = st.bufs c) ∧ st'.cache = st.cache := by
  rcases parse_cases h hs with ⟨_, _, _, h1, _⟩ | ⟨_, ⟨_, h1, h2, h3⟩ | ⟨h1, _⟩⟩
  · rw [hr] at h1; cases h1
  · rw [hr] at h1; cases h1
    refine ⟨⟨h3, h.cok.frame h.inv.ok h2.1 h2.2, ?_, h.node⟩, fun a ha => h2.1.nodes a ha id,
      fun a ha => h2.1.vals a ha id, fun a ha => h2.1.bufs a ha id, h2.2⟩
    rw [h2.1.vals v (h.inv.ok.val_lt h.val) id, h.val]
  · rw [hr] at h1; cases h1

/-- C04 for `zj_ParseFast`. -/
theorem C04_parseFast_failed (h : Ready st P G v x A) (hs : CStr st p b) (hl : Lent st p)
    (hr : parseFast v p st = .ok (false, st')) :
    Ready st' P G v x A ∧
    (∀ a, a < st.nn → st'.nodes a = st.nodes a) ∧ (∀ w, w < st.nv → st'.vals w = st.vals w) ∧
    (∀ c, c < st.nb → st'.bufs c = st.bufs c) ∧ st'.cache = st.cache := by
  rcases parseFast_cases h hs hl with ⟨_, _, _, h1, _⟩ | ⟨_, ⟨_, h1, h2, h3⟩ | ⟨h1, _⟩⟩
  · rw [hr] at h1; cases h1
  · rw [hr] at h1; cases h1
    refine ⟨⟨h3, h.cok.frame h.inv.ok h2.1 h2.2, ?_, h.node⟩, fun a ha => h2.1.nodes a ha id,
      fun a ha => h2.1.vals a ha id, fun a ha => h2.1.bufs a ha id, h2.2⟩
    rw [h2.1.vals v (h.inv.ok.val_lt h.val) id, h.val]
  · rw [hr] at h1; cases h1

/-- C04 for `zj_ParseLen`, also for texts with embedded NUL bytes. -/
theorem C04_parseLen_failed (h : Ready st P G v x A) (hs : Reads st p b)
    (hr : parseLen v p b.length st = .ok (false, st')) :
    Ready st' P G v x A ∧
    (∀ a, a < st.nn → st'.nodes a = st.nodes a) ∧ (∀ w, w < st.nv → st'.vals w = st.vals w) ∧
    (∀ c, c < st.nb → st'.bufs c = st.bufs c) ∧ st'.cache = st.cache := by
  have hsplit : ∃ c r, b ++ [0] = c ++ 0 :: r ∧ (0 : Byte) ∉ c := by
    rcases nul_first b with h0 | ⟨c, r, rfl, h0⟩
    · exact ⟨b, [], rfl, h0⟩
    · exact ⟨c, r ++ [0], by simp, h0⟩
  obtain ⟨c, r, hc, h0⟩ := hsplit
  by_cases ht : ∃ t, JText t c
  · obtain ⟨t, ht⟩ := ht
    obtain ⟨_, _, _, h1, _⟩ := parseLen_accept h.inv h.val h.node hs hc ht
    rw [hr] at h1; cases h1
  · rcases parseLen_reject h.inv h.val h.node hs hc h0 ht with ⟨st2, h1, h2, h3⟩ | ⟨h1, _⟩
    · rw [hr] at h1; cases h1
      refine ⟨⟨h.inv.unchanged h2 h3, h.cok.frame h.inv.ok h2.1 h2.2, ?_, h.node⟩, fun a ha => h2.1.nodes a ha id,
        fun a ha => h2.1.vals a ha id, fun a ha => h2.1.bufs a ha id, h2.2⟩
      rw [h2.1.vals v (h.inv.ok.val_lt h.val) id, h.val]
    · rw [hr] at h1; cases h1

/-- A failing parse deep inside a container, into a handle that already has a value: the
hypotheses of C04 are met, and the old value is printed afterwards. -/
example : ((do
    let (v, _) ← make 0 b!"[1,2]"
    let p ← callerText (b!"[[{\"a\":[1,2,}]]" ++ [0])
    let r ← parse v p
    let q ← stringify 99 v
    return (r, ← readN q 6) : M _) (start fun _ => 0)).out = .ok (false, b!"[1,2]" ++ [0]) := by decide +kernel

/-! ### C05: ParseFast reads only the caller's string (false) -/

/-- C05 is false: on the text `n` in a block of exactly two bytes `zj_ParseFast` reads four
bytes (zzzjson.h:852-858). -/
theorem C05_false : ((do
    let A ← newAllocator
    let v ← newValue A
    let p ← callerText (b!"n" ++ [0])
    parseFast v p : M Bool) (St.init fun _ => 0)).out = .ub .oob := by decide +kernel

/-- Also inside a document: `[tr`. -/
theorem C05_false_nested : ((do
    let A ← newAllocator
    let v ← newValue A
    let p ← callerText (b!"[tr" ++ [0])
    parseFast v p : M Bool) (St.init fun _ => 0)).out = .ub .oob := by decide +kernel

/-- C05, the part that holds: valid texts are never over-read, whatever follows them; on
other texts at most three bytes behind the NUL are read. Missing for the full property: the
over-read of up to three bytes on invalid texts, which `C05_false` shows to be real. -/
theorem C05_partial (h : Ready st P G v x A) (hs : CStr st p b) (hl : Lent st p) :
    ((∃ t, JText t b) → ∃ st', parseFast v p st = .ok (true, st')) ∧
    (∀ s lim, view p st = .ok ((s, lim), st) → b.length + 4 ≤ lim → ∃ r st', parseFast v p st = .ok (r, st')) := by
  refine ⟨fun ht => (C01_parseFast_true_iff h hs hl).2 ht, fun s lim hv hk => ?_⟩
  rcases parseFast_cases h hs hl with ⟨_, _, st', h1, _⟩ | ⟨_, ⟨st', h1, _⟩ | ⟨_, h1⟩⟩
  · exact ⟨true, st', h1⟩
  · exact ⟨false, st', h1⟩
  · have := h1 _ _ hv; omega

/-- The second part is not vacuous: a block with three bytes of slack. -/
example : ∃ st P G v x A p s lim, Ready st P G v x A ∧ CStr st p b!"tr" ∧ Lent st p ∧
    view p st = .ok ((s, lim), st) ∧ 2 + 4 ≤ lim :=
  ⟨_, _, _, 0, _, 0, _, _, _, (start_ready (fun _ => 3)).addC (d := b!"tr" ++ [0]), addC_cstr (by decide), addC_lent (start_ok _),
    rfl, by decide⟩

/-! ### C06: ParseLen honours its length (false with embedded NUL) -/

/-- C06 is false: `zj_ParseLen(v, "1\0x", 3)` returns true although the three bytes are not
a JSON text (the parser stops at the NUL). -/
theorem C06_false : ((do
    let A ← newAllocator
    let v ← newValue A
    let p ← callerText [0x31, 0, 0x78]
    parseLen v p 3 : M Bool) (St.init fun _ => 0)).out = .ok true ∧ ¬ ∃ t, JText t [0x31, 0, 0x78] := by
  refine ⟨by decide +kernel, fun ⟨t, ht⟩ => ?_⟩
  exact absurd ht.no_nul (by decide)

/-- C06, the part that holds: for bytes without NUL `zj_ParseLen` returns true exactly if
they are a JSON text. Missing: embedded NULs, where the text before the first NUL decides
(`C06_nul`). -/
theorem C06_partial (h : Ready st P G v x A) (hs : Reads st p b) (h0 : (0 : Byte) ∉ b) :
    (∃ st', parseLen v p b.length st = .ok (true, st')) ↔ ∃ t, JText t b := by
  constructor
  · rintro ⟨st', h1⟩
    apply Classical.byContradiction
    intro hn
    rcases parseLen_reject h.inv h.val h.node hs (c := b) (r := []) rfl h0 hn with ⟨_, h2, _⟩ | ⟨h2, _⟩ <;>
      rw [h1] at h2 <;> cases h2
  · rintro ⟨t, ht⟩
    obtain ⟨st', _, _, h1, _⟩ := parseLen_accept h.inv h.val h.node hs (c := b) (r := []) rfl ht
    exact ⟨st', h1⟩

/-- C06, exact answer with an embedded NUL: the bytes before the first NUL decide. -/
theorem C06_nul (h : Ready st P G v x A) {c r : Bytes} (hs : Reads st p (c ++ 0 :: r)) (h0 : (0 : Byte) ∉ c) :
    (∃ st', parseLen v p (c ++ 0 :: r).length st = .ok (true, st')) ↔ ∃ t, JText t c := by
  have hc : (c ++ 0 :: r) ++ [0] = c ++ 0 :: (r ++ [0]) := by simp
  constructor
  · rintro ⟨st', h1⟩
    apply Classical.byContradiction
    intro hn
    rcases parseLen_reject h.inv h.val h.node hs hc h0 hn with ⟨_, h2, _⟩ | ⟨h2, _⟩ <;> rw [h1] at h2 <;> cases h2
  · rintro ⟨t, ht⟩
    obtain ⟨st', _, _, h1, _⟩ := parseLen_accept h.inv h.val h.node hs hc ht
    exact ⟨st', h1⟩

/-- C06, only the given bytes are read: two places with the same `len` bytes, followed by
anything or by nothing, give the same run. -/
theorem C06_reads_only (h : Ready st P G v x A) (hs : Reads st p b) (hq : Reads st q b) :
    parseLen v p b.length st = parseLen v q b.length st := by
  rw [parseLen_eq h.val h.alloc hs, parseLen_eq h.val h.alloc hq]

/-- C06 and C02: the document of an accepted text. -/
theorem C06_document (h : Ready st P G v x A) (hs : Reads st p b) (h0 : (0 : Byte) ∉ b)
    (hr : parseLen v p b.length st = .ok (true, st')) : ∃ t, JText t b ∧ Shows st' v t := by
  obtain ⟨t, ht⟩ := (C06_partial h hs h0).1 ⟨_, hr⟩
  obtain ⟨st2, _, _, h1, h2, h3, h4, _⟩ := parseLen_accept h.inv h.val h.node hs (c := b) (r := []) rfl ht
  rw [hr] at h1; cases h1
  exact ⟨t, ht, h2.shows h4 h3⟩

/-- Bytes without terminator in a block of exactly that size. -/
example : ∃ st P G v x A p, Ready st P G v x A ∧ Reads st p b!"[0]" ∧
    ∀ c off, p = .buf c off → ∃ bf, st.bufs c = some bf ∧ bf.size = 3 :=
  ⟨_, _, _, 0, _, 0, _, (start_ready (fun _ => 0)).addC (d := b!"[0]"), addC_reads, fun c off h => by
    cases h
    exact ⟨_, by simp [St.addC]; rfl, rfl⟩⟩

/-! ### C10: Parse owns its text, ParseFast borrows it -/

/-- The caller writes other bytes into block `c` or frees it. -/
def St.clobber (st : St) (c : Addr) (o : Option Buf) : St := { st with bufs := upd st.bufs c o }

theorem Inv.clobber (hI : Inv st P G) {c : Addr} (hc : ¬ P c) {o : Option Buf}
    (ho : ∀ bf, o = some bf → bf.data.length ≤ bf.size) (hlt : c < st.nb) : Inv (st.clobber c o) P G where
  ok := {
    nodes := hI.ok.nodes
    vals := hI.ok.vals
    bufs := fun a ha => by
      have ha : st.nb ≤ a := ha
      show upd _ _ _ a = none
      rw [upd_ne _ _ (by omega)]
      exact hI.ok.bufs a ha
    size := fun a bf ha => by
      have ha : upd _ _ _ a = some bf := ha
      unfold upd at ha
      split at ha
      · exact ho bf ha
      · exact hI.ok.size a bf ha
    live := hI.ok.live
    cache := hI.ok.cache }
  pin := fun a ha => by
    have : a ≠ c := fun e => hc (e ▸ ha)
    obtain ⟨h1, h2⟩ := hI.pin a ha
    refine ⟨?_, h2⟩
    show (upd st.bufs c o a).isSome
    rw [upd_ne _ _ this]
    exact h1
  rep := hI.rep.mono (fun _ _ => rfl) (fun _ h => h) (fun a ha => by
    have : a ≠ c := fun e => hc (e ▸ ha)
    exact upd_ne _ _ this)
  fin := hI.fin

/-- C10. After `zj_Parse` from a block `c` that nothing was borrowed from, the caller may
overwrite or free `c`: the value still is the document of the text, and so is every other
document. -/
theorem C10_parse_owns (h : Ready st P G v x A) {c off : Nat} (hs : CStr st (.buf c off) b) (hP : ¬ P c)
    (ht : JText t b) :
    ∃ st' P' G', parse v (.buf c off) st = .ok (true, st') ∧ Inv st' P' G' ∧ Unf G' (rootOf st x) t ∧
      ∀ o : Option Buf, (∀ bf, o = some bf → bf.data.length ≤ bf.size) →
        Inv (st'.clobber c o) P' G' ∧ Shows (st'.clobber c o) v t := by
  obtain ⟨st', gv, g, h1, h2, h3, h4, _, _, h7, _⟩ := parse_accept h.inv h.val h.node hs ht
  have hlt : c < st.nb := by
    obtain ⟨_, r, lim, hv⟩ := hs
    unfold view at hv
    split at hv
    · cases ‹SPtr.buf c off = _›
    · cases ‹SPtr.buf c off = _›
      split at hv
      · exact h.inv.ok.buf_lt ‹_›
      · cases hv
  refine ⟨st', _, _, h1, h2, h3, fun o ho => ?_⟩
  have hI := h2.clobber (c := c) (o := o) (by rintro (hc | hc); exact hP hc; omega) ho (Nat.lt_of_lt_of_le hlt h7.nb)
  exact ⟨hI, hI.shows h4 h3⟩

/-- C10 for `zj_ParseLen`. -/
theorem C10_parseLen_owns (h : Ready st P G v x A) {c off : Nat} (hs : Reads st (.buf c off) b) (hP : ¬ P c)
    (ht : JText t b) :
    ∃ st' P' G', parseLen v (.buf c off) b.length st = .ok (true, st') ∧ Inv st' P' G' ∧ Unf G' (rootOf st x) t ∧
      ∀ o : Option Buf, (∀ bf, o = some bf → bf.data.length ≤ bf.size) →
        Inv (st'.clobber c o) P' G' ∧ Shows (st'.clobber c o) v t := by
  obtain ⟨st', gv, g, h1, h2, h3, h4, _, _, h7, _⟩ := parseLen_accept h.inv h.val h.node hs (c := b) (r := []) rfl ht
  have hlt : c < st.nb := by
    unfold Reads readN at hs
    split at hs
    · cases ‹SPtr.buf c off = _›
    · cases ‹SPtr.buf c off = _›
      split at hs
      · exact h.inv.ok.buf_lt ‹_›
      · cases hs
  refine ⟨st', _, _, h1, h2, h3, fun o ho => ?_⟩
  have hI := h2.clobber (c := c) (o := o) (by rintro (hc | hc); exact hP hc; omega) ho (Nat.lt_of_lt_of_le hlt h7.nb)
  exact ⟨hI, hI.shows h4 h3⟩

/-- The situation of C10: a text in a block of the caller, next to an existing value. -/
example : ∃ st P G v x A c, Ready st P G v x A ∧ CStr st (.buf c 0) b!"[1]" ∧ ¬ P c ∧ JText (.arr [.num b!"1"]) b!"[1]" ∧
    x ≠ none := by
  obtain ⟨st, P, G, v, a, h, _⟩ := exists_example (t := .arr [.bool true, .null]) (by simp [Json.Valid, Json.ValidElems]) (fun _ => 0)
  refine ⟨_, P, G, v, _, 0, _, h.ready.addC (d := b!"[1]" ++ [0]), addC_cstr (by decide), ?_, ?_, by simp⟩
  · intro hp
    have := (h.inv.pin _ hp).1
    rw [h.inv.ok.bufs _ (Nat.le_refl _)] at this
    cases this
  · exact print_text (t := .arr [.num b!"1"])
      (by simp only [Json.Valid, Json.ValidElems, and_true]
          exact ⟨[], b!"1", [], [], by simp, .inl rfl, .inr ⟨0x31, [], rfl, by decide, by decide, by simp⟩, .inl rfl, .inl rfl⟩)

/-- C10, the Fast variant borrows: after `zj_ParseFast` of `[1]` the caller writes `[2]`
into the buffer, and the value prints as `[2]`. -/
theorem C10_parseFast_borrows : ((do
    let A ← newAllocator
    let v ← newValue A
    let p ← callerText (b!"[1]" ++ [0])
    let _ ← parseFast v p
    (fun st => .ok ((), st.clobber 0 (some ⟨none, 4, 0, b!"[2]" ++ [0]⟩)) : M Unit)
    let q ← stringify 99 v
    readN q 4 : M Bytes) (St.init fun _ => 0)).out = .ok (b!"[2]" ++ [0]) := by decide +kernel

/-- The same program with `zj_Parse`: the value is still `[1]`. -/
example : ((do
    let A ← newAllocator
    let v ← newValue A
    let p ← callerText (b!"[1]" ++ [0])
    let _ ← parse v p
    (fun st => .ok ((), st.clobber 0 none) : M Unit)
    let q ← stringify 99 v
    readN q 4 : M Bytes) (St.init fun _ => 0)).out = .ok (b!"[1]" ++ [0]) := by decide +kernel

end

end ZJ
