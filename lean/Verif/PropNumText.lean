import Verif.PropNumEnd
import Verif.PropEdits

/-
C78: handing the text of a number to the C library.

The manual (READMECHN.md:1075-1147) says that the text `GetNumStr` and `GetNumFast` return can be converted
with `atoi` and the like; of `GetNumFast`, whose text has no terminator of its own, because "in JSON a
number can only be followed by , ] } and the end of the string".
-/

namespace ZJ

/-! ### The programs -/

/-- `atof(p)`: what is converted, the longest text of characters of numbers at `p` (see `atofText`). -/
def atofAt (p : SPtr) : M Bytes := do
  let (s, _) ← view p
  lift (atofText s)

/-- `atoi(p)` (32 bits), `atol(p)`, `atoll(p)` (64 bits). -/
def atoiAt (bits : Nat) (p : SPtr) : M Int := do
  let (s, _) ← view p
  lift (atoiBits bits s)

/-- READMECHN.md:1090-1110: `atof(GetNumStr(v))` if there is a text. -/
def strAtof (v : Addr) : M (Option Bytes) := do
  match ← getNumStr v with
  | none => return none
  | some p => return some (← atofAt p)

/-- The same with `atoi`. -/
def strAtoi (bits : Nat) (v : Addr) : M (Option Int) := do
  match ← getNumStr v with
  | none => return none
  | some p => return some (← atoiAt bits p)

/-- READMECHN.md:1148-1171: `atof(GetNumFast(v, &len))` if there is a text. -/
def fastAtof (v : Addr) : M (Option Bytes) := do
  match ← getNumFast v with
  | none => return none
  | some (p, _) => return some (← atofAt p)

/-- The same with `atoi`. -/
def fastAtoi (bits : Nat) (v : Addr) : M (Option Int) := do
  match ← getNumFast v with
  | none => return none
  | some (p, _) => return some (← atoiAt bits p)

section
variable {st st' : St} {P P' : Addr → Prop} {G : Graph} {v w A B a : Addr} {x : Option Addr} {p q : SPtr}
  {b raw rest : Bytes} {n : Int} {t : Json} {gn : GNode} {bits : Nat}

/-! ### `GetNumStr` -/

/-- C78, `zj_GetNumStr`: for every number in every value, of any length, `atof` of the copy converts exactly the
number, and `atoi` and the like give its integer part if that fits their type. -/
theorem C78_numStr (h : Ready st P G v x A) (hs : Shows st v (.num raw)) (hn : IsNum raw) :
    ∃ st', strAtof v st = .ok (some raw, st') ∧ Unchanged st st' ∧ Ready st' P G v x A ∧
      ∀ bits n, HasIntPart raw n → InRange bits n → strAtoi bits v st = .ok (some n, st') := by
  obtain ⟨a, gn, rfl, hg, hu⟩ := h.node_of hs
  have e := getNumStr_run h.inv h.val hg hu.num
  obtain ⟨h3, h4⟩ := h.addB (d := raw ++ [0]) (sz := raw.length + 1) (by simp)
  have hw : ∃ lim, view (.buf st.nb 0) (st.addB A (raw.length + 1) (raw ++ [0])) = .ok ((raw ++ [0], lim), st.addB A (raw.length + 1) (raw ++ [0])) :=
    ⟨_, by simp [view, St.addB]; rfl⟩
  obtain ⟨lim, hw⟩ := hw
  refine ⟨_, ?_, h4, h3, fun bits n hi hr => ?_⟩
  · unfold strAtof
    mstep e
    have this : atofText (raw ++ [0]) = .ok raw := atofText_iff.2 ⟨0, [], rfl, hn.numeral, (by decide)⟩
    refine (some_of_res (R := atofText (raw ++ [0])) ?_).trans (by rw [this]; rfl)
    unfold atofAt
    mstep hw
    exact lift_res
  · unfold strAtoi
    mstep e
    have this := atoiBits_num hi hr (c := 0) (r := []) (by decide)
    refine (some_of_res (R := atoiBits bits (raw ++ [0])) ?_).trans (by rw [this]; rfl)
    unfold atoiAt
    mstep hw
    exact lift_res

/-! ### `GetNumFast` -/

theorem fast_eq (hI : Inv st P G) (hv : st.vals v = some ⟨some a, A⟩) (ha : G a = some gn) (hg : gn.val = .num raw)
    (hb : Behind st a raw rest) :
    fastAtof v st = (atofText (raw ++ rest) >>= fun u => .ok (some u, st)) ∧
    fastAtoi bits v st = (atoiBits bits (raw ++ rest) >>= fun k => .ok (some k, st)) := by
  obtain ⟨nd, p, h1, h2, h3, h4, h5⟩ := hI.num ha hg
  obtain ⟨nd', p', lim, e1, e2, hw⟩ := hb
  rw [h1] at e1; cases e1
  rw [h3] at e2; cases e2
  have e : getNumFast v st = .ok (some (p, raw.length), st) := by
    unfold getNumFast
    mstep rdVal_run hv
    mstep nType_run h1 h2
    simp only [ne_eq, not_true, if_false]
    mstep nStr_run h1 h3
    mstep nLen_run h1 h4
    rfl
  constructor
  · unfold fastAtof
    mstep e
    refine some_of_res ?_
    unfold atofAt
    mstep hw
    exact lift_res
  · unfold fastAtoi
    mstep e
    refine some_of_res ?_
    unfold atoiAt
    mstep hw
    exact lift_res

/-- C78 exactly, `atof(GetNumFast)`: with `rest` behind the number in its block, the program is defined if and
only if some byte of `rest` cannot belong to a number; everything before the first such byte is converted. -/
theorem C78_atof_exact (h : Ready st P G v (some a) A) (hs : Shows st v (.num raw)) (hn : IsNum raw)
    (hb : Behind st a raw rest) {y : Bytes} :
    (∃ st', fastAtof v st = .ok (some y, st')) ↔
      ∃ u c r, rest = u ++ c :: r ∧ (∀ y ∈ u, isNumeralChar y = true) ∧ isNumeralChar c = false ∧ y = raw ++ u := by
  obtain ⟨a', gn, e, hg, hu⟩ := h.node_of hs
  cases e
  rw [(fast_eq (bits := 32) h.inv h.val hg hu.num hb).1]
  constructor
  · rintro ⟨st', e⟩
    generalize hX : atofText (raw ++ rest) = X at e
    cases X with
    | ub _ => cases e
    | timeout => cases e
    | ok j =>
      cases e
      obtain ⟨c, r, e, h1, h2⟩ := atofText_iff.1 hX
      have hx := hn.numeral
      rcases List.append_eq_append_iff.1 e with ⟨u, rfl, e'⟩ | ⟨u, e1, e2⟩
      · exact ⟨u, c, r, e', fun y hy => h1 y (by simp [hy]), h2, rfl⟩
      · cases u with
        | nil =>
          rw [List.append_nil] at e1
          subst e1
          exact ⟨[], c, r, e2.symm, by simp, h2, by simp⟩
        | cons y u =>
          cases e2
          rw [hx c (by rw [e1]; simp)] at h2; cases h2
  · rintro ⟨u, c, r, rfl, h1, h2, rfl⟩
    rw [atofText_iff.2 ⟨c, r, (List.append_assoc _ _ _).symm, fun y hy => ?_, h2⟩]
    · exact ⟨_, rfl⟩
    · rcases List.mem_append.1 hy with hy | hy
      · exact hn.numeral y hy
      · exact h1 y hy

/-- C78 exactly, `atoi(GetNumFast)`: it is defined if and only if the digits that begin there, those of `rest`
included if nothing else ends them, end within the block and their value fits. -/
theorem C78_atoi_exact (h : Ready st P G v (some a) A) (hs : Shows st v (.num raw)) (hn : IsNum raw)
    (hb : Behind st a raw rest) {k : Int} :
    (∃ st', fastAtoi bits v st = .ok (some k, st')) ↔
      LeadingInt (raw ++ rest) k ∧ -(2 ^ (bits - 1) : Int) ≤ k ∧ k < 2 ^ (bits - 1) := by
  obtain ⟨a', gn, e, hg, hu⟩ := h.node_of hs
  cases e
  rw [(fast_eq (bits := bits) h.inv h.val hg hu.num hb).2, ← atoiBits_iff hn]
  generalize atoiBits bits (raw ++ rest) = X
  cases X with
  | ub _ => exact ⟨fun ⟨_, e⟩ => (by cases e), fun e => (by cases e)⟩
  | timeout => exact ⟨fun ⟨_, e⟩ => (by cases e), fun e => (by cases e)⟩
  | ok j => exact ⟨fun ⟨_, e⟩ => (by cases e; rfl), fun e => (by cases e; exact ⟨_, rfl⟩)⟩

/-- C78, `zj_GetNumFast`, of a number with a byte behind it that cannot belong to a number. -/
theorem C78_fast (h : Ready st P G v (some a) A) (hs : Shows st v (.num raw)) (hn : IsNum raw) (ht : Tail st a raw) :
    fastAtof v st = .ok (some raw, st) ∧
      ∀ bits n, HasIntPart raw n → InRange bits n → fastAtoi bits v st = .ok (some n, st) := by
  obtain ⟨a', gn, e, hg, hu⟩ := h.node_of hs
  cases e
  obtain ⟨nd, p, c, r, lim, h1, h2, h3, h4⟩ := ht
  have hb : Behind st a raw (c :: r) := ⟨nd, p, lim, h1, h2, h3⟩
  refine ⟨?_, fun bits n hi hr => ?_⟩
  · rw [(fast_eq (bits := 32) h.inv h.val hg hu.num hb).1, atofText_iff.2 ⟨c, r, rfl, hn.numeral, h4⟩]
    rfl
  · rw [(fast_eq (bits := bits) h.inv h.val hg hu.num hb).2, atoiBits_num hi hr]
    · rfl
    · cases hd : isDigit c with
      | false => rfl
      | true => rw [digit_numeral hd] at h4; cases h4

/-- C78, the part that holds of `zj_GetNumFast`, for whole programs: a text `d` of a document `t` is parsed with
`zj_Parse` (`f`) or `zj_ParseFast`, and a path is followed to a number. Then `atof` of the text of `zj_GetNumFast`
converts exactly the number, of any length, and `atoi` and the like give its integer part if that fits their
type. Missing for the full property: numbers set with `zj_SetNumStr`, `zj_SetNumStrLen` and
`zj_SetNumStrLenFast` and copied numbers (`C78_false`, `C78_false_stored`). -/
theorem C78_partial (slack : Nat → Nat) {cfg : Cfg} {d : Bytes} (ht : JText t d) {path : List Turn} (hk : Sayable path)
    {i : List Nat} (hp : t.placeOf path = some i) (hi : t.at i = some (.num raw)) {f : Addr → SPtr → M Bool}
    (hf : f = parse ∨ f = parseFast) :
    ∃ c, ∀ fuel, c ≤ fuel →
      ((do
        let A ← newAllocator
        let v ← newValue A
        let p ← callerText (d ++ [0])
        let r ← f v p
        let w ← deref (← goTo fuel path v)
        return (r, ← fastAtof w) : M _) (St.init slack cfg)).out = .ok (true, some raw) ∧
      ∀ bits n, HasIntPart raw n → InRange bits n → ((do
        let A ← newAllocator
        let v ← newValue A
        let p ← callerText (d ++ [0])
        let r ← f v p
        let w ← deref (← goTo fuel path v)
        return (r, ← fastAtoi bits w) : M _) (St.init slack cfg)).out = .ok (true, some n) := by
  have hR := (start_ready slack cfg).addC (d := d ++ [0])
  have hc := addC_cstr (st := start slack cfg) ht.no_nul
  have hl : Lent ((start slack cfg).addC (d ++ [0])) (.buf (start slack cfg).nb 0) := addC_lent (start_ready slack cfg).inv.ok
  obtain ⟨m, hm⟩ := wide_exists t
  have key : ∃ st1 P1 G1 a, f 0 (.buf (start slack cfg).nb 0)
      ((start slack cfg).addC (d ++ [0])) = .ok (true, st1) ∧ Ready st1 P1 G1 0 (some a) 0 ∧ Shows st1 0 t ∧
      ∀ c gn raw, Reach G1 a c → G1 c = some gn → gn.val = .num raw →
        ∀ st2 N V, Frame N V (CacheB st1) st1 st2 → ¬ N c → Tail st2 c raw := by
    rcases hf with rfl | rfl
    · obtain ⟨st1, h1⟩ := (C01_parse_true_iff hR hc).2 ⟨t, ht⟩
      obtain ⟨t', _, hs1, hun⟩ := C02_parse_document hR hc h1
      obtain rfl := hun t ht
      obtain ⟨P1, G1, hR1, hT⟩ := C22_parse hR hc h1
      exact ⟨st1, P1, G1, _, h1, hR1, hs1, hT⟩
    · obtain ⟨st1, h1⟩ := (C01_parseFast_true_iff hR hc hl).2 ⟨t, ht⟩
      obtain ⟨t', _, hs1, hun⟩ := C02_parseFast_document hR hc hl h1
      obtain rfl := hun t ht
      obtain ⟨P1, G1, hR1, hT⟩ := C22_parseFast hR hc hl h1
      exact ⟨st1, P1, G1, _, h1, hR1, hs1, hT⟩
  obtain ⟨st1, P1, G1, a, h1, hR1, hs1, hT⟩ := key
  refine ⟨m, fun fuel hf' => ?_⟩
  obtain ⟨o, st2, h2, hU, hR2, hL⟩ := C69_goTo hR1 hs1 ht.valid (hm fuel hf') hk
  rw [hp] at hL
  obtain ⟨w, k, u, rfl, e, hs2, hR2w, hP⟩ := hL
  rw [hi] at e
  cases e
  obtain ⟨k', gn, e, hg, hu⟩ := hR2w.node_of hs2
  cases e
  have tail : Tail st2 k raw := hT k gn raw hP.reach hg hu.num st2 (fun _ => False) (fun _ => False)
    (hU.1.weaken (fun _ h => h) (fun _ h => h) (fun _ h => False.elim h)) id
  have hn : IsNum raw := at_valid ht.valid hi
  obtain ⟨f1, f2⟩ := C78_fast hR2w hs2 hn tail
  refine ⟨?_, fun bits n q1 q2 => ?_⟩
  · have hrun : (do
        let p ← callerText (d ++ [0])
        let r ← f 0 p
        let w ← deref (← goTo fuel path 0)
        return (r, ← fastAtof w) : M _) (start slack cfg) = .ok ((true, some raw), st2) := by
      mstep callerText_run _ _
      mstep h1
      mstep h2
      simp only [deref_some]
      mstep M.pure_run _ _
      mstep f1
      rfl
    exact congrArg Res.out hrun
  · have hrun : (do
        let p ← callerText (d ++ [0])
        let r ← f 0 p
        let w ← deref (← goTo fuel path 0)
        return (r, ← fastAtoi bits w) : M _) (start slack cfg) = .ok ((true, some n), st2) := by
      mstep callerText_run _ _
      mstep h1
      mstep h2
      simp only [deref_some]
      mstep M.pure_run _ _
      mstep f2 bits n q1 q2
      rfl
    exact congrArg Res.out hrun

/-! ### Where the manual is wrong -/

/-- Nothing but digits and a sign: no byte of the number ends its digits. -/
theorem no_leading (hn : IsNum raw) (hd : ∀ c ∈ raw, c = 0x2D ∨ isDigit c = true) {k : Int} : ¬ LeadingInt raw k := by
  rintro ⟨s, i, c, u, e, h1, h2, h3, _⟩
  have hc := hd c (by rw [e]; simp)
  rw [h3] at hc
  simp at hc
  subst hc
  -- a minus sign behind a digit is in an exponent
  obtain ⟨m, i', f, ee, e', hm, hi, hf, hee⟩ := hn
  have hf0 : f = [] := by
    rcases hf with rfl | ⟨ds, rfl, _⟩
    · rfl
    · have := hd 0x2E (by rw [e']; simp)
      simp [isDigit] at this
  have he0 : ee = [] := by
    rcases hee with rfl | ⟨c, sg, ds, rfl, hc, _⟩
    · rfl
    · have := hd c (by rw [e']; simp)
      rcases hc with rfl | rfl <;> simp [isDigit] at this
  subst hf0 he0
  obtain ⟨d, ds, hds, hdig⟩ := intPart_digits hi
  simp only [List.append_nil] at e'
  rw [e'] at e
  have hmem : ∀ (s : Bool) (m' : Bytes), (m' = [] ∨ m' = [0x2D]) →
      m' ++ i' = (if s then [0x2D] else []) ++ (i ++ 0x2D :: u) → (0x2D : Byte) ∈ i' := by
    intro s m' hm' hh
    cases i with
    | nil => exact absurd rfl h1
    | cons j i =>
      have hj := h2 j (by simp)
      rcases hm' with rfl | rfl
      · simp only [List.nil_append] at hh
        rw [hh]; simp
      · cases s with
        | true => simp only [if_true, List.cons_append, List.nil_append, List.cons.injEq, true_and] at hh; rw [hh]; simp
        | false =>
          simp only [Bool.false_eq_true, if_false, List.cons_append, List.nil_append, List.cons.injEq] at hh
          rw [← hh.1] at hj; simp [isDigit] at hj
  have := hdig _ (hmem s m hm e)
  simp [isDigit] at this

/-- C78 is false of every number: after `zj_SetNumStr` of it `atof(GetNumFast(v))` reads behind the block, and
if the number is written without fraction and exponent `atoi(GetNumFast(v))` and the like do, too.
Memory behind the block is not the number's: nothing says where the digits end. -/
theorem C78_false_stored (h : Ready st P G v x A) (hs : CStr st p raw) (hn : IsNum raw) :
    ∃ st', setNumStr v p st = .ok (true, st') ∧ Shows st' v (.num raw) ∧ (¬ ∃ r, fastAtof v st' = .ok r) ∧
      ((∀ c ∈ raw, c = 0x2D ∨ isDigit c = true) → ∀ bits, ¬ ∃ r, fastAtoi bits v st' = .ok r) := by
  obtain ⟨st', P', G', e, hr, hsh, hb⟩ := setNumStr_behind h hs hn
  obtain ⟨a, gn, e', hg, hu⟩ := hr.node_of hsh
  cases e'
  refine ⟨st', e, hsh, ?_, fun hd bits => ?_⟩
  · rintro ⟨r, hr'⟩
    rw [(fast_eq (bits := 32) hr.inv hr.val hg hu.num hb).1] at hr'
    generalize hX : atofText (raw ++ []) = X at hr'
    cases X with
    | ub _ => cases hr'
    | timeout => cases hr'
    | ok j =>
      obtain ⟨c, r, e, _, h2⟩ := atofText_iff.1 hX
      rw [hn.numeral c (by rw [List.append_nil] at e; rw [e]; simp)] at h2
      cases h2
  · rintro ⟨r, hr'⟩
    rw [(fast_eq (bits := bits) hr.inv hr.val hg hu.num hb).2] at hr'
    generalize hX : atoiBits bits (raw ++ []) = X at hr'
    cases X with
    | ub _ => cases hr'
    | timeout => cases hr'
    | ok j =>
      have := ((atoiBits_iff (rest := []) hn).1 hX).1
      rw [List.append_nil] at this
      exact no_leading hn hd this

theorem setNumStrLenFast_behind (h : Ready st P G v x A) (hl : Lent st p) (hn : IsNum raw) {lim : Nat}
    (hw : view p st = .ok ((raw ++ rest, lim), st)) :
    ∃ st' P' G', setNumStrLenFast v p raw.length st = .ok (true, st') ∧ Ready st' P' G' v (some (rootOf st x)) A ∧
      Shows st' v (.num raw) ∧ Behind st' (rootOf st x) raw rest := by
  have h' := h.lend hl
  have hI := h'.inv
  have hR : Reads st p raw := by
    refine StrAt.reads (P := fun _ => True) ?_ hI.ok
    cases p with
    | lit s =>
      simp only [view, Res.ok.injEq, Prod.mk.injEq] at hw
      exact ⟨rest, hw.1.1⟩
    | buf c off =>
      cases hb : st.bufs c with
      | none => simp [view, hb] at hw
      | some bf =>
        simp only [view, hb, Res.ok.injEq, Prod.mk.injEq] at hw
        exact ⟨trivial, bf, rest, hb, hw.1.1⟩
  obtain ⟨st1, z, r, e, hr, hF⟩ := checkNumLenAt_run hI h.cok (hI.ok.live v _ h.val) hR
  obtain ⟨k1, k2, k3, k4⟩ := keeps_checkNumLenAt _ _ _ e
  cases hr.2 hn
  obtain ⟨st', e', h1⟩ := storeFast_run (gv := .num raw) hF.inv (by rw [k4]; exact h.val) h.node rfl rfl
    (strAt_filled hI hF (hR.strAt inP_pinned))
  obtain ⟨hb, nd, q1, q2⟩ := setScalar_value hF.inv (by rw [k4]; exact h.val) h.node e'
  have hB := (hF.kept.setTo k1 h1).becomes h' (fun _ h => h)
  obtain ⟨g, hr, _⟩ := hB.store
  refine ⟨st', _, _, ?_, hr, hB.shows, nd, _, lim, ?_, q2, ?_⟩
  · unfold setNumStrLenFast; mstep rdVal_run h.val; mstep e; mstep e'; rfl
  · have : rootOf st1 x = rootOf st x := by unfold rootOf; rw [k1]
    rw [← this]; exact q1
  · cases p with
    | lit s => simpa [view] using hw
    | buf c off =>
      obtain ⟨b1, b2⟩ := hI.pin c (inP_pinned c off rfl)
      obtain ⟨bf, hbf⟩ := Option.isSome_iff_exists.1 b1
      have : st'.bufs c = st.bufs c := by
        rw [hb]
        refine hF.frame.bufs c (hI.ok.buf_lt hbf) ?_
        rintro ⟨z, hz, rfl⟩
        exact (b2 z hz).2 rfl
      simp only [view, this, hbf, Res.ok.injEq, Prod.mk.injEq] at hw ⊢
      exact ⟨hw.1, trivial⟩

/-- C78 is false of every number in a longer one: after `zj_SetNumStrLenFast(v, p, len)` of the first `len` bytes
of a text that goes on with characters of numbers `u` up to some other byte `c`, the value is the number
of `len` bytes, but `atof(GetNumFast(v))` converts `u`, too. -/
theorem C78_false (h : Ready st P G v x A) (hl : Lent st p) (hn : IsNum raw) {u r : Bytes} {c : Byte} {lim : Nat}
    (hw : view p st = .ok ((raw ++ (u ++ c :: r), lim), st)) (hu : ∀ y ∈ u, isNumeralChar y = true) (h0 : u ≠ [])
    (hc : isNumeralChar c = false) :
    ∃ st', setNumStrLenFast v p raw.length st = .ok (true, st') ∧ Shows st' v (.num raw) ∧
      fastAtof v st' = .ok (some (raw ++ u), st') ∧ raw ++ u ≠ raw := by
  obtain ⟨st', P', G', e, hr, hsh, hb⟩ := setNumStrLenFast_behind h hl hn hw
  obtain ⟨a, gn, e', hg, hu'⟩ := hr.node_of hsh
  cases e'
  refine ⟨st', e, hsh, ?_, by simpa using h0⟩
  rw [(fast_eq (bits := 32) hr.inv hr.val hg hu'.num hb).1, atofText_iff.2 ⟨c, r, (List.append_assoc _ _ _).symm, fun y hy => ?_, hc⟩]
  · rfl
  · rcases List.mem_append.1 hy with hy | hy
    · exact hn.numeral y hy
    · exact hu y hy

/-- Concrete cases of the texts behind a number; the last two are the copy of a document and a number in an
array that was appended to. -/
theorem C78_false_cases :
    ((do
      let r ← setNumStrLenFast 0 (← callerText (b!"12345" ++ [0])) 2
      return (r, ← fastAtof 0, ← fastAtoi 32 0) : M _) (start fun _ => 0)).out = .ok (true, some b!"12345", some 12345) ∧
    ((do
      let r ← setNumStr 0 (← callerText (b!"7" ++ [0]))
      return (r, ← fastAtoi 32 0) : M _) (start fun _ => 0)).out = .ub .oob ∧
    ((do
      let (v, _) ← make 0 b!"[7]"
      let some w ← copy 9 v | return none
      let some e ← arrayGet 9 w 0 | return none
      fastAtoi 32 e : M (Option Int)) (start fun _ => 0)).out = .ub .oob ∧
    ((do
      let (v, _) ← make 0 b!"[]"
      let (w, _) ← make 0 b!"7"
      let r ← arrayAdd 9 v w
      let some e ← arrayGet 9 v 0 | return none
      if !r then return none
      fastAtof e : M (Option Bytes)) (start fun _ => 0)).out = .ub .oob := by
  refine ⟨?_, ?_, ?_, ?_⟩ <;> decide +kernel

/-! ### Concrete cases -/

/-- A number of 130 digits, which `zj_GetInt` and the others cannot read (C22): both texts can. -/
example : ((do
    let (v, _) ← make 0 (b!"[1," ++ List.replicate 130 0x39 ++ b!"]")
    let some e ← arrayGet 9 v 1 | return (none, none)
    return (← strAtof e, ← fastAtof e) : M _) (start fun _ => 0)).out
    = .ok (some (List.replicate 130 0x39), some (List.replicate 130 0x39)) := by decide +kernel

/-- The example of the manual, READMECHN.md:1148-1171, with `atoi`, too. -/
example : ((do
    let p ← callerText (b!"[\"str\",123.4567899883784758435486768576854]" ++ [0])
    let _ ← parseFast 0 p
    let some e ← arrayGet 9 0 1 | return (none, none)
    return (← fastAtof e, ← fastAtoi 32 e) : M _) (start fun _ => 0)).out
    = .ok (some b!"123.4567899883784758435486768576854", some 123) := by decide +kernel

/-- The hypotheses of `C78_numStr`, `C78_fast`. -/
example : ∃ st P G v a A, Ready st P G v (some a) A ∧ Shows st v (.num b!"-12.9e3") ∧ IsNum b!"-12.9e3" ∧ Tail st a b!"-12.9e3" := by
  have hi : IsNum b!"-12.9e3" :=
    ⟨[0x2D], b!"12", b!".9", b!"e3", rfl, .inr rfl, .inr ⟨_, _, rfl, by decide, by decide, by decide⟩,
      .inr ⟨_, rfl, by simp [IsDigits]; decide⟩, .inr ⟨_, [], _, rfl, .inl rfl, .inl rfl, by simp [IsDigits]; decide⟩⟩
  have ht : JText (.num b!"-12.9e3") b!"-12.9e3" := ⟨[], _, [], rfl, fun _ h => (by cases h), .num hi, fun _ h => (by cases h)⟩
  have hR := (start_ready fun _ => 0).addC (d := b!"-12.9e3" ++ [0])
  have hc := addC_cstr (st := start fun _ => 0) ht.no_nul
  obtain ⟨st1, h1⟩ := (C01_parse_true_iff hR hc).2 ⟨_, ht⟩
  obtain ⟨t', _, hs1, hun⟩ := C02_parse_document hR hc h1
  cases hun _ ht
  obtain ⟨P1, G1, hR1, hT⟩ := C22_parse hR hc h1
  obtain ⟨k', gn, e, hg, hu⟩ := hR1.node_of hs1
  cases e
  exact ⟨st1, P1, G1, _, _, _, hR1, hs1, hi, hT _ gn _ .refl hg hu.num st1 (fun _ => False) (fun _ => False)
    ((Frame.refl _).weaken (fun _ h => h) (fun _ h => h) (fun _ h => False.elim h)) id⟩

/-- The hypotheses of `C78_false`: 12 in the text 12345. -/
example : ∃ st P G v x A p lim, Ready st P G v x A ∧ Lent st p ∧ IsNum b!"12" ∧
    view p st = .ok ((b!"12" ++ (b!"345" ++ 0 :: []), lim), st) ∧ (∀ y ∈ b!"345", isNumeralChar y = true) := by
  have h := start_ready fun _ => 0
  refine ⟨_, _, _, _, _, _, _, _, h.addC (d := b!"12345" ++ [0]), addC_lent h.inv.ok,
    ⟨[], b!"12", [], [], rfl, .inl rfl, .inr ⟨_, _, rfl, by decide, by decide, by decide⟩, .inl rfl, .inl rfl⟩, rfl, by decide⟩

end

end ZJ
