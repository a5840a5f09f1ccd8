import Verif.PropFloat

/-
Property theorems about numbers, continued: C22 and C66 exactly.

C22: for every number a value can hold, and whatever is behind its text in memory, exactly when the four
getters are defined and what they then return. C66: exactly which numbers the integer getters read
rightly.
-/

namespace ZJ

section
variable {st st' : St} {P P' : Addr → Prop} {G : Graph} {v w A a : Addr} {x : Option Addr} {p q : SPtr}
  {b raw rest : Bytes} {n : Int} {t : Json} {gn : GNode}

/-! ### C22: when the getters are defined -/

/-- An optional minus sign and digits that end before the end of `t`, and their value. -/
def LeadingInt (t : Bytes) (r : Int) : Prop :=
  ∃ (s : Bool) (i : Bytes) (c : Byte) (u : Bytes), t = (if s then [0x2D] else []) ++ (i ++ c :: u) ∧ i ≠ [] ∧
    (∀ d ∈ i, isDigit d = true) ∧ isDigit c = false ∧ r = if s then -(decimalValue i : Int) else decimalValue i

/-- The text of the number in node `a`, and the bytes behind it to the end of its block. -/
def Behind (st : St) (a : Addr) (raw rest : Bytes) : Prop :=
  ∃ nd p lim, st.nodes a = some nd ∧ nd.value = some (.str p) ∧ view p st = .ok ((raw ++ rest, lim), st)

/-- There is always such a rest. -/
theorem behind_ex (hI : Inv st P G) (ha : G a = some gn) (hg : gn.val = .num raw) : ∃ rest, Behind st a raw rest := by
  obtain ⟨nd, p, h1, _, h3, _, h5⟩ := hI.num ha hg
  cases p with
  | lit s =>
    obtain ⟨r, hr⟩ : ∃ r, s.bytes ++ [0] = raw ++ r := h5
    exact ⟨r, nd, .lit s, s.bytes.length + 1, h1, h3, by simp [ZJ.view, hr]⟩
  | buf c off =>
    obtain ⟨_, bf, r, hb, hd⟩ := h5
    exact ⟨r, nd, _, _, h1, h3, by simp [ZJ.view, hb, hd]; rfl⟩

theorem atoiDigits_ok : ∀ {t : Bytes} {acc k : Nat}, atoiDigits t acc = .ok k →
    ∃ i c u, t = i ++ c :: u ∧ (∀ d ∈ i, isDigit d = true) ∧ isDigit c = false
  | [], _, _, h => by simp [atoiDigits] at h
  | c :: r, acc, k, h => by
    unfold atoiDigits at h
    by_cases hc : 0x30 ≤ c ∧ c ≤ 0x39
    · rw [if_pos hc] at h
      obtain ⟨i, c', u, rfl, h2, h3⟩ := atoiDigits_ok h
      refine ⟨c :: i, c', u, rfl, fun d hd => ?_, h3⟩
      rcases List.mem_cons.1 hd with rfl | hd
      · unfold isDigit; simp; exact hc
      · exact h2 d hd
    · exact ⟨[], c, r, rfl, by simp, by unfold isDigit; simp; grind⟩

/-- `atoi` on a text that begins as a number does. -/
theorem atoiRaw_iff {s : Bool} {d : Byte} {t : Bytes} (hd : isDigit d = true) {k : Int} :
    atoiRaw ((if s then [0x2D] else []) ++ d :: t) = .ok k ↔ LeadingInt ((if s then [0x2D] else []) ++ d :: t) k := by
  obtain ⟨e1, e2, e3⟩ := digit_ne hd
  have hraw : atoiRaw ((if s then [0x2D] else []) ++ d :: t) =
      (atoiDigits (d :: t) 0 >>= fun n => pure (if s then -(n : Int) else n)) := by
    cases s with
    | true =>
      unfold atoiRaw
      simp only [if_true, List.cons_append, List.nil_append]
      rw [List.dropWhile_cons_of_neg (by decide)]
      unfold atoiSigned
      simp only [if_true]
    | false =>
      unfold atoiRaw
      simp only [Bool.false_eq_true, if_false, List.nil_append]
      rw [List.dropWhile_cons_of_neg (by simp [e1])]
      unfold atoiSigned
      simp only [e2, e3, if_false]
  have spec : ∀ {i : Bytes} {c : Byte} {u : Bytes}, (∀ d ∈ i, isDigit d = true) → isDigit c = false →
      atoiDigits (i ++ c :: u) 0 = .ok (decimalValue i) := fun h h' => atoiDigits_spec _ 0 h h'
  constructor
  · intro h
    rw [hraw] at h
    generalize hx : atoiDigits (d :: t) 0 = X at h
    cases X with
    | ub u => cases h
    | timeout => cases h
    | ok n =>
      obtain ⟨i, c, u, h1, h2, h3⟩ := atoiDigits_ok hx
      have hi : i ≠ [] := by
        rintro rfl
        cases h1
        rw [hd] at h3; cases h3
      have := spec (u := u) h2 h3
      rw [← h1, hx] at this
      cases this
      cases h
      exact ⟨s, i, c, u, by rw [← h1], hi, h2, h3, rfl⟩
  · rintro ⟨s', i, c, u, h1, h2, h3, h4, rfl⟩
    have hs : s' = s ∧ d :: t = i ++ c :: u := by
      cases i with
      | nil => exact absurd rfl h2
      | cons j i =>
        obtain ⟨_, e2', _⟩ := digit_ne (h3 j (by simp))
        cases s <;> cases s' <;> simp at h1 ⊢
        · exact h1
        · exact absurd h1.1 e2
        · exact absurd h1.1.symm e2'
        · exact h1
    obtain ⟨rfl, hs⟩ := hs
    rw [hraw, hs, spec h3 h4]
    rfl

theorem IsNum.starts (h : IsNum raw) : ∃ (s : Bool) (d : Byte) (t : Bytes), isDigit d = true ∧
    raw = (if s then [0x2D] else []) ++ d :: t := by
  obtain ⟨m, i, f, e, rfl, hm, hi, _⟩ := h
  obtain ⟨d, ds, rfl, hd⟩ := intPart_digits hi
  rcases hm with rfl | rfl
  · exact ⟨false, d, ds ++ (f ++ e), hd d (by simp), by simp⟩
  · exact ⟨true, d, ds ++ (f ++ e), hd d (by simp), by simp⟩

theorem atoiBits_iff {bits : Nat} (h : IsNum raw) {k : Int} :
    atoiBits bits (raw ++ rest) = .ok k ↔ LeadingInt (raw ++ rest) k ∧ -(2 ^ (bits - 1) : Int) ≤ k ∧ k < 2 ^ (bits - 1) := by
  obtain ⟨s, d, t, hd, rfl⟩ := h.starts
  have hr := fun k => atoiRaw_iff (s := s) (d := d) (t := t ++ rest) hd (k := k)
  have e : ((if s then [0x2D] else []) ++ d :: t) ++ rest = (if s then [0x2D] else []) ++ d :: (t ++ rest) := by simp
  rw [e]
  unfold atoiBits
  generalize hX : atoiRaw ((if s then [0x2D] else []) ++ d :: (t ++ rest)) = X at hr
  cases X with
  | ub u => exact ⟨(fun h => by cases h), (fun h => by have := (hr k).2 h.1; cases this)⟩
  | timeout => exact ⟨(fun h => by cases h), (fun h => by have := (hr k).2 h.1; cases this)⟩
  | ok n =>
    simp only [Res.ok_bind]
    constructor
    · intro h
      split at h
      · rename_i hn; cases h; exact ⟨(hr _).1 rfl, hn⟩
      · cases h
    · rintro ⟨h1, h2⟩
      have := (hr k).2 h1
      cases this
      rw [if_pos h2]; rfl

/-- The last lines of the getters. -/
theorem some_of_res {α : Type} {m : M α} {R : Res α} {s s' : St} (e : m s = (R >>= fun k => .ok (k, s'))) :
    (m >>= fun k => pure (some k)) s = (R >>= fun k => .ok (some k, s')) := by
  show (match m s with | .ok (a, st') => (pure (some a) : M (Option α)) st' | .ub u => .ub u | .timeout => .timeout) = _
  rw [e]
  cases R <;> rfl

theorem stackCopy_eq : stackCopy raw = if raw.length ≤ 128 then .ok (raw ++ List.replicate (128 - raw.length) 0) else .ub .stackSmash := rfl

theorem lift_res {α : Type} {R : Res α} {s : St} : (lift R : M α) s = (R >>= fun k => .ok (k, s)) := by
  cases R <;> rfl

theorem getInt_eq (hI : Inv st P G) (hv : st.vals v = some ⟨some a, A⟩) (ha : G a = some gn) (hg : gn.val = .num raw) :
    getInt v st = (stackCopy raw >>= fun s => atoiBits 32 s >>= fun k => .ok (some k, st.req A 4)) := by
  obtain ⟨nd, p, h1, h2, h3, h4, h5⟩ := hI.num ha hg
  unfold getInt
  mstep rdVal_run hv
  simp only
  mstep nType_run h1 h2
  simp only [ne_eq, not_true, if_false]
  mstep request_run (hI.ok.live v _ hv)
  mstep nStr_run (st := st.req A 4) h1 h3
  mstep nLen_run (st := st.req A 4) h1 h4
  have e : strToInt p raw.length (st.req A 4) = ((stackCopy raw >>= fun s => atoiBits 32 s) >>= fun k => .ok (k, st.req A 4)) := by
    unfold strToInt
    mstep (h5.req (A := A) (k := 4)).readN hI.ok.size
    cases stackCopy raw with
    | ub u => rfl
    | timeout => rfl
    | ok s =>
      mstep lift_ok _
      exact lift_res
  refine (some_of_res e).trans ?_
  cases stackCopy raw <;> rfl

theorem strToLong_eq (ho : StOK st) (h5 : StrAt st P p raw) {lim} (hw : view p st = .ok ((raw ++ rest, lim), st)) :
    strToLong p raw.length st = ((stackCopy raw >>= fun _ => atoiBits 64 (raw ++ rest)) >>= fun k => .ok (k, st)) := by
  unfold strToLong
  mstep h5.readN ho.size
  cases stackCopy raw with
  | ub u => rfl
  | timeout => rfl
  | ok s =>
    mstep lift_ok _
    mstep hw
    exact lift_res

theorem strToDouble_eq {D : Type} {fp : FP D} (ho : StOK st) (h5 : StrAt st P p raw) {lim} (hw : view p st = .ok ((raw ++ rest, lim), st)) :
    strToDouble fp p raw.length st =
      ((stackCopy raw >>= fun _ => atofText (raw ++ rest) >>= fun t => pure (fp.conv t)) >>= fun k => .ok (k, st)) := by
  unfold strToDouble
  mstep h5.readN ho.size
  cases stackCopy raw with
  | ub u => rfl
  | timeout => rfl
  | ok s =>
    mstep lift_ok _
    mstep hw
    show (lift (atofText (raw ++ rest)) >>= fun n => pure (fp.conv n) : M D) st = _
    generalize atofText (raw ++ rest) = X
    cases X <;> rfl

theorem getLong_eq (hI : Inv st P G) (hv : st.vals v = some ⟨some a, A⟩) (ha : G a = some gn) (hg : gn.val = .num raw)
    (hb : Behind st a raw rest) :
    getLong v st = ((stackCopy raw >>= fun _ => atoiBits 64 (raw ++ rest)) >>= fun k => .ok (some k, st.req A 8)) ∧
    getLongLong v st = ((stackCopy raw >>= fun _ => atoiBits 64 (raw ++ rest)) >>= fun k => .ok (some k, st.req A 8)) := by
  obtain ⟨nd, p, h1, h2, h3, h4, h5⟩ := hI.num ha hg
  obtain ⟨nd', p', lim, e1, e2, hw⟩ := hb
  rw [h1] at e1; cases e1
  rw [h3] at e2; cases e2
  have e := strToLong_eq (hI.ok.req (A := A) (k := 8)) (h5.req (A := A) (k := 8)) (view_req (A := A) (k := 8) hw)
  have e' : strToLongLong p raw.length (st.req A 8) = _ := e
  constructor
  · unfold getLong
    mstep rdVal_run hv
    simp only
    mstep nType_run h1 h2
    simp only [ne_eq, not_true, if_false]
    mstep request_run (hI.ok.live v _ hv)
    mstep nStr_run (st := st.req A 8) h1 h3
    mstep nLen_run (st := st.req A 8) h1 h4
    exact some_of_res e
  · unfold getLongLong
    mstep rdVal_run hv
    simp only
    mstep nType_run h1 h2
    simp only [ne_eq, not_true, if_false]
    mstep request_run (hI.ok.live v _ hv)
    mstep nStr_run (st := st.req A 8) h1 h3
    mstep nLen_run (st := st.req A 8) h1 h4
    exact some_of_res e'

theorem getDouble_eq {D : Type} {fp : FP D} (hI : Inv st P G) (hv : st.vals v = some ⟨some a, A⟩) (ha : G a = some gn)
    (hg : gn.val = .num raw) (hb : Behind st a raw rest) :
    getDouble fp v st = ((stackCopy raw >>= fun _ => atofText (raw ++ rest) >>= fun t => pure (fp.conv t)) >>= fun k => .ok (some k, st.req A 8)) := by
  obtain ⟨nd, p, h1, h2, h3, h4, h5⟩ := hI.num ha hg
  obtain ⟨nd', p', lim, e1, e2, hw⟩ := hb
  rw [h1] at e1; cases e1
  rw [h3] at e2; cases e2
  unfold getDouble
  mstep rdVal_run hv
  simp only
  mstep nType_run h1 h2
  simp only [ne_eq, not_true, if_false]
  mstep request_run (hI.ok.live v _ hv)
  mstep nStr_run (st := st.req A 8) h1 h3
  mstep nLen_run (st := st.req A 8) h1 h4
  exact some_of_res (strToDouble_eq (hI.ok.req (A := A) (k := 8)) (h5.req (A := A) (k := 8)) (view_req (A := A) (k := 8) hw))

theorem atofText_iff : ∀ {t u : Bytes}, atofText t = .ok u ↔
    ∃ c r, t = u ++ c :: r ∧ (∀ y ∈ u, isNumeralChar y = true) ∧ isNumeralChar c = false
  | [], u => by simp [atofText]
  | c :: r, u => by
    unfold atofText
    by_cases hc : isNumeralChar c = true
    · rw [if_pos hc]
      constructor
      · intro h
        generalize hX : atofText r = X at h
        cases X with
        | ub _ => cases h
        | timeout => cases h
        | ok w =>
          cases h
          obtain ⟨c', r', e, h1, h2⟩ := atofText_iff.1 hX
          refine ⟨c', r', by rw [e]; rfl, fun y hy => ?_, h2⟩
          rcases List.mem_cons.1 hy with rfl | hy
          · exact hc
          · exact h1 y hy
      · rintro ⟨c', r', e, h1, h2⟩
        cases u with
        | nil => cases e; rw [hc] at h2; cases h2
        | cons d u =>
          cases e
          have := (atofText_iff (t := u ++ c' :: r') (u := u)).2 ⟨c', r', rfl, fun y hy => h1 y (by simp [hy]), h2⟩
          show (atofText (u ++ c' :: r') >>= fun t => pure (c :: t)) = _
          rw [this]
          rfl
    · rw [if_neg hc]
      constructor
      · intro h; cases h; exact ⟨c, r, rfl, by simp, by simpa using hc⟩
      · rintro ⟨c', r', e, h1, h2⟩
        cases u with
        | nil => rfl
        | cons d u => cases e; exact absurd (h1 c (by simp)) hc

/-- C22 exactly, `zj_GetInt`: on a number `raw` the call is defined and returns `k` if and only if `raw`
has at most 128 characters, its digits end within the 128-byte array it is copied to (only 128 digits
without fraction and exponent do not), and `k`, their value, fits an `int`. -/
theorem C22_getInt_exact (h : Ready st P G v x A) (hs : Shows st v (.num raw)) (hn : IsNum raw) {k : Int} :
    (∃ st', getInt v st = .ok (some k, st')) ↔
      raw.length ≤ 128 ∧ LeadingInt (raw ++ List.replicate (128 - raw.length) 0) k ∧ -2147483648 ≤ k ∧ k ≤ 2147483647 := by
  obtain ⟨a, gn, rfl, hg, hu⟩ := h.node_of hs
  rw [getInt_eq h.inv h.val hg hu.num, stackCopy_eq]
  have hi := atoiBits_iff (bits := 32) (rest := List.replicate (128 - raw.length) 0) hn (k := k)
  by_cases hl : raw.length ≤ 128
  · rw [if_pos hl]
    simp only [Res.ok_bind]
    constructor
    · rintro ⟨st', e⟩
      generalize atoiBits 32 (raw ++ List.replicate (128 - raw.length) 0) = X at e hi
      cases X with
      | ub _ => cases e
      | timeout => cases e
      | ok j =>
        cases e
        have := hi.1 rfl
        exact ⟨hl, this.1, by have := this.2; omega⟩
    · rintro ⟨_, h1, h2⟩
      rw [hi.2 ⟨h1, by omega⟩]
      exact ⟨_, rfl⟩
  · rw [if_neg hl]
    constructor
    · rintro ⟨_, e⟩; cases e
    · rintro ⟨e, _⟩; exact absurd e hl

/-- C22 exactly, `zj_GetLong` and `zj_GetLongLong`: with `rest` behind the number in its block, the call is
defined and returns `k` if and only if the number has at most 128 characters, the digits that begin
there, those of `rest` included if nothing else ends them, end within the block, and their value `k` fits. -/
theorem C22_getLong_exact (h : Ready st P G v (some a) A) (hs : Shows st v (.num raw)) (hn : IsNum raw)
    (hb : Behind st a raw rest) {k : Int} :
    ((∃ st', getLong v st = .ok (some k, st')) ↔
      raw.length ≤ 128 ∧ LeadingInt (raw ++ rest) k ∧ -9223372036854775808 ≤ k ∧ k ≤ 9223372036854775807) ∧
    ((∃ st', getLongLong v st = .ok (some k, st')) ↔
      raw.length ≤ 128 ∧ LeadingInt (raw ++ rest) k ∧ -9223372036854775808 ≤ k ∧ k ≤ 9223372036854775807) := by
  obtain ⟨a', gn, e, hg, hu⟩ := h.node_of hs
  cases e
  obtain ⟨q1, q2⟩ := getLong_eq h.inv h.val hg hu.num hb
  rw [q1, q2, and_self, stackCopy_eq]
  have hi := atoiBits_iff (bits := 64) (rest := rest) hn (k := k)
  by_cases hl : raw.length ≤ 128
  · rw [if_pos hl]
    simp only [Res.ok_bind]
    constructor
    · rintro ⟨st', e⟩
      generalize atoiBits 64 (raw ++ rest) = X at e hi
      cases X with
      | ub _ => cases e
      | timeout => cases e
      | ok j =>
        cases e
        have := hi.1 rfl
        exact ⟨hl, this.1, by have := this.2; omega⟩
    · rintro ⟨_, h1, h2⟩
      rw [hi.2 ⟨h1, by omega⟩]
      exact ⟨_, rfl⟩
  · rw [if_neg hl]
    constructor
    · rintro ⟨_, e⟩; cases e
    · rintro ⟨e, _⟩; exact absurd e hl

/-- C22 exactly, `zj_GetDouble`: it is defined if and only if the number has at most 128 characters and
some byte of `rest` cannot belong to a number; it converts everything before the first such byte. -/
theorem C22_getDouble_exact {D : Type} {fp : FP D} (h : Ready st P G v (some a) A) (hs : Shows st v (.num raw))
    (hn : IsNum raw) (hb : Behind st a raw rest) {d : D} :
    (∃ st', getDouble fp v st = .ok (some d, st')) ↔
      raw.length ≤ 128 ∧ ∃ u c r, rest = u ++ c :: r ∧ (∀ y ∈ u, isNumeralChar y = true) ∧ isNumeralChar c = false ∧
        d = fp.conv (raw ++ u) := by
  obtain ⟨a', gn, e, hg, hu⟩ := h.node_of hs
  cases e
  rw [getDouble_eq h.inv h.val hg hu.num hb, stackCopy_eq]
  by_cases hl : raw.length ≤ 128
  · rw [if_pos hl]
    simp only [Res.ok_bind]
    constructor
    · rintro ⟨st', e⟩
      generalize hX : atofText (raw ++ rest) = X at e
      cases X with
      | ub _ => cases e
      | timeout => cases e
      | ok j =>
        cases e
        obtain ⟨c, r, e, h1, h2⟩ := atofText_iff.1 hX
        refine ⟨hl, ?_⟩
        have hx := hn.numeral
        rcases List.append_eq_append_iff.1 e with ⟨u, rfl, e'⟩ | ⟨u, e1, e2⟩
        · exact ⟨u, c, r, e', fun y hy => h1 y (by simp [hy]), h2, rfl⟩
        · cases u with
          | nil =>
            rw [List.append_nil] at e1
            subst e1
            exact ⟨[], c, r, e2.symm, by simp, h2, by simp⟩
          | cons y u =>
            cases e2
            rw [hx c (by rw [e1]; simp)] at h2; cases h2
    · rintro ⟨_, u, c, r, rfl, h1, h2, rfl⟩
      rw [atofText_iff.2 ⟨c, r, (List.append_assoc _ _ _).symm, fun y hy => ?_, h2⟩]
      · exact ⟨_, rfl⟩
      · rcases List.mem_append.1 hy with hy | hy
        · exact hn.numeral y hy
        · exact h1 y hy
  · rw [if_neg hl]
    constructor
    · rintro ⟨_, e⟩; cases e
    · rintro ⟨e, _⟩; exact absurd e hl

/-! ### C22 is false of every stored number -/

theorem setNumStr_behind (h : Ready st P G v x A) (hs : CStr st p raw) (hn : IsNum raw) :
    ∃ st' P' G', setNumStr v p st = .ok (true, st') ∧ Ready st' P' G' v (some (rootOf st x)) A ∧ Shows st' v (.num raw) ∧
      Behind st' (rootOf st x) raw [] := by
  have hI := h.inv
  rcases checkNumAt_run hs with ⟨_, e⟩ | ⟨hc, _⟩
  · have ha : st.allocs A = true := hI.ok.live v _ h.val
    obtain ⟨st', e1, h'⟩ := storeFresh_run (gv := .num raw) (r := []) (sz := raw.length) hI h.val h.node rfl rfl
      (List.append_nil _).symm (Nat.le_refl _)
    have hI' := hI.addB (A := A) (sz := raw.length) (d := raw) (Nat.le_refl _)
    obtain ⟨hb, nd, h1, h2⟩ := setScalar_value (v := v) (A := A) (x := x) hI' h.val h.node e1
    have hB := h'.becomes h (fun _ h => h.elim)
    obtain ⟨g, hr, _⟩ := hB.store
    refine ⟨st', _, _, ?_, hr, hB.shows, nd, _, raw.length + st.slack st.nb, h1, h2, ?_⟩
    · have hd : dup A p raw.length st = .ok (.buf st.nb 0, st.addB A raw.length raw) := by
        unfold dup
        mstep hs.reads hI.ok
        mstep newBuf_run ha (Nat.le_refl _)
        rfl
      unfold setNumStr
      mstep e
      mstep rdVal_run h.val
      mstep hd
      mstep e1
      rfl
    · simp [view, hb]
  · exact absurd hn hc

/-- C22 is false of every number: after `zj_SetNumStr` of it `zj_GetDouble` is undefined, and if it is
written without fraction and exponent `zj_GetLong` and `zj_GetLongLong` are, too. -/
theorem C22_false_stored {D : Type} {fp : FP D} (h : Ready st P G v x A) (hs : CStr st p raw) (hn : IsNum raw) :
    ∃ st', setNumStr v p st = .ok (true, st') ∧ Shows st' v (.num raw) ∧ (¬ ∃ r, getDouble fp v st' = .ok r) ∧
      ((∀ c ∈ raw, c = 0x2D ∨ isDigit c = true) → (¬ ∃ r, getLong v st' = .ok r) ∧ ¬ ∃ r, getLongLong v st' = .ok r) := by
  obtain ⟨st', P', G', e, hr, hsh, hb⟩ := setNumStr_behind h hs hn
  obtain ⟨a, gn, e', hg, hu⟩ := hr.node_of hsh
  cases e'
  have hgn := hu.num
  refine ⟨st', e, hsh, ?_, fun hd => ?_⟩
  · rintro ⟨r, hr'⟩
    have hD := getDouble_eq (fp := fp) hr.inv hr.val hg hgn hb
    rw [hr', stackCopy_eq] at hD
    by_cases hl : raw.length ≤ 128
    · rw [if_pos hl] at hD
      simp only [Res.ok_bind] at hD
      generalize hX : atofText (raw ++ []) = X at hD
      cases X with
      | ub _ => cases hD
      | timeout => cases hD
      | ok j =>
        obtain ⟨c, r, e, _, h2⟩ := atofText_iff.1 hX
        rw [hn.numeral c (by rw [List.append_nil] at e; rw [e]; simp)] at h2
        cases h2
    · rw [if_neg hl] at hD; cases hD
  · obtain ⟨q1, q2⟩ := getLong_eq hr.inv hr.val hg hgn hb
    have key : ¬ ∃ r, ((stackCopy raw >>= fun _ => atoiBits 64 (raw ++ [])) >>= fun k => Res.ok (some k, st'.req A 8)) = .ok r := by
      rintro ⟨r, hr'⟩
      rw [stackCopy_eq] at hr'
      by_cases hl : raw.length ≤ 128
      · rw [if_pos hl] at hr'
        simp only [Res.ok_bind] at hr'
        generalize hX : atoiBits 64 (raw ++ []) = X at hr'
        cases X with
        | ub _ => cases hr'
        | timeout => cases hr'
        | ok j =>
          obtain ⟨⟨s, i, c, u, e, h1, h2, h3, _⟩, _⟩ := (atoiBits_iff (rest := []) hn).1 hX
          rw [List.append_nil] at e
          have hc := hd c (by rw [e]; simp)
          rw [h3] at hc
          simp at hc
          subst hc
          -- a minus sign behind a digit is in an exponent
          obtain ⟨m, i', f, ee, e', hm, hi, hf, hee⟩ := hn
          have hf0 : f = [] := by
            rcases hf with rfl | ⟨ds, rfl, _⟩
            · rfl
            · have := hd 0x2E (by rw [e']; simp)
              simp [isDigit] at this
          have he0 : ee = [] := by
            rcases hee with rfl | ⟨c, sg, ds, rfl, hc, _⟩
            · rfl
            · have := hd c (by rw [e']; simp)
              rcases hc with rfl | rfl <;> simp [isDigit] at this
          subst hf0 he0
          obtain ⟨d, ds, hds, hdig⟩ := intPart_digits hi
          simp only [List.append_nil] at e'
          rw [e'] at e
          have hmem : ∀ (s : Bool) (m' : Bytes), (m' = [] ∨ m' = [0x2D]) →
              m' ++ i' = (if s then [0x2D] else []) ++ (i ++ 0x2D :: u) → (0x2D : Byte) ∈ i' := by
            intro s m' hm' hh
            cases i with
            | nil => exact absurd rfl h1
            | cons j i =>
              have hj := h2 j (by simp)
              rcases hm' with rfl | rfl
              · simp only [List.nil_append] at hh
                rw [hh]; simp
              · cases s with
                | true => simp only [if_true, List.cons_append, List.nil_append, List.cons.injEq, true_and] at hh; rw [hh]; simp
                | false =>
                  simp only [Bool.false_eq_true, if_false, List.cons_append, List.nil_append, List.cons.injEq] at hh
                  rw [← hh.1] at hj; simp [isDigit] at hj
          have := hdig _ (hmem s m hm e)
          simp [isDigit] at this
      · rw [if_neg hl] at hr'; cases hr'
    exact ⟨by rw [q1]; exact key, by rw [q2]; exact key⟩

/-! ### C66 exactly -/

/-- The JSON number `t` is written with the sign `s`, the digits `i` before and `fd` behind the point, and
the exponent `ev` (none is 0). -/
def Written (t : Bytes) (s : Bool) (i fd : Bytes) (ev : Int) : Prop :=
  ∃ f e, t = (if s then [0x2D] else []) ++ (i ++ (f ++ e)) ∧ IsInt i ∧
    (f = [] ∧ fd = [] ∨ f = 0x2E :: fd ∧ IsDigits fd) ∧
    (e = [] ∧ ev = 0 ∨ ∃ c sg es, e = c :: (sg ++ es) ∧ (c = 0x65 ∨ c = 0x45) ∧ IsDigits es ∧
      ((sg = [] ∨ sg = [0x2B]) ∧ ev = (decimalValue es : Int) ∨ sg = [0x2D] ∧ ev = -(decimalValue es : Int)))

theorem Written.value {s : Bool} {i fd : Bytes} {ev : Int} (h : Written raw s i fd ev) :
    HasValue raw s (decimalValue (i ++ fd)) (ev - fd.length) := by
  obtain ⟨f, e, h1, h2, h3, h4⟩ := h
  exact ⟨i, f, e, fd, ev, h1, h2, h3, h4, rfl, rfl⟩

theorem Written.intPart {s : Bool} {i fd : Bytes} {ev : Int} (h : Written raw s i fd ev) :
    HasIntPart raw (if s then -(decimalValue i : Int) else decimalValue i) := by
  obtain ⟨f, e, h1, h2, h3, h4⟩ := h
  refine ⟨_, i, f, e, h1, by cases s <;> simp, h2, ?_, ?_, by cases s <;> simp⟩
  · rcases h3 with ⟨rfl, _⟩ | ⟨rfl, h⟩
    · exact .inl rfl
    · exact .inr ⟨fd, rfl, h⟩
  · rcases h4 with ⟨rfl, _⟩ | ⟨c, sg, es, rfl, hc, hd, h⟩
    · exact .inl rfl
    · refine .inr ⟨c, sg, es, rfl, hc, ?_, hd⟩
      rcases h with ⟨h | h, _⟩ | ⟨h, _⟩
      · exact .inl h
      · exact .inr (.inl h)
      · exact .inr (.inr h)

/-- Every JSON number is written in this way. -/
theorem IsNum.written (h : IsNum raw) : ∃ s i fd ev, Written raw s i fd ev := by
  obtain ⟨m, i, f, e, rfl, hm, hi, hf, he⟩ := h
  obtain ⟨s, hs⟩ : ∃ s : Bool, m = if s then [0x2D] else [] := by
    rcases hm with rfl | rfl
    · exact ⟨false, rfl⟩
    · exact ⟨true, rfl⟩
  obtain ⟨fd, hfd⟩ : ∃ fd, f = [] ∧ fd = [] ∨ f = 0x2E :: fd ∧ IsDigits fd := by
    rcases hf with rfl | ⟨ds, rfl, h⟩
    · exact ⟨[], .inl ⟨rfl, rfl⟩⟩
    · exact ⟨ds, .inr ⟨rfl, h⟩⟩
  obtain ⟨ev, hev⟩ : ∃ ev : Int, e = [] ∧ ev = 0 ∨ ∃ c sg es, e = c :: (sg ++ es) ∧ (c = 0x65 ∨ c = 0x45) ∧ IsDigits es ∧
      ((sg = [] ∨ sg = [0x2B]) ∧ ev = (decimalValue es : Int) ∨ sg = [0x2D] ∧ ev = -(decimalValue es : Int)) := by
    rcases he with rfl | ⟨c, sg, ds, rfl, hc, hsg, hd⟩
    · exact ⟨0, .inl ⟨rfl, rfl⟩⟩
    · rcases hsg with h | h | h
      · exact ⟨decimalValue ds, .inr ⟨c, sg, ds, rfl, hc, hd, .inl ⟨.inl h, rfl⟩⟩⟩
      · exact ⟨decimalValue ds, .inr ⟨c, sg, ds, rfl, hc, hd, .inl ⟨.inr h, rfl⟩⟩⟩
      · exact ⟨-(decimalValue ds : Int), .inr ⟨c, sg, ds, rfl, hc, hd, .inr ⟨h, rfl⟩⟩⟩
  exact ⟨s, i, fd, ev, f, e, by rw [hs], hi, hfd, hev⟩

/-- The digits before the point are the value without its fraction if the exponent is 0, and otherwise
only if both are 0. -/
theorem trunc_iff {I F L m : Nat} {ev : Int} (hm : m = I * 10 ^ L + F) (hF : F < 10 ^ L) :
    m * up (ev - L) / down (ev - L) = I ↔ ev = 0 ∨ I = 0 ∧ m * up (ev - L) < down (ev - L) := by
  have hd : 0 < down (ev - L) := Nat.pow_pos (by decide)
  by_cases h0 : ev = 0
  · subst h0
    have e1 : up (0 - (L : Int)) = 1 := by unfold up; rw [show (0 - (L : Int)).toNat = 0 by omega, Nat.pow_zero]
    have e2 : down (0 - (L : Int)) = 10 ^ L := by unfold down; congr 1; omega
    simp only [true_or, iff_true]
    rw [e1, e2, Nat.mul_one, hm, Nat.mul_comm, Nat.mul_add_div (Nat.pow_pos (by decide)), Nat.div_eq_of_lt hF, Nat.add_zero]
  · simp only [h0, false_or]
    constructor
    · intro hq
      have hI : I = 0 := by
        refine Nat.eq_zero_of_not_pos fun hI => ?_
        by_cases hp : 0 < ev
        · -- at least ten times as much
          have hpow : 10 ^ L * up (ev - L) = 10 ^ ev.toNat * down (ev - L) := by
            unfold up down
            rw [← Nat.pow_add, ← Nat.pow_add]
            congr 1; omega
          have h10 : 10 ≤ 10 ^ ev.toNat := by
            calc 10 = 10 ^ 1 := rfl
              _ ≤ 10 ^ ev.toNat := Nat.pow_le_pow_right (by decide) (by omega)
          have : I * 10 * down (ev - L) ≤ m * up (ev - L) := by
            calc I * 10 * down (ev - L) ≤ I * 10 ^ ev.toNat * down (ev - L) :=
                  Nat.mul_le_mul_right _ (Nat.mul_le_mul_left _ h10)
              _ = I * 10 ^ L * up (ev - L) := by rw [Nat.mul_assoc, ← hpow, Nat.mul_assoc]
              _ ≤ m * up (ev - L) := Nat.mul_le_mul_right _ (by omega)
          have := (Nat.le_div_iff_mul_le hd).2 this
          omega
        · have e1 : up (ev - L) = 1 := by unfold up; rw [show (ev - (L : Int)).toNat = 0 by omega, Nat.pow_zero]
          have e2 : down (ev - L) = 10 ^ L * 10 ^ (-ev).toNat := by
            unfold down
            rw [← Nat.pow_add]
            congr 1; omega
          have h10 : 10 ≤ 10 ^ (-ev).toNat := by
            calc 10 = 10 ^ 1 := rfl
              _ ≤ 10 ^ (-ev).toNat := Nat.pow_le_pow_right (by decide) (by omega)
          have : m * up (ev - L) < I * down (ev - L) := by
            rw [e1, e2, Nat.mul_one, ← Nat.mul_assoc]
            calc m < I * 10 ^ L * 10 := by
                  have : 10 ^ L ≤ I * 10 ^ L := Nat.le_mul_of_pos_left _ hI
                  omega
              _ ≤ I * 10 ^ L * 10 ^ (-ev).toNat := Nat.mul_le_mul_left _ h10
          have := (Nat.div_lt_iff_lt_mul hd).2 this
          omega
      rw [hI] at hq
      exact ⟨hI, by
        refine Nat.lt_of_not_le fun hle => ?_
        have := (Nat.le_div_iff_mul_le hd).2 (show 1 * down (ev - L) ≤ m * up (ev - L) by omega)
        omega⟩
    · rintro ⟨hI, hlt⟩
      rw [hI]; exact Nat.div_eq_of_lt hlt

/-- C66 exactly, for every number of a parsed document: the integer getters return the digits before the
point with the sign (if that fits). This is the value of the number without its fraction if and only if
the exponent is 0 or absent, or the number is less than 1 and written with a 0 before the point. -/
theorem C66_exact {s : Bool} {i fd : Bytes} {ev : Int} (h : Ready st P G v x A) (hs : CStr st p b)
    (ht : JText (.num raw) b) (hw : Written raw s i fd ev) (hl : raw.length < 128) :
    ∃ (st' : St) (n : Int) (m : Nat) (k : Int), parse v p st = .ok (true, st') ∧
      (-2147483648 ≤ n → n ≤ 2147483647 → ∃ st2, getInt v st' = .ok (some n, st2)) ∧
      (-9223372036854775808 ≤ n → n ≤ 9223372036854775807 → ∃ st2, getLong v st' = .ok (some n, st2) ∧
        getLongLong v st' = .ok (some n, st2)) ∧
      HasValue raw s m k ∧ (s = true → n ≤ 0) ∧ (s = false → 0 ≤ n) ∧
      (n.natAbs = m * up k / down k ↔ ev = 0 ∨ n = 0 ∧ m * up k < down k) := by
  obtain ⟨st', q1, _, q2, q3, _⟩ := C22_partial (fp := (⟨fun _ => [], fun _ => ()⟩ : FP Unit)) h hs ht hw.intPart hl
  refine ⟨st', if s then -(decimalValue i : Int) else decimalValue i, _, _, q1, fun h1 h2 => ?_, fun h1 h2 => ?_, hw.value, ?_, ?_, ?_⟩
  · obtain ⟨st2, e, _⟩ := q2 h1 h2; exact ⟨st2, e⟩
  · obtain ⟨st2, e, e', _⟩ := q3 h1 h2; exact ⟨st2, e, e'⟩
  · rintro rfl; simp
  · rintro rfl; simp
  · have hF : decimalValue fd < 10 ^ fd.length := decimalValue_lt (by
      obtain ⟨f, e, _, _, h3, _⟩ := hw
      rcases h3 with ⟨_, rfl⟩ | ⟨_, h⟩
      · simp
      · exact h.2)
    have := trunc_iff (ev := ev) (decimalValue_append i fd) hF
    have en : (if s then -(decimalValue i : Int) else decimalValue i).natAbs = decimalValue i := by cases s <;> simp
    have en0 : (if s then -(decimalValue i : Int) else decimalValue i) = 0 ↔ decimalValue i = 0 := by cases s <;> simp
    rw [en, en0, ← this, eq_comm]

/-! ### Cases -/

/-- A stored number: `-12e3` in a block of its own. -/
example : ∃ st P G v x A p, Ready st P G v x A ∧ CStr st p b!"-12e3" ∧ IsNum b!"-12e3" :=
  ⟨_, _, _, _, _, _, _, (start_ready (fun _ => 0)).addC (d := b!"-12e3" ++ [0]), addC_cstr (by decide),
    b!"-", b!"12", [], b!"e3", rfl, .inr rfl, .inr ⟨0x31, b!"2", rfl, by decide, by decide, by decide⟩, .inl rfl,
    .inr ⟨0x65, [], b!"3", rfl, .inl rfl, .inl rfl, by simp, by decide⟩⟩

example : Written b!"12.5e-1" false b!"12" b!"5" (-1) ∧ (decimalValue b!"125" * up (-1 - 1)) / down (-1 - 1) = 1 :=
  ⟨⟨b!".5", b!"e-1", rfl, .inr ⟨0x31, b!"2", rfl, by decide, by decide, by decide⟩, .inr ⟨rfl, by simp, by decide⟩,
    .inr ⟨0x65, b!"-", b!"1", rfl, .inl rfl, ⟨by simp, by decide⟩, .inr ⟨rfl, by decide⟩⟩⟩, by decide⟩

end
end ZJ
