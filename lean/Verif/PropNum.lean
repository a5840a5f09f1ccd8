import Verif.PropSet

/-
Property theorems about numbers: C21-C23.
-/

set_option linter.unusedSimpArgs false

namespace ZJ

section
variable {st st' : St} {P P' : Addr → Prop} {G : Graph} {v w A B a : Addr} {x y : Option Addr} {p q : SPtr}
  {b raw : Bytes} {n : Int} {t : Json} {gn : GNode}

/-! ### What decimal numerals mean -/

/-- The number a list of decimal digits stands for. -/
def decimalValue (ds : Bytes) : Nat := ds.foldl (fun a c => a * 10 + (c.toNat - 0x30)) 0

/-- `n` is written before the fraction and the exponent of the JSON number `raw`. -/
def HasIntPart (raw : Bytes) (n : Int) : Prop :=
  ∃ m i f e, raw = m ++ (i ++ (f ++ e)) ∧ (m = [] ∨ m = [0x2D]) ∧ IsInt i ∧ IsFrac f ∧ IsExp e ∧
    n = if m = [] then (decimalValue i : Int) else -(decimalValue i : Int)

/-- `raw` is the decimal numeral of `n`: no fraction, no exponent, no leading zeros, and a
minus sign exactly for negative numbers. -/
def Decimal (n : Int) (raw : Bytes) : Prop :=
  ∃ m i, raw = m ++ i ∧ IsInt i ∧ decimalValue i = n.natAbs ∧ m = if n < 0 then [0x2D] else []

theorem isNum_intPart (h : IsNum raw) : ∃ n, HasIntPart raw n := by
  obtain ⟨m, i, f, e, h1, h2, h3, h4, h5⟩ := h
  exact ⟨_, m, i, f, e, h1, h2, h3, h4, h5, rfl⟩

theorem HasIntPart.num (h : HasIntPart raw n) : IsNum raw := by
  obtain ⟨m, i, f, e, h1, h2, h3, h4, h5, _⟩ := h
  exact ⟨m, i, f, e, h1, h2, h3, h4, h5⟩

theorem Decimal.intPart (h : Decimal n raw) : HasIntPart raw n := by
  obtain ⟨m, i, h1, h2, h3, h4⟩ := h
  refine ⟨m, i, [], [], by simp [h1], ?_, h2, .inl rfl, .inl rfl, ?_⟩
  · rw [h4]; split <;> simp
  · rw [h3]
    by_cases hn : n < 0
    · simp [h4, hn]; omega
    · simp [h4, hn]; omega

theorem Decimal.num (h : Decimal n raw) : IsNum raw := h.intPart.num

theorem decimal_fmt (n : Int) : Decimal n (fmtInt n) := by
  cases n with
  | ofNat k =>
    obtain ⟨d, r, h1, _, _, _, h2, _⟩ := decNat_spec k
    refine ⟨[], decNat k, rfl, decNat_int k, ?_, by simp⟩
    rw [h1]; exact h2
  | negSucc k =>
    obtain ⟨d, r, h1, _, _, _, h2, _⟩ := decNat_spec (k + 1)
    refine ⟨[0x2D], decNat (k + 1), rfl, decNat_int _, ?_, ?_⟩
    · rw [h1]; exact h2
    · rw [if_pos (Int.negSucc_lt_zero k)]

theorem intPart_digits {i : Bytes} (h : IsInt i) : ∃ d ds, i = d :: ds ∧ ∀ c ∈ i, isDigit c = true := by
  rcases h with rfl | ⟨d, ds, rfl, h1, h2, h3⟩
  · exact ⟨0x30, [], rfl, by decide⟩
  · refine ⟨d, ds, rfl, fun c hc => ?_⟩
    rcases List.mem_cons.1 hc with rfl | hc
    · unfold isDigit; simp; grind
    · exact h3 c hc

theorem fracExp_stop {f e : Bytes} (hf : IsFrac f) (he : IsExp e) {c : Byte} {r : Bytes} (hc : isDigit c = false) :
    ∃ c' r', f ++ e ++ c :: r = c' :: r' ∧ isDigit c' = false := by
  rcases hf with rfl | ⟨ds, rfl, _⟩
  · rcases he with rfl | ⟨e, sg, ds, rfl, h1, _⟩
    · exact ⟨c, r, rfl, hc⟩
    · refine ⟨e, _, rfl, ?_⟩
      rcases h1 with rfl | rfl <;> decide
  · exact ⟨_, _, rfl, by decide⟩

theorem atoiRaw_num (h : HasIntPart raw n) {c : Byte} {r : Bytes} (hc : isDigit c = false) :
    atoiRaw (raw ++ c :: r) = .ok n := by
  obtain ⟨m, i, f, e, rfl, hm, hi, hf, he, hn⟩ := h
  obtain ⟨d, ds, hd, hdig⟩ := intPart_digits hi
  obtain ⟨c', r', h1, h2⟩ := fracExp_stop hf he (r := r) hc
  have hdd : isDigit d = true := hdig d (by rw [hd]; simp)
  obtain ⟨e1, e2, e3⟩ := digit_ne hdd
  have key : atoiDigits (i ++ c' :: r') 0 = .ok (decimalValue i) := atoiDigits_spec i 0 hdig h2
  have hx : (m ++ (i ++ (f ++ e))) ++ c :: r = m ++ (i ++ c' :: r') := by
    rw [← h1]; simp
  rw [hx]
  rcases hm with rfl | rfl
  · simp only [if_true] at hn
    subst hd
    simp only [List.nil_append, List.cons_append] at key ⊢
    unfold atoiRaw
    rw [List.dropWhile_cons_of_neg (by simp [e1])]
    unfold atoiSigned
    simp only [e2, e3, if_false, key, Res.ok_bind, Res.pure_eq, hn]
  · simp only [List.cons_ne_nil, if_false] at hn
    unfold atoiRaw
    simp only [List.cons_append, List.nil_append]
    rw [List.dropWhile_cons_of_neg (by decide)]
    unfold atoiSigned
    simp only [if_true, key, Res.ok_bind, Res.pure_eq, hn]

theorem atoiBits_num {bits : Nat} (h : HasIntPart raw n) (hr : InRange bits n) {c : Byte} {r : Bytes}
    (hc : isDigit c = false) : atoiBits bits (raw ++ c :: r) = .ok n := by
  unfold atoiBits
  rw [atoiRaw_num h hc]
  simp only [Res.ok_bind]
  unfold InRange at hr
  rw [if_pos hr]
  rfl

/-- The integer part is determined by the text. -/
theorem HasIntPart.unique {n' : Int} (h : HasIntPart raw n) (h' : HasIntPart raw n') : n = n' := by
  have h1 := atoiRaw_num h (c := 0) (r := []) (by decide)
  rw [atoiRaw_num h' (by decide)] at h1
  cases h1
  rfl

theorem Decimal.det {n' : Int} (h : Decimal n raw) (h' : Decimal n' raw) : n = n' := h.intPart.unique h'.intPart

theorem UnfV.num {gv : GVal} (h : UnfV G gv (.num raw)) : gv = .num raw := by
  generalize e : Json.num raw = t at h
  cases h with
  | scalar h => cases gv <;> first | (cases h; done) | (simp [GVal.doc] at e; try rw [e])
  | con h => cases ‹Bool› <;> simp [mkCon] at e

/-! ### States that differ in the request log only -/

theorem unch_req {k : Nat} : Unchanged st (st.req A k) :=
  ⟨⟨fun _ _ _ => rfl, fun _ _ _ => rfl, fun _ _ _ => rfl, Nat.le_refl _, Nat.le_refl _, Nat.le_refl _, rfl, rfl, rfl⟩, rfl⟩

theorem StOK.req (h : StOK st) {k : Nat} : StOK (st.req A k) := ⟨h.nodes, h.vals, h.bufs, h.size, h.live, h.cache⟩

theorem Ready.req (h : Ready st P G v x B) {k : Nat} : Ready (st.req A k) P G v x B :=
  ⟨h.inv.unchanged unch_req h.inv.ok.req, h.cok.frame h.inv.ok unch_req.1 rfl, h.val, h.node⟩

/-! ### C22: what the number getters return, and when they are safe -/

/-- `zj_GetInt` on a number of fewer than 128 characters whose integer part fits an `int`:
it returns the integer part (the fraction and the exponent are dropped). -/
theorem C22_getInt (h : Ready st P G v x A) (hs : Shows st v (.num raw)) (hi : HasIntPart raw n)
    (hl : raw.length < 128) (h1 : -2147483648 ≤ n) (h2 : n ≤ 2147483647) :
    ∃ st', getInt v st = .ok (some n, st') ∧ Unchanged st st' ∧ Ready st' P G v x A := by
  obtain ⟨a, gn, rfl, hg, hu⟩ := h.node_of hs
  have hv := hu.num
  exact ⟨_, getInt_run h.inv h.val hg hv hl
    (fun r => atoiBits_num hi (by unfold InRange; omega) (by decide)), unch_req, h.req⟩

/-- `zj_GetLong` and `zj_GetLongLong` need, in addition, that the text in memory is followed
by a byte that does not continue the number (`Tail`): they convert the text itself, not the
terminated copy they have made. -/
theorem C22_getLong (h : Ready st P G v (some a) A) (hs : Shows st v (.num raw)) (hi : HasIntPart raw n)
    (ht : Tail st a raw) (hl : raw.length ≤ 128)
    (h1 : -9223372036854775808 ≤ n) (h2 : n ≤ 9223372036854775807) :
    ∃ st', getLong v st = .ok (some n, st') ∧ getLongLong v st = .ok (some n, st') ∧ Unchanged st st' ∧
      Ready st' P G v (some a) A := by
  obtain ⟨a', gn, e, hg, hu⟩ := h.node_of hs
  cases e
  obtain ⟨q1, q2⟩ := getLong_run h.inv h.val hg hu.num hl ht
    (fun c r hc => atoiBits_num (c := c) (r := r) hi (by unfold InRange; omega) (isDigit_of_numeral hc))
  exact ⟨_, q1, q2, unch_req, h.req⟩

theorem C22_getDouble {D} {fp : FP D} (h : Ready st P G v (some a) A) (hs : Shows st v (.num raw)) (hi : IsNum raw)
    (ht : Tail st a raw) (hl : raw.length ≤ 128) :
    ∃ st', getDouble fp v st = .ok (some (fp.conv raw), st') ∧ Unchanged st st' ∧ Ready st' P G v (some a) A := by
  obtain ⟨a', gn, e, hg, hu⟩ := h.node_of hs
  cases e
  exact ⟨_, getDouble_run h.inv h.val hg hu.num hl ht hi.numeral, unch_req, h.req⟩

/-- That byte stays where it is as long as the node is not written. -/
theorem Tail.frame {N V : Addr → Prop} (h : Tail st a raw) (hI : Inv st P G) (hg : G a = some gn) (hv : gn.val = .num raw)
    (hF : Frame N V (CacheB st) st st') (hN : ¬ N a) : Tail st' a raw := by
  obtain ⟨nd, p, c, r, lim, h1, h2, h3, h4⟩ := h
  obtain ⟨nd', p', e1, _, e2, _, e3⟩ := hI.num hg hv
  rw [h1] at e1; cases e1
  rw [h2] at e2; cases e2
  refine ⟨nd, p, c, r, lim, by rw [hF.nodes a (hI.lt hg) hN]; exact h1, h2, ?_, h4⟩
  cases p with
  | lit s => simpa [ZJ.view] using h3
  | buf b off =>
    obtain ⟨hP, bf, _, hb, _⟩ := e3
    have : st'.bufs b = st.bufs b := hF.bufs b (hI.ok.buf_lt hb)
      (fun ⟨z, hz, e⟩ => ((hI.pin b hP).2 z hz).2 e)
    simp only [ZJ.view, this, hb] at h3 ⊢
    simp at h3 ⊢
    exact h3

/-- C22 for parsed documents: every number in a document made by `zj_Parse` is followed by a
byte that ends it, and stays so while its node is not written; so `C22_getLong` and
`C22_getDouble` apply to it, whatever handle reaches it. -/
theorem C22_parse (h : Ready st P G v x A) (hs : CStr st p b) (hr : parse v p st = .ok (true, st')) :
    ∃ P' G', Ready st' P' G' v (some (rootOf st x)) A ∧
      ∀ c gn raw, Reach G' (rootOf st x) c → G' c = some gn → gn.val = .num raw →
        ∀ st2 N V, Frame N V (CacheB st') st' st2 → ¬ N c → Tail st2 c raw := by
  obtain ⟨t, ht⟩ := (C01_parse_true_iff h hs).1 ⟨_, hr⟩
  obtain ⟨st2, gv, g, h1, h2, h3, h4, h5, h6, h7, h8, _⟩ := parse_accept h.inv h.val h.node hs ht
  rw [hr] at h1; cases h1
  refine ⟨_, _, ⟨h2, h.cok.frame h.inv.ok h7 h5, h4, ?_⟩, fun c gn raw q1 q2 q3 st2 N V hF hN => ?_⟩
  · intro a ha
    cases ha
    simp [Graph.plant]
  · exact (h8 c gn raw q1 q2 q3).frame h2 q2 q3 hF hN

/-- The same for `zj_ParseFast`. -/
theorem C22_parseFast (h : Ready st P G v x A) (hs : CStr st p b) (hl : Lent st p) (hr : parseFast v p st = .ok (true, st')) :
    ∃ P' G', Ready st' P' G' v (some (rootOf st x)) A ∧
      ∀ c gn raw, Reach G' (rootOf st x) c → G' c = some gn → gn.val = .num raw →
        ∀ st2 N V, Frame N V (CacheB st') st' st2 → ¬ N c → Tail st2 c raw := by
  obtain ⟨t, ht⟩ := (C01_parseFast_true_iff h hs hl).1 ⟨_, hr⟩
  have h' := h.lend hl
  obtain ⟨st2, gv, g, h1, h2, h3, h4, h5, h6, h7, h8, _⟩ := parseFast_accept h'.inv h'.val h'.node hs inP_pinned ht
  rw [hr] at h1; cases h1
  refine ⟨_, _, ⟨h2, h.cok.frame h.inv.ok h7 h5, h4, ?_⟩, fun c gn raw q1 q2 q3 st2 N V hF hN => ?_⟩
  · intro a ha
    cases ha
    simp [Graph.plant]
  · exact (h8 c gn raw q1 q2 q3).frame h2 q2 q3 hF hN

theorem getDouble_smash {D} {fp : FP D} (hI : Inv st P G) (hv : st.vals v = some ⟨some a, A⟩) {gn} (ha : G a = some gn)
    (hg : gn.val = .num raw) (hl : 128 < raw.length) : getDouble fp v st = .ub .stackSmash := by
  obtain ⟨nd, p, h1, h2, h3, h4, h5⟩ := hI.num ha hg
  have hs : lift (stackCopy raw) = (lift (.ub .stackSmash) : M Bytes) := by
    unfold stackCopy; rw [if_neg (by omega)]
  unfold getDouble
  mstep rdVal_run hv
  simp only
  mstep nType_run h1 h2
  simp only [ne_eq, not_true, if_false]
  mstep request_run (hI.ok.live v _ hv)
  mstep nStr_run (st := st.req A 8) h1 h3
  mstep nLen_run (st := st.req A 8) h1 h4
  refine M.bind_ub ?_
  unfold strToDouble
  mstep (h5.req (A := A) (k := 8)).readN hI.ok.size
  rw [hs]
  exact M.bind_ub rfl

/-- C22 is false: on every number of more than 128 characters all four getters write behind
the end of their 128-byte array (zzzjson.h:372-391 copy `len` bytes without a check). -/
theorem C22_false {D} {fp : FP D} (h : Ready st P G v x A) (hs : Shows st v (.num raw)) (hl : 128 < raw.length) :
    getInt v st = .ub .stackSmash ∧ getLong v st = .ub .stackSmash ∧ getLongLong v st = .ub .stackSmash ∧
    getDouble fp v st = .ub .stackSmash := by
  obtain ⟨a, gn, rfl, hg, hu⟩ := h.node_of hs
  obtain ⟨q1, q2, q3⟩ := getInt_smash h.inv h.val hg hu.num hl
  exact ⟨q1, q2, q3, getDouble_smash h.inv h.val hg hu.num hl⟩

/-- Such numbers exist: 129 digits are parsed, and `zj_GetInt` overruns its array. -/
example : ((do
    let (v, r) ← make 0 (List.replicate 129 0x31)
    if !r then return none
    getInt v : M _) (start fun _ => 0)).out = .ub .stackSmash := by decide +kernel

/-- C22 is false in three more ways.
1. `zj_SetNumStr` and `zj_Copy` store the text without a terminator, so `zj_GetLong`,
   `zj_GetLongLong` and `zj_GetDouble` read behind the block (they convert `str`, not `s`).
2. After `zj_SetNumStrLenFast(v, "12345", 2)` the value is 12, but `zj_GetLong` says 12345.
3. On 128 digits `zj_GetInt` reads behind its own array, which is full and not terminated. -/
theorem C22_false_tail :
    ((do
      let r ← setNumStr 0 (← callerText (b!"7" ++ [0]))
      if !r then return none
      getLong 0 : M (Option Int)) (start fun _ => 0)).out = .ub .oob ∧
    ((do
      let r ← setNumStr 0 (← callerText (b!"7" ++ [0]))
      if !r then return none
      getDouble ⟨fun _ => [], fun _ => ()⟩ 0 : M (Option Unit)) (start fun _ => 0)).out = .ub .oob ∧
    ((do
      let (v, _) ← make 0 b!"[7]"
      let some w ← copy 9 v | return none
      let some e ← arrayGet 9 w 0 | return none
      getLongLong e : M (Option Int)) (start fun _ => 0)).out = .ub .oob ∧
    ((do
      let r ← setNumStrLenFast 0 (← callerText (b!"12345" ++ [0])) 2
      return (r, ← getInt 0, ← getLong 0) : M (Bool × Option Int × Option Int)) (start fun _ => 0)).out =
      .ok (true, some 12, some 12345) ∧
    ((do
      let (v, r) ← make 0 (List.replicate 128 0x31)
      if !r then return none
      getInt v : M _) (start fun _ => 0)).out = .ub .oob := by
  refine ⟨?_, ?_, ?_, ?_, ?_⟩ <;> decide +kernel

/-- C22, the part that holds, on parsed values: a number of fewer than 128 characters is
read safely by all getters, right after `zj_Parse`, if its integer part fits. Missing for
the full property: longer numbers (`C22_false`), numbers stored by `zj_SetNumStr`,
`zj_SetNumStrLenFast` or `zj_Copy` (`C22_false_tail`), and numbers out of the range of the
C type, for which `atoi` and `atol` are undefined. -/
theorem C22_partial {D} {fp : FP D} (h : Ready st P G v x A) (hs : CStr st p b) (ht : JText (.num raw) b)
    (hi : HasIntPart raw n) (hl : raw.length < 128) :
    ∃ st', parse v p st = .ok (true, st') ∧ Shows st' v (.num raw) ∧
      (-2147483648 ≤ n → n ≤ 2147483647 → ∃ st2, getInt v st' = .ok (some n, st2) ∧ Unchanged st' st2) ∧
      (-9223372036854775808 ≤ n → n ≤ 9223372036854775807 → ∃ st2, getLong v st' = .ok (some n, st2) ∧
        getLongLong v st' = .ok (some n, st2) ∧ Unchanged st' st2) ∧
      (∃ st2, getDouble fp v st' = .ok (some (fp.conv raw), st2) ∧ Unchanged st' st2) := by
  obtain ⟨st', hr⟩ := (C01_parse_true_iff h hs).2 ⟨_, ht⟩
  obtain ⟨t, ht', hsh, hu⟩ := C02_parse_document h hs hr
  cases hu _ ht
  obtain ⟨P', G', hR, hT⟩ := C22_parse h hs hr
  obtain ⟨a, gn, e, hg, hv⟩ := hR.node_of hsh
  cases e
  have tail : Tail st' (rootOf st x) raw := hT _ _ _ .refl hg hv.num st' (fun _ => False) (fun _ => False)
    ((Frame.refl _).weaken (fun _ h => h) (fun _ h => h) (fun _ h => False.elim h)) id
  refine ⟨st', hr, hsh, fun h1 h2 => ?_, fun h1 h2 => ?_, ?_⟩
  · obtain ⟨st2, q1, q2, _⟩ := C22_getInt hR hsh hi hl h1 h2
    exact ⟨st2, q1, q2⟩
  · obtain ⟨st2, q1, q2, q3, _⟩ := C22_getLong hR hsh hi tail (by omega) h1 h2
    exact ⟨st2, q1, q2, q3⟩
  · obtain ⟨st2, q1, q2, _⟩ := C22_getDouble (fp := fp) hR hsh hi.num tail (by omega)
    exact ⟨st2, q1, q2⟩

/-- A number with a fraction, an exponent and a sign, read from inside a document, run. -/
example : ((do
    let (v, _) ← make 0 b!"[-12.9e3,9223372036854775807 ]"
    let some e ← arrayGet 9 v 0 | return (none, none, none)
    let some f ← arrayGet 9 v 1 | return (none, none, none)
    return (← getInt e, ← getLong e, ← getLongLong f) : M _) (start fun _ => 0)).out
    = .ok (some (-12), some (-12), some 9223372036854775807) := by decide +kernel

example : ∃ st P G v x A p, Ready st P G v x A ∧ CStr st p b!"-12.9e3" ∧ JText (.num b!"-12.9e3") b!"-12.9e3" ∧
    HasIntPart b!"-12.9e3" (-12) := by
  obtain ⟨st, P, G, v, a, h, _⟩ := exists_example (t := .arr [.bool true, .null]) (by simp [Json.Valid, Json.ValidElems]) (fun _ => 0)
  have hi : HasIntPart b!"-12.9e3" (-12) :=
    ⟨[0x2D], b!"12", b!".9", b!"e3", rfl, .inr rfl, .inr ⟨_, _, rfl, by decide, by decide, by decide⟩,
      .inr ⟨_, rfl, by simp [IsDigits]; decide⟩, .inr ⟨_, [], _, rfl, .inl rfl, .inl rfl, by simp [IsDigits]; decide⟩, by decide⟩
  exact ⟨_, P, G, v, _, 0, _, h.ready.addC (d := b!"-12.9e3" ++ [0]), addC_cstr (by decide),
    ⟨[], _, [], rfl, fun _ h => (by cases h), .num hi.num, fun _ h => (by cases h)⟩, hi⟩

/-! ### C21: integers survive -/

/-- C21 for `int`: `zj_SetInt(v, n)` succeeds, `v` is the decimal numeral of `n` (at most 11
characters, in a block of 16), everything else is unchanged, and `zj_GetInt` returns `n`. -/
theorem C21_int (h : Ready st P G v x A) (h1 : -2147483648 ≤ n) (h2 : n ≤ 2147483647) :
    ∃ st' raw, setInt v n st = .ok (true, st') ∧
      Becomes st st' P (fun b => P b ∨ b = st.nb) G v x A (.num raw) ∧ Decimal n raw ∧ raw.length ≤ 11 ∧
      ∃ st2, getInt v st' = .ok (some n, st2) ∧ Unchanged st' st2 := by
  have hn : InRange 32 n := by unfold InRange; omega
  obtain ⟨st', q1, q2, _⟩ := setInt_run h.inv h.val h.node hn
  have hb := q2.becomes h (fun _ h => h.elim)
  obtain ⟨g, hR, _⟩ := hb.store
  have hl := fmtInt_length32 hn
  obtain ⟨st2, q4, q5, _⟩ := C22_getInt hR hb.shows (decimal_fmt n).intPart (by omega) h1 h2
  exact ⟨st', fmtInt n, q1, hb, decimal_fmt n, hl, st2, q4, q5⟩

theorem long_aux (h : Ready st P G v x A) (h1 : -9223372036854775808 ≤ n) (h2 : n ≤ 9223372036854775807)
    (q : SetTo (fun _ => False) st st' P (fun b => P b ∨ b = st.nb) G v x A (.num (fmtInt n)) (.num (fmtInt n)))
    (ht : Tail st' (rootOf st x) (fmtInt n)) :
    Becomes st st' P (fun b => P b ∨ b = st.nb) G v x A (.num (fmtInt n)) ∧ (fmtInt n).length ≤ 20 ∧
      ∃ st2, getLong v st' = .ok (some n, st2) ∧ getLongLong v st' = .ok (some n, st2) ∧ Unchanged st' st2 := by
  have hl := fmtInt_length64 (n := n) (by unfold InRange; omega)
  have hb := q.becomes h (fun _ h => h.elim)
  obtain ⟨g, hR, _⟩ := hb.store
  obtain ⟨st2, q4, q5, q6, _⟩ := C22_getLong hR hb.shows (decimal_fmt n).intPart ht (by omega) h1 h2
  exact ⟨hb, hl, st2, q4, q5, q6⟩

/-- C21 for `long` (64 bits): at most 20 characters, in a block of 24. -/
theorem C21_long (h : Ready st P G v x A) (h1 : -9223372036854775808 ≤ n) (h2 : n ≤ 9223372036854775807) :
    ∃ st' raw, setLong v n st = .ok (true, st') ∧
      Becomes st st' P (fun b => P b ∨ b = st.nb) G v x A (.num raw) ∧ Decimal n raw ∧ raw.length ≤ 20 ∧
      ∃ st2, getLong v st' = .ok (some n, st2) ∧ Unchanged st' st2 := by
  obtain ⟨st', q1, q2, q3⟩ := setLong_run h.inv h.val h.node (n := n) (by unfold InRange; omega)
  obtain ⟨hb, hl, st2, q4, _, q6⟩ := long_aux h h1 h2 q2 q3
  exact ⟨st', fmtInt n, q1, hb, decimal_fmt n, hl, st2, q4, q6⟩

/-- C21 for `long long`. -/
theorem C21_longLong (h : Ready st P G v x A) (h1 : -9223372036854775808 ≤ n) (h2 : n ≤ 9223372036854775807) :
    ∃ st' raw, setLongLong v n st = .ok (true, st') ∧
      Becomes st st' P (fun b => P b ∨ b = st.nb) G v x A (.num raw) ∧ Decimal n raw ∧ raw.length ≤ 20 ∧
      ∃ st2, getLongLong v st' = .ok (some n, st2) ∧ Unchanged st' st2 := by
  obtain ⟨st', q1, q2, q3⟩ := setLongLong_run h.inv h.val h.node (n := n) (by unfold InRange; omega)
  obtain ⟨hb, hl, st2, _, q4, q6⟩ := long_aux h h1 h2 q2 q3
  exact ⟨st', fmtInt n, q1, hb, decimal_fmt n, hl, st2, q4, q6⟩

/-- C21, through text: whoever parses a text that is the numeral of `n` gets `n`. -/
theorem C21_through_text (h : Ready st P G v x A) (hs : CStr st p b) (hd : Decimal n b)
    (h1 : -9223372036854775808 ≤ n) (h2 : n ≤ 9223372036854775807) (hl : b.length < 128) :
    ∃ st' st2, parse v p st = .ok (true, st') ∧ getLong v st' = .ok (some n, st2) ∧ getLongLong v st' = .ok (some n, st2) := by
  have ht : JText (.num b) b := ⟨[], b, [], by simp, fun _ h => (by cases h), .num hd.num, fun _ h => (by cases h)⟩
  obtain ⟨st', q1, _, _, q2, _⟩ := C22_partial (fp := (⟨fun _ => [], fun _ => ()⟩ : FP Unit)) h hs ht hd.intPart hl
  obtain ⟨st2, q3, q4, _⟩ := q2 h1 h2
  exact ⟨st', st2, q1, q3, q4⟩

/-- The extreme values, run. -/
example : ((do
    let r1 ← setInt 0 (-2147483648)
    let a ← getInt 0
    let r2 ← setLong 0 9223372036854775807
    let b ← getLong 0
    let r3 ← setLongLong 0 (-9223372036854775808)
    let c ← getLongLong 0
    let some (q, m) ← getNumFast 0 | return none
    return some ([r1, r2, r3], [a, b, c], ← readN q m) : M _) (start fun _ => 0)).out
    = .ok (some ([true, true, true], [some (-2147483648), some 9223372036854775807, some (-9223372036854775808)],
        b!"-9223372036854775808")) := by decide +kernel

example : ∃ st P G v x A, Ready st P G v x A ∧ x ≠ none := by
  obtain ⟨st, P, G, v, a, h, _⟩ := exists_example (t := .arr [.bool true, .null]) (by simp [Json.Valid, Json.ValidElems]) (fun _ => 0)
  exact ⟨_, P, G, v, _, 0, h.ready, by simp⟩

/-! ### C23: SetDouble

`fp` stands for the C library: `fp.fmt d` is what `printf("%.17g", d)` prints (at most 24
characters), `fp.conv` is `strtod`. -/

/-- C23 is false: `zj_SetDouble` stores whatever is printed. If that is not a JSON number
(C99: `nan`, `-nan`, `inf`, `-inf`), it still returns true, the value is not valid JSON, and
what `zj_Stringify` prints is rejected by `zj_Parse`. -/
theorem C23_false {D} {fp : FP D} {d : D} (h : Ready st P G v x A) (hl : (fp.fmt d).length < 32) (hd : ¬ IsNum (fp.fmt d)) :
    ∃ st', setDouble fp v d st = .ok (true, st') ∧ Shows st' v (.num (fp.fmt d)) ∧ ¬ (Json.num (fp.fmt d)).Valid := by
  obtain ⟨st', q1, q2, _⟩ := setDouble_run h.inv h.val h.node hl
  exact ⟨st', q1, (q2.becomes h (fun _ h => h.elim)).shows, hd⟩

/-- The C library does print such texts: NaN, then print, then parse the print. -/
theorem C23_false_nan :
    ((do
      let r ← setDouble (⟨fun _ => b!"nan", fun _ => ()⟩ : FP Unit) 0 ()
      let s ← stringify 9 0
      let w ← newValue 0
      return (r, ← readN s 4, ← parse w s) : M (Bool × Bytes × Bool)) (start fun _ => 3)).out =
      .ok (true, b!"nan" ++ [0], false) ∧ ¬ IsNum b!"nan" := by
  refine ⟨by decide +kernel, fun h => ?_⟩
  obtain ⟨n, h⟩ := isNum_intPart h
  obtain ⟨m, i, f, e, h1, hm, hi, _⟩ := h
  obtain ⟨d, ds, rfl, hd⟩ := intPart_digits hi
  have := hd d (by simp)
  rcases hm with rfl | rfl
  · have : d = 0x6E := by simpa using (List.cons.inj h1).1.symm
    rw [this] at hd; exact absurd (hd 0x6E (by simp)) (by decide)
  · exact absurd (List.cons.inj h1).1 (by decide)

/-- C23, the part that holds: if `d` is printed as a JSON number (every finite double is) and
`strtod` inverts `printf("%.17g")`, then `v` is that number and `zj_GetDouble` returns `d`.
Missing for the full property: NaN and the infinities (`C23_false`). -/
theorem C23_partial {D} {fp : FP D} {d : D} (h : Ready st P G v x A) (hl : (fp.fmt d).length < 32) (hd : IsNum (fp.fmt d))
    (hc : fp.conv (fp.fmt d) = d) :
    ∃ st', setDouble fp v d st = .ok (true, st') ∧
      Becomes st st' P (fun b => P b ∨ b = st.nb) G v x A (.num (fp.fmt d)) ∧ (Json.num (fp.fmt d)).Valid ∧
      ∃ st2, getDouble fp v st' = .ok (some d, st2) ∧ Unchanged st' st2 := by
  obtain ⟨st', q1, q2, q3⟩ := setDouble_run h.inv h.val h.node hl
  have hb := q2.becomes h (fun _ h => h.elim)
  obtain ⟨g, hR, _⟩ := hb.store
  obtain ⟨st2, q4, q5, _⟩ := C22_getDouble (fp := fp) hR hb.shows hd q3 (by omega)
  rw [hc] at q4
  exact ⟨st', q1, hb, hd, st2, q4, q5⟩

/-- A model of `printf` and `strtod` on halves, for which the hypotheses hold: 2.5. -/
example : ∃ (fp : FP Nat) (d : Nat), (fp.fmt d).length < 32 ∧ IsNum (fp.fmt d) ∧ fp.conv (fp.fmt d) = d ∧ fp.fmt d = b!"2.5" :=
  ⟨⟨fun n => decNat (n / 2) ++ (if n % 2 = 1 then b!".5" else []), fun b => if b = b!"2.5" then 5 else 0⟩, 5,
    by decide, ⟨[], b!"2", b!".5", [], rfl, .inl rfl, .inr ⟨_, _, rfl, by decide, by decide, by decide⟩,
      .inr ⟨_, rfl, by simp [IsDigits]; decide⟩, .inl rfl⟩, by decide, by decide⟩

end
end ZJ
