import Verif.SetSim3

/-
Numbers: printing and reading back integers (zzzjson.h:372-408), the number setters
(zzzjson.h:2302-2368) and getters (zzzjson.h:1879-1919).
-/

set_option linter.unusedSimpArgs false

namespace ZJ

/-! ### Decimal digits -/

/-- The number a list of digits stands for, continuing from `acc`. -/
def digVal (acc : Nat) (ds : Bytes) : Nat := ds.foldl (fun a c => a * 10 + (c.toNat - 0x30)) acc

theorem digit_ofNat {k : Nat} (h : k < 10) :
    isDigit (48 + k).toUInt8 = true ∧ (48 + k).toUInt8.toNat - 0x30 = k ∧
    ((48 + k).toUInt8 = 0x30 → k = 0) ∧ (k ≠ 0 → 0x31 ≤ (48 + k).toUInt8 ∧ (48 + k).toUInt8 ≤ 0x39) := by
  have : ∀ k : Fin 10, isDigit (48 + k.val).toUInt8 = true ∧ (48 + k.val).toUInt8.toNat - 0x30 = k.val ∧
    ((48 + k.val).toUInt8 = 0x30 → k.val = 0) ∧
    (k.val ≠ 0 → 0x31 ≤ (48 + k.val).toUInt8 ∧ (48 + k.val).toUInt8 ≤ 0x39) := by decide
  exact this ⟨k, h⟩

theorem decLoop_spec : ∀ fuel n acc, n < fuel → ∃ d r, decLoop fuel n acc = (d :: r) ++ acc ∧
    (∀ c ∈ d :: r, isDigit c = true) ∧ (n ≠ 0 → 0x31 ≤ d ∧ d ≤ 0x39) ∧
    (n = 0 → d = 0x30 ∧ r = []) ∧ (∀ a, digVal a (d :: r) = a * 10 ^ (r.length + 1) + n) ∧
    (∀ k, 1 ≤ k → n < 10 ^ k → r.length + 1 ≤ k) := by
  intro fuel
  induction fuel with
  | zero => intro n acc h; omega
  | succ fuel ih =>
    intro n acc h
    obtain ⟨g1, g2, g3, g4⟩ := digit_ofNat (Nat.mod_lt n (show 0 < 10 by omega))
    unfold decLoop
    simp only
    by_cases hn : n < 10
    · rw [if_pos hn]
      have hm : n % 10 = n := Nat.mod_eq_of_lt hn
      refine ⟨_, [], rfl, ?_, ?_, ?_, ?_, ?_⟩
      · intro c hc; rw [List.mem_singleton] at hc; subst hc; exact g1
      · intro h0; exact g4 (by omega)
      · intro h0; subst h0; exact ⟨rfl, rfl⟩
      · intro a; simp only [digVal, List.foldl]; rw [g2, hm]; simp
      · intro k hk _; simpa using hk
    · rw [if_neg hn]
      obtain ⟨d, r, h1, h2, h3, h4, h5, h6⟩ := ih (n / 10) ((48 + n % 10).toUInt8 :: acc) (by omega)
      refine ⟨d, r ++ [(48 + n % 10).toUInt8], by rw [h1]; simp, ?_, ?_, ?_, ?_, ?_⟩
      · intro c hc
        simp only [List.mem_cons, List.mem_append, List.not_mem_nil, or_false] at hc
        rcases hc with hc | hc | hc
        · exact h2 c (by simp [hc])
        · exact h2 c (by simp [hc])
        · subst hc; exact g1
      · intro _; exact h3 (by omega)
      · intro h0; omega
      · intro a
        have h7 := h5 a
        have : digVal a (d :: (r ++ [(48 + n % 10).toUInt8])) =
            digVal a (d :: r) * 10 + ((48 + n % 10).toUInt8.toNat - 0x30) := by
          simp [digVal]
        rw [this, h7, g2, List.length_append, List.length_singleton, Nat.pow_succ _ (r.length + 1), Nat.add_mul,
          Nat.mul_assoc]
        omega
      · intro k hk hlt
        match k, hk with
        | k + 1, _ =>
          have : n / 10 < 10 ^ k := by rw [Nat.pow_succ] at hlt; omega
          by_cases h0 : k = 0
          · subst h0; simp at hlt; omega
          · have := h6 k (by omega) this
            simp; omega

theorem decNat_spec (n : Nat) : ∃ d r, decNat n = d :: r ∧ (∀ c ∈ d :: r, isDigit c = true) ∧
    (n ≠ 0 → 0x31 ≤ d ∧ d ≤ 0x39) ∧ (n = 0 → d = 0x30 ∧ r = []) ∧ digVal 0 (d :: r) = n ∧
    (∀ k, 1 ≤ k → n < 10 ^ k → r.length + 1 ≤ k) := by
  obtain ⟨d, r, h1, h2, h3, h4, h5, h6⟩ := decLoop_spec (n + 1) n [] (by omega)
  exact ⟨d, r, by simpa [decNat] using h1, h2, h3, h4, by simpa using h5 0, h6⟩

theorem decNat_int (n : Nat) : IsInt (decNat n) := by
  obtain ⟨d, r, h1, h2, h3, h4, _⟩ := decNat_spec n
  rw [h1]
  by_cases h0 : n = 0
  · obtain ⟨rfl, rfl⟩ := h4 h0; exact .inl rfl
  · exact .inr ⟨d, r, rfl, (h3 h0).1, (h3 h0).2, fun c hc => h2 c (by simp [hc])⟩

theorem decNat_length {n k : Nat} (hk : 1 ≤ k) (h : n < 10 ^ k) : (decNat n).length ≤ k := by
  obtain ⟨d, r, h1, _, _, _, _, h6⟩ := decNat_spec n
  rw [h1]; simpa using h6 k hk h

theorem fmtInt_num (n : Int) : IsNum (fmtInt n) := by
  cases n with
  | ofNat n => exact ⟨[], decNat n, [], [], by simp [fmtInt], .inl rfl, decNat_int n, .inl rfl, .inl rfl⟩
  | negSucc n =>
    exact ⟨[0x2D], decNat (n + 1), [], [], by simp [fmtInt], .inr rfl, decNat_int _, .inl rfl, .inl rfl⟩

/-- Range of a signed integer of `bits` bits. -/
def InRange (bits : Nat) (n : Int) : Prop := -(2 ^ (bits - 1) : Int) ≤ n ∧ n < 2 ^ (bits - 1)

theorem fmtInt_length32 {n : Int} (h : InRange 32 n) : (fmtInt n).length ≤ 11 := by
  obtain ⟨h1, h2⟩ := h
  simp only [Nat.reduceSub, Int.reducePow, Int.reduceNeg] at h1 h2
  cases n with
  | ofNat n =>
    have : (n : Int) < 2147483648 := h2
    have := decNat_length (n := n) (k := 10) (by omega) (by omega)
    simp only [fmtInt]; omega
  | negSucc n =>
    have := decNat_length (n := n + 1) (k := 10) (by omega) (by omega)
    simp only [fmtInt, List.length_cons]; omega

theorem fmtInt_length64 {n : Int} (h : InRange 64 n) : (fmtInt n).length ≤ 20 := by
  obtain ⟨h1, h2⟩ := h
  simp only [Nat.reduceSub, Int.reducePow, Int.reduceNeg] at h1 h2
  cases n with
  | ofNat n =>
    have : (n : Int) < 9223372036854775808 := h2
    have := decNat_length (n := n) (k := 19) (by omega) (by omega)
    simp only [fmtInt]; omega
  | negSucc n =>
    have := decNat_length (n := n + 1) (k := 19) (by omega) (by omega)
    simp only [fmtInt, List.length_cons]; omega

/-! ### Reading integers back -/

theorem atoiDigits_spec : ∀ (ds : Bytes) {c : Byte} {r : Bytes} (acc : Nat),
    (∀ x ∈ ds, isDigit x = true) → isDigit c = false →
    atoiDigits (ds ++ c :: r) acc = .ok (digVal acc ds)
  | [], c, r, acc, _, hc => by
    have : ¬ (0x30 ≤ c ∧ c ≤ 0x39) := by simpa [isDigit] using hc
    simp [atoiDigits, digVal, this]
  | d :: ds, c, r, acc, h, hc => by
    have hd : 0x30 ≤ d ∧ d ≤ 0x39 := by simpa [isDigit] using h d (by simp)
    have ih := atoiDigits_spec ds (c := c) (r := r) (acc * 10 + (d.toNat - 0x30))
      (fun x hx => h x (by simp [hx])) hc
    simp only [List.cons_append, atoiDigits, hd, and_self, if_true]
    rw [ih]
    rfl

theorem digit_ne {d : Byte} (h : isDigit d = true) : isSpaceC d = false ∧ d ≠ 0x2D ∧ d ≠ 0x2B := by
  revert d; apply allBytes; decide +kernel

theorem atoiRaw_fmt (n : Int) {c : Byte} {r : Bytes} (hc : isDigit c = false) :
    atoiRaw (fmtInt n ++ c :: r) = .ok n := by
  unfold atoiRaw
  cases n with
  | ofNat n =>
    obtain ⟨d, q, h1, h2, _, _, h5, _⟩ := decNat_spec n
    obtain ⟨g1, g2, g3⟩ := digit_ne (h2 d (by simp))
    simp only [fmtInt, h1, List.cons_append, List.dropWhile, g1, atoiSigned, g2, g3, if_false]
    have := atoiDigits_spec (d :: q) (r := r) 0 h2 hc
    rw [List.cons_append] at this
    rw [this, h5]
    rfl
  | negSucc n =>
    obtain ⟨d, q, h1, h2, _, _, h5, _⟩ := decNat_spec (n + 1)
    have g : isSpaceC 0x2D = false := by decide
    simp only [fmtInt, h1, List.cons_append, List.dropWhile, g, atoiSigned, if_true]
    have := atoiDigits_spec (d :: q) (r := r) 0 h2 hc
    rw [List.cons_append] at this
    rw [this, h5]
    rfl

theorem atoiBits_fmt {bits : Nat} {n : Int} (h : InRange bits n) {c : Byte} {r : Bytes}
    (hc : isDigit c = false) : atoiBits bits (fmtInt n ++ c :: r) = .ok n := by
  unfold atoiBits
  rw [atoiRaw_fmt n hc]
  exact if_pos h

/-! ### Setters -/

section
variable {st st' : St} {P P' : Addr → Prop} {G : Graph} {v A a : Addr} {x : Option Addr} {n : Int}
  {raw : Bytes} {p : SPtr}

theorem snprintf_fits {cap : Nat} {t : Bytes} (h : t.length < cap) : snprintf cap t = (t ++ [0], t.length) := by
  simp [snprintf, List.take_of_length_le (show t.length ≤ cap - 1 by omega)]

theorem isDigit_of_numeral {c : Byte} (h : isNumeralChar c = false) : isDigit c = false := by
  revert c; apply allBytes; decide +kernel

/-- Where `setScalar` leaves its pointer. -/
theorem setScalar_value (hI : Inv st P G) (hv : st.vals v = some ⟨x, A⟩)
    (hx : ∀ a, x = some a → (G a).isSome) {ty : JType} {len : Nat} {p : SPtr}
    (h : setScalar v ty p len st = .ok ((), st')) :
    st'.bufs = st.bufs ∧ ∃ nd, st'.nodes (rootOf st x) = some nd ∧ nd.value = some (.str p) := by
  obtain ⟨st1, n1, e1, hE⟩ := ensureNode_run hI hv hx
  have : setScalar v ty p len st = .ok ((), st1.setN (rootOf st x)
      { n1 with type := some ty, value := some (.str p), len := some len }) := by
    unfold setScalar
    mstep e1
    mstep modNode_run hE.node
    mstep modNode_run (n := { n1 with type := some ty }) (by simp)
    rw [setN_setN]
    refine (modNode_run (n := { n1 with type := some ty, value := some (.str p) }) (by simp)).trans ?_
    rw [setN_setN]
  rw [this] at h
  cases h
  exact ⟨hE.bufs, _, by simp; rfl, rfl⟩

/-- Storing a printed number. -/
theorem setPrinted_run (hI : Inv st P G) (hv : st.vals v = some ⟨x, A⟩)
    (hx : ∀ a, x = some a → (G a).isSome) {sz : Nat} (hsz : raw.length < sz) :
    ∃ st', (do
        let b ← newBuf (← rdVal v).a sz (raw ++ [0])
        setScalar v .number (.buf b 0) raw.length
        return true : M Bool) st = .ok (true, st') ∧
      SetTo (fun _ => False) st st' P (fun b => P b ∨ b = st.nb) G v x A (.num raw) (.num raw) ∧
      Tail st' (rootOf st x) raw := by
  obtain ⟨st', e, h⟩ := storeFresh_run (gv := .num raw) (r := [0]) (sz := sz) hI hv hx rfl rfl rfl
    (by simp [GVal.text]; omega)
  refine ⟨st', ?_, h, ?_⟩
  · mstep rdVal_run hv
    mstep newBuf_run (hI.ok.live v _ hv) (by simp; omega)
    mstep e
    rfl
  · have hI' := hI.addB (A := A) (sz := sz) (d := raw ++ [0]) (by simp; omega)
    obtain ⟨hb, nd, h1, h2⟩ := setScalar_value (v := v) (A := A) (x := x) hI' hv hx e
    refine ⟨nd, _, 0, [], sz + st.slack st.nb, h1, h2, ?_, by decide⟩
    simp [view, hb, GVal.text]

theorem setInt_run (hI : Inv st P G) (hv : st.vals v = some ⟨x, A⟩)
    (hx : ∀ a, x = some a → (G a).isSome) (hn : InRange 32 n) :
    ∃ st', setInt v n st = .ok (true, st') ∧
      SetTo (fun _ => False) st st' P (fun b => P b ∨ b = st.nb) G v x A (.num (fmtInt n)) (.num (fmtInt n)) ∧
      Tail st' (rootOf st x) (fmtInt n) := by
  have hl := fmtInt_length32 hn
  obtain ⟨st', e, h⟩ := setPrinted_run (raw := fmtInt n) (sz := 16) hI hv hx (by omega)
  refine ⟨st', ?_, h⟩
  unfold setInt intToStr
  rw [snprintf_fits (by omega)]
  exact e

theorem setLong_run (hI : Inv st P G) (hv : st.vals v = some ⟨x, A⟩)
    (hx : ∀ a, x = some a → (G a).isSome) (hn : InRange 64 n) :
    ∃ st', setLong v n st = .ok (true, st') ∧
      SetTo (fun _ => False) st st' P (fun b => P b ∨ b = st.nb) G v x A (.num (fmtInt n)) (.num (fmtInt n)) ∧
      Tail st' (rootOf st x) (fmtInt n) := by
  have hl := fmtInt_length64 hn
  obtain ⟨st', e, h⟩ := setPrinted_run (raw := fmtInt n) (sz := 24) hI hv hx (by omega)
  refine ⟨st', ?_, h⟩
  unfold setLong longToStr
  rw [snprintf_fits (by omega)]
  exact e

theorem setLongLong_run (hI : Inv st P G) (hv : st.vals v = some ⟨x, A⟩)
    (hx : ∀ a, x = some a → (G a).isSome) (hn : InRange 64 n) :
    ∃ st', setLongLong v n st = .ok (true, st') ∧
      SetTo (fun _ => False) st st' P (fun b => P b ∨ b = st.nb) G v x A (.num (fmtInt n)) (.num (fmtInt n)) ∧
      Tail st' (rootOf st x) (fmtInt n) := by
  have hl := fmtInt_length64 hn
  obtain ⟨st', e, h⟩ := setPrinted_run (raw := fmtInt n) (sz := 24) hI hv hx (by omega)
  refine ⟨st', ?_, h⟩
  unfold setLongLong longLongToStr
  rw [snprintf_fits (by omega)]
  exact e

/-- `zj_SetDouble` stores whatever `printf` prints. -/
theorem setDouble_run {D} {fp : FP D} {d : D} (hI : Inv st P G) (hv : st.vals v = some ⟨x, A⟩)
    (hx : ∀ a, x = some a → (G a).isSome) (hl : (fp.fmt d).length < 32) :
    ∃ st', setDouble fp v d st = .ok (true, st') ∧
      SetTo (fun _ => False) st st' P (fun b => P b ∨ b = st.nb) G v x A (.num (fp.fmt d)) (.num (fp.fmt d)) ∧
      Tail st' (rootOf st x) (fp.fmt d) := by
  obtain ⟨st', e, h⟩ := setPrinted_run (raw := fp.fmt d) (sz := 32) hI hv hx hl
  refine ⟨st', ?_, h⟩
  unfold setDouble doubleToStr
  rw [snprintf_fits hl]
  exact e

/-! ### Getters -/

/-- The pointer and length of a number node. -/
theorem Inv.num (hI : Inv st P G) {gn} (ha : G a = some gn) (hg : gn.val = .num raw) :
    ∃ nd p, st.nodes a = some nd ∧ nd.type = some .number ∧ nd.value = some (.str p) ∧
      nd.len = some raw.length ∧ StrAt st P p raw := by
  obtain ⟨nd, h1, h2⟩ := hI.rep a gn ha
  have := h2.val
  rw [hg] at this
  obtain ⟨h3, p, h4, h5, h6, _⟩ := this
  exact ⟨nd, p, h1, h3, h4, h5, h6⟩

/-- The state after a block of `k` bytes was requested for a result. -/
def St.req (st : St) (A k : Nat) : St := { st with log := .alloc A k :: st.log }

theorem StrAt.req (h : StrAt st P p raw) {k} : StrAt (st.req A k) P p raw := h.mono (fun _ h => h) (fun _ _ => rfl)

theorem view_req {k s} (h : view p st = .ok (s, st)) : view p (st.req A k) = .ok (s, st.req A k) := by
  cases p with
  | lit s' => unfold ZJ.view at h ⊢; cases h; rfl
  | buf b off =>
    cases hb : st.bufs b with
    | none => simp [ZJ.view, hb] at h
    | some bf =>
      have hb' : (st.req A k).bufs b = some bf := hb
      simp [ZJ.view, hb] at h
      simp [ZJ.view, hb', h]

theorem Tail.view (h : Tail st a raw) {nd p} (hn : st.nodes a = some nd) (hp : nd.value = some (.str p)) :
    ∃ c r lim, view p st = .ok ((raw ++ c :: r, lim), st) ∧ isNumeralChar c = false := by
  obtain ⟨nd', p', c, r, lim, h1, h2, h3, h4⟩ := h
  rw [hn] at h1; cases h1
  rw [hp] at h2; cases h2
  exact ⟨c, r, lim, h3, h4⟩

theorem stackCopy_ok {t : Bytes} (h : t.length < 128) :
    ∃ r, stackCopy t = .ok (t ++ 0 :: r) := by
  refine ⟨List.replicate (127 - t.length) 0, ?_⟩
  unfold stackCopy
  rw [if_pos (by omega), show 128 - t.length = (127 - t.length) + 1 by omega, List.replicate_succ]

/-- `zj_GetInt` of a number node: the conversion of its text alone. -/
theorem getInt_run (hI : Inv st P G) (hv : st.vals v = some ⟨some a, A⟩) {gn} (ha : G a = some gn)
    (hg : gn.val = .num raw) (hl : raw.length < 128) {k : Int}
    (hk : ∀ r, atoiBits 32 (raw ++ 0 :: r) = .ok k) :
    getInt v st = .ok (some k, st.req A 4) := by
  obtain ⟨nd, p, h1, h2, h3, h4, h5⟩ := hI.num ha hg
  unfold getInt
  mstep rdVal_run hv
  simp only
  mstep nType_run h1 h2
  simp only [ne_eq, not_true, if_false]
  mstep request_run (hI.ok.live v _ hv)
  mstep nStr_run (st := st.req A 4) h1 h3
  mstep nLen_run (st := st.req A 4) h1 h4
  obtain ⟨r, hr⟩ := stackCopy_ok hl
  have : strToInt p raw.length (st.req A 4) = .ok (k, st.req A 4) := by
    unfold strToInt
    mstep (h5.req (A := A) (k := 4)).readN hI.ok.size
    rw [hr]
    mstep lift_ok _
    rw [hk]
    rfl
  mstep this
  rfl

theorem strToLong_run (ho : StOK st) (h5 : StrAt st P p raw) {c r lim} (hv : view p st = .ok ((raw ++ c :: r, lim), st))
    (hl : raw.length ≤ 128) {k : Int} (hk : atoiBits 64 (raw ++ c :: r) = .ok k) :
    strToLong p raw.length st = .ok (k, st) := by
  unfold strToLong
  mstep h5.readN ho.size
  simp only [stackCopy, hl, if_true]
  mstep lift_ok _
  mstep hv
  rw [hk]
  rfl

theorem getLong_run (hI : Inv st P G) (hv : st.vals v = some ⟨some a, A⟩) {gn} (ha : G a = some gn)
    (hg : gn.val = .num raw) (hl : raw.length ≤ 128) (ht : Tail st a raw) {k : Int}
    (hk : ∀ c r, isNumeralChar c = false → atoiBits 64 (raw ++ c :: r) = .ok k) :
    getLong v st = .ok (some k, st.req A 8) ∧ getLongLong v st = .ok (some k, st.req A 8) := by
  obtain ⟨nd, p, h1, h2, h3, h4, h5⟩ := hI.num ha hg
  obtain ⟨c, r, lim, hw, hc⟩ := ht.view h1 h3
  have hw' := view_req (A := A) (k := 8) hw
  have := strToLong_run (st := st.req A 8) ⟨hI.ok.nodes, hI.ok.vals, hI.ok.bufs, hI.ok.size, hI.ok.live, hI.ok.cache⟩
    h5.req hw' hl (hk c r hc)
  have h' : strToLongLong p raw.length (st.req A 8) = .ok (k, st.req A 8) := this
  constructor
  · unfold getLong
    mstep rdVal_run hv
    simp only
    mstep nType_run h1 h2
    simp only [ne_eq, not_true, if_false]
    mstep request_run (hI.ok.live v _ hv)
    mstep nStr_run (st := st.req A 8) h1 h3
    mstep nLen_run (st := st.req A 8) h1 h4
    mstep this
    rfl
  · unfold getLongLong
    mstep rdVal_run hv
    simp only
    mstep nType_run h1 h2
    simp only [ne_eq, not_true, if_false]
    mstep request_run (hI.ok.live v _ hv)
    mstep nStr_run (st := st.req A 8) h1 h3
    mstep nLen_run (st := st.req A 8) h1 h4
    mstep h'
    rfl

theorem atofText_spec : ∀ {t : Bytes} {c : Byte} {r : Bytes}, (∀ x ∈ t, isNumeralChar x = true) →
    isNumeralChar c = false → atofText (t ++ c :: r) = .ok t
  | [], c, r, _, hc => by simp [atofText, hc]
  | x :: t, c, r, h, hc => by
    have := atofText_spec (t := t) (r := r) (fun y hy => h y (by simp [hy])) hc
    simp only [List.cons_append, atofText, h x (by simp), if_true, this]
    rfl

theorem getDouble_run {D} {fp : FP D} (hI : Inv st P G) (hv : st.vals v = some ⟨some a, A⟩) {gn}
    (ha : G a = some gn) (hg : gn.val = .num raw) (hl : raw.length ≤ 128) (ht : Tail st a raw)
    (hk : ∀ x ∈ raw, isNumeralChar x = true) :
    getDouble fp v st = .ok (some (fp.conv raw), st.req A 8) := by
  obtain ⟨nd, p, h1, h2, h3, h4, h5⟩ := hI.num ha hg
  obtain ⟨c, r, lim, hw, hc⟩ := ht.view h1 h3
  have hw' := view_req (A := A) (k := 8) hw
  unfold getDouble
  mstep rdVal_run hv
  simp only
  mstep nType_run h1 h2
  simp only [ne_eq, not_true, if_false]
  mstep request_run (hI.ok.live v _ hv)
  mstep nStr_run (st := st.req A 8) h1 h3
  mstep nLen_run (st := st.req A 8) h1 h4
  have : strToDouble fp p raw.length (st.req A 8) = .ok (fp.conv raw, st.req A 8) := by
    unfold strToDouble
    mstep (h5.req (A := A) (k := 8)).readN hI.ok.size
    simp only [stackCopy, hl, if_true]
    mstep lift_ok _
    mstep hw'
    simp only [atofText_spec hk hc]
    mstep lift_ok _
    rfl
  mstep this
  rfl

theorem digit_numeral {c : Byte} (h : isDigit c = true) : isNumeralChar c = true := by
  revert c; apply allBytes; decide +kernel

theorem IsNum.numeral {b : Bytes} (h : IsNum b) : ∀ x ∈ b, isNumeralChar x = true := by
  intro x hx
  have := isDigit_num_mem h x hx
  rcases this with h | h | h | h | h | h
  · exact digit_numeral h
  all_goals (subst h; decide)

/-- `zj_GetInt` and friends on a text longer than 128 bytes: the stack buffer overflows. -/
theorem getInt_smash (hI : Inv st P G) (hv : st.vals v = some ⟨some a, A⟩) {gn} (ha : G a = some gn)
    (hg : gn.val = .num raw) (hl : 128 < raw.length) :
    getInt v st = .ub .stackSmash ∧ getLong v st = .ub .stackSmash ∧
    getLongLong v st = .ub .stackSmash := by
  obtain ⟨nd, p, h1, h2, h3, h4, h5⟩ := hI.num ha hg
  have hs : lift (stackCopy raw) = (lift (.ub .stackSmash) : M Bytes) := by
    unfold stackCopy; rw [if_neg (by omega)]
  refine ⟨?_, ?_, ?_⟩
  · unfold getInt
    mstep rdVal_run hv
    simp only
    mstep nType_run h1 h2
    simp only [ne_eq, not_true, if_false]
    mstep request_run (hI.ok.live v _ hv)
    mstep nStr_run (st := st.req A 4) h1 h3
    mstep nLen_run (st := st.req A 4) h1 h4
    refine M.bind_ub ?_
    unfold strToInt
    mstep (h5.req (A := A) (k := 4)).readN hI.ok.size
    rw [hs]
    exact M.bind_ub rfl
  · unfold getLong
    mstep rdVal_run hv
    simp only
    mstep nType_run h1 h2
    simp only [ne_eq, not_true, if_false]
    mstep request_run (hI.ok.live v _ hv)
    mstep nStr_run (st := st.req A 8) h1 h3
    mstep nLen_run (st := st.req A 8) h1 h4
    refine M.bind_ub ?_
    unfold strToLong
    mstep (h5.req (A := A) (k := 8)).readN hI.ok.size
    rw [hs]
    exact M.bind_ub rfl
  · unfold getLongLong
    mstep rdVal_run hv
    simp only
    mstep nType_run h1 h2
    simp only [ne_eq, not_true, if_false]
    mstep request_run (hI.ok.live v _ hv)
    mstep nStr_run (st := st.req A 8) h1 h3
    mstep nLen_run (st := st.req A 8) h1 h4
    refine M.bind_ub ?_
    unfold strToLongLong
    mstep (h5.req (A := A) (k := 8)).readN hI.ok.size
    rw [hs]
    exact M.bind_ub rfl

end

end ZJ
