import Verif.TimeCalls
import Verif.EscLemmas

/-
Steps: bounds for the calls that are given a text, and for those that copy one out.
-/

set_option linter.unusedSimpArgs false
set_option linter.unusedVariables false

namespace ZJ

section
variable {s : Bytes} {n : Nat}

/-! ### Checking a text -/

theorem checkStrLoopT_le (hs : Stops s n) : ∀ fuel c i, 1 ≤ i → i - 1 ≤ n → s[i - 1]? = some c →
    (checkStrLoopT s fuel c i).Le fun q k => (∀ j, q = some j → j ≤ n) ∧ k ≤ n + 1 - i + 12
  | 0, _, _, _, _, _ => TR.Le.timeout
  | fuel + 1, c, i, h1, hi, hc => by
    have ih : ∀ i' c' m, i ≤ i' → i' ≤ n → s[i']? = some c' → m ≤ i' + 1 - i →
        (checkStrLoopT s fuel c' (i' + 1)).Le fun q k => (∀ j, q = some j → j ≤ n) ∧ m + k ≤ n + 1 - i + 12 :=
      fun i' c' m h2 h3 h4 h5 => (checkStrLoopT_le hs fuel c' (i' + 1) (by omega) (by omega) (by simpa using h4)).mono
        fun q k h => ⟨h.1, by have := h.2; omega⟩
    have fin : ∀ m, m ≤ 12 →
        TR.Le (pure none : TR (Option Nat)) fun q k => (∀ j, q = some j → j ≤ n) ∧ m + k ≤ n + 1 - i + 12 :=
      fun m h4 => TR.Le.pure ⟨nofun, by show m + 0 ≤ n + 1 - i + 12; omega⟩
    have lt : c ≠ 0 → i ≤ n := fun h0 => by have := hs.lt hi hc h0; omega
    unfold checkStrLoopT
    refine TR.Le.ite (fun _ => ?_) fun h0 => TR.Le.ite (fun _ => ?_) fun _ => TR.Le.ite (fun h5 => ?_) fun _ => ?_
    · exact TR.Le.pure ⟨fun j e => by cases e; omega, by omega⟩
    · simpa using fin 0 (by omega)
    · have hin := lt h0
      refine TR.Le.rd_bind fun c2 hc2 => ?_
      refine TR.Le.ite (fun he => ?_) fun _ => TR.Le.ite (fun hu => ?_) fun _ => ?_
      · have := hs.lt hin hc2 (by rintro rfl; cases he)
        refine TR.Le.rd_bind fun c3 hc3 => ?_
        exact (ih (i + 1) c3 2 (by omega) this hc3 (by omega)).mono fun q k h => ⟨h.1, by omega⟩
      · have h2 := hs.lt hin hc2 (by rw [hu]; decide)
        refine TR.Le.bind (consumeHexT_le hs h2) fun q m hq => ?_
        obtain ⟨ok, i3, cp⟩ := q
        simp only at hq ⊢
        refine TR.Le.ite (fun _ => (fin 5 (by omega)).mono fun q k h => ⟨h.1, by omega⟩) fun hok => ?_
        have h3 := hq.2.2.2 (by simpa using hok)
        refine TR.Le.ite (fun _ => (fin 5 (by omega)).mono fun q k h => ⟨h.1, by omega⟩) fun _ => ?_
        refine TR.Le.ite (fun _ => ?_) fun _ => ?_
        · refine TR.Le.bind (consumeT_le' hs (by decide) hq.2.2.1) fun q m4 hq4 => ?_
          obtain ⟨ok, i4⟩ := q
          simp only at hq4 ⊢
          refine TR.Le.ite (fun _ => (fin 6 (by omega)).mono fun q k h => ⟨h.1, by omega⟩) fun hok => ?_
          have h4 := hq4.2.2.2.1 (by simpa using hok)
          refine TR.Le.bind (consumeT_le' hs (by decide) hq4.2.2.1) fun q m5 hq5 => ?_
          obtain ⟨ok, i5⟩ := q
          simp only at hq5 ⊢
          refine TR.Le.ite (fun _ => (fin 7 (by omega)).mono fun q k h => ⟨h.1, by omega⟩) fun hok => ?_
          have h5 := hq5.2.2.2.1 (by simpa using hok)
          refine TR.Le.bind (consumeHexT_le hs hq5.2.2.1) fun q m6 hq6 => ?_
          obtain ⟨ok, i6, cp2⟩ := q
          simp only at hq6 ⊢
          refine TR.Le.ite (fun _ => (fin 11 (by omega)).mono fun q k h => ⟨h.1, by omega⟩) fun hok => ?_
          have h6 := hq6.2.2.2 (by simpa using hok)
          refine TR.Le.ite (fun _ => (fin 11 (by omega)).mono fun q k h => ⟨h.1, by omega⟩) fun _ => ?_
          refine TR.Le.rd_bind fun c7 hc7 => ?_
          exact (ih i6 c7 12 (by omega) hq6.2.2.1 hc7 (by omega)).mono fun q k h => ⟨h.1, by omega⟩
        · refine TR.Le.rd_bind fun c7 hc7 => ?_
          exact (ih i3 c7 6 (by omega) hq.2.2.1 hc7 (by omega)).mono fun q k h => ⟨h.1, by omega⟩
      · exact (fin 1 (by omega)).mono fun q k h => h
    · refine TR.Le.rd_bind fun c2 hc2 => ?_
      exact ih i c2 1 (by omega) (lt h0) hc2 (by omega)

theorem checkStrT_le (hs : Stops s n) : (checkStrT s).Le fun q k => (∀ j, q = some j → j ≤ n) ∧ k ≤ n + 13 := by
  unfold checkStrT
  refine TR.Le.rd_bind fun c hc => ?_
  exact (checkStrLoopT_le hs _ c 1 (by omega) (by omega) (by simpa using hc)).mono fun q k h => ⟨h.1, by omega⟩

theorem checkNumT_le (hs : Stops s n) : (checkNumT s).Le fun q k => (∀ j, q = some j → j ≤ n) ∧ k ≤ n + 13 := by
  unfold checkNumT
  refine TR.Le.bind (scanNumT_le hs (Nat.zero_le _)) fun o m h => ?_
  cases o with
  | none => exact TR.Le.pure ⟨nofun, by omega⟩
  | some i =>
    simp only
    obtain ⟨h1, h2, h3⟩ := h.2 i rfl
    refine TR.Le.bind (consumeT_le 0 s i) fun q m2 h2 => ?_
    have := h2.1
    exact TR.Le.ite (fun _ => TR.Le.pure ⟨fun j e => by cases e; omega, by omega⟩) fun _ => TR.Le.pure ⟨nofun, by omega⟩

variable {st st' : St} {p : SPtr} {lim : Nat} {α : Type}

theorem checkStrAtT_run (hv : view p st = .ok ((s, lim), st)) (hs : Stops s n) :
    Run (checkStrAtT p) st fun q k st' => st' = st ∧ (∀ j, q = some j → j ≤ n) ∧ k ≤ n + 14 := by
  intro q k st' e
  unfold checkStrAtT at e
  obtain ⟨x, m, st1, m', h1, h2, rfl⟩ := TM.bind_inv e
  obtain ⟨rfl, h3⟩ := TM.steps_inv h1
  rw [hv] at h3; cases h3
  obtain ⟨h4, rfl⟩ := TM.liftT_inv h2
  have := checkStrT_le hs _ _ h4
  exact ⟨rfl, this.1, by omega⟩
theorem checkNumAtT_run (hv : view p st = .ok ((s, lim), st)) (hs : Stops s n) :
    Run (checkNumAtT p) st fun q k st' => st' = st ∧ (∀ j, q = some j → j ≤ n) ∧ k ≤ n + 14 := by
  intro q k st' e
  unfold checkNumAtT at e
  obtain ⟨x, m, st1, m', h1, h2, rfl⟩ := TM.bind_inv e
  obtain ⟨rfl, h3⟩ := TM.steps_inv h1
  rw [hv] at h3; cases h3
  obtain ⟨h4, rfl⟩ := TM.liftT_inv h2
  have := checkNumT_le hs _ _ h4
  exact ⟨rfl, this.1, by omega⟩

/-- A constant bound, from one state. -/
theorem Fee.run {x : TM α} {c : Nat} (h : Fee 0 c x) : Run x st fun _ k _ => k ≤ c := fun a k st' e => by
  have := h _ _ _ _ e; omega

theorem fee_dup {A len : Nat} : Fee 0 (len + 1) (dupT A p len) := by
  unfold dupT
  exact Fee.bind (c := len) (c' := 1) (Fee.steps0 (Nat.le_refl _)) (fun _ => by tally) (by omega)

variable {v : Addr}

theorem setStrFastT_run (hv : view p st = .ok ((s, lim), st)) (hs : Stops s n) : Run (setStrFastT v p) st fun _ k _ => k ≤ n + 24 := by
  unfold setStrFastT
  refine Run.bind (checkStrAtT_run hv hs) fun o k st1 h => ?_
  split
  · exact Run.pure (by omega)
  · exact fee_scalar_ret.run.mono fun _ _ _ h' => by omega
theorem setNumStrFastT_run (hv : view p st = .ok ((s, lim), st)) (hs : Stops s n) : Run (setNumStrFastT v p) st fun _ k _ => k ≤ n + 24 := by
  unfold setNumStrFastT
  refine Run.bind (checkNumAtT_run hv hs) fun o k st1 h => ?_
  split
  · exact Run.pure (by omega)
  · exact fee_scalar_ret.run.mono fun _ _ _ h' => by omega

theorem fee_dupScalar {t : JType} {len : Nat} : Fee 0 (len + 12) (do
    let s ← dupT (← one (rdVal v)).a p len
    setScalarT v t s len
    return true : TM Bool) :=
  Fee.one_bind0 fun x => Fee.bind (c' := 10) fee_dup (fun _ => fee_scalar_ret) (by omega)

theorem setStrT_run (hv : view p st = .ok ((s, lim), st)) (hs : Stops s n) : Run (setStrT v p) st fun _ k _ => k ≤ 2 * n + 26 := by
  unfold setStrT
  refine Run.bind (checkStrAtT_run hv hs) fun o k st1 h => ?_
  cases o with
  | none => exact Run.pure (by omega)
  | some len =>
    have := h.2.1 _ rfl
    exact fee_dupScalar.run.mono fun _ _ _ h' => by omega
theorem setNumStrT_run (hv : view p st = .ok ((s, lim), st)) (hs : Stops s n) : Run (setNumStrT v p) st fun _ k _ => k ≤ 2 * n + 26 := by
  unfold setNumStrT
  refine Run.bind (checkNumAtT_run hv hs) fun o k st1 h => ?_
  cases o with
  | none => exact Run.pure (by omega)
  | some len =>
    have := h.2.1 _ rfl
    exact fee_dupScalar.run.mono fun _ _ _ h' => by omega

theorem fee_keyTarget : Fee 0 9 (keyTargetT v) := by unfold keyTargetT; tally

theorem setKeyFastT_run (hv : view p st = .ok ((s, lim), st)) (hs : Stops s n) : Run (setKeyFastT v p) st fun _ k _ => k ≤ n + 25 := by
  unfold setKeyFastT
  refine Run.bind (checkStrAtT_run hv hs) fun o k st1 h => ?_
  split
  · exact Run.pure (by omega)
  · refine (Fee.run (c := 11) ?_).mono fun _ _ _ h' => by omega
    refine Fee.bind (c' := 2) fee_keyTarget (fun _ => ?_) (by omega)
    tally

theorem setKeyCT_run (hv : view p st = .ok ((s, lim), st)) (hs : Stops s n) : Run (setKeyCT v p) st fun _ k _ => k ≤ 2 * n + 27 := by
  unfold setKeyCT
  refine Run.bind (checkStrAtT_run hv hs) fun o k st1 h => ?_
  cases o with
  | none => exact Run.pure (by omega)
  | some len =>
    have := h.2.1 _ rfl
    refine (Fee.run (c := len + 13) ?_).mono fun _ _ _ h' => by omega
    refine Fee.bind (c' := len + 4) fee_keyTarget (fun _ => ?_) (by omega)
    split
    · exact Fee.pure
    · refine Fee.one_bind0 fun x => ?_
      refine Fee.bind (c' := 2) fee_dup (fun _ => ?_) (by omega)
      tally

/-! ### The scratch string -/

theorem appendChar_last {z z' : ZStr} {c : Byte} (h : appendChar z c st = .ok (z', st')) :
    ∃ x d, st'.bufs z'.data = some x ∧ x.data = d ++ [c] ∧ d.length + 1 = z'.pos := by
  unfold appendChar at h
  obtain ⟨_, st1, h1, h⟩ := M.bind_inv h
  obtain ⟨z1, st2, h2, h⟩ := M.bind_inv h
  obtain ⟨_, st3, h3, h⟩ := M.bind_inv h
  cases h
  unfold pokeStr at h3
  split at h3
  · rename_i b _
    split at h3
    · cases h3
      rename_i hx
      exact ⟨_, b.data.take z1.pos, upd_same .., rfl, by simp only [List.length_take]; omega⟩
    · cases h3
  · cases h3

theorem view_buf {c : Addr} {x : Buf} (h : st.bufs c = some x) : view (.buf c 0) st = .ok ((x.data, x.size + x.slack), st) := by
  simp [view, h]

theorem fillCacheT_run {A len : Nat} : Run (fillCacheT A p len) st fun z k st' =>
    k ≤ 5 * len + 22 ∧ ∃ s lim n, view (.buf z.data 0) st' = .ok ((s, lim), st') ∧ Stops s n ∧ n ≤ len := by
  unfold fillCacheT
  refine Run.bind (R := fun _ k _ => k = 1) (Run.steps fun _ _ _ => rfl) fun c k st1 h1 => ?_
  refine Run.bind (R := fun (z : ZStr) k _ => k ≤ 4 ∧ z.pos = 0) ?_ fun z k2 st2 h2 => ?_
  · cases c with
    | none => exact Run.steps fun z st2 h => ⟨Nat.le_refl _, (newOut_pos h).1⟩
    | some z =>
      exact Run.bind (R := fun _ k _ => k = 1) (Run.steps fun _ _ _ => rfl) fun _ k _ h => Run.pure ⟨by omega, rfl⟩
  refine Run.bind (R := fun z' k _ => Grew z len 6 z' k) (fun a k st' e => appendStrT_le (by omega) _ _ _ _ e) fun z1 k3 st3 h3 => ?_
  refine Run.bind (R := fun z' k st' => Grew z1 1 5 z' k ∧ appendChar z1 0 st3 = .ok (z', st'))
    (fun a k st' e => ⟨appendCharT_le h3.fits _ _ _ _ e, by rw [← appendCharT_val]; exact TM.val_ok e⟩) fun z2 k4 st4 h4 => ?_
  refine Run.bind (R := fun _ k st' => k = 1 ∧ st'.bufs = st4.bufs) (Run.steps fun _ st5 e => ⟨rfl, by cases e; rfl⟩) fun _ k5 st5 h5 => ?_
  obtain ⟨x, d, h6, h7, h8⟩ := appendChar_last h4.2
  obtain ⟨n, h9, h10⟩ := exists_stops d []
  have a1 := h3.pos
  have a2 := h3.cost
  have a3 := h4.1.pos
  have a4 := h4.1.cost
  have a5 : z.due = 0 := by simp only [ZStr.due]; omega
  refine Run.pure ⟨by omega, x.data, _, n, view_buf (by rw [h5.2]; exact h6), by rw [h7]; exact h10, by omega⟩

theorem checkStrLenAtT_run {A len : Nat} : Run (checkStrLenAtT A p len) st fun _ k _ => k ≤ 6 * len + 36 := by
  unfold checkStrLenAtT
  refine Run.bind fillCacheT_run fun z k st1 h => ?_
  obtain ⟨h1, s, lim, n, h2, h3, h4⟩ := h
  refine Run.bind (checkStrAtT_run h2 h3) fun o k st2 h => ?_
  split <;> exact Run.pure (by omega)
theorem checkNumLenAtT_run {A len : Nat} : Run (checkNumLenAtT A p len) st fun _ k _ => k ≤ 6 * len + 36 := by
  unfold checkNumLenAtT
  refine Run.bind fillCacheT_run fun z k st1 h => ?_
  obtain ⟨h1, s, lim, n, h2, h3, h4⟩ := h
  refine Run.bind (checkNumAtT_run h2 h3) fun o k st2 h => ?_
  split <;> exact Run.pure (by omega)

theorem Run.fee {x : TM α} {c : Nat} (h : ∀ st, Run x st fun _ k _ => k ≤ c) : Fee 0 c x := fun st a k st' e => by
  have := h _ _ _ _ e; omega

theorem fee_checkStrLen {A len : Nat} : Fee 0 (6 * len + 36) (checkStrLenAtT A p len) := Run.fee fun _ => checkStrLenAtT_run
theorem fee_checkNumLen {A len : Nat} : Fee 0 (6 * len + 36) (checkNumLenAtT A p len) := Run.fee fun _ => checkNumLenAtT_run

theorem fee_setStrLen {len : Nat} : Fee 0 (7 * len + 49) (setStrLenT v p len) := by
  unfold setStrLenT
  refine Fee.one_bind0 fun x => Fee.bind (c' := len + 12) fee_checkStrLen (fun _ => ?_) (by omega)
  split
  · exact Fee.pure
  · exact fee_dupScalar
theorem fee_setNumStrLen {len : Nat} : Fee 0 (7 * len + 49) (setNumStrLenT v p len) := by
  unfold setNumStrLenT
  refine Fee.one_bind0 fun x => Fee.bind (c' := len + 12) fee_checkNumLen (fun _ => ?_) (by omega)
  split
  · exact Fee.pure
  · exact fee_dupScalar
theorem fee_setStrLenFast {len : Nat} : Fee 0 (6 * len + 47) (setStrLenFastT v p len) := by
  unfold setStrLenFastT
  refine Fee.one_bind0 fun x => Fee.bind (c' := 10) fee_checkStrLen (fun _ => ?_) (by omega)
  split
  · exact Fee.pure
  · exact fee_scalar_ret
theorem fee_setNumStrLenFast {len : Nat} : Fee 0 (6 * len + 47) (setNumStrLenFastT v p len) := by
  unfold setNumStrLenFastT
  refine Fee.one_bind0 fun x => Fee.bind (c' := 10) fee_checkNumLen (fun _ => ?_) (by omega)
  split
  · exact Fee.pure
  · exact fee_scalar_ret
theorem fee_setKeyLenFast {len : Nat} : Fee 0 (6 * len + 48) (setKeyLenFastT v p len) := by
  unfold setKeyLenFastT
  refine Fee.one_bind0 fun x => Fee.bind (c' := 11) fee_checkStrLen (fun _ => ?_) (by omega)
  split
  · exact Fee.pure
  · refine Fee.bind (c' := 2) fee_keyTarget (fun _ => ?_) (by omega)
    tally
theorem fee_setKeyLenC {len : Nat} : Fee 0 (7 * len + 50) (setKeyLenCT v p len) := by
  unfold setKeyLenCT
  refine Fee.one_bind0 fun x => Fee.bind (c' := len + 13) fee_checkStrLen (fun _ => ?_) (by omega)
  split
  · exact Fee.pure
  · refine Fee.bind (c' := len + 4) fee_keyTarget (fun _ => ?_) (by omega)
    split
    · exact Fee.pure
    · refine Fee.one_bind0 fun x => ?_
      refine Fee.bind (c' := 2) fee_dup (fun _ => ?_) (by omega)
      tally

/-! ### Escaping -/

theorem escapeEntry_len {c : Byte} {e : Bytes} (h : escapeEntry c = .ok e) : e.length ≤ 6 := by
  have : ∀ c, (match escapeEntry c with | .ok e => decide (e.length ≤ 6) | _ => true) = true := by apply allBytes; decide +kernel
  have := this c
  rw [h] at this
  simpa using this

theorem addOutT_le {cap : Nat} {out b : Bytes} : (addOutT cap out b).Le fun q k => q = out ++ b ∧ k = b.length := by
  refine TR.Le.steps fun a h => ⟨?_, rfl⟩
  unfold addOut at h
  split at h <;> cases h
  rfl

theorem Stops.tail {c : Byte} {r : Bytes} (h : Stops (c :: r) n) (hc : c ≠ 0) : ∃ m, n = m + 1 ∧ Stops r m := by
  cases n with
  | zero => have := h.nul; simp at this; exact absurd this hc
  | succ m => exact ⟨m, rfl, by simpa using h.nul, fun j hj c' h' => h.pre (j + 1) (by omega) c' (by simpa using h')⟩

theorem escLenLoopT_le : ∀ (s : Bytes) (n l : Nat), Stops s n → (escLenLoopT s l).Le fun _ k => k ≤ 2 * n + 1
  | [], _, _, h => TR.Le.ub
  | c :: r, n, l, h => by
    unfold escLenLoopT
    refine TR.Le.ite (fun _ => TR.Le.steps fun _ _ => by omega) fun hc => ?_
    obtain ⟨m, rfl, hm⟩ := h.tail hc
    refine TR.Le.bind (Q := fun _ k => k = 2) (TR.Le.steps fun _ _ => rfl) fun x k hk => ?_
    exact (escLenLoopT_le r m _ hm).mono fun _ _ h => by omega

theorem escOutLoopT_le {cap : Nat} : ∀ (s : Bytes) (n : Nat) (out : Bytes), Stops s n →
    (escOutLoopT cap s out).Le fun q k => k ≤ 8 * n + 1 ∧ q.length ≤ out.length + 6 * n
  | [], _, _, h => TR.Le.ub
  | c :: r, n, out, h => by
    unfold escOutLoopT
    refine TR.Le.ite (fun _ => TR.Le.steps fun _ e => by cases e; omega) fun hc => ?_
    obtain ⟨m, rfl, hm⟩ := h.tail hc
    refine TR.Le.bind (Q := fun (e : Bytes) k => k = 2 ∧ e.length ≤ 6) (TR.Le.steps fun _ h => ⟨rfl, escapeEntry_len h⟩) fun x k hk => ?_
    refine TR.Le.bind addOutT_le fun q k2 hq => ?_
    obtain ⟨rfl, rfl⟩ := hq
    exact (escOutLoopT_le r m _ hm).mono fun _ _ h => by simp only [List.length_append] at h; omega

theorem escapeStrT_le (hs : Stops s n) : (escapeStrT s).Le fun q k => k ≤ 10 * n + 3 ∧ ∃ d, q.2 = d ++ [0] ∧ d.length ≤ 6 * n := by
  unfold escapeStrT
  refine TR.Le.bind (escLenLoopT_le s n 0 hs) fun len k h => ?_
  refine TR.Le.bind (escOutLoopT_le s n [] hs) fun out k2 h2 => ?_
  refine TR.Le.bind addOutT_le fun q k3 h3 => ?_
  obtain ⟨rfl, rfl⟩ := h3
  simp only [List.length_nil] at h2
  exact TR.Le.pure ⟨by simp only [List.length_singleton]; omega, out, rfl, by omega⟩

theorem escLenLoopNT_le : ∀ (n : Nat) (s : Bytes) (l : Nat), (escLenLoopNT n s l).Le fun _ k => k ≤ 2 * n
  | 0, _, _ => TR.Le.pure (by omega)
  | _ + 1, [], _ => TR.Le.ub
  | n + 1, c :: r, l => by
    unfold escLenLoopNT
    refine TR.Le.bind (Q := fun _ k => k = 2) (TR.Le.steps fun _ _ => rfl) fun x k hk => ?_
    exact (escLenLoopNT_le n r _).mono fun _ _ h => by omega

theorem escOutLoopNT_le {cap : Nat} : ∀ (n : Nat) (s out : Bytes),
    (escOutLoopNT cap n s out).Le fun q k => k ≤ 8 * n ∧ q.length ≤ out.length + 6 * n
  | 0, _, _ => TR.Le.pure (by omega)
  | _ + 1, [], _ => TR.Le.ub
  | n + 1, c :: r, out => by
    unfold escOutLoopNT
    refine TR.Le.bind (Q := fun (e : Bytes) k => k = 2 ∧ e.length ≤ 6) (TR.Le.steps fun _ h => ⟨rfl, escapeEntry_len h⟩) fun x k hk => ?_
    refine TR.Le.bind addOutT_le fun q k2 hq => ?_
    obtain ⟨rfl, rfl⟩ := hq
    exact (escOutLoopNT_le n r _).mono fun _ _ h => by simp only [List.length_append] at h; omega

theorem escapeStrLenT_le : (escapeStrLenT s n).Le fun q k => k ≤ 10 * n + 3 ∧ ∃ d, q.2 = d ++ [0] ∧ d.length ≤ 6 * n := by
  unfold escapeStrLenT
  refine TR.Le.bind (escLenLoopNT_le n s 0) fun len k h => ?_
  refine TR.Le.bind (escOutLoopNT_le n s []) fun out k2 h2 => ?_
  refine TR.Le.bind addOutT_le fun q k3 h3 => ?_
  obtain ⟨rfl, rfl⟩ := h3
  simp only [List.length_nil] at h2
  exact TR.Le.pure ⟨by simp only [List.length_singleton]; omega, out, rfl, by omega⟩

/-- The block with the escaped text. -/
def EscAt (n c : Nat) (q : SPtr) (k : Nat) (st' : St) : Prop :=
  k ≤ 10 * n + c ∧ ∃ s lim m, view q st' = .ok ((s, lim), st') ∧ Stops s m ∧ m ≤ 6 * n

theorem escapeAtT_run {A : Nat} (hv : view p st = .ok ((s, lim), st)) (hs : Stops s n) : Run (escapeAtT A p) st (EscAt n 5) := by
  intro q k st' e
  unfold escapeAtT at e
  obtain ⟨x, m, st1, m', h1, e1, rfl⟩ := TM.bind_inv e
  obtain ⟨rfl, h2⟩ := TM.steps_inv h1
  rw [hv] at h2; cases h2
  obtain ⟨y, m2, st2, m3, h3, e2, rfl⟩ := TM.bind_inv e1
  obtain ⟨h4, rfl⟩ := TM.liftT_inv h3
  obtain ⟨h5, d, h6, h7⟩ := escapeStrT_le hs _ _ h4
  obtain ⟨b, m4, st3, m5, h8, e3, rfl⟩ := TM.bind_inv e2
  obtain ⟨rfl, h9⟩ := TM.steps_inv h8
  cases e3
  obtain ⟨lim, h10⟩ := newBuf_view h9
  obtain ⟨j, h11, h12⟩ := exists_stops d []
  exact ⟨by omega, _, lim, j, h10, by rw [h6]; exact h12, by omega⟩

theorem escapeLenAtT_run {A : Nat} : Run (escapeLenAtT A p n) st (EscAt n 5) := by
  intro q k st' e
  unfold escapeLenAtT at e
  obtain ⟨x, m, st1, m', h1, e1, rfl⟩ := TM.bind_inv e
  obtain ⟨rfl, h2⟩ := TM.steps_inv h1
  obtain ⟨y, m2, st2, m3, h3, e2, rfl⟩ := TM.bind_inv e1
  obtain ⟨h4, rfl⟩ := TM.liftT_inv h3
  obtain ⟨h5, d, h6, h7⟩ := escapeStrLenT_le _ _ h4
  obtain ⟨b, m4, st3, m5, h8, e3, rfl⟩ := TM.bind_inv e2
  obtain ⟨rfl, h9⟩ := TM.steps_inv h8
  cases e3
  obtain ⟨lim, h10⟩ := newBuf_view h9
  obtain ⟨j, h11, h12⟩ := exists_stops d []
  exact ⟨by omega, _, lim, j, h10, by rw [h6]; exact h12, by omega⟩

theorem setStrEscapeT_run (hv : view p st = .ok ((s, lim), st)) (hs : Stops s n) : Run (setStrEscapeT v p) st fun _ k _ => k ≤ 16 * n + 30 := by
  unfold setStrEscapeT
  refine Run.bind (R := fun _ k st1 => k = 1 ∧ st1 = st) (Run.steps fun x st1 h => ⟨rfl, rdVal_same h⟩) fun x k st1 h => ?_
  obtain ⟨rfl, rfl⟩ := h
  refine Run.bind (escapeAtT_run hv hs) fun q k st2 h => ?_
  obtain ⟨h1, s, lim, m, h2, h3, h4⟩ := h
  exact (setStrFastT_run h2 h3).mono fun _ _ _ h => by omega
theorem setKeyEscapeT_run (hv : view p st = .ok ((s, lim), st)) (hs : Stops s n) : Run (setKeyEscapeT v p) st fun _ k _ => k ≤ 16 * n + 31 := by
  unfold setKeyEscapeT
  refine Run.bind (R := fun _ k st1 => k = 1 ∧ st1 = st) (Run.steps fun x st1 h => ⟨rfl, rdVal_same h⟩) fun x k st1 h => ?_
  obtain ⟨rfl, rfl⟩ := h
  refine Run.bind (escapeAtT_run hv hs) fun q k st2 h => ?_
  obtain ⟨h1, s, lim, m, h2, h3, h4⟩ := h
  exact (setKeyFastT_run h2 h3).mono fun _ _ _ h => by omega
theorem setStrLenEscapeT_run : Run (setStrLenEscapeT v p n) st fun _ k _ => k ≤ 16 * n + 30 := by
  unfold setStrLenEscapeT
  refine Run.bind (R := fun _ k _ => k = 1) (Run.steps fun x st1 h => rfl) fun x k st1 h => ?_
  refine Run.bind escapeLenAtT_run fun q k st2 h => ?_
  obtain ⟨h1, s, lim, m, h2, h3, h4⟩ := h
  exact (setStrFastT_run h2 h3).mono fun _ _ _ h => by omega
theorem setKeyLenEscapeT_run : Run (setKeyLenEscapeT v p n) st fun _ k _ => k ≤ 16 * n + 31 := by
  unfold setKeyLenEscapeT
  refine Run.bind (R := fun _ k _ => k = 1) (Run.steps fun x st1 h => rfl) fun x k st1 h => ?_
  refine Run.bind escapeLenAtT_run fun q k st2 h => ?_
  obtain ⟨h1, s, lim, m, h2, h3, h4⟩ := h
  exact (setKeyFastT_run h2 h3).mono fun _ _ _ h => by omega

/-! ### Unescaping -/

theorem utf8Bytes_len (cp : Nat) : (utf8Bytes cp).length ≤ 4 := by
  unfold utf8Bytes
  repeat' split
  all_goals simp

theorem unEscapeUT_le {cap i : Nat} {out : Bytes} : (unEscapeUT s cap i out).Le fun _ k => k ≤ 12 := by
  unfold unEscapeUT
  refine TR.Le.bind (Q := fun _ k => k = 4) (TR.Le.steps fun _ _ => rfl) fun x k h => ?_
  refine TR.Le.ite (fun _ => ?_) fun _ => ?_
  · refine TR.Le.bind (Q := fun _ k => k = 4) (TR.Le.steps fun _ _ => rfl) fun y k h => ?_
    refine TR.Le.bind addOutT_le fun q k h => TR.Le.pure ?_
    have := utf8Bytes_len (surrogatePair x.2 y.2)
    omega
  · refine TR.Le.bind addOutT_le fun q k h => TR.Le.pure ?_
    have := utf8Bytes_len x.2
    omega

theorem unEscapeLoopT_le {len cap : Nat} : ∀ (fuel i : Nat) (out : Bytes), (unEscapeLoopT s len cap fuel i out).Le fun _ k => k ≤ 14 * fuel
  | 0, _, _ => TR.Le.timeout
  | fuel + 1, i, out => by
    unfold unEscapeLoopT
    refine TR.Le.ite (fun _ => ?_) fun _ => TR.Le.pure (by omega)
    refine TR.Le.rd_bind fun c _ => TR.Le.ite (fun _ => ?_) fun _ => ?_
    · refine TR.Le.rd_bind fun c _ => ?_
      split
      · refine TR.Le.bind addOutT_le fun q k h => ?_
        have := h.2
        simp only [List.length_singleton] at this
        exact (unEscapeLoopT_le fuel _ _).mono fun _ _ _ => by omega
      · refine TR.Le.ite (fun _ => ?_) fun _ => ?_
        · refine TR.Le.bind unEscapeUT_le fun q k h => ?_
          exact (unEscapeLoopT_le fuel _ _).mono fun _ _ _ => by omega
        · exact (unEscapeLoopT_le fuel _ _).mono fun _ _ _ => by omega
    · refine TR.Le.bind addOutT_le fun q k h => ?_
      have := h.2
      simp only [List.length_singleton] at this
      exact (unEscapeLoopT_le fuel _ _).mono fun _ _ _ => by omega

theorem unEscapeStrT_le {len cap : Nat} : (unEscapeStrT s len cap).Le fun _ k => k ≤ 14 * (len + 1) + 1 := by
  unfold unEscapeStrT
  refine TR.Le.bind (unEscapeLoopT_le _ _ _) fun q k h => ?_
  exact addOutT_le.mono fun _ _ h2 => by have := h2.2; simp only [List.length_singleton] at this; omega

theorem fee_unEscape {A len : Nat} : Fee 14 3 (do
    let (s, _) ← one (view p)
    let out ← liftT (unEscapeStrT s len (len + 1))
    let b ← one (newBuf A (len + 1) out)
    return some (.buf b 0) : TM (Option SPtr)) := by
  intro st a k st' e
  obtain ⟨x, m, st1, m', h1, e1, rfl⟩ := TM.bind_inv e
  obtain ⟨rfl, h2⟩ := TM.steps_inv h1
  have h3 := (Free.view _ _ _ h2).1
  obtain ⟨y, m2, st2, m3, h4, e2, rfl⟩ := TM.bind_inv e1
  obtain ⟨h5, rfl⟩ := TM.liftT_inv h4
  have h6 := unEscapeStrT_le _ _ h5
  obtain ⟨b, m4, st3, m5, h8, e3, rfl⟩ := TM.bind_inv e2
  obtain ⟨rfl, h9⟩ := TM.steps_inv h8
  cases e3
  have := (newBuf_grown h9).log
  omega

theorem fee_getUnEscapeStr : Fee 14 7 (getUnEscapeStrT v) := by
  unfold getUnEscapeStrT
  refine Fee.one_bind (by taps) fun x => ?_
  split
  · exact Fee.pure
  refine Fee.one_bind (by taps) fun x => ?_
  split
  · exact Fee.pure
  refine Fee.one_bind (by taps) fun len => ?_
  refine Fee.one_bind (by taps) fun q => ?_
  exact fee_unEscape
theorem fee_getUnEscapeKey : Fee 14 6 (getUnEscapeKeyT v) := by
  unfold getUnEscapeKeyT
  refine Fee.one_bind (by taps) fun x => ?_
  split
  · exact Fee.pure
  refine Fee.one_bind (by taps) fun x => ?_
  split
  · exact Fee.pure
  refine Fee.one_bind (by taps) fun len => ?_
  exact fee_unEscape

/-! ### Numbers -/

/-- What the conversions of the C library skip or read. -/
def numPart (c : Byte) : Bool := isSpaceC c || isNumeralChar c

theorem digit_numChar {c : Byte} (h : 0x30 ≤ c ∧ c ≤ 0x39) : isNumeralChar c = true := by
  simp [isNumeralChar, h.1, h.2]

theorem atoiDigitsT_le : ∀ (s : Bytes) (n : Nat), (atoiDigitsT s n).Le fun _ k => k ≤ (s.takeWhile isNumeralChar).length + 1
  | [], _ => TR.Le.ub
  | c :: r, n => by
    unfold atoiDigitsT
    refine TR.Le.bind (Q := fun _ k => k = 1) (TR.Le.steps fun _ _ => rfl) fun _ k h => ?_
    refine TR.Le.ite (fun hc => ?_) fun _ => TR.Le.pure (by omega)
    refine (atoiDigitsT_le r _).mono fun _ k' h' => ?_
    rw [List.takeWhile_cons_of_pos (digit_numChar hc)]
    simp only [List.length_cons]
    omega

theorem atoiSignedT_le (s : Bytes) : (atoiSignedT s).Le fun _ k => k ≤ (s.takeWhile isNumeralChar).length + 1 := by
  unfold atoiSignedT
  split
  · exact TR.Le.ub
  · rename_i c r
    have sign : ∀ c : Byte, isNumeralChar c = true → ∀ f : Nat → Int, (do
        let n ← atoiDigitsT r 0
        pure (f n) : TR Int).Le fun _ k => k ≤ ((c :: r).takeWhile isNumeralChar).length + 1 := fun c hc f => by
      refine TR.Le.bind (atoiDigitsT_le r 0) fun n k h => TR.Le.pure ?_
      rw [List.takeWhile_cons_of_pos hc]
      simp only [List.length_cons]
      omega
    refine TR.Le.ite (fun hc => ?_) fun _ => TR.Le.ite (fun hc => ?_) fun _ => ?_
    · exact sign c (by rw [hc]; decide) _
    · exact sign c (by rw [hc]; decide) _
    · exact TR.Le.bind (atoiDigitsT_le _ 0) fun n k h => TR.Le.pure (by omega)

theorem takeWhile_le {p q : Byte → Bool} (h : ∀ c, p c = true → q c = true) : ∀ s : Bytes, (s.takeWhile p).length ≤ (s.takeWhile q).length
  | [] => Nat.le_refl _
  | c :: r => by
    by_cases hc : p c = true
    · rw [List.takeWhile_cons_of_pos hc, List.takeWhile_cons_of_pos (h c hc)]
      simpa using takeWhile_le h r
    · rw [List.takeWhile_cons_of_neg hc]; simp

theorem takeWhile_split : ∀ (s : Bytes), (s.takeWhile isSpaceC).length + ((s.dropWhile isSpaceC).takeWhile numPart).length =
    (s.takeWhile numPart).length
  | [] => rfl
  | c :: r => by
    by_cases h : isSpaceC c = true
    · rw [List.takeWhile_cons_of_pos h, List.dropWhile_cons_of_pos h,
        List.takeWhile_cons_of_pos (p := numPart) (by simp [numPart, h])]
      have := takeWhile_split r
      simp only [List.length_cons]
      omega
    · rw [List.takeWhile_cons_of_neg h, List.dropWhile_cons_of_neg h]
      simp

/-- `atoi` reads the white space, the sign and the digits, and one byte more. -/
theorem atoiBitsT_reads (bits : Nat) (s : Bytes) : (atoiBitsT bits s).Le fun _ k =>
    k ≤ (s.takeWhile isSpaceC).length + ((s.dropWhile isSpaceC).takeWhile isNumeralChar).length + 2 := by
  unfold atoiBitsT
  refine TR.Le.bind (Q := fun _ k => k = (s.takeWhile isSpaceC).length + 1) (TR.Le.steps fun _ _ => rfl) fun _ k h => ?_
  refine TR.Le.bind (atoiSignedT_le _) fun n k2 h2 => ?_
  exact TR.Le.ite (fun _ => TR.Le.pure (by omega)) fun _ => TR.Le.ub

theorem atoiBitsT_le (bits : Nat) (s : Bytes) : (atoiBitsT bits s).Le fun _ k => k ≤ (s.takeWhile numPart).length + 2 := by
  refine (atoiBitsT_reads bits s).mono fun _ k h => ?_
  have := takeWhile_split s
  have := takeWhile_le (p := isNumeralChar) (q := numPart) (fun c h => by simp [numPart, h]) (s.dropWhile isSpaceC)
  omega

theorem atofTextT_le : ∀ (s : Bytes), (atofTextT s).Le fun _ k => k ≤ (s.takeWhile isNumeralChar).length + 1
  | [] => TR.Le.ub
  | c :: r => by
    unfold atofTextT
    refine TR.Le.bind (Q := fun _ k => k = 1) (TR.Le.steps fun _ _ => rfl) fun _ k h => ?_
    refine TR.Le.ite (fun hc => ?_) fun _ => TR.Le.pure (by omega)
    refine TR.Le.bind (atofTextT_le r) fun t k2 h2 => TR.Le.pure ?_
    rw [List.takeWhile_cons_of_pos hc]
    simp only [List.length_cons]
    omega

theorem stackCopy_len {t s : Bytes} (h : stackCopy t = .ok s) : t.length ≤ 128 ∧ s.length = 128 := by
  unfold stackCopy at h
  split at h <;> cases h
  simp; omega

theorem fee_strToInt {len : Nat} : Fee 0 386 (strToIntT p len) := by
  intro st a k st' e
  unfold strToIntT at e
  obtain ⟨t, m, st1, m', h1, e1, rfl⟩ := TM.bind_inv e
  obtain ⟨rfl, h2⟩ := TM.steps_inv h1
  obtain ⟨y, m2, st2, m3, h3, e2, rfl⟩ := TM.bind_inv e1
  obtain ⟨rfl, h4⟩ := TM.steps_inv h3
  obtain ⟨h5, rfl⟩ := TM.liftT_inv e2
  have h6 := atoiBitsT_le _ _ _ _ h5
  have h7 := readN_length h2
  cases hc : stackCopy t with
  | ok z =>
    rw [hc] at h4; cases h4
    have := stackCopy_len hc
    have : (y.takeWhile numPart).length ≤ y.length := (List.takeWhile_sublist _).length_le
    omega
  | ub u => rw [hc] at h4; cases h4
  | timeout => rw [hc] at h4; cases h4

end

end ZJ
