import Verif.TimeVal

/-
Bounds for the steps of the scanning functions and of the parser.
-/

set_option linter.unusedSimpArgs false

namespace ZJ

/-- Whenever `x` returns, the result and the number of steps satisfy `Q`. -/
def TR.Le {α} (x : TR α) (Q : α → Nat → Prop) : Prop := ∀ a k, x = .ok (a, k) → Q a k

/-- Whenever `x` returns, from any state, the result and the number of steps satisfy `Q`. -/
def TM.Le {α} (x : TM α) (Q : α → Nat → Prop) : Prop := ∀ st a k st', x st = .ok ((a, k), st') → Q a k

namespace TR
variable {α β : Type} {Q : α → Nat → Prop} {R : β → Nat → Prop}

theorem Le.mono {x : TR α} {Q' : α → Nat → Prop} (h : x.Le Q) (hq : ∀ a k, Q a k → Q' a k) : x.Le Q' :=
  fun a k e => hq a k (h a k e)
theorem Le.pure {a : α} (h : Q a 0) : Le (Pure.pure a : TR α) Q := by
  intro b k e; cases e; exact h
theorem Le.bind {x : TR α} {f : α → TR β} (h : x.Le Q) (hf : ∀ a m, Q a m → (f a).Le fun b n => R b (m + n)) :
    Le (x >>= f) R := by
  intro b k e
  cases x with
  | ok q =>
    obtain ⟨a, m⟩ := q
    replace e : (match f a with
      | .ok (b, n) => (.ok (b, m + n) : Res (β × Nat))
      | .ub u => .ub u
      | .timeout => .timeout) = .ok (b, k) := e
    cases hfa : f a with
    | ok q =>
      obtain ⟨b', n⟩ := q
      rw [hfa] at e
      cases e
      exact hf a m (h a m rfl) _ _ hfa
    | ub u => rw [hfa] at e; cases e
    | timeout => rw [hfa] at e; cases e
  | ub u => cases e
  | timeout => cases e
theorem Le.steps {n : Nat} {r : Res α} (h : ∀ a, r = .ok a → Q a n) : Le (TR.steps n r) Q := by
  intro a k e
  cases r with
  | ok b => cases e; exact h _ rfl
  | ub u => cases e
  | timeout => cases e
theorem Le.ite {c : Prop} [Decidable c] {x y : TR α} (hx : c → x.Le Q) (hy : ¬ c → y.Le Q) :
    Le (if c then x else y) Q := by
  split
  · exact hx (by assumption)
  · exact hy (by assumption)
theorem Le.timeout : Le (.timeout : Res (α × Nat)) Q := by intro a k e; cases e
theorem Le.ub {u : UB} : Le (.ub u : Res (α × Nat)) Q := by intro a k e; cases e

end TR

namespace TM
variable {α β : Type} {Q : α → Nat → Prop} {R : β → Nat → Prop}

theorem Le.mono {x : TM α} {Q' : α → Nat → Prop} (h : x.Le Q) (hq : ∀ a k, Q a k → Q' a k) : x.Le Q' :=
  fun st a k st' e => hq a k (h st a k st' e)
theorem Le.pure {a : α} (h : Q a 0) : Le (Pure.pure a : TM α) Q := by
  intro st b k st' e; cases e; exact h
theorem bind_inv {x : TM α} {f : α → TM β} {st st' : St} {b : β} {k : Nat} (e : (x >>= f) st = .ok ((b, k), st')) :
    ∃ a m st1 n, x st = .ok ((a, m), st1) ∧ f a st1 = .ok ((b, n), st') ∧ k = m + n := by
  replace e : (match x st with
    | .ok ((a, m), st1) =>
      match f a st1 with
      | .ok ((b, n), st2) => (.ok ((b, m + n), st2) : Res ((β × Nat) × St))
      | .ub u => .ub u
      | .timeout => .timeout
    | .ub u => .ub u
    | .timeout => .timeout) = .ok ((b, k), st') := e
  cases hx : x st with
  | ok q =>
    obtain ⟨⟨a, m⟩, st1⟩ := q
    simp only [hx] at e
    cases hfa : f a st1 with
    | ok q =>
      obtain ⟨⟨b', n⟩, st2⟩ := q
      rw [hfa] at e
      cases e
      exact ⟨a, m, st1, n, rfl, hfa, rfl⟩
    | ub u => rw [hfa] at e; cases e
    | timeout => rw [hfa] at e; cases e
  | ub u => rw [hx] at e; cases e
  | timeout => rw [hx] at e; cases e
theorem Le.bind {x : TM α} {f : α → TM β} (h : x.Le Q) (hf : ∀ a m, Q a m → (f a).Le fun b n => R b (m + n)) :
    Le (x >>= f) R := by
  intro st b k st' e
  obtain ⟨a, m, st1, n, h1, h2, rfl⟩ := bind_inv e
  exact hf a m (h _ _ _ _ h1) _ _ _ _ h2
theorem steps_inv {n : Nat} {x : M α} {st st' : St} {a : α} {k : Nat} (e : steps n x st = .ok ((a, k), st')) :
    k = n ∧ x st = .ok (a, st') := by
  unfold steps at e
  cases hx : x st with
  | ok q => obtain ⟨b, st1⟩ := q; rw [hx] at e; cases e; exact ⟨rfl, rfl⟩
  | ub u => rw [hx] at e; cases e
  | timeout => rw [hx] at e; cases e
theorem Le.steps {n : Nat} {x : M α} (h : ∀ a, Q a n) : Le (steps n x) Q := by
  intro st a k st' e
  obtain ⟨rfl, _⟩ := steps_inv e
  exact h a
theorem Le.steps_bind {n : Nat} {x : M α} {f : α → TM β} (hf : ∀ a, (f a).Le fun b m => R b (n + m)) :
    Le (ZJ.steps n x >>= f) R :=
  Le.bind (Q := fun _ k => k = n) (Le.steps fun _ => rfl) fun a _ hm => hm ▸ hf a
theorem Le.one_bind {x : M α} {f : α → TM β} (hf : ∀ a, (f a).Le fun b m => R b (1 + m)) :
    Le (one x >>= f) R := Le.steps_bind hf
theorem Le.ite {c : Prop} [Decidable c] {x y : TM α} (hx : c → x.Le Q) (hy : ¬ c → y.Le Q) :
    Le (if c then x else y) Q := by
  split
  · exact hx (by assumption)
  · exact hy (by assumption)
theorem liftT_inv {x : TR α} {st st' : St} {a : α} {k : Nat} (e : liftT x st = .ok ((a, k), st')) :
    x = .ok (a, k) ∧ st' = st := by
  unfold ZJ.liftT at e
  cases x with
  | ok q => cases e; exact ⟨rfl, rfl⟩
  | ub u => cases e
  | timeout => cases e
theorem Le.liftT {x : TR α} (h : x.Le Q) : Le (liftT x) Q := by
  intro st a k st' e
  unfold ZJ.liftT at e
  cases x with
  | ok q => cases e; exact h _ _ rfl
  | ub u => cases e
  | timeout => cases e
theorem Le.liftT_bind {x : TR α} {f : α → TM β} (h : x.Le Q) (hf : ∀ a m, Q a m → (f a).Le fun b n => R b (m + n)) :
    Le (ZJ.liftT x >>= f) R := Le.bind (Le.liftT h) hf

end TM

/-- `s[n]` is the first NUL of `s`. -/
structure Stops (s : Bytes) (n : Nat) : Prop where
  nul : s[n]? = some 0
  pre : ∀ j, j < n → ∀ c, s[j]? = some c → c ≠ 0

section
variable {s : Bytes} {n : Nat}

theorem Stops.lt (h : Stops s n) {i : Nat} {c : Byte} (hi : i ≤ n) (hc : s[i]? = some c) (h0 : c ≠ 0) : i < n := by
  rcases Nat.lt_or_eq_of_le hi with h1 | rfl
  · exact h1
  · rw [h.nul] at hc; cases hc; exact absurd rfl h0

theorem rdT_le (s : Bytes) (i : Nat) : (rdT s i).Le fun c k => s[i]? = some c ∧ k = 1 := by
  apply TR.Le.steps
  intro a ha
  unfold rd at ha
  split at ha
  · cases ha; exact ⟨by assumption, rfl⟩
  · cases ha

theorem TR.Le.rd_bind {β : Type} {R : β → Nat → Prop} {s : Bytes} {i : Nat} {f : Byte → TR β}
    (hf : ∀ c, s[i]? = some c → (f c).Le fun b n => R b (1 + n)) : Le (rdT s i >>= f) R :=
  Le.bind (rdT_le s i) fun c _ h => by obtain ⟨h1, rfl⟩ := h; exact hf c h1

theorem skin_ne {c : Byte} (h : skin c = true) : c ≠ 0 := by rintro rfl; cases h

theorem skipLoopT_le (hs : Stops s n) : ∀ fuel i, i ≤ n →
    (skipLoopT s fuel i).Le fun i' k => i ≤ i' ∧ i' ≤ n ∧ k ≤ i' - i + 1
  | 0, _, _ => TR.Le.timeout
  | fuel + 1, i, hi => by
    unfold skipLoopT
    refine TR.Le.rd_bind fun c hc => TR.Le.ite (fun h => ?_) fun _ => TR.Le.pure (by omega)
    have := hs.lt hi hc (skin_ne h)
    refine (skipLoopT_le hs fuel (i + 1) this).mono fun i' k h => ?_
    omega

theorem skipT_le (hs : Stops s n) {i : Nat} (hi : i ≤ n) :
    (skipT s i).Le fun i' k => i ≤ i' ∧ i' ≤ n ∧ k ≤ i' - i + 1 := skipLoopT_le hs _ _ hi

theorem peekT_le (hs : Stops s n) {i : Nat} (hi : i ≤ n) :
    (peekT s i).Le fun q k => i < q.2 ∧ q.2 ≤ n + 1 ∧ k ≤ q.2 - i + 1 ∧ (q.1 ≠ 0 → q.2 ≤ n) ∧ s[q.2 - 1]? = some q.1 := by
  unfold peekT
  refine TR.Le.bind (skipT_le hs hi) fun j m h => TR.Le.rd_bind fun c hc => TR.Le.pure ?_
  refine ⟨by show i < j + 1; omega, by show j + 1 ≤ _; omega, by show _ ≤ j + 1 - i + 1; omega, fun h0 => ?_, by simpa using hc⟩
  exact hs.lt h.2.1 hc h0

theorem consumeT_le (c : Byte) (s : Bytes) (i : Nat) : (consumeT c s i).Le fun q k => k = 1 ∧
    (q.1 = true → q.2 = i + 1 ∧ s[i]? = some c) ∧ (q.1 = false → q.2 = i) := by
  unfold consumeT
  refine TR.Le.rd_bind fun x hx => TR.Le.ite (fun h => TR.Le.pure ?_) fun _ => TR.Le.pure ?_
  · exact ⟨rfl, fun _ => ⟨rfl, h ▸ hx⟩, nofun⟩
  · exact ⟨rfl, nofun, fun _ => rfl⟩

theorem consumeT_le' (hs : Stops s n) {c : Byte} (h0 : c ≠ 0) {i : Nat} (hi : i ≤ n) :
    (consumeT c s i).Le fun q k => k = 1 ∧ i ≤ q.2 ∧ q.2 ≤ n ∧ (q.1 = true → q.2 = i + 1) ∧ (q.1 = false → q.2 = i) :=
  (consumeT_le c s i).mono fun q k h => by
    obtain ⟨b, j⟩ := q
    obtain ⟨h1, h2, h3⟩ := h
    cases b with
    | true => obtain ⟨h4, h5⟩ := h2 rfl; have := hs.lt hi h5 h0; simp only at *; subst h4; exact ⟨h1, by omega, by omega, by simp, by simp⟩
    | false => have := h3 rfl; simp only at *; subst this; exact ⟨h1, by omega, by omega, by simp, by simp⟩

theorem peekAndConsumeT_le (hs : Stops s n) {c : Byte} {i : Nat} (hi : i ≤ n) :
    (peekAndConsumeT c s i).Le fun q k => i ≤ q.2 ∧ q.2 ≤ n + 1 ∧ k ≤ q.2 - i + 2 ∧ (q.1 = true → i < q.2) ∧
      (c ≠ 0 → q.2 ≤ n) := by
  unfold peekAndConsumeT
  refine TR.Le.bind (skipT_le hs hi) fun j m h => TR.Le.rd_bind fun x hx => TR.Le.ite (fun e => TR.Le.pure ?_) fun _ => TR.Le.pure ?_
  · refine ⟨by show i ≤ j + 1; omega, by show j + 1 ≤ n + 1; omega, by show _ ≤ j + 1 - i + 2; omega,
      fun _ => by show i < j + 1; omega, fun h0 => ?_⟩
    exact hs.lt h.2.1 (e ▸ hx) h0
  · exact ⟨h.1, by show j ≤ n + 1; omega, by show _ ≤ j - i + 2; omega, nofun, fun _ => h.2.1⟩

theorem load4Eq_known {w : Bytes} {lim i : Nat} (h : load4Eq w s lim i = .ok true) : (s.drop i).take 4 = w := by
  unfold load4Eq at h
  split at h
  · simp only at h
    split at h
    · assumption
    · split at h <;> cases h
  · cases h

theorem lit_le (hs : Stops s n) {w : Bytes} (hw : ∀ c ∈ w, c ≠ 0) {i : Nat} (hi : i ≤ n) (h : (s.drop i).take 4 = w) (h4 : w.length = 4) :
    i + 4 ≤ n := by
  have key : ∀ j, j < 4 → i + j ≤ n → i + j < n := fun j hj hin => by
    have : s[i + j]? = some (w[j]'(by omega)) := by
      have e := congrArg (·[j]?) h
      simp only [List.getElem?_take, hj, if_true, List.getElem?_drop] at e
      rw [e, List.getElem?_eq_getElem]
    exact hs.lt hin this (hw _ (List.getElem_mem _))
  have h0 := key 0 (by omega) (by omega)
  have h1 := key 1 (by omega) (by omega)
  have h2 := key 2 (by omega) (by omega)
  have h3 := key 3 (by omega) (by omega)
  omega

/-- What the three literal functions do to the index. -/
theorem literal_le (hs : Stops s n) {i : Nat} (hi : i ≤ n) (h1 : 1 ≤ i) {x : Res (Bool × Nat)} {lim : Nat}
    (hx : x = consumeFalse s lim i ∨ x = consumeTrue s lim i ∨ x = consumeNull s lim i) :
    (TR.steps 4 x).Le fun q k => k = 4 ∧ i ≤ q.2 ∧ q.2 ≤ n := by
  apply TR.Le.steps
  rintro ⟨b, j⟩ e
  have main : ∀ (w : Bytes) (i0 d : Nat), (∀ c ∈ w, c ≠ 0) → w.length = 4 → i0 ≤ n → i0 + 4 = i + d →
      (do if ← load4Eq w s lim i0 then pure (true, i + d) else pure (false, i) : Res (Bool × Nat)) = .ok (b, j) →
      (4 : Nat) = 4 ∧ i ≤ j ∧ j ≤ n := by
    intro w i0 d hw hl h0 hd e
    rw [Res.bind_eq_ok] at e
    obtain ⟨t, ht, e⟩ := e
    cases t with
    | true =>
      have := lit_le hs hw h0 (load4Eq_known ht) hl
      simp only [if_true] at e
      cases e
      omega
    | false => cases e; omega
  rcases hx with rfl | rfl | rfl
  · exact main b!"alse" i 4 (by decide) rfl hi rfl e
  · exact main b!"true" (i - 1) 3 (by decide) rfl (by omega) (by omega) e
  · exact main b!"null" (i - 1) 3 (by decide) rfl (by omega) (by omega) e

theorem consumeHexOne_le (hs : Stops s n) {i cp : Nat} (hi : i ≤ n) {b j cp'} (h : consumeHexOne s i cp = .ok (b, j, cp')) :
    i ≤ j ∧ j ≤ n ∧ (b = true → j = i + 1) := by
  unfold consumeHexOne at h
  rw [Res.bind_eq_ok] at h
  obtain ⟨c, hc, h⟩ := h
  have hc : s[i]? = some c := by
    unfold rd at hc
    split at hc
    · cases hc; assumption
    · cases hc
  simp only at h
  split at h
  · rename_i ht
    cases h
    have : c ≠ 0 := by rintro rfl; exact absurd ht (by decide)
    have := hs.lt hi hc this
    exact ⟨by omega, by omega, fun _ => rfl⟩
  · cases h
    exact ⟨by omega, hi, nofun⟩

theorem consumeHexT_le (hs : Stops s n) {i cp : Nat} (hi : i ≤ n) :
    (consumeHexT s i cp).Le fun q k => k = 4 ∧ i ≤ q.2.1 ∧ q.2.1 ≤ n ∧ (q.1 = true → q.2.1 = i + 4) := by
  apply TR.Le.steps
  rintro ⟨b, j, cp'⟩ h
  unfold consumeHex at h
  rw [Res.bind_eq_ok] at h
  obtain ⟨⟨b1, i1, c1⟩, e1, h⟩ := h
  have g1 := consumeHexOne_le hs hi e1
  cases b1 with
  | false => cases h; exact ⟨rfl, g1.1, g1.2.1, nofun⟩
  | true =>
  simp only [Bool.not_true, Bool.false_eq_true, if_false] at h
  rw [Res.bind_eq_ok] at h
  obtain ⟨⟨b2, i2, c2⟩, e2, h⟩ := h
  have g2 := consumeHexOne_le hs g1.2.1 e2
  cases b2 with
  | false => cases h; exact ⟨rfl, by have := g1.1; have := g2.1; simp only; omega, g2.2.1, nofun⟩
  | true =>
  simp only [Bool.not_true, Bool.false_eq_true, if_false] at h
  rw [Res.bind_eq_ok] at h
  obtain ⟨⟨b3, i3, c3⟩, e3, h⟩ := h
  have g3 := consumeHexOne_le hs g2.2.1 e3
  cases b3 with
  | false => cases h; exact ⟨rfl, by have := g1.1; have := g2.1; have := g3.1; simp only; omega, g3.2.1, nofun⟩
  | true =>
  simp only [Bool.not_true, Bool.false_eq_true, if_false] at h
  have g4 := consumeHexOne_le hs g3.2.1 h
  refine ⟨rfl, ?_, g4.2.1, fun hb => ?_⟩
  · have := g1.1; have := g2.1; have := g3.1; have := g4.1; simp only; omega
  · have := g1.2.2 rfl; have := g2.2.2 rfl; have := g3.2.2 rfl; have := g4.2.2 hb; simp only; omega

theorem consumeStrLoopT_le (hs : Stops s n) : ∀ fuel c i, 1 ≤ i → i - 1 ≤ n → s[i - 1]? = some c →
    (consumeStrLoopT s fuel c i).Le fun q k => i ≤ q.2 ∧ q.2 ≤ n + 1 ∧ (q.1 = true → q.2 ≤ n) ∧ k ≤ q.2 - i + 12
  | 0, _, _, _, _, _ => TR.Le.timeout
  | fuel + 1, c, i, h1, hi, hc => by
    have ih : ∀ i' c' m, i ≤ i' → i' ≤ n → s[i']? = some c' → m ≤ i' + 1 - i →
        (consumeStrLoopT s fuel c' (i' + 1)).Le fun q k => i ≤ q.2 ∧ q.2 ≤ n + 1 ∧ (q.1 = true → q.2 ≤ n) ∧ m + k ≤ q.2 - i + 12 :=
      fun i' c' m h2 h3 h4 h5 => (consumeStrLoopT_le hs fuel c' (i' + 1) (by omega) (by omega) (by simpa using h4)).mono
        fun q k h => ⟨by omega, h.2.1, h.2.2.1, by omega⟩
    have fin : ∀ i' m, i ≤ i' → i' ≤ n + 1 → m ≤ 12 →
        TR.Le (pure (false, i') : TR (Bool × Nat)) fun q k => i ≤ q.2 ∧ q.2 ≤ n + 1 ∧ (q.1 = true → q.2 ≤ n) ∧ m + k ≤ q.2 - i + 12 :=
      fun i' m h2 h3 h4 => TR.Le.pure ⟨h2, h3, nofun, by show m + 0 ≤ i' - i + 12; omega⟩
    have lt : c ≠ 0 → i ≤ n := fun h0 => by have := hs.lt hi hc h0; omega
    unfold consumeStrLoopT
    refine TR.Le.ite (fun _ => ?_) fun h0 => TR.Le.ite (fun _ => ?_) fun _ => TR.Le.ite (fun h5 => ?_) fun _ => TR.Le.ite (fun h22 => ?_) fun _ => ?_
    · simpa using fin i 0 (by omega) (by omega) (by omega)
    · simpa using fin i 0 (by omega) (by omega) (by omega)
    · have hin := lt h0
      refine TR.Le.rd_bind fun c2 hc2 => ?_
      refine TR.Le.ite (fun he => ?_) fun _ => TR.Le.ite (fun hu => ?_) fun _ => ?_
      · have := hs.lt hin hc2 (by rintro rfl; cases he)
        refine TR.Le.rd_bind fun c3 hc3 => ?_
        exact (ih (i + 1) c3 2 (by omega) this hc3 (by omega)).mono fun q k h => ⟨h.1, h.2.1, h.2.2.1, by omega⟩
      · have h2 := hs.lt hin hc2 (by rw [hu]; decide)
        refine TR.Le.bind (consumeHexT_le hs h2) fun q m hq => ?_
        obtain ⟨ok, i3, cp⟩ := q
        simp only at hq ⊢
        refine TR.Le.ite (fun _ => (fin i3 5 (by omega) (by omega) (by omega)).mono fun q k h => ⟨h.1, h.2.1, h.2.2.1, by omega⟩) fun hok => ?_
        have h3 := hq.2.2.2 (by simpa using hok)
        refine TR.Le.ite (fun _ => (fin i3 5 (by omega) (by omega) (by omega)).mono fun q k h => ⟨h.1, h.2.1, h.2.2.1, by omega⟩) fun _ => ?_
        refine TR.Le.ite (fun _ => ?_) fun _ => ?_
        · refine TR.Le.bind (consumeT_le' hs (by decide) hq.2.2.1) fun q m4 hq4 => ?_
          obtain ⟨ok, i4⟩ := q
          simp only at hq4 ⊢
          refine TR.Le.ite (fun _ => (fin i4 6 (by omega) (by omega) (by omega)).mono fun q k h => ⟨h.1, h.2.1, h.2.2.1, by omega⟩) fun hok => ?_
          have h4 := hq4.2.2.2.1 (by simpa using hok)
          refine TR.Le.bind (consumeT_le' hs (by decide) hq4.2.2.1) fun q m5 hq5 => ?_
          obtain ⟨ok, i5⟩ := q
          simp only at hq5 ⊢
          refine TR.Le.ite (fun _ => (fin i5 7 (by omega) (by omega) (by omega)).mono fun q k h => ⟨h.1, h.2.1, h.2.2.1, by omega⟩) fun hok => ?_
          have h5 := hq5.2.2.2.1 (by simpa using hok)
          refine TR.Le.bind (consumeHexT_le hs hq5.2.2.1) fun q m6 hq6 => ?_
          obtain ⟨ok, i6, cp2⟩ := q
          simp only at hq6 ⊢
          refine TR.Le.ite (fun _ => (fin i6 11 (by omega) (by omega) (by omega)).mono fun q k h => ⟨h.1, h.2.1, h.2.2.1, by omega⟩) fun hok => ?_
          have h6 := hq6.2.2.2 (by simpa using hok)
          refine TR.Le.ite (fun _ => (fin i6 11 (by omega) (by omega) (by omega)).mono fun q k h => ⟨h.1, h.2.1, h.2.2.1, by omega⟩) fun _ => ?_
          refine TR.Le.rd_bind fun c7 hc7 => ?_
          exact (ih i6 c7 12 (by omega) hq6.2.2.1 hc7 (by omega)).mono fun q k h => ⟨h.1, h.2.1, h.2.2.1, by omega⟩
        · refine TR.Le.rd_bind fun c7 hc7 => ?_
          exact (ih i3 c7 6 (by omega) hq.2.2.1 hc7 (by omega)).mono fun q k h => ⟨h.1, h.2.1, h.2.2.1, by omega⟩
      · exact (fin (i + 1) 1 (by omega) (by omega) (by omega)).mono fun q k h => h
    · exact TR.Le.pure ⟨Nat.le_refl _, by show i ≤ n + 1; omega, fun _ => lt h0, by omega⟩
    · refine TR.Le.rd_bind fun c2 hc2 => ?_
      exact ih i c2 1 (by omega) (lt h0) hc2 (by omega)

theorem consumeStrT_le (hs : Stops s n) {i : Nat} (hi : i ≤ n) :
    (consumeStrT s i).Le fun q k => i ≤ q.2 ∧ q.2 ≤ n + 1 ∧ (q.1 = true → q.2 ≤ n) ∧ k ≤ q.2 - i + 13 := by
  unfold consumeStrT
  refine TR.Le.rd_bind fun c hc => ?_
  exact (consumeStrLoopT_le hs _ c (i + 1) (by omega) (by omega) (by simpa using hc)).mono fun q k h => ⟨by omega, h.2.1, h.2.2.1, by omega⟩

theorem digit_nonzero {c : Byte} (h : cIsDigit c = true) : c ≠ 0 := by rintro rfl; cases h

theorem digitLoopT_le (hs : Stops s n) : ∀ fuel i, i ≤ n →
    (digitLoopT s fuel i).Le fun i' k => i ≤ i' ∧ i' ≤ n ∧ k ≤ i' - i + 1
  | 0, _, _ => TR.Le.timeout
  | fuel + 1, i, hi => by
    unfold digitLoopT
    refine TR.Le.rd_bind fun c hc => TR.Le.ite (fun h => ?_) fun _ => TR.Le.pure (by omega)
    have := hs.lt hi hc (digit_nonzero h)
    refine (digitLoopT_le hs fuel (i + 1) this).mono fun i' k h => ?_
    omega

/-- The bound for the parts of a number. -/
def NumLe (n i d : Nat) (o : Option Nat) (k : Nat) : Prop :=
  (∀ j, o = some j → i ≤ j ∧ j ≤ n ∧ k ≤ j - i + d) ∧ (o = none → k ≤ d)

theorem NumLe.some {i d j k : Nat} (h1 : i ≤ j) (h2 : j ≤ n) (h3 : k ≤ j - i + d) : NumLe n i d (some j) k :=
  ⟨fun _ e => by cases e; exact ⟨h1, h2, h3⟩, nofun⟩
theorem NumLe.none {i d k : Nat} (h : k ≤ d) : NumLe n i d none k := ⟨nofun, fun _ => h⟩

theorem numIntT_le (hs : Stops s n) {i : Nat} (hi : i ≤ n) :
    (numIntT s i).Le fun o k => NumLe n i 3 o k ∧ ∀ j, o = some j → i < j := by
  unfold numIntT
  refine TR.Le.bind (consumeT_le' hs (by decide) hi) fun q m hq => ?_
  obtain ⟨ok, j⟩ := q
  simp only at hq ⊢
  refine TR.Le.ite (fun h => TR.Le.pure ?_) fun h => ?_
  · exact ⟨.some hq.2.1 hq.2.2.1 (by omega), fun _ e => by cases e; have := hq.2.2.2.1 h; omega⟩
  obtain rfl := hq.2.2.2.2 (by simpa using h)
  refine TR.Le.rd_bind fun c hc => TR.Le.ite (fun h => ?_) fun _ => TR.Le.pure ?_
  · have := hs.lt hi hc (by rintro rfl; revert h; decide)
    exact TR.Le.bind (digitLoopT_le hs _ (j + 1) this) fun j' m' h => TR.Le.pure ⟨.some (by omega) (by omega) (by omega), fun _ e => by cases e; omega⟩
  · exact ⟨.none (by omega), nofun⟩

theorem numFracT_le (hs : Stops s n) {i : Nat} (hi : i ≤ n) : (numFracT s i).Le (NumLe n i 3) := by
  unfold numFracT
  refine TR.Le.bind (consumeT_le' hs (by decide) hi) fun q m hq => ?_
  obtain ⟨ok, j⟩ := q
  simp only at hq ⊢
  refine TR.Le.ite (fun h => TR.Le.pure ?_) fun h => ?_
  · exact .some hq.2.1 hq.2.2.1 (by omega)
  refine TR.Le.rd_bind fun c hc => TR.Le.ite (fun h => ?_) fun _ => TR.Le.pure ?_
  · have := hs.lt hq.2.2.1 hc (digit_nonzero h)
    exact TR.Le.bind (digitLoopT_le hs _ (j + 1) this) fun j' m' h => TR.Le.pure (.some (by omega) (by omega) (by omega))
  · exact .none (by omega)

theorem numExpT_le (hs : Stops s n) {i : Nat} (hi : i ≤ n) : (numExpT s i).Le (NumLe n i 3) := by
  unfold numExpT
  refine TR.Le.rd_bind fun e he => TR.Le.ite (fun h => ?_) fun _ => TR.Le.pure (.some (Nat.le_refl _) hi (by omega))
  have h1 := hs.lt hi he (by rintro rfl; revert h; decide)
  refine TR.Le.rd_bind fun c hc => ?_
  have h2 : i + 1 ≤ (if c = 0x2D ∨ c = 0x2B then i + 2 else i + 1) ∧ (if c = 0x2D ∨ c = 0x2B then i + 2 else i + 1) ≤ n := by
    split
    · rename_i hcc
      have := hs.lt h1 hc (by rintro rfl; revert hcc; decide)
      omega
    · omega
  simp only
  generalize (if c = 0x2D ∨ c = 0x2B then i + 2 else i + 1) = j at h2 ⊢
  refine TR.Le.rd_bind fun d hd => TR.Le.ite (fun h => ?_) fun _ => TR.Le.pure (.none (by omega))
  have := hs.lt h2.2 hd (digit_nonzero h)
  exact TR.Le.bind (digitLoopT_le hs _ (j + 1) this) fun j' m' h => TR.Le.pure (.some (by omega) (by omega) (by omega))

theorem scanNumT_le (hs : Stops s n) {i : Nat} (hi : i ≤ n) :
    (scanNumT s i).Le fun o k => k ≤ n - i + 10 ∧ ∀ j, o = some j → i < j ∧ j ≤ n ∧ k ≤ j - i + 10 := by
  unfold scanNumT
  refine TR.Le.rd_bind fun c hc => ?_
  have h2 : i ≤ (if c = 0x2D then i + 1 else i) ∧ (if c = 0x2D then i + 1 else i) ≤ n := by
    split
    · rename_i hcc
      have := hs.lt hi hc (by rw [hcc]; decide)
      omega
    · omega
  simp only
  generalize (if c = 0x2D then i + 1 else i) = j at h2 ⊢
  refine TR.Le.bind (numIntT_le hs h2.2) fun o m h => ?_
  cases o with
  | none => exact TR.Le.pure ⟨by have := h.1.2 rfl; omega, nofun⟩
  | some j2 =>
    have h3 := h.1.1 _ rfl
    have h3' := h.2 _ rfl
    refine TR.Le.bind (numFracT_le hs h3.2.1) fun o m4 h => ?_
    cases o with
    | none => exact TR.Le.pure ⟨by have := h.2 rfl; omega, nofun⟩
    | some j3 =>
      have h4 := h.1 _ rfl
      refine (numExpT_le hs h4.2.1).mono fun o k h => ?_
      cases o with
      | none => exact ⟨by have := h.2 rfl; omega, nofun⟩
      | some j5 =>
        have h5 := h.1 _ rfl
        exact ⟨by omega, fun _ e => by cases e; omega⟩

/-! ### The parser -/

/-- The bound for the part of the parser that reads one value. -/
def StepLe (n i : Nat) (o : Step) (k : Nat) : Prop :=
  (o = .bad → k ≤ 2 * (n + 1 - i) + 30) ∧
  (∀ a j, o = .desc a j → i < j ∧ j ≤ n ∧ k ≤ 2 * (j - i) + 30) ∧ ∀ j, o = .leaf j → i < j ∧ j ≤ n ∧ k ≤ 2 * (j - i) + 30

theorem StepLe.bad {i k : Nat} (h : k ≤ 2 * (n + 1 - i) + 30) : StepLe n i .bad k := ⟨fun _ => h, nofun, nofun⟩
theorem StepLe.desc {i k j : Nat} {a} (h : i < j) (h1 : j ≤ n) (h2 : k ≤ 2 * (j - i) + 30) : StepLe n i (.desc a j) k :=
  ⟨nofun, fun _ _ e => by cases e; exact ⟨h, h1, h2⟩, nofun⟩
theorem StepLe.leaf {i k j : Nat} (h : i < j) (h1 : j ≤ n) (h2 : k ≤ 2 * (j - i) + 30) : StepLe n i (.leaf j) k :=
  ⟨nofun, nofun, fun _ e => by cases e; exact ⟨h, h1, h2⟩⟩

theorem openContainerT_le (hs : Stops s n) {A : Nat} {ty close node i} (hi : i ≤ n) (h0 : close ≠ 0) :
    (openContainerT A s ty close node i).Le fun o k =>
      (∃ j, (o = .leaf j ∨ ∃ a, o = .desc a j) ∧ i ≤ j ∧ j ≤ n ∧ k ≤ j - i + 10) := by
  unfold openContainerT
  refine TM.Le.one_bind fun _ => TM.Le.liftT_bind (peekAndConsumeT_le hs hi) fun q m h => ?_
  obtain ⟨ok, j⟩ := q
  simp only at h ⊢
  have := h.2.2.2.2 h0
  refine TM.Le.ite (fun _ => ?_) fun _ => ?_
  · refine TM.Le.one_bind fun _ => TM.Le.one_bind fun _ => TM.Le.pure ?_
    exact ⟨j, .inl rfl, by omega, by omega, by omega⟩
  · refine TM.Le.one_bind fun _ => TM.Le.one_bind fun _ => TM.Le.one_bind fun _ => TM.Le.one_bind fun _ => TM.Le.one_bind fun _ =>
      TM.Le.one_bind fun _ => TM.Le.pure ?_
    exact ⟨j, .inr ⟨_, rfl⟩, by omega, by omega, by omega⟩

theorem switchValueT_le (hs : Stops s n) {A : Nat} {p : SPtr} {lim node i} (hi : i ≤ n) :
    (switchValueT A p s lim node i).Le (StepLe n i) := by
  unfold switchValueT
  refine TM.Le.liftT_bind (peekT_le hs hi) fun q m h => ?_
  obtain ⟨c, j⟩ := q
  obtain ⟨h1, h2, h3, h4, h5⟩ := h
  simp only at h1 h2 h3 h4 h5 ⊢
  have cont : ∀ ty close, close ≠ 0 → c ≠ 0 → (openContainerT A s ty close node j).Le fun o k => StepLe n i o (m + k) := fun ty close hc h0 => by
    refine (openContainerT_le hs (h4 h0) hc).mono fun o k h => ?_
    obtain ⟨j', rfl | ⟨a, rfl⟩, g1, g2, g3⟩ := h
    · exact .leaf (by omega) (by omega) (by omega)
    · exact .desc (by omega) (by omega) (by omega)
  have lit : ∀ (x : Res (Bool × Nat)) (f : Nat → TM Step), c ≠ 0 →
      (x = consumeFalse s lim j ∨ x = consumeTrue s lim j ∨ x = consumeNull s lim j) →
      (∀ j', (f j').Le fun o k => o = .leaf j' ∧ k = 3) →
      (liftT (TR.steps 4 x) >>= fun q => if (!q.1) = true then pure .bad else f q.2).Le fun o k => StepLe n i o (m + k) := fun x f h0 hx hf => by
    refine TM.Le.liftT_bind (literal_le hs (h4 h0) (by omega) hx) fun q k h => ?_
    obtain ⟨ok, j'⟩ := q
    simp only at h ⊢
    refine TM.Le.ite (fun _ => TM.Le.pure (.bad (by omega))) fun _ => (hf j').mono fun o k h => ?_
    obtain ⟨rfl, rfl⟩ := h
    exact .leaf (by omega) (by omega) (by omega)
  refine TM.Le.ite (fun hc => cont _ _ (by decide) (by rw [hc]; decide)) fun _ => ?_
  refine TM.Le.ite (fun hc => cont _ _ (by decide) (by rw [hc]; decide)) fun _ => ?_
  refine TM.Le.ite (fun hc => ?_) fun _ => ?_
  · exact lit _ _ (by rw [hc]; decide) (.inr (.inr rfl)) fun j' => TM.Le.one_bind fun _ => TM.Le.one_bind fun _ => TM.Le.one_bind fun _ => TM.Le.pure ⟨rfl, rfl⟩
  refine TM.Le.ite (fun hc => ?_) fun _ => ?_
  · exact lit _ _ (by rw [hc]; decide) (.inl rfl) fun j' => TM.Le.one_bind fun _ => TM.Le.one_bind fun _ => TM.Le.one_bind fun _ => TM.Le.pure ⟨rfl, rfl⟩
  refine TM.Le.ite (fun hc => ?_) fun _ => ?_
  · exact lit _ _ (by rw [hc]; decide) (.inr (.inl rfl)) fun j' => TM.Le.one_bind fun _ => TM.Le.one_bind fun _ => TM.Le.one_bind fun _ => TM.Le.pure ⟨rfl, rfl⟩
  refine TM.Le.ite (fun hc => ?_) fun _ => ?_
  · have hj := h4 (by rw [hc]; decide)
    refine TM.Le.liftT_bind (consumeT_le' hs (by decide) hj) fun q m2 h => ?_
    obtain ⟨ok, j2⟩ := q
    simp only at h ⊢
    refine TM.Le.ite (fun _ => ?_) fun _ => ?_
    · refine TM.Le.one_bind fun _ => TM.Le.one_bind fun _ => TM.Le.one_bind fun _ => TM.Le.pure ?_
      exact .leaf (by omega) (by omega) (by omega)
    refine TM.Le.liftT_bind (consumeStrT_le hs h.2.2.1) fun q m3 h => ?_
    obtain ⟨ok, j3⟩ := q
    simp only at h ⊢
    refine TM.Le.ite (fun _ => TM.Le.pure (.bad (by omega))) fun hok => ?_
    have := h.2.2.1 (by simpa using hok)
    refine TM.Le.one_bind fun _ => TM.Le.one_bind fun _ => TM.Le.one_bind fun _ => TM.Le.pure ?_
    exact .leaf (by omega) (by omega) (by omega)
  · refine TM.Le.liftT_bind (scanNumT_le hs (show j - 1 ≤ n by omega)) fun o m2 h => ?_
    cases o with
    | none => exact TM.Le.pure (.bad (by have := h.1; omega))
    | some j2 =>
      have h6 := h.2 _ rfl
      refine TM.Le.one_bind fun _ => TM.Le.one_bind fun _ => TM.Le.one_bind fun _ => TM.Le.pure ?_
      exact .leaf (by omega) (by omega) (by omega)

/-- The bound for the part of the parser that reads the key of a member. -/
theorem parseKeyT_le (hs : Stops s n) {p : SPtr} {node i} (hi : i ≤ n) :
    (parseKeyT p s node i).Le fun o k => k ≤ n + 1 - i + 30 ∧ ∀ j, o = some j → i ≤ j ∧ j ≤ n ∧ k ≤ j - i + 30 := by
  unfold parseKeyT
  refine TM.Le.one_bind fun _ => TM.Le.one_bind fun _ => TM.Le.one_bind fun _ => TM.Le.ite (fun _ => ?_) fun _ => ?_
  · refine TM.Le.liftT_bind (peekAndConsumeT_le hs hi) fun q m h => ?_
    obtain ⟨ok, j⟩ := q
    simp only at h ⊢
    have hj := h.2.2.2.2 (by decide)
    refine TM.Le.ite (fun _ => TM.Le.pure ⟨by omega, nofun⟩) fun _ => ?_
    refine TM.Le.liftT_bind (consumeT_le' hs (by decide) hj) fun q m2 h2 => ?_
    obtain ⟨ok, j2⟩ := q
    simp only at h2 ⊢
    refine TM.Le.ite (fun _ => ?_) fun _ => ?_
    · refine TM.Le.one_bind fun _ => TM.Le.one_bind fun _ => ?_
      refine TM.Le.liftT_bind (peekAndConsumeT_le hs h2.2.2.1) fun q m3 h3 => ?_
      obtain ⟨ok, j3⟩ := q
      simp only at h3 ⊢
      have := h3.2.2.2.2 (by decide)
      refine TM.Le.ite (fun _ => TM.Le.pure ⟨by omega, nofun⟩) fun _ => TM.Le.pure ⟨by omega, fun _ e => ?_⟩
      cases e; omega
    · refine TM.Le.liftT_bind (consumeStrT_le hs h2.2.2.1) fun q m3 h3 => ?_
      obtain ⟨ok, j3⟩ := q
      simp only at h3 ⊢
      refine TM.Le.ite (fun _ => TM.Le.pure ⟨by omega, nofun⟩) fun hok => ?_
      have h3' := h3.2.2.1 (by simpa using hok)
      refine TM.Le.one_bind fun _ => TM.Le.one_bind fun _ => ?_
      refine TM.Le.liftT_bind (peekAndConsumeT_le hs h3') fun q m4 h4 => ?_
      obtain ⟨ok, j4⟩ := q
      simp only at h4 ⊢
      have := h4.2.2.2.2 (by decide)
      refine TM.Le.ite (fun _ => TM.Le.pure ⟨by omega, nofun⟩) fun _ => TM.Le.pure ⟨by omega, fun _ e => ?_⟩
      cases e; omega
  · refine TM.Le.one_bind fun _ => TM.Le.pure ⟨by omega, fun _ e => ?_⟩
    cases e; omega

/-- The bound for the loop of the parser. -/
theorem parseLoopT_le (hs : Stops s n) {v A : Nat} {p : SPtr} {lim : Nat} {src : Option Addr} : ∀ fuel pc node i, i ≤ n →
    (parseLoopT v A p s lim src fuel pc node i).Le fun _ k =>
      k ≤ 200 * (n - i) + (match pc with | .head => 120 | .close => 200)
  | 0, pc, _, _, _ => by
    unfold parseLoopT
    intro st a k st' e
    obtain ⟨_, h⟩ := TM.steps_inv e
    cases h
  | fuel + 1, .head, node, i, hi => by
    unfold parseLoopT
    refine TM.Le.one_bind fun _ => TM.Le.ite (fun _ => ?_) fun _ => ?_
    · refine TM.Le.liftT_bind (peekAndConsumeT_le hs hi) fun q m h => ?_
      refine TM.Le.ite (fun _ => TM.Le.pure ?_) fun _ => TM.Le.steps fun _ => ?_ <;> simp only <;> omega
    · refine TM.Le.bind (parseKeyT_le hs hi) fun o m h => ?_
      cases o with
      | none => exact TM.Le.steps fun _ => by have := h.1; simp only; omega
      | some j =>
        have h1 := h.2 _ rfl
        refine TM.Le.bind (switchValueT_le hs h1.2.1) fun o m2 h2 => ?_
        cases o with
        | bad => exact TM.Le.steps fun _ => by have := h2.1 rfl; simp only; omega
        | desc a j2 =>
          have h3 := h2.2.1 _ _ rfl
          refine (parseLoopT_le hs fuel .head a j2 h3.2.1).mono fun _ k h => ?_
          simp only at h ⊢; omega
        | leaf j2 =>
          have h3 := h2.2.2 _ rfl
          refine (parseLoopT_le hs fuel .close node j2 h3.2.1).mono fun _ k h => ?_
          simp only at h ⊢; omega
  | fuel + 1, .close, node, i, hi => by
    unfold parseLoopT
    refine TM.Le.one_bind fun _ => TM.Le.ite (fun _ => ?_) fun _ => ?_
    · refine (parseLoopT_le hs fuel .head node i hi).mono fun _ k h => ?_
      simp only at h ⊢; omega
    · refine TM.Le.liftT_bind (peekAndConsumeT_le hs hi) fun q m h => ?_
      obtain ⟨ok, j⟩ := q
      simp only at h ⊢
      have hj := h.2.2.2.2 (by decide)
      refine TM.Le.ite (fun hok => ?_) fun _ => ?_
      · have := h.2.2.2.1 hok
        iterate 10 refine TM.Le.one_bind fun _ => ?_
        refine (parseLoopT_le hs fuel .head _ j hj).mono fun _ k h => ?_
        simp only at h ⊢; omega
      · refine TM.Le.liftT_bind (peekT_le hs hj) fun q m2 h2 => ?_
        obtain ⟨c, j2⟩ := q
        simp only at h2 ⊢
        refine TM.Le.one_bind fun _ => TM.Le.one_bind fun _ => TM.Le.one_bind fun _ => TM.Le.ite (fun hc => ?_) fun _ => ?_
        · have h3 := h2.2.2.2.1 (by rintro rfl; revert hc; simp)
          refine TM.Le.one_bind fun _ => (parseLoopT_le hs fuel .close _ j2 h3).mono fun _ k h => ?_
          simp only at h ⊢; omega
        · exact TM.Le.steps fun _ => by omega

end

end ZJ
