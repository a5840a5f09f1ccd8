import Verif.TimeParse
import Verif.PropParse

/-
Property theorems about the number of steps: C58.
-/

set_option linter.unusedSimpArgs false

namespace ZJ

section
variable {st st' : St} {P : Addr → Prop} {G : Graph} {v A : Addr} {x : Option Addr} {p : SPtr} {b : Bytes} {r : Bool} {k : Nat}

theorem CStr.stops (h0 : (0 : Byte) ∉ b) (r : Bytes) : Stops (b ++ 0 :: r) b.length where
  nul := by simp
  pre j hj c hc := by
    rw [List.getElem?_append_left hj] at hc
    rintro rfl
    exact h0 (List.mem_of_getElem? hc)

/-- Every text followed by a NUL has a first NUL. -/
theorem exists_stops : ∀ (b r : Bytes), ∃ n, n ≤ b.length ∧ Stops (b ++ 0 :: r) n
  | [], r => ⟨0, Nat.le_refl _, ⟨by simp, fun j hj => by omega⟩⟩
  | c :: b, r => by
    by_cases hc : c = 0
    · exact ⟨0, by simp, ⟨by simp [hc], fun j hj => by omega⟩⟩
    · obtain ⟨n, h1, h2⟩ := exists_stops b r
      refine ⟨n + 1, by simp [h1], ⟨by simpa using h2.nul, fun j hj d hd => ?_⟩⟩
      cases j with
      | zero => simp at hd; exact hd ▸ hc
      | succ j => exact h2.pre j (by omega) d (by simpa using hd)

/-- What the operations on nodes and handles leave alone. -/
def KeepsB {α : Type} (x : M α) : Prop := ∀ st a st', x st = .ok (a, st') → st'.bufs = st.bufs

theorem keepsB_newNode (A : Nat) : KeepsB (newNode A) := by
  intro st a st' h
  by_cases ha : st.allocs A = true
  · rw [newNode_run ha] at h; cases h; rfl
  · rw [show newNode A st = .ub .wild from M.bind_ub (by simp [request, ha])] at h
    cases h
theorem keepsB_modNode (a : Addr) (f : Node → Node) : KeepsB (modNode a f) := by
  intro st u st' h
  unfold modNode at h
  split at h <;> cases h
  rfl
theorem keepsB_rdNode (a : Addr) : KeepsB (rdNode a) := by
  intro st u st' h
  unfold rdNode at h
  split at h <;> cases h
  rfl
theorem keepsB_rdVal (a : Addr) : KeepsB (rdVal a) := by
  intro st u st' h
  unfold rdVal at h
  split at h <;> cases h
  rfl
theorem keepsB_setValN (a : Addr) (y : Option Addr) : KeepsB (setValN a y) := by
  intro st u st' h
  unfold setValN at h
  split at h <;> cases h
  rfl

/-- As `TM.Le`, and the byte blocks stay as they are. -/
def TM.LeB {α : Type} (x : TM α) (n : Nat) : Prop := ∀ st a k st', x st = .ok ((a, k), st') → k ≤ n ∧ st'.bufs = st.bufs

theorem TM.LeB.pure {α : Type} {a : α} {n : Nat} : LeB (Pure.pure a : TM α) n := by
  intro st b k st' e; cases e; exact ⟨by omega, rfl⟩
theorem TM.LeB.steps_bind {α β : Type} {m n : Nat} {x : M α} {f : α → TM β} (hx : KeepsB x) (hf : ∀ a, (f a).LeB n) :
    LeB (ZJ.steps m x >>= f) (m + n) := by
  intro st b k st' e
  obtain ⟨a, m', st1, n', h1', h2, rfl⟩ := TM.bind_inv e
  obtain ⟨rfl, h1⟩ := TM.steps_inv h1'
  obtain ⟨h3, h4⟩ := hf a _ _ _ _ h2
  exact ⟨by omega, h4.trans (hx _ _ _ h1)⟩

theorem parseStartT_le (v : Addr) (val : Val) : (parseStartT v val).LeB 30 := by
  unfold parseStartT
  split
  · refine TM.LeB.steps_bind (n := 29) (keepsB_newNode _) fun _ => ?_
    refine TM.LeB.steps_bind (n := 28) (keepsB_setValN _ _) fun _ => ?_
    refine TM.LeB.steps_bind (n := 27) (keepsB_modNode _ _) fun _ => ?_
    refine TM.LeB.steps_bind (n := 26) (keepsB_modNode _ _) fun _ => ?_
    refine TM.LeB.steps_bind (n := 25) (keepsB_modNode _ _) fun _ => ?_
    refine TM.LeB.steps_bind (n := 24) (keepsB_modNode _ _) fun _ => ?_
    exact TM.LeB.pure
  · refine TM.LeB.steps_bind (n := 29) (keepsB_newNode _) fun _ => ?_
    refine TM.LeB.steps_bind (n := 20) (keepsB_rdNode _) fun _ => ?_
    refine TM.LeB.steps_bind (n := 11) (keepsB_modNode _ _) fun _ => ?_
    exact TM.LeB.pure

theorem view_keeps {s : Bytes} {lim : Nat} (hb : st'.bufs = st.bufs) (h : view p st = .ok ((s, lim), st)) :
    view p st' = .ok ((s, lim), st') := by
  cases p with
  | lit s => cases h; rfl
  | buf c off =>
    unfold view at h ⊢
    simp only [hb] at h ⊢
    split at h <;> cases h
    rename_i h2
    simp only [h2]

/-- The steps of `zj_ParseFast` on a text whose first NUL is at index `n`. -/
theorem parseFastT_le {s : Bytes} {lim n : Nat} (hv : view p st = .ok ((s, lim), st)) (hs : Stops s n)
    (h : parseFastT v p st = .ok ((r, k), st')) : k ≤ 200 * n + 200 := by
  unfold parseFastT at h
  obtain ⟨val, m1, st1, n1, g1, h, e1⟩ := TM.bind_inv h
  obtain ⟨d1, h1⟩ := TM.steps_inv g1
  obtain ⟨src, m2, st2, n2, g2, h, e2⟩ := TM.bind_inv h
  obtain ⟨h2, h2'⟩ := parseStartT_le _ _ _ _ _ _ g2
  obtain ⟨q, m3, st3, n3, g3, h, e3⟩ := TM.bind_inv h
  obtain ⟨d3, h3⟩ := TM.steps_inv g3
  rw [view_keeps (h2'.trans (keepsB_rdVal _ _ _ _ h1)) hv] at h3
  cases h3
  have main : (do
      let root ← one (deref (← one (rdVal v)).n)
      match ← switchValueT val.a p s lim root 0 with
      | .bad => restoreT v src
      | .desc n i => parseLoopT v val.a p s lim src (parseFuel s.length) .head n i
      | .leaf i => parseLoopT v val.a p s lim src (parseFuel s.length) .head root i : TM Bool).Le fun _ k => k ≤ 200 * n + 160 := by
    refine TM.Le.one_bind fun _ => TM.Le.one_bind fun root => ?_
    refine TM.Le.bind (switchValueT_le hs (Nat.zero_le _)) fun o m h => ?_
    cases o with
    | bad => exact TM.Le.steps fun _ => by have := h.1 rfl; omega
    | desc a j =>
      have h4 := h.2.1 _ _ rfl
      exact (parseLoopT_le hs _ .head a j h4.2.1).mono fun _ k h => by simp only at h; omega
    | leaf j =>
      have h4 := h.2.2 _ rfl
      exact (parseLoopT_le hs _ .head root j h4.2.1).mono fun _ k h => by simp only at h; omega
  have := main _ _ _ _ h
  omega

/-- A call that returns takes some number of steps. -/
theorem TM.of_val {α : Type} {x : TM α} {y : M α} (hy : x.val = y) {a : α} (h : y st = .ok (a, st')) :
    ∃ k, x st = .ok ((a, k), st') := by
  rw [← hy] at h
  unfold TM.val at h
  split at h <;> cases h
  exact ⟨_, by assumption⟩

theorem view_same {s : Bytes} {lim : Nat} (h : view p st = .ok ((s, lim), st')) : st' = st := by
  unfold view at h
  split at h
  · cases h; rfl
  · split at h <;> cases h
    rfl

theorem readN_same {t : Bytes} {len : Nat} (h : readN p len st = .ok (t, st')) : st' = st := by
  unfold readN at h
  split at h
  · split at h <;> cases h
    rfl
  · split at h
    · split at h
      · cases h; rfl
      · split at h
        · cases h
        · split at h <;> cases h
          rfl
    · cases h

theorem readN_length {t : Bytes} {len : Nat} (h : readN p len st = .ok (t, st')) : t.length = len := by
  unfold readN at h
  split at h
  · split at h <;> cases h
    simp; omega
  · split at h
    · split at h
      · cases h; simp [*]
      · split at h
        · cases h
        · split at h <;> cases h
          simp; omega
    · cases h

theorem newBuf_view {A size : Nat} {d : Bytes} {c : Addr} (h : newBuf A size d st = .ok (c, st')) :
    ∃ lim, view (.buf c 0) st' = .ok ((d, lim), st') := by
  by_cases ha : st.allocs A = true
  · rw [show newBuf A size d st = _ from M.bind_ok (request_run ha)] at h
    split at h <;> cases h
    exact ⟨size + st.slack st.nb, by simp [view]⟩
  · rw [show newBuf A size d st = .ub .wild from M.bind_ub (by simp [request, ha])] at h
    cases h

/-- The steps of `zj_ParseLen`. -/
theorem parseLenT_le {len : Nat} (h : parseLenT v p len st = .ok ((r, k), st')) : k ≤ 201 * len + 210 := by
  unfold parseLenT at h
  obtain ⟨val, m1, st1, n1, g1, h, e1⟩ := TM.bind_inv h
  obtain ⟨d1, h1⟩ := TM.steps_inv g1
  obtain ⟨t, m2, st2, n2, g2, h, e2⟩ := TM.bind_inv h
  obtain ⟨d2, h2⟩ := TM.steps_inv g2
  obtain ⟨c, m3, st3, n3, g3, h, e3⟩ := TM.bind_inv h
  obtain ⟨d3, h3⟩ := TM.steps_inv g3
  obtain ⟨lim, h4⟩ := newBuf_view h3
  obtain ⟨n, h5, h6⟩ := exists_stops t []
  have := parseFastT_le h4 h6 h
  have := readN_length h2
  omega

theorem strLenLoopT_le : ∀ (s : Bytes) (m : Nat), (strLenLoopT s m).Le fun n k => m + k = n + 1
  | [], _ => TR.Le.ub
  | c :: r, m => by
    unfold strLenLoopT
    refine TR.Le.ite (fun _ => TR.Le.steps fun a e => by cases e; rfl) fun _ => ?_
    refine TR.Le.bind (Q := fun _ k => k = 1) (TR.Le.steps fun _ _ => rfl) fun _ j hj => ?_
    exact (strLenLoopT_le r (m + 1)).mono fun n k h => by omega

/-- The steps of `zj_Parse` on the C string `b`. -/
theorem parseT_le (hs : CStr st p b) (h : parseT v p st = .ok ((r, k), st')) : k ≤ 202 * b.length + 212 := by
  obtain ⟨h0, r', lim, hv⟩ := hs
  unfold parseT at h
  obtain ⟨q, m1, st1, n1, g1, h, e1⟩ := TM.bind_inv h
  obtain ⟨d1, h1⟩ := TM.steps_inv g1
  rw [hv] at h1
  cases h1
  obtain ⟨n, m2, st2, n2, g2, h, e2⟩ := TM.bind_inv h
  obtain ⟨f2, rfl⟩ := TM.liftT_inv g2
  have h3 := strLenLoopT_le _ _ _ _ f2
  have e4 : (strLenT (b ++ 0 :: r')).val = .ok n := by rw [f2]; rfl
  rw [strLenT_val, strLen, strLenLoop_eq h0] at e4
  cases e4
  have := parseLenT_le h
  omega

/-! ### C58: parsing takes linear time -/

/-- C58. `zj_Parse` of a text of `n` bytes takes at most `202 n + 212` steps, whether it accepts
or refuses, for every text and in every state. -/
theorem C58_parse (hs : CStr st p b) (h : parse v p st = .ok (r, st')) :
    ∃ k, parseT v p st = .ok ((r, k), st') ∧ k ≤ 202 * b.length + 212 := by
  obtain ⟨k, e⟩ := TM.of_val (parseT_val v p) h
  exact ⟨k, e, parseT_le hs e⟩

/-- C58. `zj_ParseLen`: the same in the given length. -/
theorem C58_parseLen {len : Nat} (h : parseLen v p len st = .ok (r, st')) :
    ∃ k, parseLenT v p len st = .ok ((r, k), st') ∧ k ≤ 201 * len + 210 := by
  obtain ⟨k, e⟩ := TM.of_val (parseLenT_val v p len) h
  exact ⟨k, e, parseLenT_le e⟩

/-- C58. `zj_ParseFast`: the same in the length of the C string, however many bytes follow it. -/
theorem C58_parseFast (hs : CStr st p b) (h : parseFast v p st = .ok (r, st')) :
    ∃ k, parseFastT v p st = .ok ((r, k), st') ∧ k ≤ 200 * b.length + 200 := by
  obtain ⟨k, e⟩ := TM.of_val (parseFastT_val v p) h
  obtain ⟨h0, r', lim, hv⟩ := hs
  exact ⟨k, e, parseFastT_le hv (CStr.stops h0 r') e⟩

/-- C58. `zj_Parse` always returns within that many steps, and what it returns says whether the text
is JSON. -/
theorem C58_parse_returns (h : Ready st P G v x A) (hs : CStr st p b) (hk : 3 ≤ st.slack st.nb) :
    ∃ r k st', parseT v p st = .ok ((r, k), st') ∧ k ≤ 202 * b.length + 212 ∧ (r = true ↔ ∃ t, JText t b) := by
  by_cases ht : ∃ t, JText t b
  · obtain ⟨st', e⟩ := (C01_parse_true_iff h hs).2 ht
    obtain ⟨k, e1, e2⟩ := C58_parse hs e
    exact ⟨true, k, st', e1, e2, by simp [ht]⟩
  · obtain ⟨st', e⟩ := (C01_parse_false_iff h hs hk).2 ht
    obtain ⟨k, e1, e2⟩ := C58_parse hs e
    exact ⟨false, k, st', e1, e2, by simp [ht]⟩

/-- The hypotheses can be met. -/
example : ∃ st P G v x A p, Ready st P G v x A ∧ CStr st p b!"[1, {\"a\": [true]}]" ∧ 3 ≤ st.slack st.nb :=
  ⟨_, _, _, 0, _, 0, _, (start_ready (fun _ => 3)).addC (d := b!"[1, {\"a\": [true]}]" ++ [0]), addC_cstr (by decide),
    Nat.le_refl _⟩

/-- The steps of parsing `b` with a fresh handle, with two for getting it. -/
def stepsOf (b : Bytes) : Option (Bool × Nat) :=
  match (do
    let v ← one (do newValue (← newAllocator))
    let p ← one (callerText (b ++ [0]))
    parseT v p : TM Bool) (St.init fun _ => 3) with
  | .ok ((r, k), _) => some (r, k)
  | _ => none

example : stepsOf b!"[1, {\"a\": [true]}]" = some (true, 180) := by decide +kernel
example : stepsOf b!"[1, {\"a\": [true]}" = some (false, 193) := by decide +kernel

end

end ZJ
