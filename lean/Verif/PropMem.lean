import Verif.PropWidth

/-
C55: how much memory a call asks for. `total` (PropWidth) adds up the sizes of all requests
in the log of the allocator calls.
-/

set_option linter.unusedSimpArgs false
set_option linter.unusedVariables false

namespace ZJ

/-! ### Indices only grow -/

theorem rd_lt {s : Bytes} {i : Nat} {c : Byte} (h : rd s i = .ok c) : s[i]? = some c := by
  unfold rd at h
  split at h
  · rename_i e; cases h; exact e
  · cases h

theorem skipLoop_le {s : Bytes} : ∀ {k i j : Nat}, skipLoop s k i = .ok j → i ≤ j
  | 0, _, _, h => (nomatch h)
  | k + 1, i, j, h => by
    simp only [skipLoop] at h
    cases hc : rd s i with
    | ok c =>
      rw [hc] at h
      change (if skin c then skipLoop s k (i + 1) else Pure.pure i) = _ at h
      split at h
      · have := skipLoop_le h; omega
      · cases h; exact Nat.le_refl _
    | ub u => rw [hc] at h; cases h
    | timeout => rw [hc] at h; cases h

/-- Sequencing of results. -/
theorem Res.bind_eq {α β : Type} {x : Res α} {f : α → Res β} {b : β} (h : (x >>= f) = .ok b) :
    ∃ a, x = .ok a ∧ f a = .ok b := by
  cases x with
  | ok a => exact ⟨a, rfl, h⟩
  | ub u => exact (nomatch h)
  | timeout => exact (nomatch h)

theorem peek_at {s : Bytes} {i j : Nat} {c : Byte} (h : peek s i = .ok (c, j)) :
    i < j ∧ s[j - 1]? = some c := by
  unfold peek at h
  obtain ⟨k, h1, h⟩ := Res.bind_eq h
  obtain ⟨x, h2, h⟩ := Res.bind_eq h
  cases h
  have := skipLoop_le h1
  exact ⟨by omega, rd_lt h2⟩

theorem peekC_at {s : Bytes} {i j : Nat} {c : Byte} (h : peekAndConsume c s i = .ok (true, j)) :
    i < j ∧ s[j - 1]? = some c := by
  unfold peekAndConsume at h
  obtain ⟨k, h1, h⟩ := Res.bind_eq h
  obtain ⟨x, h2, h⟩ := Res.bind_eq h
  have := skipLoop_le h1
  split at h
  · rename_i e; cases h; subst e; exact ⟨by omega, rd_lt h2⟩
  · cases h

theorem peekC_le {s : Bytes} {i : Nat} {c : Byte} {r : Bool × Nat} (h : peekAndConsume c s i = .ok r) : i ≤ r.2 := by
  unfold peekAndConsume at h
  obtain ⟨k, h1, h⟩ := Res.bind_eq h
  obtain ⟨x, h2, h⟩ := Res.bind_eq h
  have := skipLoop_le h1
  split at h <;> cases h <;> simp only <;> omega

theorem consume_le {s : Bytes} {i : Nat} {c : Byte} {r : Bool × Nat} (h : consume c s i = .ok r) : i ≤ r.2 := by
  unfold consume at h
  obtain ⟨x, h2, h⟩ := Res.bind_eq h
  split at h <;> cases h <;> simp only <;> omega

theorem hexOne_le {s : Bytes} {i cp : Nat} {r : Bool × Nat × Nat} (h : consumeHexOne s i cp = .ok r) : i ≤ r.2.1 := by
  unfold consumeHexOne at h
  obtain ⟨x, h2, h⟩ := Res.bind_eq h
  dsimp only at h
  split at h <;> cases h <;> simp only <;> omega

theorem hex_le {s : Bytes} {i cp : Nat} {r : Bool × Nat × Nat} (h : consumeHex s i cp = .ok r) : i ≤ r.2.1 := by
  unfold consumeHex at h
  obtain ⟨⟨b1, j1, c1⟩, h1, h⟩ := Res.bind_eq h
  have l1 := hexOne_le h1
  simp only at h l1
  split at h
  · cases h; exact l1
  obtain ⟨⟨b2, j2, c2⟩, h2, h⟩ := Res.bind_eq h
  have l2 := hexOne_le h2
  simp only at h l2
  split at h
  · cases h; exact Nat.le_trans l1 l2
  obtain ⟨⟨b3, j3, c3⟩, h3, h⟩ := Res.bind_eq h
  have l3 := hexOne_le h3
  simp only at h l3
  split at h
  · cases h; exact Nat.le_trans l1 (Nat.le_trans l2 l3)
  have l4 := hexOne_le h
  omega

theorem strLoop_le {s : Bytes} : ∀ {k : Nat} {c : Byte} {i : Nat} {r : Bool × Nat},
    consumeStrLoop s k c i = .ok r → i ≤ r.2
  | 0, _, _, _, h => (nomatch h)
  | k + 1, c, i, r, h => by
    have go : ∀ {j : Nat}, i ≤ j → (rd s j >>= fun c => consumeStrLoop s k c (j + 1)) = .ok r → i ≤ r.2 := fun hj h => by
      obtain ⟨x, _, h⟩ := Res.bind_eq h
      have := strLoop_le h
      omega
    have stop : ∀ {b : Bool} {j : Nat}, i ≤ j → (Pure.pure (b, j) : Res _) = .ok r → i ≤ r.2 := fun hj h => by
      cases h; exact hj
    rw [consumeStrLoop] at h
    by_cases c0 : c = 0
    · rw [if_pos c0] at h; exact stop (Nat.le_refl _) h
    rw [if_neg c0] at h
    by_cases c1 : c ≤ 0x1f
    · rw [if_pos c1] at h; exact stop (Nat.le_refl _) h
    rw [if_neg c1] at h
    by_cases c2 : c = 0x5C
    · rw [if_pos c2] at h
      obtain ⟨x, _, h⟩ := Res.bind_eq h
      by_cases x0 : isEscLetter x = true
      · rw [if_pos x0] at h; exact go (by omega) h
      rw [if_neg x0] at h
      by_cases x1 : x = 0x75
      · rw [if_pos x1] at h
        obtain ⟨⟨b1, j1, cp⟩, h1, h⟩ := Res.bind_eq h
        have l1 := hex_le h1
        simp only at l1
        cases b1
        · exact stop (by omega) h
        simp only [Bool.not_true, if_false, Bool.false_eq_true] at h
        by_cases d0 : 0xDC00 ≤ cp ∧ cp ≤ 0xDFFF
        · rw [if_pos d0] at h; exact stop (by omega) h
        rw [if_neg d0] at h
        by_cases d1 : 0xD800 ≤ cp ∧ cp ≤ 0xDBFF
        · rw [if_pos d1] at h
          obtain ⟨⟨b2, j2⟩, h2, h⟩ := Res.bind_eq h
          have l2 := consume_le h2
          simp only at l2
          cases b2
          · exact stop (by omega) h
          simp only [Bool.not_true, if_false, Bool.false_eq_true] at h
          obtain ⟨⟨b3, j3⟩, h3, h⟩ := Res.bind_eq h
          have l3 := consume_le h3
          simp only at l3
          cases b3
          · exact stop (by omega) h
          simp only [Bool.not_true, if_false, Bool.false_eq_true] at h
          obtain ⟨⟨b4, j4, cp2⟩, h4, h⟩ := Res.bind_eq h
          have l4 := hex_le h4
          simp only at l4
          cases b4
          · exact stop (show i ≤ j4 by omega) h
          simp only [Bool.not_true, if_false, Bool.false_eq_true] at h
          by_cases e0 : cp2 < 0xDC00 ∨ cp2 > 0xDFFF
          · rw [if_pos e0] at h; exact stop (by omega) h
          rw [if_neg e0] at h
          exact go (by omega) h
        · rw [if_neg d1] at h; exact go (by omega) h
      · rw [if_neg x1] at h; exact stop (by omega) h
    rw [if_neg c2] at h
    by_cases c3 : c = 0x22
    · rw [if_pos c3] at h; exact stop (Nat.le_refl _) h
    rw [if_neg c3] at h
    exact go (Nat.le_refl _) h

theorem str_le {s : Bytes} {i : Nat} {r : Bool × Nat} (h : consumeStr s i = .ok r) : i ≤ r.2 := by
  unfold consumeStr at h
  obtain ⟨x, _, h⟩ := Res.bind_eq h
  have := strLoop_le h
  omega

theorem digits_le {s : Bytes} : ∀ {k i j : Nat}, digitLoop s k i = .ok j → i ≤ j
  | 0, _, _, h => (nomatch h)
  | k + 1, i, j, h => by
    simp only [digitLoop] at h
    obtain ⟨x, _, h⟩ := Res.bind_eq h
    split at h
    · have := digits_le h; omega
    · cases h; exact Nat.le_refl _

theorem numInt_le {s : Bytes} {i j : Nat} (h : numInt s i = .ok (some j)) : i < j := by
  unfold numInt consume at h
  obtain ⟨x, h1, h⟩ := Res.bind_eq h
  obtain ⟨c, h2, h1⟩ := Res.bind_eq h1
  split at h1
  · cases h1; cases h; omega
  · cases h1
    dsimp only at h
    obtain ⟨d, _, h⟩ := Res.bind_eq h
    split at h
    · obtain ⟨k, h3, h⟩ := Res.bind_eq h
      cases h
      have := digits_le h3
      omega
    · cases h

theorem numFrac_le {s : Bytes} {i j : Nat} (h : numFrac s i = .ok (some j)) : i ≤ j := by
  unfold numFrac at h
  obtain ⟨x, h1, h⟩ := Res.bind_eq h
  have := consume_le h1
  dsimp only at h
  split at h
  · cases h; exact this
  obtain ⟨d, _, h⟩ := Res.bind_eq h
  split at h
  · obtain ⟨k, h3, h⟩ := Res.bind_eq h
    cases h
    have := digits_le h3
    omega
  · cases h

theorem numExp_le {s : Bytes} {i j : Nat} (h : numExp s i = .ok (some j)) : i ≤ j := by
  unfold numExp at h
  obtain ⟨x, h1, h⟩ := Res.bind_eq h
  split at h
  · obtain ⟨c, _, h⟩ := Res.bind_eq h
    dsimp only at h
    obtain ⟨d, _, h⟩ := Res.bind_eq h
    split at h
    · obtain ⟨k, h3, h⟩ := Res.bind_eq h
      cases h
      have := digits_le h3
      split at this <;> omega
    · cases h
  · cases h; exact Nat.le_refl _

theorem num_le {s : Bytes} {i j : Nat} (h : consumeNum s i = .ok (some j)) : i ≤ j := by
  unfold consumeNum scanNum at h
  obtain ⟨c, _, h⟩ := Res.bind_eq h
  dsimp only at h
  obtain ⟨x, h1, h⟩ := Res.bind_eq h
  cases x with
  | none => cases h
  | some x =>
    have l1 := numInt_le h1
    dsimp only at h
    obtain ⟨y, h2, h⟩ := Res.bind_eq h
    cases y with
    | none => cases h
    | some y =>
      have l2 := numFrac_le h2
      have l3 := numExp_le h
      split at l1 <;> omega

theorem false_le {s : Bytes} {l i : Nat} {r : Bool × Nat} (h : consumeFalse s l i = .ok r) : i ≤ r.2 := by
  unfold consumeFalse at h
  obtain ⟨x, _, h⟩ := Res.bind_eq h
  split at h <;> cases h <;> simp only <;> omega
theorem true_le {s : Bytes} {l i : Nat} {r : Bool × Nat} (h : consumeTrue s l i = .ok r) : i ≤ r.2 := by
  unfold consumeTrue at h
  obtain ⟨x, _, h⟩ := Res.bind_eq h
  split at h <;> cases h <;> simp only <;> omega
theorem null_le {s : Bytes} {l i : Nat} {r : Bool × Nat} (h : consumeNull s l i = .ok r) : i ≤ r.2 := by
  unfold consumeNull at h
  obtain ⟨x, _, h⟩ := Res.bind_eq h
  split at h <;> cases h <;> simp only <;> omega

/-! ### What a computation asks for -/

/-- If `P` holds of the bytes asked for before, `Q` holds of the result and the bytes asked
for after. -/
def Tot {α : Type} (cf : Cfg) (P : Nat → Prop) (m : M α) (Q : α → Nat → Prop) : Prop :=
  ∀ st r st', m st = .ok (r, st') → st.cfg = cf ∧ P (total st.log) → st'.cfg = cf ∧ Q r (total st'.log)

/-- No memory is asked for. -/
def Free {α : Type} (m : M α) : Prop := ∀ st r st', m st = .ok (r, st') → total st'.log = total st.log ∧ st'.cfg = st.cfg

variable {cf : Cfg}

local notation "Tot" => ZJ.Tot cf

variable {α β : Type} {P : Nat → Prop} {Q : α → Nat → Prop} {R : β → Nat → Prop} {m : M α} {f : α → M β}

theorem Tot.bind (h : Tot P m Q) (hf : ∀ r, Tot (Q r) (f r) R) : Tot P (m >>= f) R := fun st r st' e hP => by
  rw [M.bind_run] at e
  cases hm : m st with
  | ok x => rw [hm] at e; exact hf _ _ _ _ e (h _ _ _ hm hP)
  | ub u => rw [hm] at e; cases e
  | timeout => rw [hm] at e; cases e

theorem Tot.pure {x : α} (h : ∀ t, P t → Q x t) : Tot P (Pure.pure x) Q := fun st r st' e hP => by
  cases e; exact ⟨hP.1, h _ hP.2⟩

theorem Tot.ret {x : α} : Tot (Q x) (Pure.pure x) Q := Tot.pure fun _ h => h

theorem Tot.mono {P' : Nat → Prop} {Q' : α → Nat → Prop} (h : Tot P m Q) (hP : ∀ t, P' t → P t)
    (hQ : ∀ r t, Q r t → Q' r t) : Tot P' m Q' := fun st r st' e hp =>
  have k := h _ _ _ e ⟨hp.1, hP _ hp.2⟩
  ⟨k.1, hQ _ _ k.2⟩

theorem Free.tot (h : Free m) : Tot P m (fun _ => P) := fun st r st' e hP => by
  obtain ⟨h1, h2⟩ := h _ _ _ e
  rw [h1, h2]; exact hP

/-- What comes before is free. -/
theorem Tot.free (h : Free m) (hf : ∀ r, Tot P (f r) R) : Tot P (m >>= f) R := h.tot.bind hf

theorem Free.pure {x : α} : Free (Pure.pure x : M α) := fun _ _ _ e => by cases e; exact ⟨rfl, rfl⟩

theorem Free.bind (h : Free m) (hf : ∀ r, Free (f r)) : Free (m >>= f) := fun st r st' e => by
  rw [M.bind_run] at e
  cases hm : m st with
  | ok x => rw [hm] at e; exact ⟨(hf _ _ _ _ e).1.trans (h _ _ _ hm).1, (hf _ _ _ _ e).2.trans (h _ _ _ hm).2⟩
  | ub u => rw [hm] at e; cases e
  | timeout => rw [hm] at e; cases e

theorem Free.lift {x : Res α} : Free (ZJ.lift x) := fun st r st' e => by
  cases x <;> cases e; exact ⟨rfl, rfl⟩

/-- A result of a computation without state is known. -/
theorem Tot.lift {x : Res α} (h : ∀ a t, x = .ok a → P t → Q a t) : Tot P (ZJ.lift x) Q := fun st r st' e hP => by
  cases x with
  | ok a => cases e; exact ⟨hP.1, h _ _ rfl hP.2⟩
  | ub u => cases e
  | timeout => cases e

theorem Free.fail {u : UB} : Free (ZJ.fail u : M α) := fun _ _ _ e => (nomatch e)

theorem Free.fld {x : Option α} : Free (ZJ.fld x) := by cases x; exact Free.fail; exact Free.pure
theorem Free.deref {x : Option Addr} : Free (ZJ.deref x) := by cases x; exact Free.fail; exact Free.pure

theorem Free.rdNode {a : Addr} : Free (ZJ.rdNode a) := fun st r st' e => by
  unfold ZJ.rdNode at e; split at e <;> cases e; exact ⟨rfl, rfl⟩
theorem Free.modNode {a : Addr} {g} : Free (ZJ.modNode a g) := fun st r st' e => by
  unfold ZJ.modNode at e; split at e <;> cases e; exact ⟨rfl, rfl⟩
theorem Free.rdVal {v : Addr} : Free (ZJ.rdVal v) := fun st r st' e => by
  unfold ZJ.rdVal at e; split at e <;> cases e; exact ⟨rfl, rfl⟩
theorem Free.setValN {v : Addr} {x} : Free (ZJ.setValN v x) := fun st r st' e => by
  unfold ZJ.setValN at e; split at e <;> cases e; exact ⟨rfl, rfl⟩
theorem Free.view {p : SPtr} : Free (ZJ.view p) := fun st r st' e => by
  unfold ZJ.view at e
  split at e
  · cases e; exact ⟨rfl, rfl⟩
  · split at e <;> cases e; exact ⟨rfl, rfl⟩
theorem Free.readN {p : SPtr} {n : Nat} : Free (ZJ.readN p n) := fun st r st' e => by
  unfold ZJ.readN at e
  split at e
  · split at e <;> cases e; exact ⟨rfl, rfl⟩
  · split at e
    · split at e
      · cases e; exact ⟨rfl, rfl⟩
      split at e
      · cases e
      split at e <;> cases e; exact ⟨rfl, rfl⟩
    · cases e

theorem Free.touchStr {z : ZStr} : Free (ZJ.touchStr z) := fun st r st' e => by
  unfold ZJ.touchStr at e; split at e <;> cases e; exact ⟨rfl, rfl⟩
theorem Free.pokeStr {z : ZStr} {s : Bytes} : Free (ZJ.pokeStr z s) := fun st r st' e => by
  unfold ZJ.pokeStr at e
  split at e
  · split at e <;> cases e; exact ⟨rfl, rfl⟩
  · cases e

theorem Free.nType {a : Addr} : Free (ZJ.nType a) := Free.rdNode.bind fun _ => Free.fld
theorem Free.nKey {a : Addr} : Free (ZJ.nKey a) := Free.rdNode.bind fun _ => Free.fld
theorem Free.nKeyLen {a : Addr} : Free (ZJ.nKeyLen a) := Free.rdNode.bind fun _ => Free.fld
theorem Free.nLen {a : Addr} : Free (ZJ.nLen a) := Free.rdNode.bind fun _ => Free.fld
theorem Free.nNext {a : Addr} : Free (ZJ.nNext a) := Free.rdNode.bind fun _ => Free.fld
theorem Free.nPrev {a : Addr} : Free (ZJ.nPrev a) := Free.rdNode.bind fun _ => Free.fld
theorem Free.nFather {a : Addr} : Free (ZJ.nFather a) := Free.rdNode.bind fun _ => Free.fld
theorem Free.nEnd {a : Addr} : Free (ZJ.nEnd a) := Free.rdNode.bind fun _ => Free.fld
theorem Free.nNode {a : Addr} : Free (ZJ.nNode a) :=
  Free.rdNode.bind fun _ => Free.fld.bind fun x => by cases x; exact Free.pure; exact Free.fail
theorem Free.nStr {a : Addr} : Free (ZJ.nStr a) :=
  Free.rdNode.bind fun _ => Free.fld.bind fun x => by cases x; exact Free.fail; exact Free.pure

theorem Tot.request {A n : Nat} {Q : Unit → Nat → Prop} (h : ∀ t, P t → Q () (n + t)) : Tot P (ZJ.request A n) Q := fun st r st' e hP => by
  unfold ZJ.request at e; split at e <;> cases e
  exact ⟨hP.1, h _ hP.2⟩

theorem Tot.newNode {A : Nat} {P' : Nat → Prop} (h : ∀ t, P t → P' (72 + t)) :
    Tot P (ZJ.newNode A) (fun _ => P') :=
  (Tot.request (Q := fun _ => P') h).bind fun _ st r st' e hP => by cases e; exact hP
theorem Tot.newVal {A : Nat} {x} {P' : Nat → Prop} (h : ∀ t, P t → P' (16 + t)) :
    Tot P (ZJ.newVal A x) (fun _ => P') :=
  (Tot.request (Q := fun _ => P') h).bind fun _ st r st' e hP => by cases e; exact hP
theorem Tot.newBuf {A n : Nat} {d : Bytes} {P' : Nat → Prop} (h : ∀ t, P t → P' (n + t)) :
    Tot P (ZJ.newBuf A n d) (fun _ => P') :=
  (Tot.request (Q := fun _ => P') h).bind fun _ st r st' e hP => by
    split at e <;> cases e; exact hP

syntax "free1" : tactic
macro_rules | `(tactic| free1) => `(tactic| first
  | exact Free.pure | exact Free.fail | exact Free.fld | exact Free.deref | exact Free.rdNode | exact Free.modNode
  | exact Free.rdVal | exact Free.setValN | exact Free.view | exact Free.readN | exact Free.touchStr | exact Free.pokeStr
  | exact Free.nType | exact Free.nKey | exact Free.nKeyLen | exact Free.nLen | exact Free.nNext | exact Free.nPrev
  | exact Free.nFather | exact Free.nEnd | exact Free.nNode | exact Free.nStr)

/-- Steps over free computations. -/
syntax "steps" : tactic
macro_rules | `(tactic| steps) => `(tactic| repeat (refine Tot.free ?_ fun _ => ?_; focus free1))

/-- A fact known before may be used. -/
theorem Tot.assume {φ : Prop} (h : φ → Tot P m Q) : Tot (fun t => P t ∧ φ) m Q :=
  fun st r st' e hP => h hP.2.2 _ _ _ e ⟨hP.1, hP.2.1⟩

theorem Tot.pre {P' : Nat → Prop} (h : Tot P' m Q) (hP : ∀ t, P t → P' t) : Tot P m Q := h.mono hP fun _ _ h => h

/-- A result of a computation without state is used. -/
theorem Tot.use {φ : α → Prop} {x : Res α} (h : ∀ a, x = .ok a → φ a) (hf : ∀ r, φ r → Tot P (f r) R) :
    Tot P (ZJ.lift x >>= f) R :=
  Tot.bind (Q := fun r t => P t ∧ φ r) (Tot.lift fun a t e hp => ⟨hp, h a e⟩) fun r => Tot.assume (hf r)

/-! ### Parsing -/

/-- Every node is paid for by a byte of the text: behind a byte other than the final NUL there
is one byte less to come. -/
theorem spent {s b : Bytes} {i j : Nat} {c : Byte} (hs : s = b ++ [0]) (h : i < j ∧ s[j - 1]? = some c) (hc : c ≠ 0) :
    72 * (b.length - j) + 72 ≤ 72 * (b.length - i) := by
  subst hs
  obtain ⟨h1, h2⟩ := h
  have : j - 1 < b.length := by
    rcases Nat.lt_trichotomy (j - 1) b.length with h | h | h
    · exact h
    · rw [h, List.getElem?_append_right (Nat.le_refl _)] at h2
      simp at h2; exact absurd h2.symm hc
    · rw [List.getElem?_append_right (by omega)] at h2
      have : ([0] : Bytes)[j - 1 - b.length]? = none := List.getElem?_eq_none (by simp; omega)
      rw [this] at h2; cases h2
  omega

/-- What may still be asked for at index `i`. -/
def Due (T n i t : Nat) : Prop := t + 72 * (n - i) ≤ T

theorem Due.mono {T n i j t : Nat} (h : Due T n i t) (hij : i ≤ j) : Due T n j t := by
  have : n - j ≤ n - i := by omega
  unfold Due at *
  omega

theorem Due.done {T n i t : Nat} (h : Due T n i t) : t ≤ T := by unfold Due at h; omega

/-- After a value: what is left, or nothing more to come. -/
def DueStep (T n : Nat) : Step → Nat → Prop
  | .desc _ i, t => Due T n i t
  | .leaf i, t => Due T n i t
  | .bad, t => t ≤ T

variable {T A lim : Nat} {p : SPtr} {s b : Bytes} {i : Nat} {node v : Addr}

theorem openContainer_due {ty : JType} {cl : Byte} {i0 : Nat}
    (hi : 72 * (b.length - i) + 72 ≤ 72 * (b.length - i0)) :
    Tot (Due T b.length i0) (openContainer A s ty cl node i) (DueStep T b.length) := by
  unfold openContainer
  steps
  refine Tot.use (fun a e => peekC_le e) fun ⟨ok, j⟩ hj => ?_
  simp only at hj
  have hj' : b.length - j ≤ b.length - i := by omega
  cases ok
  · refine Tot.bind (Tot.newNode (P' := Due T b.length j) fun t h => ?_) fun n => ?_
    · unfold Due at *; omega
    · steps
      exact Tot.ret (Q := DueStep T b.length)
  · simp only [if_true]
    steps
    exact Tot.pure fun t h => h.mono (by omega)

theorem switchValue_due (hs : s = b ++ [0]) :
    Tot (Due T b.length i) (switchValue A p s lim node i) (DueStep T b.length) := by
  unfold switchValue
  refine Tot.use (fun a e => peek_at e) fun ⟨c, j⟩ hj => ?_
  have hij : i ≤ j := by have := hj.1; simp only at this; omega
  have ret : ∀ {k : Nat}, j ≤ k → Tot (Due T b.length i) (Pure.pure (Step.leaf k)) (DueStep T b.length) := fun hk =>
    Tot.pure fun t h => h.mono (Nat.le_trans hij hk)
  have bad : Tot (Due T b.length i) (Pure.pure Step.bad) (DueStep T b.length) := Tot.pure fun t h => h.done
  dsimp only
  by_cases c1 : c = 0x5B
  · rw [if_pos c1]; exact openContainer_due (spent hs hj (by subst c1; simp))
  rw [if_neg c1]
  by_cases c2 : c = 0x7B
  · rw [if_pos c2]; exact openContainer_due (spent hs hj (by subst c2; simp))
  rw [if_neg c2]
  by_cases c3 : c = 0x6E
  · rw [if_pos c3]
    refine Tot.use (fun a e => null_le e) fun ⟨ok, k⟩ hk => ?_
    cases ok
    · exact bad
    · steps; exact ret hk
  rw [if_neg c3]
  by_cases c4 : c = 0x66
  · rw [if_pos c4]
    refine Tot.use (fun a e => false_le e) fun ⟨ok, k⟩ hk => ?_
    cases ok
    · exact bad
    · steps; exact ret hk
  rw [if_neg c4]
  by_cases c5 : c = 0x74
  · rw [if_pos c5]
    refine Tot.use (fun a e => true_le e) fun ⟨ok, k⟩ hk => ?_
    cases ok
    · exact bad
    · steps; exact ret hk
  rw [if_neg c5]
  by_cases c6 : c = 0x22
  · rw [if_pos c6]
    refine Tot.use (fun a e => consume_le e) fun ⟨ok, k⟩ hk => ?_
    cases ok
    · refine Tot.use (fun a e => str_le e) fun ⟨ok, l⟩ hl => ?_
      cases ok
      · exact bad
      · steps; exact ret (Nat.le_trans hk hl)
    · simp only [if_true]; steps; exact ret hk
  rw [if_neg c6]
  refine Tot.use (φ := fun r => ∀ k, r = some k → j ≤ k) (fun a e k hk => num_le (hk ▸ e)) fun r hr => ?_
  cases r with
  | none => exact bad
  | some k => dsimp only; steps; exact ret (hr k rfl)

theorem parseKey_due : Tot (Due T b.length i) (parseKey p s node i)
    (fun r t => match r with | some j => Due T b.length j t | none => t ≤ T) := by
  unfold parseKey
  steps
  split
  · refine Tot.use (fun a e => peekC_le e) fun ⟨ok, j⟩ hj => ?_
    cases ok
    · exact Tot.pure fun t h => h.done
    refine Tot.use (fun a e => consume_le e) fun ⟨ok, k⟩ hk => ?_
    simp only at hj hk
    cases ok
    · refine Tot.use (fun a e => str_le e) fun ⟨ok, l⟩ hl => ?_
      simp only at hl
      cases ok
      · exact Tot.pure fun t h => h.done
      simp only [Bool.not_true, if_false, Bool.false_eq_true]
      steps
      refine Tot.use (fun a e => peekC_le e) fun ⟨ok, m⟩ hm => ?_
      simp only at hm
      cases ok
      · exact Tot.pure fun t h => h.done
      · exact Tot.pure fun t h => h.mono (by omega)
    · simp only [if_true]
      steps
      refine Tot.use (fun a e => peekC_le e) fun ⟨ok, m⟩ hm => ?_
      simp only at hm
      cases ok
      · exact Tot.pure fun t h => h.done
      · exact Tot.pure fun t h => h.mono (by omega)
  · steps
    exact Tot.pure fun t h => h

theorem restore_due {src : Option Addr} {P : Nat → Prop} : Tot P (restore v src) (fun _ => P) := by
  unfold restore
  cases src <;> dsimp only <;> steps <;> exact Tot.pure fun t h => h

theorem parseLoop_due {src : Option Addr} (hs : s = b ++ [0]) : ∀ {F : Nat} {pc : PC} {node i : Nat},
    Tot (Due T b.length i) (parseLoop v A p s lim src F pc node i) (fun _ t => t ≤ T)
  | 0, _, _, _ => by
    intro st r st' e; exact (nomatch e)
  | F + 1, .head, node, i => by
    rw [parseLoop]
    steps
    split
    · refine Tot.use (fun a e => peekC_le e) fun ⟨ok, j⟩ hj => ?_
      cases ok
      · exact restore_due.mono (fun t h => h) fun r t h => h.done
      · exact Tot.pure fun t h => h.done
    · refine Tot.bind parseKey_due fun r => ?_
      cases r with
      | none => exact restore_due
      | some j =>
        refine Tot.bind (switchValue_due hs) fun r => ?_
        cases r with
        | bad => exact restore_due
        | desc n k => exact parseLoop_due hs
        | leaf k => exact parseLoop_due hs
  | F + 1, .close, node, i => by
    rw [parseLoop]
    steps
    split
    · exact parseLoop_due hs
    · refine Tot.use (φ := fun r => (r.1 = true → i < r.2 ∧ s[r.2 - 1]? = some 0x2C) ∧ i ≤ r.2)
        (fun a e => ⟨fun h => peekC_at (by rw [e]; obtain ⟨x, y⟩ := a; cases h; rfl), peekC_le e⟩) fun ⟨ok, j⟩ hj => ?_
      cases ok
      · simp only [Bool.false_eq_true, if_false]
        refine Tot.use (fun a e => peek_at e) fun ⟨c, k⟩ hk => ?_
        steps
        have hjk : i ≤ k := by have := hj.2; have := hk.1; simp only at *; omega
        split
        · steps
          exact (parseLoop_due hs).pre fun t h => h.mono hjk
        · exact restore_due.mono (fun t h => h) fun r t h => h.done
      · simp only [if_true]
        refine Tot.bind (Tot.newNode (P' := Due T b.length j) fun t h => ?_) fun n => ?_
        · have := spent (b := b) hs (hj.1 rfl) (by simp)
          simp only at this
          unfold Due at *; omega
        · steps
          exact parseLoop_due hs

/-- The texts in memory stay. -/
def Texts {α : Type} (m : M α) : Prop := ∀ st r st', m st = .ok (r, st') → st'.bufs = st.bufs

theorem M.bind_inv {st st' : St} {r : β} (h : (m >>= f) st = .ok (r, st')) :
    ∃ a st1, m st = .ok (a, st1) ∧ f a st1 = .ok (r, st') := by
  rw [M.bind_run] at h
  cases hm : m st with
  | ok x => rw [hm] at h; exact ⟨x.1, x.2, rfl, h⟩
  | ub u => rw [hm] at h; cases h
  | timeout => rw [hm] at h; cases h

theorem Texts.bind (h : Texts m) (hf : ∀ r, Texts (f r)) : Texts (m >>= f) := fun st r st' e => by
  obtain ⟨a, st1, h1, h2⟩ := M.bind_inv e
  rw [hf _ _ _ _ h2, h _ _ _ h1]
theorem Texts.pure {x : α} : Texts (Pure.pure x : M α) := fun _ _ _ e => by cases e; rfl
theorem Texts.rdNode {a : Addr} : Texts (ZJ.rdNode a) := fun st r st' e => by
  unfold ZJ.rdNode at e; split at e <;> cases e; rfl
theorem Texts.modNode {a : Addr} {g} : Texts (ZJ.modNode a g) := fun st r st' e => by
  unfold ZJ.modNode at e; split at e <;> cases e; rfl
theorem Texts.setValN {v : Addr} {x} : Texts (ZJ.setValN v x) := fun st r st' e => by
  unfold ZJ.setValN at e; split at e <;> cases e; rfl
theorem Texts.newNode {A : Nat} : Texts (ZJ.newNode A) := Texts.bind (fun st r st' e => by
  unfold ZJ.request at e; split at e <;> cases e; rfl) fun _ st r st' e => by cases e; rfl

theorem view_bufs {st st' : St} {x : Bytes × Nat} (h : view p st = .ok (x, st)) (hb : st'.bufs = st.bufs) :
    view p st' = .ok (x, st') := by
  cases p with
  | lit l => simp only [view] at h ⊢; cases h; rfl
  | buf c o =>
    simp only [view, hb] at h ⊢
    split at h
    · cases h; rfl
    · cases h

theorem rdVal_inv {st st' : St} {x : Val} (h : rdVal v st = .ok (x, st')) : st' = st := by
  unfold ZJ.rdVal at h; split at h <;> cases h; rfl

/-- `zj_ParseFast` of a text `b`, whatever the state. -/
theorem parseFast_cost {st st' : St} {r : Bool} {lim : Nat} (hp : view p st = .ok ((b ++ [0], lim), st))
    (h : parseFast v p st = .ok (r, st')) : total st'.log ≤ total st.log + 72 + 72 * b.length := by
  unfold parseFast at h
  obtain ⟨val, st0, h0, k⟩ := M.bind_inv h
  clear h
  obtain rfl := rdVal_inv h0
  obtain ⟨src, st1, h1, h⟩ := M.bind_inv k
  clear k
  have hb : st1.bufs = st0.bufs := by
    cases hn : val.n with
    | none =>
      simp only [hn] at h1
      exact (Texts.newNode.bind fun _ => Texts.setValN.bind fun _ => Texts.modNode.bind fun _ => Texts.modNode.bind fun _ =>
        Texts.modNode.bind fun _ => Texts.modNode.bind fun _ => Texts.pure) _ _ _ h1
    | some a =>
      simp only [hn] at h1
      exact (Texts.newNode.bind fun _ => Texts.rdNode.bind fun _ => Texts.modNode.bind fun _ => Texts.pure) _ _ _ h1
  have ht : st1.cfg = st0.cfg ∧ total st1.log ≤ 72 + total st0.log := by
    have start : ZJ.Tot st0.cfg (· = total st0.log) (newNode val.a) (fun _ => (· ≤ 72 + total st0.log)) :=
      Tot.newNode fun t h => by omega
    cases hn : val.n with
    | none =>
      simp only [hn] at h1
      exact (start.bind fun n => by steps; exact Tot.pure fun t h => h : ZJ.Tot st0.cfg _ _ fun _ => (· ≤ 72 + total st0.log)) _ _ _ h1 ⟨rfl, rfl⟩
    | some a =>
      simp only [hn] at h1
      exact (start.bind fun n => by steps; exact Tot.pure fun t h => h : ZJ.Tot st0.cfg _ _ fun _ => (· ≤ 72 + total st0.log)) _ _ _ h1 ⟨rfl, rfl⟩
  rw [M.bind_ok (view_bufs hp hb)] at h
  obtain ⟨hc, ht⟩ := ht
  have key : ZJ.Tot st0.cfg (Due (total st0.log + 72 + 72 * b.length) b.length 0)
      (rdVal v >>= fun x => deref x.n >>= fun root => switchValue val.a p (b ++ [0]) lim root 0 >>= fun r => match r with
        | .bad => restore v src
        | .desc n i => parseLoop v val.a p (b ++ [0]) lim src (parseFuel (b ++ [0]).length) .head n i
        | .leaf i => parseLoop v val.a p (b ++ [0]) lim src (parseFuel (b ++ [0]).length) .head root i)
      (fun (_ : Bool) t => t ≤ total st0.log + 72 + 72 * b.length) := by
    refine Tot.free Free.rdVal fun x => Tot.free Free.deref fun root => (switchValue_due rfl).bind fun r => ?_
    cases r with
    | bad => exact restore_due
    | desc n k => exact parseLoop_due rfl
    | leaf k => exact parseLoop_due rfl
  exact (key _ _ _ h ⟨hc, by unfold Due; omega⟩).2

theorem newBuf_inv {st st' : St} {n c : Nat} {d : Bytes} (h : newBuf A n d st = .ok (c, st')) :
    st' = st.addB A n d ∧ c = st.nb ∧ d.length ≤ n := by
  unfold newBuf request at h
  obtain ⟨_, st1, h1, h⟩ := M.bind_inv h
  split at h1 <;> cases h1
  split at h <;> cases h
  exact ⟨rfl, rfl, by assumption⟩

theorem readN_inv {st st' : St} {n : Nat} {t : Bytes} (h : readN p n st = .ok (t, st')) :
    st' = st ∧ t.length = n := by
  unfold readN at h
  split at h
  · split at h <;> cases h
    exact ⟨rfl, by simp; omega⟩
  · split at h
    · split at h
      · cases h; exact ⟨rfl, by simp_all⟩
      split at h
      · cases h
      split at h
      · cases h
      · cases h; exact ⟨rfl, by simp; omega⟩
    · cases h

/-- `zj_ParseLen`. -/
theorem parseLen_cost {st st' : St} {r : Bool} {n : Nat} (h : parseLen v p n st = .ok (r, st')) :
    total st'.log ≤ total st.log + 73 * n + 73 := by
  unfold parseLen at h
  obtain ⟨val, st0, h0, k⟩ := M.bind_inv h
  clear h
  obtain rfl := rdVal_inv h0
  obtain ⟨t, st1, h1, h⟩ := M.bind_inv k
  clear k
  obtain ⟨rfl, hn⟩ := readN_inv h1
  obtain ⟨c, st2, h2, k⟩ := M.bind_inv h
  clear h
  obtain ⟨rfl, rfl, _⟩ := newBuf_inv h2
  have := parseFast_cost (b := t) (lim := n + 1 + st1.slack st1.nb) (by simp [view, St.addB]) k
  have e : total (st1.addB val.a (n + 1) (t ++ [0])).log = n + 1 + total st1.log := rfl
  rw [e] at this
  omega

/-- `zj_Parse`. -/
theorem parse_cost {st st' : St} {r : Bool} (hp : CStr st p b) (h : parse v p st = .ok (r, st')) :
    total st'.log ≤ total st.log + 73 * b.length + 73 := by
  obtain ⟨u, lim, hv, hn⟩ := hp.strLen
  unfold parse at h
  rw [M.bind_ok hv] at h
  simp only [hn] at h
  exact parseLen_cost h

/-! ### Strings that grow -/

theorem growLoop_le {d : Nat} (hd : 2 ≤ d) : ∀ {k x n y : Nat}, growLoop d k x n = .ok y → x ≤ y ∧ n ≤ y ∧ (y = x ∨ y ≤ d * n)
  | 0, _, _, _, h => (nomatch h)
  | k + 1, x, n, y, h => by
    rw [growLoop] at h
    split at h
    · rename_i hx
      obtain ⟨h1, h2, h3⟩ := growLoop_le hd h
      have := Nat.mul_le_mul_left x hd
      have h4 : x * d ≤ d * n := Nat.mul_comm x d ▸ Nat.mul_le_mul_left d (Nat.le_of_lt hx)
      refine ⟨by omega, h2, Or.inr ?_⟩
      rcases h3 with h3 | h3 <;> omega
    · cases h; exact ⟨Nat.le_refl _, by omega, Or.inl rfl⟩

theorem Free.peekBuf {z : ZStr} : Free (fun st => match st.bufs z.data with
    | some b => .ok (b.data.take z.pos, st)
    | none => .ub .wild : M Bytes) := fun st r st' e => by
  dsimp only at e; split at e <;> cases e; exact ⟨rfl, rfl⟩

/-- The settings are read. -/
theorem Tot.getCfg {g : Cfg → M α} (h : Tot P (g cf) Q) : Tot P (getCfg >>= g) Q := fun st r st' e hP => by
  obtain rfl := hP.1
  exact h _ _ _ e hP

/-- What `zj_appendStr` asks for: nothing if the text fits, else one block of the new size. -/
theorem appendBytes_tot {z : ZStr} {s : Bytes} {P : Nat → Prop} {Q : ZStr → Nat → Prop}
    (h1 : z.pos + s.length ≤ z.sizeOf → ∀ t, P t → Q { z with pos := z.pos + s.length } t)
    (h2 : z.sizeOf < z.pos + s.length → ∀ n d t, z.sizeOf * 2 ≤ n → z.pos + s.length ≤ n → n ≤ cf.delta * (z.pos + s.length) →
      P t → Q { z with data := d, sizeOf := n, pos := z.pos + s.length } (n + t)) :
    Tot P (appendBytes z s) Q := by
  unfold appendBytes
  refine Tot.free Free.touchStr fun _ => ?_
  refine Tot.bind (Q := fun z' t => Q { z' with pos := z.pos + s.length } t ∧ z'.pos = z.pos) ?_ fun z' => ?_
  · split
    · rename_i hz
      refine Tot.getCfg ?_
      have hm := Nat.mul_le_mul_left z.sizeOf cf.delta_gt
      have hm' : z.sizeOf * cf.delta ≤ cf.delta * (z.pos + s.length) :=
        Nat.mul_comm z.sizeOf _ ▸ Nat.mul_le_mul_left _ (by omega)
      refine Tot.use (fun a e => growLoop_le cf.delta_gt e) fun n hn => ?_
      refine Tot.free Free.peekBuf fun o => ?_
      refine Tot.bind (Tot.newBuf (P' := fun t => ∃ t0, t = n + t0 ∧ P t0) fun t h => ⟨t, rfl, h⟩) fun d => ?_
      refine Tot.pure fun t ⟨t0, e, h⟩ => ⟨?_, rfl⟩
      subst e
      exact h2 (by omega) n d t0 (by omega) hn.2.1 (by have := hn.2.2; omega) h
    · rename_i hz
      exact Tot.pure fun t h => ⟨h1 (by omega) t h, rfl⟩
  · refine Tot.assume fun hz => ?_
    refine Tot.free Free.pokeStr fun _ => ?_
    rw [hz]
    exact Tot.pure fun t h => h

theorem appendChar_tot {z : ZStr} {c : Byte} {P : Nat → Prop} {Q : ZStr → Nat → Prop}
    (h1 : z.pos < z.sizeOf → ∀ t, P t → Q { z with pos := z.pos + 1 } t)
    (h2 : z.sizeOf ≤ z.pos → ∀ n d t, z.sizeOf * 2 ≤ n → n ≤ cf.delta * z.pos → P t →
      Q { z with data := d, sizeOf := n, pos := z.pos + 1 } (n + t)) :
    Tot P (appendChar z c) Q := by
  unfold appendChar
  refine Tot.free Free.touchStr fun _ => ?_
  refine Tot.bind (Q := fun z' t => Q { z' with pos := z.pos + 1 } t ∧ z'.pos = z.pos) ?_ fun z' => ?_
  · split
    · rename_i hz
      refine Tot.getCfg (Tot.free Free.peekBuf fun o => ?_)
      refine Tot.bind (Tot.newBuf (P' := fun t => ∃ t0, t = z.sizeOf * cf.delta + t0 ∧ P t0) fun t h => ⟨t, rfl, h⟩) fun d => ?_
      refine Tot.pure fun t ⟨t0, e, h⟩ => ⟨?_, rfl⟩
      subst e
      exact h2 (by omega) _ d t0 (Nat.mul_le_mul_left _ cf.delta_gt) (Nat.mul_comm z.sizeOf _ ▸ Nat.mul_le_mul_left _ (by omega)) h
    · rename_i hz
      exact Tot.pure fun t h => ⟨h1 (by omega) t h, rfl⟩
  · refine Tot.assume fun hz => ?_
    refine Tot.free Free.pokeStr fun _ => ?_
    rw [hz]
    exact Tot.pure fun t h => h

/-! ### Printing -/

/-- What the string `z` of `zj_Stringify` has cost since `B`: all its blocks together. -/
def Spent (cf : Cfg) (B : Nat) (z : ZStr) (t : Nat) : Prop :=
  t + cf.str ≤ B + 24 + 2 * z.sizeOf ∧ cf.str ≤ z.sizeOf ∧ (z.sizeOf ≤ cf.str ∨ z.sizeOf ≤ cf.delta * z.pos)

local notation "Spent" => ZJ.Spent cf

theorem Spent.bytes {B : Nat} {z : ZStr} {s : Bytes} : Tot (Spent B z) (appendBytes z s) (Spent B) :=
  have hm : cf.delta * z.pos ≤ cf.delta * (z.pos + s.length) := Nat.mul_le_mul_left _ (by omega)
  appendBytes_tot (fun _ t h => by unfold ZJ.Spent at *; simp only; omega)
    (fun _ n d t _ _ _ h => by unfold ZJ.Spent at *; simp only; omega)

theorem Spent.char {B : Nat} {z : ZStr} {c : Byte} : Tot (Spent B z) (appendChar z c) (Spent B) :=
  have hm : cf.delta * z.pos ≤ cf.delta * (z.pos + 1) := Nat.mul_le_mul_left _ (by omega)
  appendChar_tot (fun _ t h => by unfold ZJ.Spent at *; simp only; omega)
    (fun _ n d t _ _ h => by unfold ZJ.Spent at *; simp only; omega)

theorem Spent.str {B : Nat} {z : ZStr} {q : SPtr} {n : Nat} : Tot (Spent B z) (appendStr z q n) (Spent B) :=
  Tot.free Free.readN fun _ => Spent.bytes

theorem putValue_spent {B : Nat} {z : ZStr} {node : Addr} :
    Tot (Spent B z) (putValue z node) (fun r => Spent B r.1) := by
  unfold putValue
  refine Tot.free Free.nType fun ty => ?_
  cases ty
  case array =>
    refine Tot.bind Spent.char fun z1 => Tot.free Free.nNode fun x => ?_
    cases x with
    | some n => exact Tot.pure fun t h => h
    | none => exact Tot.bind Spent.char fun z2 => Tot.pure fun t h => h
  case object =>
    refine Tot.bind Spent.char fun z1 => Tot.free Free.nLen fun x => ?_
    split
    · refine Tot.free Free.nNode fun _ => Tot.free Free.deref fun n => Tot.pure fun t h => h
    · exact Tot.bind Spent.char fun z2 => Tot.pure fun t h => h
  case string =>
    exact Tot.bind Spent.char fun z1 => Tot.free Free.nStr fun x => Tot.free Free.nLen fun x => Tot.bind Spent.str fun z2 =>
      Tot.bind Spent.char fun z3 => Tot.pure fun t h => h
  all_goals
    exact Tot.free Free.nStr fun x => Tot.free Free.nLen fun x => Tot.bind Spent.str fun z2 => Tot.pure fun t h => h

theorem putKey_spent {B : Nat} {z : ZStr} {node : Addr} : Tot (Spent B z) (putKey z node) (Spent B) := by
  unfold putKey
  refine Tot.free Free.nKey fun k => ?_
  cases k with
  | none => exact Tot.ret
  | some k =>
    exact Tot.bind Spent.char fun z1 => Tot.free Free.nKeyLen fun x => Tot.bind Spent.str fun z2 => Spent.bytes

theorem stringifyLoop_spent {B : Nat} : ∀ {F : Nat} {pc : PC} {node : Addr} {z : ZStr},
    Tot (Spent B z) (stringifyLoop v F pc node z) (Spent B)
  | 0, _, _, _ => fun st r st' e => (nomatch e)
  | F + 1, .head, node, z => by
    rw [stringifyLoop]
    refine Tot.free Free.rdVal fun x => ?_
    split
    · exact Tot.ret
    · refine Tot.bind putKey_spent fun z1 => Tot.bind putValue_spent fun ⟨z2, c⟩ => ?_
      cases c with
      | some n => exact stringifyLoop_spent
      | none => exact stringifyLoop_spent
  | F + 1, .close, node, z => by
    rw [stringifyLoop]
    refine Tot.free Free.rdVal fun x => ?_
    split
    · exact stringifyLoop_spent
    · refine Tot.free Free.nNext fun n => ?_
      cases n with
      | some n => exact Tot.bind Spent.char fun z1 => stringifyLoop_spent
      | none =>
        refine Tot.free Free.nFather fun y => Tot.free Free.deref fun f => Tot.free Free.nType fun ty => ?_
        split
        · exact Tot.bind Spent.char fun z1 => stringifyLoop_spent
        · exact Tot.bind Spent.char fun z1 => stringifyLoop_spent

theorem pokeStr_inv {st st' : St} {z : ZStr} {s : Bytes} {u : Unit} (h : pokeStr z s st = .ok (u, st')) :
    ∃ x, st'.bufs z.data = some x ∧ x.data.length = z.pos + s.length := by
  unfold pokeStr at h
  split at h
  · split at h
    · cases h
      rename_i x _ hx
      exact ⟨_, upd_same .., by simp; omega⟩
    · cases h
  · cases h

theorem appendChar_inv {st st' : St} {z z' : ZStr} {c : Byte} (h : appendChar z c st = .ok (z', st')) :
    ∃ x, st'.bufs z'.data = some x ∧ x.data.length = z'.pos := by
  unfold appendChar at h
  obtain ⟨_, st1, h1, h⟩ := M.bind_inv h
  obtain ⟨z1, st2, h2, h⟩ := M.bind_inv h
  obtain ⟨_, st3, h3, h⟩ := M.bind_inv h
  obtain ⟨x, h4, h5⟩ := pokeStr_inv h3
  cases h
  refine ⟨x, h4, ?_⟩
  rw [h5]; simp only [List.length_singleton]

/-- `zj_Stringify`, whatever the state: the text returned is in a block with `n` bytes written
(the final NUL among them), and all blocks together are not much larger. -/
theorem stringify_cost {st st' : St} {F : Nat} {q : SPtr} (h : stringify F v st = .ok (q, st')) :
    (q = .lit { bytes := [] } ∧ st' = st) ∨
    ∃ c x, q = .buf c 0 ∧ st'.bufs c = some x ∧ total st'.log + st.cfg.str ≤
      total st.log + 24 + max (2 * st.cfg.str) (2 * (st.cfg.delta * x.data.length)) := by
  unfold stringify at h
  obtain ⟨val, st0, h0, k⟩ := M.bind_inv h
  clear h
  obtain rfl := rdVal_inv h0
  cases hn : val.n with
  | none => rw [hn] at k; cases k; exact Or.inl ⟨rfl, rfl⟩
  | some root =>
    rw [hn] at k
    obtain ⟨z0, st1, h1, k⟩ := M.bind_inv k
    obtain ⟨⟨z1, c1⟩, st2, h2, k⟩ := M.bind_inv k
    have p0 : st1.cfg = st0.cfg ∧ ZJ.Spent st0.cfg (total st0.log) z0 (total st1.log) := by
      obtain ⟨_, st6, h6, h1⟩ := M.bind_inv h1
      cases h6
      unfold newString at h1
      obtain ⟨_, st5, h5, h1⟩ := M.bind_inv h1
      unfold request at h5
      split at h5 <;> cases h5
      cases h1
      refine ⟨rfl, ?_, Nat.le_refl _, Or.inl (Nat.le_refl _)⟩
      simp only [total]; omega
    have p1 := putValue_spent _ _ _ h2 p0
    have : ∃ z2 st3, (st3.cfg = st0.cfg ∧ ZJ.Spent st0.cfg (total st0.log) z2 (total st3.log)) ∧
        (appendChar z2 0 >>= fun z => Pure.pure (SPtr.buf z.data 0)) st3 = .ok (q, st') := by
      cases c1 with
      | some n =>
        obtain ⟨z2, st3, h3, k⟩ := M.bind_inv k
        exact ⟨z2, st3, stringifyLoop_spent _ _ _ h3 p1, k⟩
      | none =>
        obtain ⟨z2, st3, h3, k⟩ := M.bind_inv k
        exact ⟨z2, st3, stringifyLoop_spent _ _ _ h3 p1, k⟩
    obtain ⟨z2, st3, p2, k⟩ := this
    obtain ⟨z3, st4, h4, k⟩ := M.bind_inv k
    cases k
    obtain ⟨_, p3, p4, p5⟩ := Spent.char _ _ _ h4 p2
    obtain ⟨x, h5, h6⟩ := appendChar_inv h4
    refine Or.inr ⟨_, x, rfl, h5, ?_⟩
    rw [h6]
    omega

/-! ### The other calls -/

/-- At most `k` bytes are asked for. -/
def Upto {α : Type} (cf : Cfg) (k : Nat) (m : M α) : Prop := ∀ T, ZJ.Tot cf (· ≤ T) m (fun _ t => t ≤ T + k)

local notation "Upto" => ZJ.Upto cf

theorem Free.upto {k : Nat} (h : Free m) : Upto k m := fun T => h.tot.mono (fun _ h => h) fun _ t h => by omega

theorem Upto.mono {k l : Nat} (h : Upto k m) (hl : k ≤ l) : Upto l m := fun T => (h T).mono (fun _ h => h) fun _ t h => by omega

theorem Upto.bind {k l n : Nat} (h : Upto k m) (hf : ∀ r, Upto l (f r)) (hn : k + l ≤ n) : Upto n (m >>= f) := fun T =>
  (h T).bind fun r => (hf r (T + k)).mono (fun _ h => h) fun _ t h => by omega

/-- A free step first. -/
theorem Upto.after {k : Nat} (h : Free m) (hf : ∀ r, Upto k (f r)) : Upto k (m >>= f) := fun T =>
  Tot.free h fun r => hf r T
/-- Free steps last. -/
theorem Upto.before {k : Nat} (h : Upto k m) (hf : ∀ r, Free (f r)) : Upto k (m >>= f) := fun T =>
  (h T).bind fun r => (hf r).tot

theorem Upto.newNode : Upto 72 (ZJ.newNode A) := fun T => Tot.newNode fun t h => by omega
theorem Upto.newVal {x} : Upto 16 (ZJ.newVal A x) := fun T => Tot.newVal fun t h => by omega
theorem Upto.newBuf {n : Nat} {d : Bytes} : Upto n (ZJ.newBuf A n d) := fun T => Tot.newBuf fun t h => by omega
theorem Upto.req {n : Nat} : Upto n (request A n) := fun T => Tot.request fun t h => by omega

/-- Free computations built from free steps. -/
syntax "frees" : tactic
macro_rules | `(tactic| frees) => `(tactic| repeat (first
  | free1 | exact Free.lift | refine Free.bind ?_ fun _ => ?_ | split | dsimp only))

/-- Steps over free computations. -/
syntax "skips" : tactic
macro_rules | `(tactic| skips) => `(tactic| repeat (refine Upto.after ?_ fun _ => ?_; focus first | free1 | exact Free.lift))

theorem free_readC {x : Option SPtr} : Free (readC x) := by unfold readC; frees
theorem free_readL {x : Option (SPtr × Nat)} : Free (readL x) := by unfold readL; frees
theorem free_strToInt {n : Nat} : Free (strToInt p n) := by unfold strToInt; frees
theorem free_strToLong {n : Nat} : Free (strToLong p n) := by unfold strToLong; frees
theorem free_strToLongLong {n : Nat} : Free (strToLongLong p n) := by unfold strToLongLong; frees
theorem free_strToDouble {D : Type} {fp : FP D} {n : Nat} : Free (strToDouble fp p n) := by unfold strToDouble; frees
theorem free_getType : Free (getType v) := by unfold getType; frees
theorem free_sizeOf : Free (ZJ.sizeOf v) := by unfold ZJ.sizeOf; frees
theorem free_isNull : Free (isNull v) := by unfold isNull; frees
theorem free_getBool : Free (getBool v) := by unfold getBool; frees
theorem free_getStrFast : Free (getStrFast v) := by unfold getStrFast; frees
theorem free_getNumFast : Free (getNumFast v) := by unfold getNumFast; frees
theorem free_getKeyFast : Free (getKeyFast v) := by unfold getKeyFast; frees
theorem free_move : Free (ZJ.move v) := by unfold ZJ.move unlinkPrev unlinkNext; frees

theorem free_adopt : ∀ {F : Nat} {n : Option Addr}, Free (adopt node F n)
  | 0, _ => fun _ _ _ e => (nomatch e)
  | _ + 1, none => Free.pure
  | _ + 1, some _ => Free.bind Free.modNode fun _ => Free.bind Free.nNext fun _ => free_adopt
theorem free_graft {F : Nat} {x e : Addr} : Free (graft F node x e) := by
  unfold graft
  frees
  all_goals first | exact free_adopt | frees
theorem free_attach {x : Addr} : Free (attach node x) := by unfold attach; frees
theorem free_arrayGetLoop {j : Nat} : ∀ {F i : Nat} {n : Option Addr}, Free (arrayGetLoop j F i n)
  | 0, _, _ => fun _ _ _ e => (nomatch e)
  | _ + 1, _, none => Free.pure
  | _ + 1, _, some _ => by
    rw [arrayGetLoop]
    split
    · exact Free.pure
    · exact Free.bind Free.nNext fun _ => free_arrayGetLoop
theorem free_objGetLoop : ∀ {F : Nat} {n : Option Addr}, Free (objGetLoop p F n)
  | 0, _ => fun _ _ _ e => (nomatch e)
  | _ + 1, none => Free.pure
  | _ + 1, some _ => by
    rw [objGetLoop]
    have : ∀ x, Free (objGetLoop.deref' x) := fun x => by cases x; exact Free.fail; exact Free.pure
    refine Free.bind Free.nKey fun _ => Free.bind (this _) fun _ => Free.bind Free.view fun _ => Free.bind Free.view fun _ =>
      Free.bind Free.nKeyLen fun _ => Free.bind Free.lift fun r => ?_
    split
    · exact Free.pure
    · exact Free.bind Free.nNext fun _ => free_objGetLoop
theorem free_objGetLenLoop {l : Nat} : ∀ {F : Nat} {n : Option Addr}, Free (objGetLenLoop p l F n)
  | 0, _ => fun _ _ _ e => (nomatch e)
  | _ + 1, none => Free.pure
  | _ + 1, some _ => by
    rw [objGetLenLoop]
    have : ∀ x, Free (objGetLoop.deref' x) := fun x => by cases x; exact Free.fail; exact Free.pure
    refine Free.bind Free.nKey fun _ => Free.bind (this _) fun _ => Free.bind Free.view fun _ => Free.bind Free.view fun _ =>
      Free.bind Free.nKeyLen fun _ => Free.bind Free.lift fun r => ?_
    split
    · exact Free.pure
    · exact Free.bind Free.nNext fun _ => free_objGetLenLoop

/-- A new handle comes last. -/
theorem upto_handle {x} : Upto 16 (do return some (← newVal A x)) := Upto.newVal.before fun _ => Free.pure

theorem upto_begin : Upto 16 (begin_ v) := by
  unfold begin_
  skips; split; · exact Free.pure.upto
  skips; split; · exact Free.pure.upto
  skips; split; · exact upto_handle
  exact Free.pure.upto
theorem upto_next : Upto 16 (next_ v) := by
  unfold next_
  skips; split; · exact Free.pure.upto
  skips; split; · exact upto_handle
  exact Free.pure.upto
theorem upto_arrayGet {F j : Nat} : Upto 16 (arrayGet F v j) := by
  unfold arrayGet
  skips; split; · exact Free.pure.upto
  skips; split; · exact Free.pure.upto
  skips; refine Upto.after free_arrayGetLoop fun r => ?_
  split; · exact Free.pure.upto
  exact upto_handle
theorem upto_objGet {F : Nat} : Upto 16 (objGet F v p) := by
  unfold objGet
  skips; split; · exact Free.pure.upto
  skips; split; · exact Free.pure.upto
  skips; refine Upto.after free_objGetLoop fun r => ?_
  split; · exact Free.pure.upto
  exact upto_handle
theorem upto_objGetLen {F l : Nat} : Upto 16 (objGetLen F v p l) := by
  unfold objGetLen
  skips; split; · exact Free.pure.upto
  skips; split; · exact Free.pure.upto
  skips; refine Upto.after free_objGetLenLoop fun r => ?_
  split; · exact Free.pure.upto
  exact upto_handle
theorem upto_arrayDel {F j : Nat} : Upto 16 (arrayDel F v j) :=
  upto_arrayGet.before fun r => by cases r; exact Free.pure; exact free_move
theorem upto_objDel {F : Nat} : Upto 16 (objDel F v p) :=
  upto_objGet.before fun r => by cases r; exact Free.pure; exact free_move

theorem free_setFast {F : Nat} {w : Addr} : Free (setFast F v w) := by
  unfold setFast
  refine Free.bind free_move fun r => ?_
  split; · exact Free.pure
  refine Free.bind Free.rdVal fun x => Free.bind Free.rdVal fun y => ?_
  split
  · frees
  · exact Free.bind Free.deref fun x => Free.bind free_graft fun _ => Free.bind Free.setValN fun _ => Free.pure
theorem free_objAddFast {w : Addr} : Free (objAddFast v w) := by
  unfold objAddFast
  refine Free.bind Free.rdVal fun x => ?_
  split; · exact Free.pure
  refine Free.bind Free.nType fun x => ?_
  split; · exact Free.pure
  refine Free.bind Free.rdVal fun x => ?_
  split; · exact Free.pure
  refine Free.bind Free.nKey fun x => ?_
  split; · exact Free.pure
  refine Free.bind free_move fun r => ?_
  split; · exact Free.pure
  exact Free.bind Free.modNode fun _ => Free.bind free_attach fun _ => Free.bind Free.setValN fun _ => Free.pure
theorem free_arrayAddFast {w : Addr} : Free (arrayAddFast v w) := by
  unfold arrayAddFast valN
  refine Free.bind Free.rdVal fun x => ?_
  split; · exact Free.pure
  refine Free.bind Free.nType fun x => ?_
  split; · exact Free.pure
  refine Free.bind free_move fun r => ?_
  split; · exact Free.pure
  exact Free.bind (Free.bind Free.rdVal fun _ => Free.deref) fun _ => Free.bind Free.modNode fun _ => Free.bind Free.modNode fun _ =>
    Free.bind free_attach fun _ => Free.bind Free.setValN fun _ => Free.pure

theorem upto_ensureNode : Upto 72 (ensureNode v) := by
  unfold ensureNode
  skips; split; · exact Free.pure.upto
  refine Upto.newNode.before fun _ => by frees
theorem upto_setScalar {ty : JType} {q : SPtr} {n : Nat} : Upto 72 (setScalar v ty q n) := by
  unfold setScalar
  exact upto_ensureNode.before fun _ => by frees
theorem upto_keyTarget : Upto 72 (keyTarget v) := by
  unfold keyTarget
  skips; split
  · exact Upto.newNode.before fun _ => by frees
  · refine Free.upto ?_
    frees
theorem upto_dup {n : Nat} : Upto n (dup A p n) := by
  unfold dup
  skips
  exact Upto.newBuf.before fun _ => Free.pure

theorem upto_fillCache {n : Nat} : Upto (24 + cf.cache + 2 * (cf.delta * n)) (fillCache A p n) := fun T => by
  unfold fillCache
  refine Tot.free (fun st r st' e => by cases e; exact ⟨rfl, rfl⟩) fun c => ?_
  refine Tot.bind (Q := fun (z : ZStr) t => t ≤ T + (24 + cf.cache) ∧ z.pos = 0) ?_ fun z => Tot.assume fun hz => ?_
  · cases c with
    | none =>
      refine Tot.getCfg (Tot.bind (Tot.request (Q := fun _ t => t ≤ T + (24 + cf.cache)) fun t h => by dsimp only; omega) fun _ st r st' e h => ?_)
      cases e; exact ⟨h.1, h.2, rfl⟩
    | some z => exact Tot.free Free.touchStr fun _ => Tot.pure fun t h => ⟨by omega, rfl⟩
  refine Tot.bind (Q := fun (z : ZStr) t => t ≤ T + (24 + cf.cache) + cf.delta * n ∧ z.pos = n) ?_ fun z => Tot.assume fun hz => ?_
  · refine Tot.bind (Q := fun (s : Bytes) t => t ≤ T + (24 + cf.cache) ∧ s.length = n) (fun st r st' e h => ?_) fun s => Tot.assume fun hs => ?_
    · obtain ⟨rfl, e'⟩ := readN_inv e; exact ⟨h.1, h.2, e'⟩
    · have hm : cf.delta * (z.pos + s.length) = cf.delta * n := by rw [hz, hs, Nat.zero_add]
      exact appendBytes_tot (fun _ t h => ⟨by omega, by simp only; omega⟩) (fun _ m d t _ _ _ h => ⟨by omega, by simp only; omega⟩)
  refine Tot.bind (Q := fun _ t => t ≤ T + (24 + cf.cache) + 2 * (cf.delta * n)) ?_ fun z => ?_
  · have hm : cf.delta * z.pos = cf.delta * n := by rw [hz]
    exact appendChar_tot (fun _ t h => by omega) (fun _ m d t _ _ h => by omega)
  refine Tot.free (fun st r st' e => by cases e; exact ⟨rfl, rfl⟩) fun _ => Tot.pure fun t h => by omega

theorem free_checkStrAt : Free (checkStrAt p) := Free.bind Free.view fun _ => Free.lift
theorem free_checkNumAt : Free (checkNumAt p) := Free.bind Free.view fun _ => Free.lift
theorem upto_checkStrLen {n : Nat} : Upto (24 + cf.cache + 2 * (cf.delta * n)) (checkStrLenAt A p n) :=
  upto_fillCache.before fun z => Free.bind free_checkStrAt fun x => by cases x; exact Free.pure; exact Free.pure
theorem upto_checkNumLen {n : Nat} : Upto (24 + cf.cache + 2 * (cf.delta * n)) (checkNumLenAt A p n) :=
  upto_fillCache.before fun z => Free.bind free_checkNumAt fun x => by cases x; exact Free.pure; exact Free.pure

theorem upto_setStrFast : Upto 72 (setStrFast v p) := by
  unfold setStrFast
  refine Upto.after free_checkStrAt fun x => ?_
  split; · exact Free.pure.upto
  exact upto_setScalar.before fun _ => Free.pure
theorem upto_setNumStrFast : Upto 72 (setNumStrFast v p) := by
  unfold setNumStrFast
  refine Upto.after free_checkNumAt fun x => ?_
  split; · exact Free.pure.upto
  exact upto_setScalar.before fun _ => Free.pure
theorem upto_setKeyFast : Upto 72 (setKeyFast v p) := by
  unfold setKeyFast
  refine Upto.after free_checkStrAt fun x => ?_
  split; · exact Free.pure.upto
  exact upto_keyTarget.before fun x => by cases x; exact Free.pure; dsimp only; frees

theorem upto_setStrLen {n : Nat} : Upto (2 * (cf.delta * n) + n + cf.cache + 96) (setStrLen v p n) := by
  unfold setStrLen
  refine Upto.after Free.rdVal fun x => upto_checkStrLen.bind (l := n + 72) (fun r => ?_) (by omega)
  split; · exact Free.pure.upto
  exact Upto.after Free.rdVal fun x => upto_dup.bind (fun _ => upto_setScalar.before fun _ => Free.pure) (Nat.le_refl _)
theorem upto_setStrLenFast {n : Nat} : Upto (2 * (cf.delta * n) + cf.cache + 96) (setStrLenFast v p n) := by
  unfold setStrLenFast
  refine Upto.after Free.rdVal fun x => upto_checkStrLen.bind (l := 72) (fun r => ?_) (by omega)
  split; · exact Free.pure.upto
  exact upto_setScalar.before fun _ => Free.pure
theorem upto_setNumStrLen {n : Nat} : Upto (2 * (cf.delta * n) + n + cf.cache + 96) (setNumStrLen v p n) := by
  unfold setNumStrLen
  refine Upto.after Free.rdVal fun x => upto_checkNumLen.bind (l := n + 72) (fun r => ?_) (by omega)
  split; · exact Free.pure.upto
  exact Upto.after Free.rdVal fun x => upto_dup.bind (fun _ => upto_setScalar.before fun _ => Free.pure) (Nat.le_refl _)
theorem upto_setNumStrLenFast {n : Nat} : Upto (2 * (cf.delta * n) + cf.cache + 96) (setNumStrLenFast v p n) := by
  unfold setNumStrLenFast
  refine Upto.after Free.rdVal fun x => upto_checkNumLen.bind (l := 72) (fun r => ?_) (by omega)
  split; · exact Free.pure.upto
  exact upto_setScalar.before fun _ => Free.pure
theorem upto_setKeyLenC {n : Nat} : Upto (2 * (cf.delta * n) + n + cf.cache + 96) (setKeyLenC v p n) := by
  unfold setKeyLenC
  refine Upto.after Free.rdVal fun x => upto_checkStrLen.bind (l := n + 72) (fun r => ?_) (by omega)
  split; · exact Free.pure.upto
  refine upto_keyTarget.bind (l := n) (fun r => ?_) (by omega)
  split; · exact Free.pure.upto
  exact Upto.after Free.rdVal fun x => upto_dup.before fun _ => by frees
theorem upto_setKeyLenFast {n : Nat} : Upto (2 * (cf.delta * n) + cf.cache + 96) (setKeyLenFast v p n) := by
  unfold setKeyLenFast
  refine Upto.after Free.rdVal fun x => upto_checkStrLen.bind (l := 72) (fun r => ?_) (by omega)
  split; · exact Free.pure.upto
  refine upto_keyTarget.before fun r => ?_
  split; · exact Free.pure
  frees

/-! ### Texts given as C strings -/

theorem hexOne_lt {s : Bytes} {i cp : Nat} {j cp' : Nat} (h : consumeHexOne s i cp = .ok (true, j, cp')) : j ≤ s.length := by
  unfold consumeHexOne at h
  obtain ⟨x, h2, h⟩ := Res.bind_eq h
  have := List.getElem?_eq_some_iff.1 (rd_lt h2)
  obtain ⟨h3, _⟩ := this
  dsimp only at h
  split at h <;> cases h
  omega

theorem strLenLoop_lt : ∀ {s : Bytes} {k n : Nat}, strLenLoop s k = .ok n → n < k + s.length
  | [], _, _, h => (nomatch h)
  | c :: s, k, n, h => by
    rw [strLenLoop] at h
    split at h
    · cases h; simp
    · have := strLenLoop_lt h; simp; omega

theorem checkLoop_lt {s : Bytes} : ∀ {k : Nat} {c : Byte} {i n : Nat},
    checkStrLoop s k c i = .ok (some n) → 0 < i → i ≤ s.length → n < s.length
  | 0, _, _, _, h => (nomatch h)
  | k + 1, c, i, n, h => fun hi hl => by
    have go : ∀ {j : Nat}, (rd s j >>= fun c => checkStrLoop s k c (j + 1)) = .ok (some n) → n < s.length := fun h => by
      obtain ⟨x, hx, h⟩ := Res.bind_eq h
      obtain ⟨h3, _⟩ := List.getElem?_eq_some_iff.1 (rd_lt hx)
      exact checkLoop_lt h (Nat.succ_pos _) h3
    have stop : (Pure.pure none : Res (Option Nat)) = .ok (some n) → n < s.length := fun h => (nomatch h)
    rw [checkStrLoop] at h
    by_cases c0 : c = 0
    · rw [if_pos c0] at h; cases h; omega
    rw [if_neg c0] at h
    by_cases c1 : c ≤ 0x1f ∨ c = 0x22
    · rw [if_pos c1] at h; exact stop h
    rw [if_neg c1] at h
    by_cases c2 : c = 0x5C
    · rw [if_pos c2] at h
      obtain ⟨x, _, h⟩ := Res.bind_eq h
      by_cases x0 : isEscLetter x = true
      · rw [if_pos x0] at h; exact go h
      rw [if_neg x0] at h
      by_cases x1 : x = 0x75
      · rw [if_pos x1] at h
        obtain ⟨⟨b1, j1, cp⟩, h1, h⟩ := Res.bind_eq h
        cases b1
        · exact stop h
        simp only [Bool.not_true, if_false, Bool.false_eq_true] at h
        by_cases d0 : 0xDC00 ≤ cp ∧ cp ≤ 0xDFFFF
        · rw [if_pos d0] at h; exact stop h
        rw [if_neg d0] at h
        by_cases d1 : 0xD800 ≤ cp ∧ cp ≤ 0xDBFF
        · rw [if_pos d1] at h
          obtain ⟨⟨b2, j2⟩, h2, h⟩ := Res.bind_eq h
          cases b2
          · exact stop h
          simp only [Bool.not_true, if_false, Bool.false_eq_true] at h
          obtain ⟨⟨b3, j3⟩, h3, h⟩ := Res.bind_eq h
          cases b3
          · exact stop h
          simp only [Bool.not_true, if_false, Bool.false_eq_true] at h
          obtain ⟨⟨b4, j4, cp2⟩, h4, h⟩ := Res.bind_eq h
          cases b4
          · exact stop h
          simp only [Bool.not_true, if_false, Bool.false_eq_true] at h
          by_cases e0 : cp2 < 0xDC00 ∨ cp2 > 0xDFFF
          · rw [if_pos e0] at h; exact stop h
          rw [if_neg e0] at h
          exact go h
        · rw [if_neg d1] at h; exact go h
      · rw [if_neg x1] at h; exact stop h
    rw [if_neg c2] at h
    exact go h

theorem checkStr_lt {s : Bytes} {n : Nat} (h : checkStr s = .ok (some n)) : n < s.length := by
  unfold checkStr at h
  obtain ⟨x, hx, h⟩ := Res.bind_eq h
  obtain ⟨h3, _⟩ := List.getElem?_eq_some_iff.1 (rd_lt hx)
  exact checkLoop_lt h Nat.one_pos h3

theorem checkNum_lt {s : Bytes} {n : Nat} (h : checkNum s = .ok (some n)) : n < s.length := by
  unfold checkNum at h
  obtain ⟨x, hx, h⟩ := Res.bind_eq h
  cases x with
  | none => cases h
  | some i =>
    simp only at h
    obtain ⟨y, hy, h⟩ := Res.bind_eq h
    unfold consume at hy
    obtain ⟨z, hz, hy⟩ := Res.bind_eq hy
    obtain ⟨h3, _⟩ := List.getElem?_eq_some_iff.1 (rd_lt hz)
    split at h
    · cases h; exact h3
    · cases h

theorem escapeLen_le {c : Byte} {n : Nat} (h : escapeLen c = .ok n) : n ≤ 6 := by
  have : ∀ c, (match escapeLen c with | .ok n => decide (n ≤ 6) | _ => true) = true := by apply allBytes; decide +kernel
  have := this c
  rw [h] at this
  simpa using this

theorem escLenLoop_le : ∀ {s : Bytes} {l n : Nat}, escLenLoop s l = .ok n → n + 6 ≤ l + 6 * s.length
  | [], _, _, h => (nomatch h)
  | c :: s, l, n, h => by
    rw [escLenLoop] at h
    split at h
    · cases h; simp; omega
    · obtain ⟨k, hk, h⟩ := Res.bind_eq h
      have := escapeLen_le hk
      have := escLenLoop_le h
      simp; omega

theorem escLenLoopN_le : ∀ {k : Nat} {s : Bytes} {l n : Nat}, escLenLoopN k s l = .ok n → n ≤ l + 6 * k
  | 0, _, _, _, h => by cases h; simp
  | _ + 1, [], _, _, h => (nomatch h)
  | k + 1, c :: s, l, n, h => by
    rw [escLenLoopN] at h
    obtain ⟨j, hk, h⟩ := Res.bind_eq h
    have := escapeLen_le hk
    have := escLenLoopN_le h
    omega

/-- At most `k` bytes are asked for from the state `st` on. -/
def UptoAt {α : Type} (st : St) (k : Nat) (m : M α) : Prop :=
  ∀ r st', m st = .ok (r, st') → total st'.log ≤ total st.log + k

theorem Upto.at {k : Nat} {st : St} (h : ZJ.Upto st.cfg k m) : UptoAt st k m := fun r st' e => (h _ _ _ _ e ⟨rfl, Nat.le_refl _⟩).2

/-- The text the client gave is looked at first. -/
theorem UptoAt.view {st : St} {k lim : Nat} {s : Bytes} {g : Bytes × Nat → M β} (hp : ZJ.view p st = .ok ((s, lim), st))
    (h : UptoAt st k (g (s, lim))) : UptoAt st k (ZJ.view p >>= g) := fun r st' e => by
  rw [M.bind_ok hp] at e
  exact h r st' e

theorem UptoAt.use {st : St} {k : Nat} {φ : α → Prop} {x : Res α} (h : ∀ a, x = .ok a → φ a) (hf : ∀ r, φ r → UptoAt st k (f r)) :
    UptoAt st k (ZJ.lift x >>= f) := fun r st' e => by
  obtain ⟨a, st1, h1, h2⟩ := M.bind_inv e
  cases x with
  | ok y => cases h1; exact hf _ (h _ rfl) _ _ h2
  | ub u => cases h1
  | timeout => cases h1

theorem UptoAt.rdVal {st : St} {k : Nat} {g : Val → M β} (hf : ∀ x, UptoAt st k (g x)) :
    UptoAt st k (ZJ.rdVal v >>= g) := fun r st' e => by
  obtain ⟨a, st1, h1, h2⟩ := M.bind_inv e
  obtain rfl := rdVal_inv h1
  exact hf _ _ _ h2

variable {st : St}

theorem UptoAt.checkStr {k : Nat} {g : Option Nat → M β} (hp : ZJ.view p st = .ok ((s, lim), st))
    (hf : ∀ x : Option Nat, (∀ n, x = some n → n < s.length) → UptoAt st k (g x)) : UptoAt st k (checkStrAt p >>= g) := fun r st' e => by
  obtain ⟨x, st1, h1, h2⟩ := M.bind_inv e
  unfold checkStrAt at h1
  rw [M.bind_ok hp] at h1
  cases hx : ZJ.checkStr s with
  | ok y => simp only [hx] at h1; cases h1; exact hf _ (fun n e => checkStr_lt (e ▸ hx)) _ _ h2
  | ub u => simp only [hx] at h1; cases h1
  | timeout => simp only [hx] at h1; cases h1
theorem UptoAt.checkNum {k : Nat} {g : Option Nat → M β} (hp : ZJ.view p st = .ok ((s, lim), st))
    (hf : ∀ x : Option Nat, (∀ n, x = some n → n < s.length) → UptoAt st k (g x)) : UptoAt st k (checkNumAt p >>= g) := fun r st' e => by
  obtain ⟨x, st1, h1, h2⟩ := M.bind_inv e
  unfold checkNumAt at h1
  rw [M.bind_ok hp] at h1
  cases hx : ZJ.checkNum s with
  | ok y => simp only [hx] at h1; cases h1; exact hf _ (fun n e => checkNum_lt (e ▸ hx)) _ _ h2
  | ub u => simp only [hx] at h1; cases h1
  | timeout => simp only [hx] at h1; cases h1

theorem upto_setStr (hp : view p st = .ok ((s, lim), st)) : UptoAt st (s.length + 71) (setStr v p) := by
  refine UptoAt.checkStr hp fun x hx => ?_
  cases x with
  | none => exact Free.pure.upto.at
  | some n =>
    have := hx n rfl
    exact (Upto.after Free.rdVal fun x => upto_dup.bind (fun _ => upto_setScalar.before fun _ => Free.pure) (by omega)).at
theorem upto_setNumStr (hp : view p st = .ok ((s, lim), st)) : UptoAt st (s.length + 71) (setNumStr v p) := by
  refine UptoAt.checkNum hp fun x hx => ?_
  cases x with
  | none => exact Free.pure.upto.at
  | some n =>
    have := hx n rfl
    exact (Upto.after Free.rdVal fun x => upto_dup.bind (fun _ => upto_setScalar.before fun _ => Free.pure) (by omega)).at
theorem upto_setKeyC (hp : view p st = .ok ((s, lim), st)) : UptoAt st (s.length + 71) (setKeyC v p) := by
  refine UptoAt.checkStr hp fun x hx => ?_
  cases x with
  | none => exact Free.pure.upto.at
  | some n =>
    have := hx n rfl
    refine (upto_keyTarget.bind (l := n) (fun r => ?_) (by omega)).at
    split; · exact Free.pure.upto
    exact Upto.after Free.rdVal fun x => upto_dup.before fun _ => by frees

theorem escapeAt_upto (hp : view p st = .ok ((s, lim), st)) {g : SPtr → M β} (hg : ∀ q, ZJ.Upto st.cfg 72 (g q)) :
    UptoAt st (6 * s.length + 67) (escapeAt A p >>= g) := fun r st' e => by
  obtain ⟨q, st1, h1, h2⟩ := M.bind_inv e
  have : st1.cfg = st.cfg ∧ total st1.log + 6 ≤ total st.log + 6 * s.length + 1 := by
    unfold escapeAt at h1
    rw [M.bind_ok hp] at h1
    obtain ⟨x, st2, h3, h1⟩ := M.bind_inv h1
    cases hx : escapeStr s with
    | ok y =>
      simp only [hx] at h3; cases h3
      have hy : x.1 + 5 ≤ 6 * s.length := by
        unfold escapeStr at hx
        obtain ⟨l, hl, hx⟩ := Res.bind_eq hx
        have := escLenLoop_le hl
        obtain ⟨o, _, hx⟩ := Res.bind_eq hx
        obtain ⟨o, _, hx⟩ := Res.bind_eq hx
        cases hx; simp only; omega
      have := (show ZJ.Upto st.cfg x.1 _ from Upto.newBuf.before fun _ => Free.pure) _ _ _ _ h1 ⟨rfl, Nat.le_refl _⟩
      exact ⟨this.1, by have := this.2; omega⟩
    | ub u => simp only [hx] at h3; cases h3
    | timeout => simp only [hx] at h3; cases h3
  have := (hg q _ _ _ _ h2 ⟨this.1, Nat.le_refl _⟩).2
  omega

theorem escapeLenAt_upto {n : Nat} : Upto (6 * n + 1) (escapeLenAt A p n) := fun T => by
  unfold escapeLenAt
  refine Tot.free Free.view fun x => ?_
  refine Tot.use (φ := fun y => y.1 ≤ 6 * n + 1) (fun y hx => ?_) fun y hy => ?_
  · unfold escapeStrLen at hx
    obtain ⟨l, hl, hx⟩ := Res.bind_eq hx
    have := escLenLoopN_le hl
    obtain ⟨o, _, hx⟩ := Res.bind_eq hx
    obtain ⟨o, _, hx⟩ := Res.bind_eq hx
    cases hx; simp only; omega
  · exact ((show Upto y.1 _ from Upto.newBuf.before fun _ => Free.pure).mono hy) T

/-! ### Calls -/

/-- What a setter may ask for: a node, a copy of the text, and the scratch string in which the
variants with a length check it. An escape takes six bytes at most. -/
def TextFn.cost (cf : Cfg) (n : Nat) : TextFn → Nat
  | .strFast | .numFast => 72
  | .str | .num => n + 72
  | .strLenFast | .numLenFast => 2 * (cf.delta * n) + cf.cache + 96
  | .strLen | .numLen => 2 * (cf.delta * n) + n + cf.cache + 96
  | .strEsc | .strLenEsc => 6 * n + 73

def KeyFn.cost (cf : Cfg) (n : Nat) : KeyFn → Nat
  | .keyFast => 72
  | .key => n + 72
  | .keyLenFast => 2 * (cf.delta * n) + cf.cache + 96
  | .keyLen => 2 * (cf.delta * n) + n + cf.cache + 96
  | .keyEsc | .keyLenEsc => 6 * n + 73

/-- What a call may ask for, by the length of the texts it is given. No bound for the calls
that return or copy a text or a document. -/
def Call.cost {D : Type} (cf : Cfg) : Call D → Option Nat
  | .newAlloc | .release _ => some 0
  | .newValue _ => some 16
  | .parse .parseFast _ b => some (72 * b.length + 72)
  | .parse _ _ b => some (73 * b.length + 73)
  | .text f _ b => some (f.cost cf b.length)
  | .key f _ b => some (f.cost cf b.length)
  | .null _ | .bool _ _ | .array _ | .object _ => some 72
  | .int _ _ _ => some 96
  | .double _ _ => some 104
  | .nav _ _ => some 16
  | .move _ | .add _ true _ _ | .set true _ _ => some 0
  | .delAt _ _ | .delKey _ _ => some 16
  | .get .int _ | .get .long _ | .get .longLong _ | .get .double _ => some 8
  | .get .type _ | .get .size _ | .get .null _ | .get .bool _ | .get .strFast _ | .get .numFast _ | .get .keyFast _ => some 0
  | _ => none

theorem upto_withText {k : Nat} {d : Bytes} {keep : Bool} {g : SPtr → M α} {st : St}
    (h : ∀ p, view p (st.addC d) = .ok ((d, d.length + st.slack st.nb), st.addC d) → UptoAt (st.addC d) k (g p)) :
    UptoAt st k (withText d keep g) := fun r st' e => by
  unfold withText at e
  rw [M.bind_ok (callerText_run d st)] at e
  obtain ⟨x, st1, h1, h2⟩ := M.bind_inv e
  have := h _ (by simp [view, St.addC]) _ _ h1
  have e1 : total st'.log = total st1.log := by
    cases keep
    · simp only [Bool.false_eq_true, if_false] at h2
      cases h2; rfl
    · cases h2; rfl
  rw [e1]
  exact this

theorem upto_text {f : TextFn} {b : Bytes} {keep : Bool} : UptoAt st (f.cost st.cfg b.length) (withText (passed f.len b) keep (f.run v b.length)) := by
  refine upto_withText fun p hp => ?_
  have hm : ∀ {k : Nat} {m : M Bool}, k ≤ f.cost st.cfg b.length → UptoAt (st.addC (passed f.len b)) k m →
    UptoAt (st.addC (passed f.len b)) (f.cost st.cfg b.length) m := fun hk h r st' e => by have := h r st' e; omega
  cases f
  case str => exact hm (by simp [TextFn.len, TextFn.cost, passed]; try omega) (upto_setStr hp)
  case num => exact hm (by simp [TextFn.len, TextFn.cost, passed]; try omega) (upto_setNumStr hp)
  case strLen => exact hm (by simp [TextFn.cost, St.addC]) upto_setStrLen.at
  case numLen => exact hm (by simp [TextFn.cost, St.addC]) upto_setNumStrLen.at
  case strLenFast => exact hm (by simp [TextFn.cost, St.addC]) upto_setStrLenFast.at
  case numLenFast => exact hm (by simp [TextFn.cost, St.addC]) upto_setNumStrLenFast.at
  case strFast => exact hm (by simp [TextFn.cost]) upto_setStrFast.at
  case numFast => exact hm (by simp [TextFn.cost]) upto_setNumStrFast.at
  case strEsc => exact UptoAt.rdVal fun x => hm (by simp [TextFn.len, TextFn.cost, passed]; try omega) (escapeAt_upto hp fun q => upto_setStrFast)
  case strLenEsc => exact UptoAt.rdVal fun x => hm (by simp [TextFn.cost]) (escapeLenAt_upto.bind (fun q => upto_setStrFast) (Nat.le_refl _)).at

theorem upto_key {f : KeyFn} {b : Bytes} {keep : Bool} : UptoAt st (f.cost st.cfg b.length) (withText (passed f.len b) keep (f.run v b.length)) := by
  refine upto_withText fun p hp => ?_
  have hm : ∀ {k : Nat} {m : M Bool}, k ≤ f.cost st.cfg b.length → UptoAt (st.addC (passed f.len b)) k m →
    UptoAt (st.addC (passed f.len b)) (f.cost st.cfg b.length) m := fun hk h r st' e => by have := h r st' e; omega
  cases f
  case key => exact hm (by simp [KeyFn.len, KeyFn.cost, passed]; try omega) (upto_setKeyC hp)
  case keyLen => exact hm (by simp [KeyFn.cost, St.addC]) upto_setKeyLenC.at
  case keyLenFast => exact hm (by simp [KeyFn.cost, St.addC]) upto_setKeyLenFast.at
  case keyFast => exact hm (by simp [KeyFn.cost]) upto_setKeyFast.at
  case keyEsc => exact UptoAt.rdVal fun x => hm (by simp [KeyFn.len, KeyFn.cost, passed]; try omega) (escapeAt_upto hp fun q => upto_setKeyFast)
  case keyLenEsc => exact UptoAt.rdVal fun x => hm (by simp [KeyFn.cost]) (escapeLenAt_upto.bind (fun q => upto_setKeyFast) (Nat.le_refl _)).at

/-- What `zj_Parse`, `zj_ParseLen` and `zj_ParseFast` ask for, accepted or not. -/
theorem upto_parse {f : ParseFn} {b : Bytes} {keep : Bool} :
    UptoAt st (if f = .parseFast then 72 * b.length + 72 else 73 * b.length + 73) (withText (passed f.len b) keep (f.run v b.length)) := by
  refine upto_withText fun p hp r st' e => ?_
  cases f
  case parseFast =>
    have := parseFast_cost (b := b) hp e
    simp only [if_true]; omega
  case parseLen =>
    have := parseLen_cost e
    simp only [reduceCtorEq, if_false]; omega
  case parse =>
    simp only [ParseFn.run] at e
    unfold ZJ.parse at e
    rw [M.bind_ok hp] at e
    obtain ⟨n, st1, h1, h2⟩ := M.bind_inv e
    cases hx : strLen (passed false b) with
    | ok y =>
      simp only [ParseFn.len, hx] at h1; cases h1
      have := parseLen_cost h2
      have l := strLenLoop_lt hx
      simp [passed] at l
      simp only [ParseFn.len, reduceCtorEq, if_false] at *; omega
    | ub u => simp only [ParseFn.len, hx] at h1; cases h1
    | timeout => simp only [ParseFn.len, hx] at h1; cases h1

theorem UptoAt.before {k : Nat} (h : UptoAt st k m) (hf : ∀ r, Free (f r)) : UptoAt st k (m >>= f) := fun r st' e => by
  obtain ⟨a, st1, h1, h2⟩ := M.bind_inv e
  rw [(hf _ _ _ _ h2).1]
  exact h _ _ h1

theorem upto_num {D : Type} {n : Nat} {g : M (Option D)} (h : Upto n g) {k : Option D → Ans D} : Upto n (do return k (← g)) :=
  h.before fun _ => Free.pure

/-- C55: a call that neither returns nor copies a text or a document asks for at most
`c.cost` bytes, from any state, whatever it answers. -/
theorem C55_calls {D : Type} {fp : FP D} {F : Nat} {c : Call D} {k : Nat} (hc : c.cost st.cfg = some k) {r : Ans D} {st' : St}
    (h : exec fp F c st = .ok (r, st')) : total st'.log ≤ total st.log + k := by
  suffices H : UptoAt st k (exec fp F c) from H _ _ h
  clear h
  have ret : ∀ {α : Type} {m : M α} {l : Nat} {g : α → Ans D}, UptoAt st l m → UptoAt st l (do return g (← m)) :=
    fun h => h.before fun _ => Free.pure
  cases c
  case newAlloc => cases hc; exact fun r st' e => by cases e; simp [total]
  case release A =>
    cases hc
    refine UptoAt.before (fun r st' e => ?_) fun _ => Free.pure
    unfold releaseAllocator at e
    split at e <;> cases e; simp [total]
  case newValue A => cases hc; exact ret Upto.newVal.at
  case parse f v b =>
    cases f <;> cases hc <;> exact ret upto_parse
  case text f v b => cases hc; exact ret upto_text
  case key f v b => cases hc; exact ret upto_key
  case null v => cases hc; exact (upto_setScalar.before fun _ => Free.pure).at
  case bool v b =>
    cases hc
    refine Upto.at (Upto.before ?_ fun _ => Free.pure)
    unfold setBool
    split <;> exact upto_setScalar
  case array v =>
    cases hc
    refine Upto.at (Upto.before ?_ fun _ => Free.pure)
    exact upto_ensureNode.before fun _ => by frees
  case object v =>
    cases hc
    refine Upto.at (Upto.before ?_ fun _ => Free.pure)
    exact upto_ensureNode.before fun _ => by frees
  case int f v n =>
    cases hc
    refine ret (Upto.at ?_)
    cases f
    · exact Upto.after Free.rdVal fun x => Upto.newBuf.bind (fun _ => upto_setScalar.before fun _ => Free.pure) (by omega)
    · exact Upto.after Free.rdVal fun x => Upto.newBuf.bind (fun _ => upto_setScalar.before fun _ => Free.pure) (by omega)
    · exact Upto.after Free.rdVal fun x => Upto.newBuf.bind (fun _ => upto_setScalar.before fun _ => Free.pure) (by omega)
  case double v d =>
    cases hc
    refine ret (Upto.at ?_)
    exact Upto.after Free.rdVal fun x => Upto.newBuf.bind (fun _ => upto_setScalar.before fun _ => Free.pure) (by omega)
  case nav f v =>
    cases hc
    refine ret ?_
    cases f
    · exact upto_begin.at
    · exact upto_next.at
    · exact upto_arrayGet.at
    · exact upto_withText fun p _ => upto_objGet.at
    · exact upto_withText fun p _ => upto_objGetLen.at
  case copy v => cases hc
  case move v => cases hc; exact ret free_move.upto.at
  case add o fa v w =>
    cases fa
    · cases hc
    · cases hc
      cases o
      · exact ret free_arrayAddFast.upto.at
      · exact ret free_objAddFast.upto.at
  case delAt v i => cases hc; exact ret upto_arrayDel.at
  case delKey v k => cases hc; exact ret (upto_withText fun p _ => upto_objDel.at)
  case set fa v w =>
    cases fa
    · cases hc
    · cases hc; exact ret free_setFast.upto.at
  case get f v =>
    cases f <;> cases hc
    case type => exact ret free_getType.upto.at
    case size => exact ret free_sizeOf.upto.at
    case null => exact ret free_isNull.upto.at
    case bool => exact ret free_getBool.upto.at
    case strFast => exact (Free.bind free_getStrFast fun _ => Free.bind free_readL fun _ => Free.pure).upto.at
    case numFast => exact (Free.bind free_getNumFast fun _ => Free.bind free_readL fun _ => Free.pure).upto.at
    case keyFast => exact (Free.bind free_getKeyFast fun _ => Free.bind free_readL fun _ => Free.pure).upto.at
    case int =>
      refine ret (Upto.at ?_)
      unfold getInt
      skips; split; · exact Free.pure.upto
      skips; split; · exact Free.pure.upto
      exact (Upto.before Upto.req fun _ => Free.bind Free.nStr fun _ => Free.bind Free.nLen fun _ => Free.bind free_strToInt fun _ => Free.pure).mono (by omega)
    case long =>
      refine ret (Upto.at ?_)
      unfold getLong
      skips; split; · exact Free.pure.upto
      skips; split; · exact Free.pure.upto
      exact Upto.before Upto.req fun _ => Free.bind Free.nStr fun _ => Free.bind Free.nLen fun _ => Free.bind free_strToLong fun _ => Free.pure
    case longLong =>
      refine ret (Upto.at ?_)
      unfold getLongLong
      skips; split; · exact Free.pure.upto
      skips; split; · exact Free.pure.upto
      exact Upto.before Upto.req fun _ => Free.bind Free.nStr fun _ => Free.bind Free.nLen fun _ => Free.bind free_strToLongLong fun _ => Free.pure
    case double =>
      refine ret (Upto.at ?_)
      unfold getDouble
      skips; split; · exact Free.pure.upto
      skips; split; · exact Free.pure.upto
      exact Upto.before Upto.req fun _ => Free.bind Free.nStr fun _ => Free.bind Free.nLen fun _ => Free.bind free_strToDouble fun _ => Free.pure

variable {P : Addr → Prop} {G : Graph}

/-- C55, `zj_Stringify`: the text of a document, and the blocks it grew through, take at most
`2 * zj_DELTA` (four) times its length, or `zj_STRING_INIT_MEMSIZE + 24` (1048) bytes for a
short one. -/
theorem C55_print {x : Option Addr} {A : Nat} {t : Json} {F : Nat} {q : SPtr} {st' : St} (hr : Ready st P G v x A) (hs : Shows st v t)
    (h : stringify F v st = .ok (q, st')) :
    total st'.log + st.cfg.str ≤ total st.log + 24 + max (2 * st.cfg.str) (2 * (st.cfg.delta * (t.print.length + 1))) := by
  obtain ⟨⟨c, bf, rfl, h1, h2⟩, _⟩ := C09_result hr hs h
  rcases stringify_cost h with ⟨h3, _⟩ | ⟨c', x', h3, h4, h5⟩
  · cases h3
  · cases h3
    rw [h1] at h4; cases h4
    rw [h2] at h5
    simp only [List.length_append, List.length_cons, List.length_nil] at h5
    omega

/-- C55, `zj_Copy`: exactly a handle, a node for every value of the document, and the bytes
of its texts and keys (with the key of the copied node). -/
theorem C55_copy {a A : Nat} {t : Json} {F : Nat} {r : Option Addr} {st' : St} (hr : Ready st P G v (some a) A) (hs : Shows st v t)
    (h : copy F v st = .ok (r, st')) :
    total st'.log = total st.log + 16 + 72 + ((G.keyOf a).elim 0 List.length) + t.held := by
  obtain ⟨gx, hx⟩ := Option.isSome_iff_exists.1 (hr.node a rfl)
  obtain ⟨c, st2, n, g, P', hrun, hC⟩ := copy_run hr.inv hr.val hx (hr.unf hs)
  have e := (copy_mono (v := v) (Nat.le_add_right F c)).ok h
  rw [hrun F] at e
  cases e
  have := hC.paid
  have hk : keyBytes gx.key = (G.keyOf a).elim 0 List.length := by
    simp only [Graph.keyOf, hx, Option.bind_some]
    cases gx.key <;> rfl
  omega

/-- The computation only reads. -/
def Looks (m : M α) : Prop := ∀ st r st', m st = .ok (r, st') → st' = st

theorem UptoAt.look {k : Nat} (h : Looks m) (hf : ∀ r, UptoAt st k (f r)) : UptoAt st k (m >>= f) := fun r st' e => by
  obtain ⟨a, st1, h1, h2⟩ := M.bind_inv e
  obtain rfl := h _ _ _ h1
  exact hf _ _ _ h2

theorem looks_rdNode {n : Addr} : Looks (rdNode n) := fun st r st' e => by
  unfold rdNode at e
  split at e <;> cases e; rfl

theorem looks_fld {x : Option α} : Looks (fld x) := fun st r st' e => by
  unfold fld at e
  split at e <;> cases e; rfl

theorem Looks.bind {m : M α} {f : α → M β} (h : Looks m) (hf : ∀ r, Looks (f r)) : Looks (m >>= f) := fun st r st' e => by
  obtain ⟨a, st1, h1, h2⟩ := M.bind_inv e
  obtain rfl := h _ _ _ h1
  exact hf _ _ _ _ h2

theorem looks_nType {n : Addr} : Looks (nType n) := looks_rdNode.bind fun _ => looks_fld
theorem looks_nKey {n : Addr} : Looks (nKey n) := looks_rdNode.bind fun _ => looks_fld
theorem looks_nKeyLen {n : Addr} : Looks (nKeyLen n) := looks_rdNode.bind fun _ => looks_fld

/-- C55, the calls that add or put a copy ask for what the copy takes, and for nothing more. -/
theorem C55_edit {a A : Nat} {t : Json} {F : Nat} {w : Addr} {r : Bool} {st' : St} (hr : Ready st P G w (some a) A) (hs : Shows st w t)
    (h : arrayAdd F v w st = .ok (r, st') ∨ objAdd F v w st = .ok (r, st') ∨ ZJ.set F v w st = .ok (r, st')) :
    total st'.log ≤ total st.log + 16 + 72 + ((G.keyOf a).elim 0 List.length) + t.held := by
  have hcopy : UptoAt st (16 + 72 + ((G.keyOf a).elim 0 List.length) + t.held) (copy F w) := fun r st' e => by
    have := C55_copy hr hs e; omega
  have key : ∀ {m : M Bool}, UptoAt st (16 + 72 + ((G.keyOf a).elim 0 List.length) + t.held) m → m st = .ok (r, st') →
      total st'.log ≤ total st.log + 16 + 72 + ((G.keyOf a).elim 0 List.length) + t.held := fun hm e => by
    have := hm _ _ e; omega
  rcases h with h | h | h
  · refine key ?_ h
    unfold arrayAdd
    refine UptoAt.rdVal fun x => ?_
    split; · exact Free.pure.upto.at
    refine UptoAt.look looks_nType fun x => ?_
    split; · exact Free.pure.upto.at
    refine hcopy.before fun o => ?_
    split; · exact Free.pure
    exact Free.bind (by unfold valN; frees) fun _ => Free.bind Free.modNode fun _ => Free.bind Free.modNode fun _ =>
      Free.bind free_attach fun _ => Free.pure
  · refine key ?_ h
    unfold objAdd
    refine UptoAt.rdVal fun x => ?_
    split; · exact Free.pure.upto.at
    refine UptoAt.look looks_nType fun x => ?_
    split; · exact Free.pure.upto.at
    refine UptoAt.rdVal fun x => ?_
    split; · exact Free.pure.upto.at
    refine UptoAt.look looks_nKey fun x => ?_
    split; · exact Free.pure.upto.at
    refine hcopy.before fun o => ?_
    split; · exact Free.pure
    exact Free.bind (by unfold valN; frees) fun _ => Free.bind Free.modNode fun _ => Free.bind free_attach fun _ => Free.pure
  · refine key ?_ h
    unfold ZJ.set
    refine hcopy.before fun o => ?_
    split; · exact Free.pure
    refine Free.bind Free.rdVal fun x => Free.bind Free.rdVal fun y => ?_
    split
    · frees
    · exact Free.bind Free.deref fun _ => Free.bind (by unfold valN; frees) fun _ => Free.bind free_graft fun _ => Free.pure

theorem ready_str {a A : Nat} {raw : Bytes} (hr : Ready st P G v (some a) A) (hs : Shows st v (.str raw)) :
    ∃ gn, G a = some gn ∧ gn.val = .str raw := by
  obtain ⟨a', gn, h1, h2, h3⟩ := hr.node_of hs
  cases h1
  exact ⟨gn, h2, h3.str_inv⟩

theorem ready_num {a A : Nat} {raw : Bytes} (hr : Ready st P G v (some a) A) (hs : Shows st v (.num raw)) :
    ∃ gn, G a = some gn ∧ gn.val = .num raw := by
  obtain ⟨a', gn, h1, h2, h3⟩ := hr.node_of hs
  cases h1
  exact ⟨gn, h2, h3.num_inv⟩

/-- C55, the calls that give a text out ask for its length and the terminator; the unescaped
text, which may be shorter, takes the room of the escaped one. -/
theorem C55_textOut {a A : Nat} {raw : Bytes} {r : Option SPtr} {st' : St} (hr : Ready st P G v (some a) A) :
    (Shows st v (.str raw) → getStr v st = .ok (r, st') → total st'.log = total st.log + (raw.length + 1)) ∧
    (Shows st v (.num raw) → getNumStr v st = .ok (r, st') → total st'.log = total st.log + (raw.length + 1)) ∧
    (∀ d, Shows st v (.str raw) → Denotes raw d → getUnEscapeStr v st = .ok (r, st') → total st'.log = total st.log + (raw.length + 1)) ∧
    (G.keyOf a = some raw → getKey v st = .ok (r, st') → total st'.log = total st.log + (raw.length + 1)) ∧
    (∀ d, G.keyOf a = some raw → Denotes raw d → getUnEscapeKey v st = .ok (r, st') → total st'.log = total st.log + (raw.length + 1)) := by
  obtain ⟨gx, hx⟩ := Option.isSome_iff_exists.1 (hr.node a rfl)
  have hk : G.keyOf a = some raw → gx.key = some raw := fun h => by simpa [Graph.keyOf, hx] using h
  have ht : ∀ {A n d}, total (st.addB A n d).log = total st.log + n := fun {A n d} => Nat.add_comm _ _
  refine ⟨fun hs h => ?_, fun hs h => ?_, fun d hs hd h => ?_, fun hs h => ?_, fun d hs hd h => ?_⟩
  · obtain ⟨gn, hgn, hg⟩ := ready_str hr hs
    rw [getStr_run hr.inv hr.val hgn hg] at h; cases h; exact ht
  · obtain ⟨gn, hgn, hg⟩ := ready_num hr hs
    rw [getNumStr_run hr.inv hr.val hgn hg] at h; cases h; exact ht
  · obtain ⟨gn, hgn, hg⟩ := ready_str hr hs
    rw [getUnEscapeStr_run hr.inv hr.val hgn hg hd] at h; cases h; exact ht
  · rw [(getKey_run hr.inv hr.val hx (hk hs)).1] at h; cases h; exact ht
  · rw [getUnEscapeKey_run hr.inv hr.val hx (hk hs) hd] at h; cases h; exact ht

/-- No call changes the settings. -/
theorem exec_cfg {D : Type} {fp : FP D} {F : Nat} {c : Call D} {r : Ans D} {st' : St} (h : exec fp F c st = .ok (r, st')) :
    st'.cfg = st.cfg :=
  (exec_tr (Q := fun _ => True) (K := fun _ => True) (N := 0) fp F c (fun _ _ => trivial) (fun _ _ => trivial) _ _ _ (Nat.zero_le _) h).cfg

/-- The bounds of a list of calls together. -/
def costs {D : Type} (cf : Cfg) : List (Call D) → Option Nat
  | [] => some 0
  | c :: cs => do return (← c.cost cf) + (← costs cf cs)

/-- C55, a client making these calls one after the other is bounded by the sum, whatever the
calls answer. -/
theorem C55_program {D : Type} {fp : FP D} {F : Nat} : ∀ {cs : List (Call D)} {st st' : St} {k : Nat} {r : List (Ans D)}, costs st.cfg cs = some k →
    (Prog.seq cs).run fp F st = .ok (r, st') → total st'.log ≤ total st.log + k
  | [], _, _, _, _, hk, h => by cases hk; cases h; exact Nat.le_refl _
  | c :: cs, st, st', k, r, hk, h => by
    unfold costs at hk
    cases hc : c.cost st.cfg with
    | none => rw [hc] at hk; cases hk
    | some l =>
      cases hs : costs st.cfg cs with
      | none => rw [hc, hs] at hk; cases hk
      | some m =>
        rw [hc, hs] at hk
        cases hk
        obtain ⟨a, st1, h1, h2⟩ := M.bind_inv h
        obtain ⟨b, st2, h3, h4⟩ := M.bind_inv h2
        cases h4
        have := C55_calls hc h1
        have := C55_program (st := st1) (by rw [exec_cfg h1]; exact hs) h3
        omega

/-- The bytes asked for after the calls `cs`. -/
def askedBy (cs : List (Call Unit)) : Option Nat :=
  match (Prog.seq cs).run ⟨fun _ => [], fun _ => ()⟩ 99 (St.init fun _ => 0) with
  | .ok (_, st) => some (total st.log)
  | _ => none

/-- The bounds on parsing are attained: the text `[[[` takes `72 * 3 + 72` bytes with
`zj_ParseFast` and `73 * 3 + 73` with `zj_Parse`; the handle takes 16. -/
example : askedBy [.newAlloc, .newValue 0, .parse .parseFast 0 b!"[[["] = some (16 + (72 * 3 + 72)) := by decide +kernel
example : askedBy [.newAlloc, .newValue 0, .parse .parse 0 b!"[[["] = some (16 + (73 * 3 + 73)) := by decide +kernel

/-- A client looking at every element of an array asks for 16 bytes at every step. -/
example : askedBy [.newAlloc, .newValue 0, .parse .parseFast 0 b!"[1,2]", .nav .begin 0, .nav .next 1, .nav .next 2] =
    some (16 + 72 * 3 + 16 * 2) := by decide +kernel

example : costs (D := Unit) {} [.newAlloc, .newValue 0, .parse .parseFast 0 b!"[1,2]", .nav .begin 0, .nav .next 1, .get .int 2] =
    some (16 + (72 * 5 + 72) + 16 + 16 + 8) := by decide +kernel

/-- The copy of `{"a":[1,true],"b":"xyz"}` takes 382 bytes: the handle, five nodes, six bytes
of texts; so does adding it to an array. -/
example : askedBy [.newAlloc, .newValue 0, .parse .parseFast 0 b!"{\"a\":[1,true],\"b\":\"xyz\"}", .copy 0] =
    some (16 + 5 * 72 + 382) := by decide +kernel
example : (Json.obj [(b!"a", .arr [.num b!"1", .bool true]), (b!"b", .str b!"xyz")]).held + 16 + 72 = 382 := by decide +kernel

/-- The hypotheses of `C55_print`, `C55_copy` and `C55_edit` are met by every valid document. -/
example {t : Json} (ht : t.Valid) (slack : Nat → Nat) : ∃ st P G v a, Ready st P G v (some a) 0 ∧ Shows st v t := by
  obtain ⟨st, P, G, v, a, h, _⟩ := exists_example ht slack
  exact ⟨st, P, G, v, a, h.ready, h.ready.shows h.doc⟩

end ZJ
