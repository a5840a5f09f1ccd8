import Verif.TimeCopy

/-
Steps: bounds for the calls of the API that do not depend on the document.
-/

set_option linter.unusedSimpArgs false
set_option linter.unusedVariables false

namespace ZJ

/-- `x` takes at most `c` steps and `w` for each byte it asks for. -/
def Fee {α : Type} (w c : Nat) (x : TM α) : Prop :=
  ∀ st a k st', x st = .ok ((a, k), st') → k + w * total st.log ≤ w * total st'.log + c

/-- Memory is asked for, not given back. -/
def Grows {α : Type} (m : M α) : Prop := ∀ st a st', m st = .ok (a, st') → total st.log ≤ total st'.log

section
variable {α β : Type} {w c c' n : Nat}

theorem Fee.mono {x : TM α} (h : Fee w c x) (hc : c ≤ c') : Fee w c' x := fun st a k st' e => by
  have := h st a k st' e; omega

theorem Fee.pure {a : α} : Fee w c (Pure.pure a : TM α) := fun st b k st' e => by cases e; omega

theorem Fee.bind {x : TM α} {f : α → TM β} (h : Fee w c x) (hf : ∀ a, Fee w c' (f a)) (hn : c + c' ≤ n) : Fee w n (x >>= f) := by
  intro st b k st' e
  obtain ⟨a, m, st1, n, h1, h2, rfl⟩ := TM.bind_inv e
  have := h _ _ _ _ h1
  have := hf _ _ _ _ _ h2
  omega

theorem Fee.ite {p : Prop} [Decidable p] {x y : TM α} (h1 : Fee w c x) (h2 : Fee w c y) : Fee w c (if p then x else y) := by
  split <;> assumption

theorem Fee.steps {m : M α} (hm : Grows m) (hn : n ≤ c) : Fee w c (ZJ.steps n m) := fun st a k st' e => by
  obtain ⟨rfl, h1⟩ := TM.steps_inv e
  have := Nat.mul_le_mul_left w (hm _ _ _ h1)
  omega

theorem Fee.steps0 {m : M α} (hn : n ≤ c) : Fee 0 c (ZJ.steps n m) := fun st a k st' e => by
  obtain ⟨rfl, h1⟩ := TM.steps_inv e
  omega

theorem Fee.one_bind {m : M α} {f : α → TM β} (hm : Grows m) (hf : ∀ a, Fee w c (f a)) : Fee w (c + 1) (one m >>= f) :=
  Fee.bind (Fee.steps hm (Nat.le_refl _)) hf (by omega)
theorem Fee.one_bind0 {m : M α} {f : α → TM β} (hf : ∀ a, Fee 0 c (f a)) : Fee 0 (c + 1) (one m >>= f) :=
  Fee.bind (Fee.steps0 (Nat.le_refl _)) hf (by omega)

theorem Free.grows {m : M α} (h : Free m) : Grows m := fun st a st' e => by rw [(h _ _ _ e).1]; omega
theorem newVal_grows {A : Nat} {x} : Grows (newVal A x) := fun st a st' e => by
  unfold newVal at e
  obtain ⟨_, st3, h1, h2⟩ := M.bind_inv e
  unfold request at h1
  split at h1 <;> cases h1
  cases h2
  simp only [total]; omega
theorem newBuf_grows {A n : Nat} {d} : Grows (newBuf A n d) := fun st a st' e => by rw [(newBuf_grown e).log]; omega
theorem newNode_grows {A : Nat} : Grows (newNode A) := fun st a st' e => by rw [(newNode_grown e).1.log]; omega

/-- Bounds that are constants. -/
macro "tally" : tactic => `(tactic| repeat' first
  | exact Fee.pure
  | exact Fee.steps0 (by omega)
  | (refine Fee.one_bind0 fun _ => ?_)
  | split)

theorem fee_getType {v : Addr} : Fee 0 2 (getTypeT v) := by unfold getTypeT; tally
theorem fee_sizeOf {v : Addr} : Fee 0 3 (sizeOfT v) := by unfold sizeOfT; tally
theorem fee_isNull {v : Addr} : Fee 0 2 (isNullT v) := by unfold isNullT; tally
theorem fee_strFast {v : Addr} : Fee 0 4 (getStrFastT v) := by unfold getStrFastT; tally
theorem fee_numFast {v : Addr} : Fee 0 4 (getNumFastT v) := by unfold getNumFastT; tally
theorem fee_keyFast {v : Addr} : Fee 0 3 (getKeyFastT v) := by unfold getKeyFastT; tally
theorem fee_begin {v : Addr} : Fee 0 4 (begin_T v) := by unfold begin_T; tally
theorem fee_next {v : Addr} : Fee 0 3 (next_T v) := by unfold next_T; tally
theorem fee_ensure {v : Addr} : Fee 0 7 (ensureNodeT v) := by unfold ensureNodeT; tally
theorem fee_scalar {v : Addr} {t p len} : Fee 0 10 (setScalarT v t p len) := by
  unfold setScalarT; refine Fee.bind (c' := 3) fee_ensure (fun _ => ?_) (by omega); tally
theorem fee_null {v : Addr} : Fee 0 10 (setNullT v) := fee_scalar
theorem fee_bool {v : Addr} {b : Bool} : Fee 0 10 (setBoolT v b) := Fee.ite fee_scalar fee_scalar
theorem fee_array {v : Addr} : Fee 0 10 (setArrayT v) := by
  unfold setArrayT; refine Fee.bind (c' := 3) fee_ensure (fun _ => ?_) (by omega); tally
theorem fee_obj {v : Addr} : Fee 0 10 (setObjT v) := by
  unfold setObjT; refine Fee.bind (c' := 3) fee_ensure (fun _ => ?_) (by omega); tally
theorem fee_scalar_ret {v : Addr} {t p len} {a : α} : Fee 0 10 (do setScalarT v t p len; return a) :=
  Fee.bind (c' := 0) fee_scalar (fun _ => Fee.pure) (by omega)
theorem fee_int {v : Addr} {i : Int} : Fee 0 75 (setIntT v i) := by
  unfold setIntT
  exact Fee.one_bind0 fun _ => Fee.bind (Fee.steps0 (Nat.le_refl 64)) (fun _ => fee_scalar_ret) (by omega)
theorem fee_long {v : Addr} {i : Int} : Fee 0 75 (setLongT v i) := by
  unfold setLongT
  exact Fee.one_bind0 fun _ => Fee.bind (Fee.steps0 (Nat.le_refl 64)) (fun _ => fee_scalar_ret) (by omega)
theorem fee_longLong {v : Addr} {i : Int} : Fee 0 75 (setLongLongT v i) := by
  unfold setLongLongT
  exact Fee.one_bind0 fun _ => Fee.bind (Fee.steps0 (Nat.le_refl 64)) (fun _ => fee_scalar_ret) (by omega)
theorem fee_double {D} {fp : FP D} {v : Addr} {d : D} : Fee 0 75 (setDoubleT fp v d) := by
  unfold setDoubleT
  exact Fee.one_bind0 fun _ => Fee.bind (Fee.steps0 (Nat.le_refl 64)) (fun _ => fee_scalar_ret) (by omega)

theorem fee_getBool {v : Addr} : Fee 0 5 (getBoolT v) := by
  unfold getBoolT
  refine Fee.one_bind0 fun x => ?_
  split
  · exact Fee.pure
  refine Fee.one_bind0 fun x => ?_
  split
  · exact Fee.pure
  refine Fee.one_bind0 fun x => ?_
  refine Fee.one_bind0 fun x => ?_
  refine Fee.bind (c := 1) (c' := 0) (fun st a k st' e => ?_) (fun _ => Fee.pure) (by omega)
  obtain ⟨h, rfl⟩ := TM.liftT_inv e
  have := (rdT_le _ _ _ _ h).2
  omega

theorem fee_unlinkPrev {f a : Addr} : Fee 0 4 (unlinkPrevT f a) := by unfold unlinkPrevT; tally
theorem fee_unlinkNext {f a : Addr} : Fee 0 4 (unlinkNextT f a) := by unfold unlinkNextT; tally
theorem fee_move {v : Addr} : Fee 0 15 (moveT v) := by
  unfold moveT
  refine Fee.one_bind0 fun x => ?_
  split
  · exact Fee.pure
  refine Fee.one_bind0 fun x => ?_
  split
  · exact Fee.pure
  refine Fee.bind (c' := 9) fee_unlinkPrev (fun _ => ?_) (by omega)
  refine Fee.bind (c' := 5) fee_unlinkNext (fun _ => ?_) (by omega)
  tally
theorem fee_valN {v : Addr} : Fee 0 2 (valNT v) := by unfold valNT; tally
theorem fee_attach {f x : Addr} : Fee 0 8 (attachT f x) := by unfold attachT; tally

theorem fee_objAddFast {v w : Addr} : Fee 0 29 (objAddFastT v w) := by
  unfold objAddFastT
  refine Fee.one_bind0 fun x => ?_
  split
  · exact Fee.pure
  refine Fee.one_bind0 fun x => ?_
  split
  · exact Fee.pure
  refine Fee.one_bind0 fun x => ?_
  split
  · exact Fee.pure
  refine Fee.one_bind0 fun x => ?_
  split
  · exact Fee.pure
  refine Fee.bind (c' := 10) fee_move (fun _ => ?_) (by omega)
  split
  · exact Fee.pure
  refine Fee.one_bind0 fun x => ?_
  refine Fee.bind (c' := 1) fee_attach (fun _ => ?_) (by omega)
  tally

theorem fee_arrayAddFast {v w : Addr} : Fee 0 30 (arrayAddFastT v w) := by
  unfold arrayAddFastT
  refine Fee.one_bind0 fun x => ?_
  split
  · exact Fee.pure
  refine Fee.one_bind0 fun x => ?_
  split
  · exact Fee.pure
  refine Fee.bind (c' := 13) fee_move (fun _ => ?_) (by omega)
  split
  · exact Fee.pure
  refine Fee.bind (c' := 11) fee_valN (fun _ => ?_) (by omega)
  refine Fee.one_bind0 fun x => ?_
  refine Fee.one_bind0 fun x => ?_
  refine Fee.bind (c' := 1) fee_attach (fun _ => ?_) (by omega)
  tally

theorem fee_arrayGetLoop {index : Nat} : ∀ (F i : Nat) (o : Option Addr), i ≤ index → Fee 0 (index - i) (arrayGetLoopT index F i o)
  | 0, _, _, _ => fun _ _ _ _ e => (nomatch e)
  | _ + 1, _, none, _ => Fee.pure
  | F + 1, i, some n, h => by
    unfold arrayGetLoopT
    split
    · exact Fee.pure
    · exact (Fee.one_bind0 fun o => fee_arrayGetLoop F (i + 1) o (by omega)).mono (by omega)

theorem fee_arrayGet {F index : Nat} {v : Addr} : Fee 0 (index + 4) (arrayGetT F v index) := by
  unfold arrayGetT
  refine Fee.one_bind0 fun x => ?_
  split
  · exact Fee.pure
  refine Fee.one_bind0 fun x => ?_
  split
  · exact Fee.pure
  refine Fee.one_bind0 fun x => ?_
  refine Fee.bind (c' := 1) (fee_arrayGetLoop F 0 x (by omega)) (fun _ => ?_) (by omega)
  tally

theorem fee_arrayDel {F index : Nat} {v : Addr} : Fee 0 (index + 19) (arrayDelT F v index) := by
  unfold arrayDelT
  refine Fee.bind (c' := 15) fee_arrayGet (fun _ => ?_) (by omega)
  split
  · exact Fee.pure
  · exact fee_move

/-! ### Copies -/

theorem fee_copy {F : Nat} {v : Addr} : Fee 1 16 (copyT F v) := fun st a k st' e => by
  have := copyT_run _ _ _ e; omega

macro "taps" : tactic => `(tactic| first
  | exact newVal_grows | exact newBuf_grows | exact newNode_grows
  | exact Free.grows Free.nType | exact Free.grows Free.nKey | exact Free.grows Free.nKeyLen | exact Free.grows Free.nLen
  | exact Free.grows Free.nNext | exact Free.grows Free.nPrev | exact Free.grows Free.nFather | exact Free.grows Free.nEnd
  | exact Free.grows Free.nNode | exact Free.grows Free.nStr | exact Free.grows Free.rdVal | exact Free.grows Free.setValN
  | exact Free.grows Free.readN | exact Free.grows Free.deref | exact Free.grows Free.rdNode | exact Free.grows Free.modNode
  | exact Free.grows Free.view)
macro "tallies" : tactic => `(tactic| repeat' first
  | exact Fee.pure
  | exact Fee.steps (by taps) (by omega)
  | (refine Fee.one_bind (by taps) fun _ => ?_)
  | split)

theorem fee_valN' {v : Addr} : Fee w 2 (valNT v) := by unfold valNT; tallies
theorem fee_attach' {f x : Addr} : Fee w 8 (attachT f x) := by unfold attachT; tallies

theorem fee_objAdd {F : Nat} {v u : Addr} : Fee 1 31 (objAddT F v u) := by
  unfold objAddT
  refine Fee.one_bind (by taps) fun x => ?_
  split
  · exact Fee.pure
  refine Fee.one_bind (by taps) fun x => ?_
  split
  · exact Fee.pure
  refine Fee.one_bind (by taps) fun x => ?_
  split
  · exact Fee.pure
  refine Fee.one_bind (by taps) fun x => ?_
  split
  · exact Fee.pure
  refine Fee.bind (c' := 11) fee_copy (fun _ => ?_) (by omega)
  split
  · exact Fee.pure
  refine Fee.bind (c' := 9) fee_valN' (fun _ => ?_) (by omega)
  refine Fee.one_bind (by taps) fun x => ?_
  exact Fee.bind (c' := 0) fee_attach' (fun _ => Fee.pure) (by omega)

theorem fee_arrayAdd {F : Nat} {v u : Addr} : Fee 1 30 (arrayAddT F v u) := by
  unfold arrayAddT
  refine Fee.one_bind (by taps) fun x => ?_
  split
  · exact Fee.pure
  refine Fee.one_bind (by taps) fun x => ?_
  split
  · exact Fee.pure
  refine Fee.bind (c' := 12) fee_copy (fun _ => ?_) (by omega)
  split
  · exact Fee.pure
  refine Fee.bind (c' := 10) fee_valN' (fun _ => ?_) (by omega)
  refine Fee.one_bind (by taps) fun x => ?_
  refine Fee.one_bind (by taps) fun x => ?_
  exact Fee.bind (c' := 0) fee_attach' (fun _ => Fee.pure) (by omega)

theorem fee_copyOut {A len : Nat} {p : SPtr} : Fee 1 0 (copyOutT A p len) := by
  intro st a k st' e
  unfold copyOutT at e
  obtain ⟨t, m, st1, n, h1, e2, rfl⟩ := TM.bind_inv e
  obtain ⟨b, m', st2, n', h2, e3, rfl⟩ := TM.bind_inv e2
  cases e3
  obtain ⟨rfl, h3⟩ := TM.steps_inv h1
  obtain ⟨rfl, h4⟩ := TM.steps_inv h2
  have := (newBuf_grown h4).log
  have := (Free.readN _ _ _ h3).1
  omega

theorem fee_getStr {v : Addr} : Fee 1 4 (getStrT v) := by
  unfold getStrT
  refine Fee.one_bind (by taps) fun x => ?_
  split
  · exact Fee.pure
  refine Fee.one_bind (by taps) fun x => ?_
  split
  · exact Fee.pure
  refine Fee.one_bind (by taps) fun x => ?_
  refine Fee.one_bind (by taps) fun x => ?_
  exact Fee.bind (c' := 0) fee_copyOut (fun _ => Fee.pure) (by omega)
theorem fee_getNumStr {v : Addr} : Fee 1 4 (getNumStrT v) := by
  unfold getNumStrT
  refine Fee.one_bind (by taps) fun x => ?_
  split
  · exact Fee.pure
  refine Fee.one_bind (by taps) fun x => ?_
  split
  · exact Fee.pure
  refine Fee.one_bind (by taps) fun x => ?_
  refine Fee.one_bind (by taps) fun x => ?_
  exact Fee.bind (c' := 0) fee_copyOut (fun _ => Fee.pure) (by omega)
theorem fee_getKey {v : Addr} : Fee 1 3 (getKeyT v) := by
  unfold getKeyT
  refine Fee.one_bind (by taps) fun x => ?_
  split
  · exact Fee.pure
  refine Fee.one_bind (by taps) fun x => ?_
  split
  · exact Fee.pure
  refine Fee.one_bind (by taps) fun x => ?_
  exact Fee.bind (c' := 0) fee_copyOut (fun _ => Fee.pure) (by omega)

end

end ZJ
