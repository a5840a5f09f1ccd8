import Verif.PropDefect

/-
C10, the borrowing half, for every text and every later content of the caller's buffer: what
`zj_ParseFast` and the Fast setters store are pointers into the caller's block.
-/

namespace ZJ

section
set_option linter.unusedVariables false
variable {st st' : St} {α β : Type}

/-! ### Triples: what holds after a run that ends -/

/-- Whenever `m` is run from a state with `I` and ends, `Q` holds of its result. -/
def Ends (I : St → Prop) (m : M α) (Q : α → St → Prop) : Prop :=
  ∀ st r st', I st → m st = .ok (r, st') → Q r st'

theorem Ends.bind {I : St → Prop} {m : M α} {f : α → M β} {R : α → St → Prop} {Q : β → St → Prop}
    (h : Ends I m R) (k : ∀ a, Ends (R a) (f a) Q) : Ends I (m >>= f) Q := by
  intro st r st' hi e
  obtain ⟨a, st1, e1, e2⟩ := M.bind_inv e
  exact k a _ _ _ (h _ _ _ hi e1) e2

theorem Ends.pure {I : St → Prop} {a : α} {Q : α → St → Prop} (h : ∀ st, I st → Q a st) : Ends I (Pure.pure a : M α) Q := by
  intro st r st' hi e
  rw [M.pure_run] at e
  cases e
  exact h _ hi

theorem Ends.weaken {I I' : St → Prop} {m : M α} {Q : α → St → Prop} (h : Ends I m Q) (k : ∀ st, I' st → I st) :
    Ends I' m Q := fun _ _ _ hi e => h _ _ _ (k _ hi) e

theorem Ends.post {I : St → Prop} {m : M α} {Q Q' : α → St → Prop} (h : Ends I m Q) (k : ∀ a st, Q a st → Q' a st) :
    Ends I m Q' := fun _ _ _ hi e => k _ _ (h _ _ _ hi e)

theorem Ends.and {p : Prop} {I : St → Prop} {m : M α} {Q : α → St → Prop} (h : p → Ends I m Q) :
    Ends (fun st => p ∧ I st) m Q := fun _ _ _ hi e => h hi.1 _ _ _ hi.2 e

/-- A step that reads. -/
def Still (m : M α) : Prop := ∀ st r st', m st = .ok (r, st') → st' = st

theorem Still.ends {I : St → Prop} {m : M α} (h : Still m) : Ends I m (fun _ => I) := by
  intro st r st' hi e
  exact (h _ _ _ e).symm ▸ hi

theorem Still.bind {m : M α} {f : α → M β} (h : Still m) (k : ∀ a, Still (f a)) : Still (m >>= f) := by
  intro st r st' e
  obtain ⟨a, st1, e1, e2⟩ := M.bind_inv e
  rw [k a _ _ _ e2, h _ _ _ e1]

theorem still_lift {r : Res α} : Still (lift r) := by
  intro st a st' e
  unfold lift at e
  split at e <;> cases e
  rfl

theorem still_rdVal {v} : Still (rdVal v) := by
  intro st a st' e
  unfold rdVal at e
  split at e <;> cases e
  rfl

theorem still_rdNode {v} : Still (rdNode v) := by
  intro st a st' e
  unfold rdNode at e
  split at e <;> cases e
  rfl

theorem still_fld {o : Option α} : Still (fld o) := by
  intro st a st' e
  cases o <;> cases e
  rfl

theorem still_deref {o} : Still (deref o) := by
  intro st a st' e
  cases o <;> cases e
  rfl

theorem still_view {p} : Still (view p) := by
  intro st a st' e
  unfold view at e
  repeat' split at e
  all_goals first | cases e; rfl | cases e

theorem still_nType {a} : Still (nType a) := Still.bind still_rdNode fun _ => still_fld
theorem still_nFather {a} : Still (nFather a) := Still.bind still_rdNode fun _ => still_fld
theorem still_nLen {a} : Still (nLen a) := Still.bind still_rdNode fun _ => still_fld

/-! ### Nodes whose texts lie in one block -/

/-- The node's key, if it has one, lies in block `c` from `off` on; its successor is at `N` or later. -/
def KeyIn (c off N : Nat) (n : Node) : Prop :=
  (∀ p, n.key = some (some p) → ∃ k, p = .buf c (off + k)) ∧ (∀ b, n.next = some (some b) → N ≤ b)

/-- The node's text, if it is a string or a number, lies in block `c` from `off` on; that of a
truth value is a constant of the program; the first child is at `N` or later. -/
def TextIn (c off N : Nat) (n : Node) : Prop :=
  (∀ p, n.value = some (.str p) →
    (n.type = some .string ∨ n.type = some .number → ∃ k, p = .buf c (off + k)) ∧
    (n.type = some .bool → ∃ s, p = .lit s)) ∧
  (∀ b, n.value = some (.node (some b)) → N ≤ b)

/-- All nodes from `N` on, and `root`, refer to block `c` (except the text of `e`). -/
structure Lies (c off N v root : Nat) (e : Option Addr) (st : St) : Prop where
  nn : N ≤ st.nn
  val : ∃ A, st.vals v = some ⟨some root, A⟩
  key : ∀ a n, st.nodes a = some n → N ≤ a → KeyIn c off N n
  text : ∀ a n, st.nodes a = some n → (N ≤ a ∨ a = root) → some a ≠ e → TextIn c off N n

theorem Lies.except {c off N v root e} (h : Lies c off N v root none st) : Lies c off N v root e st :=
  { h with text := fun a n hn ha _ => h.text a n hn ha (by simp) }

variable {c off N v root : Nat} {e : Option Addr}

/-- A write to a node that keeps it in the block. -/
theorem ends_modNode {a : Addr} {f : Node → Node} (hk : ∀ n, KeyIn c off N n → KeyIn c off N (f n))
    (ht : ∀ n, some a ≠ e → TextIn c off N n → TextIn c off N (f n)) :
    Ends (Lies c off N v root e) (modNode a f) (fun _ => Lies c off N v root e) := by
  intro st r st' hi h
  unfold modNode at h
  split at h
  · next n hn =>
    cases h
    refine ⟨hi.nn, hi.val, ?_, ?_⟩
    · intro b m hm hb
      by_cases hab : b = a
      · subst hab
        simp only [upd_same] at hm
        cases hm
        exact hk _ (hi.key _ _ hn hb)
      · simp only [upd_ne _ _ hab] at hm
        exact hi.key _ _ hm hb
    · intro b m hm hb he
      by_cases hab : b = a
      · subst hab
        simp only [upd_same] at hm
        cases hm
        exact ht _ he (hi.text _ _ hn hb he)
      · simp only [upd_ne _ _ hab] at hm
        exact hi.text _ _ hm hb he
  · cases h

/-- A write that settles the text of the exempt node. -/
theorem ends_settle {a : Addr} {f : Node → Node} (hk : ∀ n, KeyIn c off N n → KeyIn c off N (f n))
    {I : St → Prop} (hI : ∀ st, I st → Lies c off N v root (some a) st)
    (ht : ∀ st n, I st → st.nodes a = some n → TextIn c off N (f n)) :
    Ends I (modNode a f) (fun _ => Lies c off N v root none) := by
  intro st r st' hi' h
  have hi := hI _ hi'
  unfold modNode at h
  split at h
  · next n hn =>
    cases h
    refine ⟨hi.nn, hi.val, ?_, ?_⟩
    · intro b m hm hb
      by_cases hab : b = a
      · subst hab
        simp only [upd_same] at hm
        cases hm
        exact hk _ (hi.key _ _ hn hb)
      · simp only [upd_ne _ _ hab] at hm
        exact hi.key _ _ hm hb
    · intro b m hm hb he
      by_cases hab : b = a
      · subst hab
        simp only [upd_same] at hm
        cases hm
        exact ht _ _ hi' hn
      · simp only [upd_ne _ _ hab] at hm
        exact hi.text _ _ hm hb (by simpa using hab)
  · cases h

theorem ends_newNode {A : Nat} :
    Ends (Lies c off N v root e) (newNode A) (fun r st => N ≤ r ∧ Lies c off N v root e st) := by
  intro st r st' hi h
  unfold newNode request at h
  obtain ⟨_, st1, h1, h2⟩ := M.bind_inv h
  have hs : st1.nn = st.nn ∧ st1.nodes = st.nodes ∧ st1.vals = st.vals := by
    split at h1 <;> cases h1
    exact ⟨rfl, rfl, rfl⟩
  obtain ⟨g1, g2, g3⟩ := hs
  cases h2
  refine ⟨by rw [g1]; exact hi.nn, by simp only [g1]; have := hi.nn; omega, by simp only [g3]; exact hi.val, ?_, ?_⟩
  · intro b m hm hb
    by_cases hab : b = st1.nn
    · subst hab
      simp only [upd_same] at hm
      cases hm
      exact ⟨by simp, by simp⟩
    · simp only [upd_ne _ _ hab, g2] at hm
      exact hi.key _ _ hm hb
  · intro b m hm hb he
    by_cases hab : b = st1.nn
    · subst hab
      simp only [upd_same] at hm
      cases hm
      exact ⟨by simp, by simp⟩
    · simp only [upd_ne _ _ hab, g2] at hm
      exact hi.text _ _ hm hb he

/-- The fields that do not matter here. -/
theorem ends_setLen {a x} : Ends (Lies c off N v root e) (setLen a x) (fun _ => Lies c off N v root e) :=
  ends_modNode (fun _ h => h) (fun _ _ h => h)
theorem ends_setKeyLen {a x} : Ends (Lies c off N v root e) (setKeyLen a x) (fun _ => Lies c off N v root e) :=
  ends_modNode (fun _ h => h) (fun _ _ h => h)
theorem ends_setEnd {a x} : Ends (Lies c off N v root e) (setEnd a x) (fun _ => Lies c off N v root e) :=
  ends_modNode (fun _ h => h) (fun _ _ h => h)
theorem ends_setPrev {a x} : Ends (Lies c off N v root e) (setPrev a x) (fun _ => Lies c off N v root e) :=
  ends_modNode (fun _ h => h) (fun _ _ h => h)
theorem ends_setFather {a x} : Ends (Lies c off N v root e) (setFather a x) (fun _ => Lies c off N v root e) :=
  ends_modNode (fun _ h => h) (fun _ _ h => h)

theorem ends_setNext {a x} (hx : ∀ b, x = some b → N ≤ b) :
    Ends (Lies c off N v root e) (setNext a x) (fun _ => Lies c off N v root e) :=
  ends_modNode (fun _ h => ⟨h.1, by rintro b hb; exact hx b (by simpa using hb)⟩) (fun _ _ h => h)

theorem ends_setKey {a x} (hx : ∀ p, x = some p → ∃ k, p = .buf c (off + k)) :
    Ends (Lies c off N v root e) (setKey a x) (fun _ => Lies c off N v root e) :=
  ends_modNode (fun _ h => ⟨by rintro b hb; exact hx b (by simpa using hb), h.2⟩) (fun _ _ h => h)

theorem ends_setType {a x} : Ends (Lies c off N v root (some a)) (setType a x) (fun _ => Lies c off N v root (some a)) :=
  ends_modNode (fun _ h => h) (fun _ h _ => absurd rfl h)

theorem ends_setNodeP {a x} (hx : ∀ b, x = some b → N ≤ b) :
    Ends (Lies c off N v root (some a)) (setNodeP a x) (fun _ => Lies c off N v root none) :=
  ends_settle (f := fun n => { n with value := some (.node x) }) (fun _ h => h) (fun _ h => h)
    (fun _ _ _ _ => ⟨(fun p hp => nomatch hp), by rintro b hb; exact hx b (by simpa using hb)⟩)

/-- `Type` and `Value.Str` are written one after the other. -/
theorem ends_scalar {a ty q} {k : Unit → M β} {Q : β → St → Prop}
    (hq : ty = .string ∨ ty = .number → ∃ k, q = .buf c (off + k)) (hq' : ty = .bool → ∃ s, q = .lit s)
    (hk : Ends (Lies c off N v root none) (k ()) Q) :
    Ends (Lies c off N v root (some a)) (setType a ty >>= fun _ => setStrP a q >>= k) Q := by
  refine Ends.bind (R := fun _ st => Lies c off N v root (some a) st ∧ ∃ n, st.nodes a = some n ∧ n.type = some ty) ?_ fun _ => ?_
  · intro st r st' hi h
    refine ⟨ends_setType _ _ _ hi h, ?_⟩
    unfold setType modNode at h
    split at h <;> cases h
    exact ⟨_, upd_same _ _ _, rfl⟩
  · refine Ends.bind (R := fun _ => Lies c off N v root none) ?_ fun _ => hk
    refine ends_settle (f := fun n => { n with value := some (.str q) }) (fun _ h => h) (fun _ h => h.1) ?_
    rintro st n ⟨_, m, hm, hty⟩ hn
    have hty' : n.type = some ty := by rw [hm] at hn; cases hn; exact hty
    refine ⟨fun p hp => ?_, by simp⟩
    cases hp
    exact ⟨fun ht => hq (by simpa [hty'] using ht), fun ht => hq' (by simpa [hty'] using ht)⟩

/-! ### The parser -/

theorem ends_openContainer {A s ty cl node i} :
    Ends (Lies c off N v root (some node)) (openContainer A s ty cl node i) (fun _ => Lies c off N v root none) := by
  unfold openContainer
  refine Ends.bind ends_setType fun _ => Ends.bind still_lift.ends fun r => ?_
  split
  refine Ends.weaken (I := Lies c off N v root (some node)) ?_ (fun _ h => h)
  split
  · exact Ends.bind (ends_setNodeP (by simp)) fun _ => Ends.bind ends_setLen fun _ => Ends.pure fun _ h => h
  · refine Ends.bind ends_newNode fun n => Ends.and fun hn => ?_
    exact Ends.bind ends_setFather fun _ => Ends.bind ends_setPrev fun _ =>
      Ends.bind (ends_setNodeP (by rintro b hb; cases hb; exact hn)) fun _ =>
      Ends.bind ends_setEnd fun _ => Ends.bind ends_setLen fun _ => Ends.pure fun _ h => h

theorem ends_switchValue {A s lim node i} :
    Ends (Lies c off N v root (some node)) (switchValue A (.buf c off) s lim node i)
      (fun r st => r ≠ .bad → Lies c off N v root none st) := by
  unfold switchValue
  refine Ends.bind still_lift.ends fun r => ?_
  split
  refine Ends.weaken (I := Lies c off N v root (some node)) ?_ (fun _ h => h)
  have done : ∀ i, Ends (Lies c off N v root none) (pure (.leaf i) : M Step) (fun r st => r ≠ .bad → Lies c off N v root none st) :=
    fun i => Ends.pure fun _ h _ => h
  have bad : ∀ I, Ends I (pure .bad : M Step) (fun r st => r ≠ .bad → Lies c off N v root none st) :=
    fun I => Ends.pure fun _ _ h => absurd rfl h
  repeat' split
  · exact ends_openContainer.post fun _ _ h _ => h
  · exact ends_openContainer.post fun _ _ h _ => h
  · refine Ends.bind still_lift.ends fun r => ?_
    dsimp only
    split
    · exact bad _
    · exact ends_scalar (by simp) (fun _ => ⟨_, rfl⟩) (Ends.bind ends_setLen fun _ => done _)
  · refine Ends.bind still_lift.ends fun r => ?_
    dsimp only
    split
    · exact bad _
    · exact ends_scalar (by simp) (fun _ => ⟨_, rfl⟩) (Ends.bind ends_setLen fun _ => done _)
  · refine Ends.bind still_lift.ends fun r => ?_
    dsimp only
    split
    · exact bad _
    · exact ends_scalar (by simp) (fun _ => ⟨_, rfl⟩) (Ends.bind ends_setLen fun _ => done _)
  · refine Ends.bind still_lift.ends fun r => ?_
    dsimp only
    split
    · exact ends_scalar (fun _ => ⟨_, rfl⟩) (by simp) (Ends.bind ends_setLen fun _ => done _)
    · refine Ends.bind still_lift.ends fun r => ?_
      split
      · exact bad _
      · exact ends_scalar (fun _ => ⟨_, rfl⟩) (by simp) (Ends.bind ends_setLen fun _ => done _)
  · refine Ends.bind still_lift.ends fun r => ?_
    cases r with
    | none => exact bad _
    | some i => exact ends_scalar (fun _ => ⟨_, rfl⟩) (by simp) (Ends.bind ends_setLen fun _ => done _)

theorem ends_parseKey {s node i} :
    Ends (Lies c off N v root none) (parseKey (.buf c off) s node i) (fun _ => Lies c off N v root none) := by
  unfold parseKey
  refine Ends.bind still_nFather.ends fun _ => Ends.bind still_deref.ends fun f => Ends.bind still_nType.ends fun ty => ?_
  split
  · refine Ends.bind still_lift.ends fun r => ?_
    dsimp only
    split
    · exact Ends.pure fun _ h => h
    · refine Ends.bind still_lift.ends fun r => ?_
      split
      · refine Ends.bind (ends_setKey fun p hp => ⟨_, (Option.some.inj hp).symm⟩) fun _ => Ends.bind ends_setKeyLen fun _ =>
          Ends.bind still_lift.ends fun r => ?_
        split <;> exact Ends.pure fun _ h => h
      · refine Ends.bind still_lift.ends fun r => ?_
        split
        · exact Ends.pure fun _ h => h
        · refine Ends.bind (ends_setKey fun p hp => ⟨_, (Option.some.inj hp).symm⟩) fun _ => Ends.bind ends_setKeyLen fun _ =>
            Ends.bind still_lift.ends fun r => ?_
          split <;> exact Ends.pure fun _ h => h
  · exact Ends.bind (ends_setKey (by simp)) fun _ => Ends.pure fun _ h => h

theorem ends_restore {I : St → Prop} {src} {R : St → Prop} : Ends I (restore v src) (fun r st => r = true → R st) := by
  have any : ∀ {γ : Type} {m : M γ} {I : St → Prop}, Ends I m (fun _ _ => True) := fun _ _ _ _ _ => trivial
  unfold restore
  cases src with
  | none => exact any.bind fun _ => Ends.pure fun _ _ h => by cases h
  | some sn =>
    exact any.bind fun _ => any.bind fun _ => any.bind fun _ => any.bind fun _ => Ends.pure fun _ _ h => by cases h

theorem ends_parseLoop {A s lim src} : ∀ fuel pc node i,
    Ends (Lies c off N v root none) (parseLoop v A (.buf c off) s lim src fuel pc node i)
      (fun r st => r = true → Lies c off N v root none st) := by
  intro fuel
  induction fuel with
  | zero =>
    intro pc node i st r st' hi h
    unfold parseLoop at h
    cases h
  | succ fuel ih =>
    intro pc node i
    cases pc with
    | head =>
      unfold parseLoop
      refine Ends.bind still_rdVal.ends fun x => ?_
      split
      · refine Ends.bind still_lift.ends fun r => ?_
        dsimp only
        split
        · exact Ends.pure fun _ h _ => h
        · exact ends_restore
      · refine Ends.bind ends_parseKey fun r => ?_
        cases r with
        | none => exact ends_restore
        | some i =>
          refine Ends.bind (ends_switchValue.weaken fun _ h => h.except) fun r => ?_
          cases r with
          | bad => exact ends_restore
          | desc n i => exact (ih _ _ _).weaken fun _ h => h (by simp)
          | leaf i => exact (ih _ _ _).weaken fun _ h => h (by simp)
    | close =>
      unfold parseLoop
      refine Ends.bind still_rdVal.ends fun x => ?_
      split
      · exact ih _ _ _
      · refine Ends.bind still_lift.ends fun r => ?_
        dsimp only
        split
        · refine Ends.bind ends_newNode fun n => Ends.and fun hn => ?_
          exact Ends.bind still_nFather.ends fun _ => Ends.bind ends_setFather fun _ => Ends.bind ends_setPrev fun _ =>
            Ends.bind still_nFather.ends fun _ => Ends.bind still_deref.ends fun _ => Ends.bind ends_setEnd fun _ =>
            Ends.bind still_nLen.ends fun _ => Ends.bind ends_setLen fun _ =>
            Ends.bind (ends_setNext (by rintro b hb; cases hb; exact hn)) fun _ => ih _ _ _
        · refine Ends.bind still_lift.ends fun r => ?_
          refine Ends.bind still_nFather.ends fun _ => Ends.bind still_deref.ends fun _ => Ends.bind still_nType.ends fun _ => ?_
          split
          · exact Ends.bind (ends_setNext (by simp)) fun _ => ih _ _ _
          · exact ends_restore

/-- After a successful `zj_ParseFast` from block `c` all texts of the new nodes are in `c`. -/
theorem parseFast_lies (hok : StOK st) {x A} (hv : st.vals v = some ⟨x, A⟩) (hx : ∀ a, x = some a → a < st.nn)
    (h : parseFast v (.buf c off) st = .ok (true, st')) : ∃ N root, Lies c off N v root none st' := by
  unfold parseFast at h
  obtain ⟨val, s0, h0, k0⟩ := M.bind_inv h
  clear h
  obtain rfl := still_rdVal _ _ _ h0
  have : val = ⟨x, A⟩ := by
    unfold rdVal at h0
    rw [hv] at h0
    cases h0
    rfl
  subst this
  obtain ⟨src, s1, h1, k1⟩ := M.bind_inv k0
  clear k0
  have fresh : ∀ {n s2}, newNode A s0 = .ok (n, s2) →
      n = s0.nn ∧ s2.nn = s0.nn + 1 ∧ s2.nodes = upd s0.nodes s0.nn (some { owner := A }) ∧ s2.vals = s0.vals := by
    intro n s2 h2
    unfold newNode request at h2
    obtain ⟨_, s4, h4, h5⟩ := M.bind_inv h2
    split at h4 <;> cases h4
    cases h5
    exact ⟨rfl, rfl, rfl, rfl⟩
  have base : ∃ N root, Lies c off N v root (some root) s1 := by
    clear k1
    cases x with
    | none =>
      dsimp only at h1
      obtain ⟨n, s2, h2, k2⟩ := M.bind_inv h1
      obtain ⟨_, s3, h3, k3⟩ := M.bind_inv k2
      clear k2 h1
      obtain ⟨rfl, e1, e2, e3⟩ := fresh h2
      unfold setValN at h3
      rw [e3, hv] at h3
      have hl : Lies c off s0.nn v s0.nn (some s0.nn) s3 := by
        cases h3
        refine ⟨by simp only [e1]; omega, ⟨A, by simp⟩, ?_, ?_⟩
        · intro a n hn ha
          simp only [e2] at hn
          by_cases hab : a = s0.nn
          · subst hab
            simp only [upd_same] at hn
            cases hn
            exact ⟨by simp, by simp⟩
          · rw [upd_ne _ _ hab, hok.nodes a ha] at hn
            cases hn
        · intro a n hn ha he
          simp only [e2] at hn
          have hab : a ≠ s0.nn := by simpa using he
          rw [upd_ne _ _ hab, hok.nodes a (by omega)] at hn
          cases hn
      refine ⟨s0.nn, s0.nn, ?_⟩
      refine (?_ : Ends (Lies c off s0.nn v s0.nn (some s0.nn)) _ (fun _ => Lies c off s0.nn v s0.nn (some s0.nn))) _ _ _ hl k3
      exact Ends.bind ends_setPrev fun _ => Ends.bind (ends_setNext (by simp)) fun _ => Ends.bind ends_setFather fun _ =>
        Ends.bind (ends_setKey (by simp)) fun _ => Ends.pure fun _ h => h
    | some a =>
      dsimp only at h1
      obtain ⟨n, s2, h2, k2⟩ := M.bind_inv h1
      obtain ⟨y, s3, h3, k3⟩ := M.bind_inv k2
      clear k2 h1
      obtain rfl := still_rdNode _ _ _ h3
      obtain ⟨_, s4, h4, k4⟩ := M.bind_inv k3
      clear k3
      cases k4
      obtain ⟨rfl, e1, e2, e3⟩ := fresh h2
      unfold modNode at h4
      split at h4
      · cases h4
        refine ⟨s0.nn + 1, a, by simp only [e1]; omega, ⟨A, by simp only [e3]; exact hv⟩, ?_, ?_⟩
        · intro b n hn hb
          have hab : b ≠ s0.nn := by omega
          simp only [upd_ne _ _ hab, e2] at hn
          rw [hok.nodes b (by omega)] at hn
          cases hn
        · intro b n hn hb he
          have hab : b ≠ a := by simpa using he
          have hab' : b ≠ s0.nn := by omega
          simp only [upd_ne _ _ hab', e2] at hn
          rw [hok.nodes b (by omega)] at hn
          cases hn
      · cases h4
  clear h1
  obtain ⟨N, root, hb⟩ := base
  refine ⟨N, root, ?_⟩
  obtain ⟨⟨s, lim⟩, s2, h2, k2⟩ := M.bind_inv k1
  clear k1
  obtain rfl := still_view _ _ _ h2
  obtain ⟨y, s3, h3, k3⟩ := M.bind_inv k2
  clear k2
  obtain rfl := still_rdVal _ _ _ h3
  obtain ⟨r, s4, h4, k4⟩ := M.bind_inv k3
  clear k3
  obtain rfl := still_deref _ _ _ h4
  have hr : r = root := by
    obtain ⟨A', hv'⟩ := hb.val
    unfold rdVal at h3
    rw [hv'] at h3
    cases h3
    cases h4
    rfl
  subst hr
  refine (Ends.bind ends_switchValue fun w => ?_ :
    Ends (Lies c off N v r (some r)) _ (fun b st => b = true → Lies c off N v r none st)) _ _ _ hb k4 rfl
  cases w with
  | bad => exact ends_restore
  | desc n i => exact (ends_parseLoop _ _ _ _).weaken fun _ h => h (by simp)
  | leaf i => exact (ends_parseLoop _ _ _ _).weaken fun _ h => h (by simp)

/-! ### What is shown when the block changes -/

/-- The `n` bytes of `d` from `o` on. -/
def slice (d : Bytes) (o n : Nat) : Bytes := (d.drop o).take n

mutual
/-- `t'` is `t` with every text (string, number, key) re-read from `d'` at a place where it
stood in `d`. -/
inductive Follows (d d' : Bytes) : Json → Json → Prop where
  | null : Follows d d' .null .null
  | bool {b} : Follows d d' (.bool b) (.bool b)
  | num {o n} : o + n ≤ d.length → Follows d d' (.num (slice d o n)) (.num (slice d' o n))
  | str {o n} : o + n ≤ d.length → Follows d d' (.str (slice d o n)) (.str (slice d' o n))
  | arr {xs ys} : FollowsElems d d' xs ys → Follows d d' (.arr xs) (.arr ys)
  | obj {xs ys} : FollowsMembers d d' xs ys → Follows d d' (.obj xs) (.obj ys)
inductive FollowsElems (d d' : Bytes) : List Json → List Json → Prop where
  | nil : FollowsElems d d' [] []
  | cons {x y xs ys} : Follows d d' x y → FollowsElems d d' xs ys → FollowsElems d d' (x :: xs) (y :: ys)
inductive FollowsMembers (d d' : Bytes) : List (Bytes × Json) → List (Bytes × Json) → Prop where
  | nil : FollowsMembers d d' [] []
  | cons {o n x y xs ys} : o + n ≤ d.length → Follows d d' x y → FollowsMembers d d' xs ys →
      FollowsMembers d d' ((slice d o n, x) :: xs) ((slice d' o n, y) :: ys)
end

/-- Documents without any text: `null`, truth values, the empty object, and arrays of such. -/
inductive Bare : Json → Prop where
  | null : Bare .null
  | bool {b} : Bare (.bool b)
  | arr {xs} : (∀ x ∈ xs, Bare x) → Bare (.arr xs)
  | obj : Bare (.obj [])

variable {bf bf' : Buf}

theorem Points.slice {k raw} (hb : st.bufs c = some bf) (h : Points st (.buf c (off + k)) raw) :
    k + raw.length ≤ (bf.data.drop off).length ∧ raw = slice (bf.data.drop off) k raw.length ∨ raw = [] := by
  obtain ⟨_, bf0, r, h1, h2⟩ := h
  rw [hb] at h1
  cases h1
  cases raw with
  | nil => exact .inr rfl
  | cons x raw =>
    refine .inl ⟨?_, ?_⟩
    · have := congrArg List.length h2
      simp only [List.length_drop, List.length_append, List.length_cons] at this ⊢
      omega
    · unfold ZJ.slice
      rw [List.drop_drop, h2]
      simp

/-- A text in the block, before and after the block changed. -/
theorem Points.reread {k raw} (hb : st.bufs c = some bf) (hl : bf.data.length ≤ bf'.data.length)
    (h : Points st (.buf c (off + k)) raw) : ∃ o n, raw = ZJ.slice (bf.data.drop off) o n ∧ o + n ≤ (bf.data.drop off).length ∧
      (ZJ.slice (bf'.data.drop off) o n).length = raw.length ∧
      Points (st.clobber c (some bf')) (.buf c (off + k)) (ZJ.slice (bf'.data.drop off) o n) := by
  have hb' : (st.clobber c (some bf')).bufs c = some bf' := upd_same _ _ _
  rcases h.slice hb with ⟨h1, h2⟩ | h2
  · refine ⟨k, raw.length, h2, h1, ?_, trivial, bf', ((bf'.data.drop off).drop k).drop raw.length, hb', ?_⟩
    · unfold ZJ.slice
      simp only [List.length_take, List.length_drop] at h1 ⊢
      omega
    · unfold ZJ.slice
      rw [List.take_append_drop, List.drop_drop]
  · subst h2
    exact ⟨0, 0, by simp [ZJ.slice], by simp, by simp [ZJ.slice], trivial, bf', bf'.data.drop (off + k), hb', by simp [ZJ.slice]⟩

variable {N v root : Nat}

theorem Lies.textAt {a n p} (hL : Lies c off N v root none st) (hn : st.nodes a = some n) (ha : N ≤ a ∨ a = root)
    (ht : n.type = some .string ∨ n.type = some .number) (hp : n.value = some (.str p)) : ∃ k, p = .buf c (off + k) :=
  ((hL.text a n hn ha (by simp)).1 p hp).1 ht

mutual
/-- The block gets other content: the document follows. -/
theorem Lies.follow (hL : Lies c off N v root none st) (hb : st.bufs c = some bf) (hl : bf.data.length ≤ bf'.data.length) :
    ∀ {a t}, MDoc st a t → N ≤ a ∨ a = root →
      ∃ t', MDoc (st.clobber c (some bf')) a t' ∧ Follows (bf.data.drop off) (bf'.data.drop off) t t'
  | _, _, .null h1 h2, ha => ⟨_, .null h1 h2, .null⟩
  | _, _, .bool (p := p) b h1 h2 h3 h4 h5, ha => by
    obtain ⟨s, rfl⟩ := ((hL.text _ _ h1 ha (by simp)).1 p h3).2 h2
    exact ⟨_, .bool b h1 h2 h3 h4 h5, .bool⟩
  | _, _, .num (p := p) (raw := raw) h1 h2 h3 h4 h5, ha => by
    obtain ⟨k, rfl⟩ := hL.textAt h1 ha (.inr h2) h3
    obtain ⟨o, n, e1, e2, e3, e4⟩ := h5.reread hb hl
    refine ⟨_, .num h1 h2 h3 (by rw [e3]; exact h4) e4, ?_⟩
    rw [e1]
    exact .num e2
  | _, _, .str (p := p) (raw := raw) h1 h2 h3 h4 h5, ha => by
    obtain ⟨k, rfl⟩ := hL.textAt h1 ha (.inl h2) h3
    obtain ⟨o, n, e1, e2, e3, e4⟩ := h5.reread hb hl
    refine ⟨_, .str h1 h2 h3 (by rw [e3]; exact h4) e4, ?_⟩
    rw [e1]
    exact .str e2
  | _, _, .arr (h := h) h1 h2 h3 h4 h5, ha => by
    obtain ⟨ys, g1, g2, g3⟩ := Lies.followKids hL hb hl h5
      (fun b hb => (hL.text _ _ h1 ha (by simp)).2 b (by rw [h3, hb]))
    exact ⟨_, .arr h1 h2 h3 (by rw [g2]; exact h4) g1, .arr g3⟩
  | _, _, .obj (h := h) h1 h2 h3 h4 h5, ha => by
    obtain ⟨ys, g1, g2, g3⟩ := Lies.followKids hL hb hl h5
      (fun b hb => (hL.text _ _ h1 ha (by simp)).2 b (by rw [h3, hb]))
    exact ⟨_, .obj h1 h2 h3 (by rw [g2]; exact h4) g1, .obj g3⟩
theorem Lies.followKids (hL : Lies c off N v root none st) (hb : st.bufs c = some bf) (hl : bf.data.length ≤ bf'.data.length) :
    ∀ {o h xs}, MKids st o h xs → (∀ b, h = some b → N ≤ b) →
      ∃ ys, MKids (st.clobber c (some bf')) o h ys ∧ ys.length = xs.length ∧
        (match o with
          | true => FollowsMembers (bf.data.drop off) (bf'.data.drop off) xs ys
          | false => FollowsElems (bf.data.drop off) (bf'.data.drop off) (xs.map (·.2)) (ys.map (·.2)))
  | true, _, _, .nil, _ => ⟨[], .nil, rfl, .nil⟩
  | false, _, _, .nil, _ => ⟨[], .nil, rfl, .nil⟩
  | true, _, _, .cons (k := k) h1 h2 h3 h4 h5, hN => by
    have hk := hN _ rfl
    have hkey := hL.key _ _ h1 hk
    obtain ⟨t', f1, f2⟩ := Lies.follow hL hb hl h4 (.inl hk)
    obtain ⟨ys, g1, g2, g3⟩ := Lies.followKids hL hb hl h5 (fun b hb => hkey.2 b (by rw [h3, hb]))
    obtain ⟨p, p1, p2, p3⟩ := h2
    obtain ⟨j, rfl⟩ := hkey.1 p p1
    obtain ⟨o, n, e1, e2, e3, e4⟩ := p3.reread hb hl
    refine ⟨_, .cons h1 ⟨_, p1, by rw [e3]; exact p2, e4⟩ h3 f1 g1, by simp [g2], ?_⟩
    rw [e1]
    exact .cons e2 f2 g3
  | false, _, _, .cons (k := k) h1 h2 h3 h4 h5, hN => by
    have hk := hN _ rfl
    have hkey := hL.key _ _ h1 hk
    obtain ⟨t', f1, f2⟩ := Lies.follow hL hb hl h4 (.inl hk)
    obtain ⟨ys, g1, g2, g3⟩ := Lies.followKids hL hb hl h5 (fun b hb => hkey.2 b (by rw [h3, hb]))
    exact ⟨_, .cons h1 h2 h3 f1 g1, by simp [g2], .cons f2 g3⟩
end

theorem Points.gone {k raw} (h : Points (st.clobber c none) (.buf c k) raw) : False := by
  obtain ⟨_, bf0, r, h1, _⟩ := h
  have : (st.clobber c none).bufs c = none := upd_same _ _ _
  rw [this] at h1
  cases h1

mutual
/-- The block is freed: what still can be read has no texts. -/
theorem Lies.gone (hL : Lies c off N v root none st) : ∀ {a t}, MDoc (st.clobber c none) a t → N ≤ a ∨ a = root →
    Bare t ∧ MDoc st a t
  | _, _, .null h1 h2, ha => ⟨.null, .null h1 h2⟩
  | _, _, .bool (p := p) b h1 h2 h3 h4 h5, ha => by
    obtain ⟨s, rfl⟩ := ((hL.text _ _ h1 ha (by simp)).1 p h3).2 h2
    exact ⟨.bool, .bool b h1 h2 h3 h4 h5⟩
  | _, _, .num (p := p) (raw := raw) h1 h2 h3 h4 h5, ha => by
    obtain ⟨k, rfl⟩ := hL.textAt h1 ha (.inr h2) h3
    exact h5.gone.elim
  | _, _, .str (p := p) (raw := raw) h1 h2 h3 h4 h5, ha => by
    obtain ⟨k, rfl⟩ := hL.textAt h1 ha (.inl h2) h3
    exact h5.gone.elim
  | _, _, .arr (h := h) (xs := xs) h1 h2 h3 h4 h5, ha => by
    obtain ⟨g1, g2⟩ := Lies.goneKids hL h5 (fun b hb => (hL.text _ _ h1 ha (by simp)).2 b (by rw [h3, hb]))
    have g2 : ∀ x ∈ xs, Bare x.2 := g2
    exact ⟨.arr (by simpa using fun x y h => g2 (y, x) h), .arr h1 h2 h3 h4 g1⟩
  | _, _, .obj (h := h) (xs := xs) h1 h2 h3 h4 h5, ha => by
    obtain ⟨g1, g2⟩ := Lies.goneKids hL h5 (fun b hb => (hL.text _ _ h1 ha (by simp)).2 b (by rw [h3, hb]))
    have g2 : xs = [] := g2
    subst g2
    exact ⟨.obj, .obj h1 h2 h3 h4 g1⟩
theorem Lies.goneKids (hL : Lies c off N v root none st) :
    ∀ {o h xs}, MKids (st.clobber c none) o h xs → (∀ b, h = some b → N ≤ b) →
      MKids st o h xs ∧
        (match o with
          | true => xs = []
          | false => ∀ x ∈ xs, Bare x.2)
  | true, _, _, .nil, _ => ⟨.nil, rfl⟩
  | false, _, _, .nil, _ => ⟨.nil, by simp⟩
  | true, _, _, .cons (k := k) h1 h2 h3 h4 h5, hN => by
    have hkey := hL.key _ _ h1 (hN _ rfl)
    obtain ⟨p, p1, p2, p3⟩ := h2
    obtain ⟨j, rfl⟩ := hkey.1 p p1
    exact p3.gone.elim
  | false, _, _, .cons (k := k) (xs := xs) h1 h2 h3 h4 h5, hN => by
    have hk := hN _ rfl
    have hkey := hL.key _ _ h1 hk
    obtain ⟨f1, f2⟩ := Lies.gone hL h4 (.inl hk)
    obtain ⟨g1, g2⟩ := Lies.goneKids hL h5 (fun b hb => hkey.2 b (by rw [h3, hb]))
    refine ⟨.cons h1 h2 h3 f2 g1, ?_⟩
    have g2 : ∀ x ∈ xs, Bare x.2 := g2
    simpa using ⟨f1, fun a b hab => g2 (a, b) hab⟩
end

mutual
/-- A document without texts does not need the block. -/
theorem Lies.stays (hL : Lies c off N v root none st) : ∀ {a t}, MDoc st a t → N ≤ a ∨ a = root → Bare t →
    MDoc (st.clobber c none) a t
  | _, _, .null h1 h2, ha, _ => .null h1 h2
  | _, _, .bool (p := p) b h1 h2 h3 h4 h5, ha, _ => by
    obtain ⟨s, rfl⟩ := ((hL.text _ _ h1 ha (by simp)).1 p h3).2 h2
    exact .bool b h1 h2 h3 h4 h5
  | _, _, .num (p := p) (raw := raw) h1 h2 h3 h4 h5, ha, hb => by cases hb
  | _, _, .str (p := p) (raw := raw) h1 h2 h3 h4 h5, ha, hb => by cases hb
  | _, _, .arr (h := h) (xs := xs) h1 h2 h3 h4 h5, ha, hb => by
    have hx : ∀ x ∈ xs, Bare x.2 := by
      cases hb with
      | arr hb => intro x hx; exact hb _ (List.mem_map_of_mem hx)
    exact .arr h1 h2 h3 h4 (Lies.staysKids hL h5 (fun b hb => (hL.text _ _ h1 ha (by simp)).2 b (by rw [h3, hb]))
      (by simp) hx)
  | _, _, .obj (h := h) (xs := xs) h1 h2 h3 h4 h5, ha, hb => by
    cases hb
    cases h5
    exact .obj h1 h2 h3 h4 .nil
theorem Lies.staysKids (hL : Lies c off N v root none st) :
    ∀ {o h xs}, MKids st o h xs → (∀ b, h = some b → N ≤ b) → o ≠ true → (∀ x ∈ xs, Bare x.2) →
      MKids (st.clobber c none) o h xs
  | _, _, _, .nil, _, _, _ => .nil
  | true, _, _, .cons .., _, ho, _ => absurd rfl ho
  | false, _, _, .cons (k := k) h1 h2 h3 h4 h5, hN, ho, hb => by
    have hk := hN _ rfl
    have hkey := hL.key _ _ h1 hk
    exact .cons h1 h2 h3 (Lies.stays hL h4 (.inl hk) (hb _ (List.mem_cons_self ..)))
      (Lies.staysKids hL h5 (fun b hb => hkey.2 b (by rw [h3, hb])) ho (fun x hx => hb _ (by simp [hx])))
end

section
variable {P : Addr → Prop} {G : Graph} {x : Option Addr} {A : Nat} {b : Bytes} {t : Json}

theorem Ready.lies (h : Ready st P G v x A) (e : parseFast v (.buf c off) st = .ok (true, st')) :
    ∃ N root, Lies c off N v root none st' := by
  refine parseFast_lies h.inv.ok h.val (fun a ha => ?_) e
  have := h.node a ha
  exact Nat.lt_of_not_le fun hle => by
    obtain ⟨gn, hg⟩ := Option.isSome_iff_exists.1 this
    obtain ⟨n, hn, _⟩ := h.inv.rep a gn hg
    rw [h.inv.ok.nodes a hle] at hn
    cases hn

theorem Ready.parseFast_text (h : Ready st P G v x A) (hs : CStr st (.buf c off) b) (hl : Lent st (.buf c off))
    (ht : JText t b) : ∃ st' bf r, parseFast v (.buf c off) st = .ok (true, st') ∧ Shows st' v t ∧
      st'.bufs c = some bf ∧ bf.data.drop off = b ++ 0 :: r := by
  have h' := h.lend hl
  obtain ⟨st', gv, g, h1, h2, h3, h4, _, _, h7, _⟩ := parseFast_accept h'.inv h.val h.node hs inP_pinned ht
  obtain ⟨h0, r, lim, hv⟩ := hs
  unfold view at hv
  dsimp only at hv
  split at hv
  · next bf hbf =>
    have hd : bf.data.drop off = b ++ 0 :: r := by
      simp only [Res.ok.injEq, Prod.mk.injEq] at hv
      exact hv.1.1
    refine ⟨st', bf, r, h1, h2.shows h4 h3, ?_, hd⟩
    rw [h7.bufs c (h.inv.ok.buf_lt hbf) (by simp), hbf]
  · cases hv

/-- C10, `zj_ParseFast` borrows: whatever the caller later writes into the block, the value is
the document whose texts are re-read from the block. (`b` is the text that was parsed, from `off`
on in block `c`; `bf'` is the block as the caller leaves it.) -/
theorem C10_parseFast_follows (h : Ready st P G v x A) (hs : CStr st (.buf c off) b) (hl : Lent st (.buf c off))
    (ht : JText t b) :
    ∃ st' bf r, parseFast v (.buf c off) st = .ok (true, st') ∧ Shows st' v t ∧ st'.bufs c = some bf ∧
      bf.data.drop off = b ++ 0 :: r ∧ ∀ bf', bf.data.length ≤ bf'.data.length →
        ∃ t', Shows (st'.clobber c (some bf')) v t' ∧ Follows (bf.data.drop off) (bf'.data.drop off) t t' := by
  obtain ⟨st', bf, r, e, hsh, hbf, hd⟩ := h.parseFast_text hs hl ht
  refine ⟨st', bf, r, e, hsh, hbf, hd, fun bf' hle => ?_⟩
  obtain ⟨N, root, hL⟩ := h.lies e
  obtain ⟨A', hv'⟩ := hL.val
  obtain ⟨a, A2, h1, h2⟩ := hsh
  rw [hv'] at h1
  cases h1
  obtain ⟨t', f1, f2⟩ := hL.follow hbf hle h2 (.inr rfl)
  exact ⟨t', ⟨_, _, hv', f1⟩, f2⟩

/-- C10, `zj_ParseFast` borrows: when the caller frees the block, the value is readable exactly if
the document has no text at all. -/
theorem C10_parseFast_freed (h : Ready st P G v x A) (hs : CStr st (.buf c off) b) (hl : Lent st (.buf c off))
    (ht : JText t b) :
    ∃ st', parseFast v (.buf c off) st = .ok (true, st') ∧ Shows st' v t ∧
      ((∃ t', Shows (st'.clobber c none) v t') ↔ Bare t) := by
  obtain ⟨st', _, _, e, hsh, _⟩ := h.parseFast_text hs hl ht
  refine ⟨st', e, hsh, ?_⟩
  obtain ⟨N, root, hL⟩ := h.lies e
  obtain ⟨A', hv'⟩ := hL.val
  constructor
  · rintro ⟨t', a, A2, h1, h2⟩
    rw [show (st'.clobber c none).vals v = st'.vals v from rfl, hv'] at h1
    cases h1
    obtain ⟨f1, f2⟩ := hL.gone h2 (.inr rfl)
    exact hsh.det ⟨_, _, hv', f2⟩ ▸ f1
  · intro hb
    obtain ⟨a, A2, h1, h2⟩ := hsh
    rw [hv'] at h1
    cases h1
    exact ⟨t, _, _, hv', hL.stays h2 (.inr rfl) hb⟩

/-! ### The Fast setters -/

/-- The handle is on a node of type `ty` whose text is the `len` bytes behind `p`. -/
def HasText (st : St) (v : Addr) (ty : JType) (p : SPtr) (len : Nat) : Prop :=
  ∃ a A n, st.vals v = some ⟨some a, A⟩ ∧ st.nodes a = some n ∧ n.type = some ty ∧ n.value = some (.str p) ∧
    n.len = some len

/-- The handle is on a node whose key is the `len` bytes behind `p`. -/
def HasKey (st : St) (v : Addr) (p : SPtr) (len : Nat) : Prop :=
  ∃ a A n, st.vals v = some ⟨some a, A⟩ ∧ st.nodes a = some n ∧ n.key = some (some p) ∧ n.keyLen = some len

/-- A write to a node leaves the handles alone. -/
theorem ends_valN {v a b : Addr} {f : Node → Node} : Ends (fun st => ∃ A, st.vals v = some ⟨some a, A⟩) (modNode b f)
    (fun _ st => ∃ A, st.vals v = some ⟨some a, A⟩) := by
  intro st r st' hi e
  unfold modNode at e
  split at e <;> cases e
  exact hi

theorem ends_setValN {I : St → Prop} {v n : Addr} : Ends I (setValN v (some n)) (fun _ st => ∃ A, st.vals v = some ⟨some n, A⟩) := by
  intro st r st' _ e
  unfold setValN at e
  split at e <;> cases e
  exact ⟨_, upd_same _ _ _⟩

theorem ends_ensureNode {v} : Ends (fun _ => True) (ensureNode v) (fun a st => ∃ A, st.vals v = some ⟨some a, A⟩) := by
  intro st r st' _ e
  unfold ensureNode at e
  obtain ⟨val, s0, h0, k0⟩ := M.bind_inv e
  obtain rfl := still_rdVal _ _ _ h0
  have hv : s0.vals v = some val := by
    unfold rdVal at h0
    split at h0 <;> cases h0
    assumption
  cases hn : val.n with
  | some a =>
    rw [hn] at k0
    cases k0
    exact ⟨val.a, by rw [hv, ← hn]⟩
  | none =>
    rw [hn] at k0
    refine (?_ : Ends (fun _ => True) _ (fun a st => ∃ A, st.vals v = some ⟨some a, A⟩)) _ _ _ trivial k0
    exact Ends.bind (R := fun _ _ => True) (fun _ _ _ _ _ => trivial) fun n => Ends.bind ends_setValN fun _ =>
      Ends.bind ends_valN fun _ => Ends.bind ends_valN fun _ => Ends.bind ends_valN fun _ => Ends.bind ends_valN fun _ =>
      Ends.pure fun _ h => h

theorem ends_setScalar {v ty p len} : Ends (fun _ => True) (setScalar v ty p len) (fun _ st => HasText st v ty p len) := by
  unfold setScalar
  refine Ends.bind ends_ensureNode fun a => ?_
  intro st r st' ⟨A, hv⟩ e
  obtain ⟨_, s1, h1, k1⟩ := M.bind_inv e
  obtain ⟨_, s2, h2, k2⟩ := M.bind_inv k1
  clear k1 e
  unfold setType modNode at h1
  split at h1
  · next n hn =>
    cases h1
    unfold setStrP modNode at h2
    simp only [upd_same] at h2
    cases h2
    unfold setLen modNode at k2
    simp only [upd_same] at k2
    cases k2
    exact ⟨a, A, _, hv, upd_same _ _ _, rfl, rfl, rfl⟩
  · cases h1

theorem ends_storeKey {v a p len} : Ends (fun st => ∃ A, st.vals v = some ⟨some a, A⟩)
    (setKey a (some p) >>= fun _ => setKeyLen a len >>= fun _ => Pure.pure true : M Bool) (fun _ st => HasKey st v p len) := by
  intro st r st' ⟨A, hv⟩ e
  obtain ⟨_, s1, h1, k1⟩ := M.bind_inv e
  obtain ⟨_, s2, h2, k2⟩ := M.bind_inv k1
  clear k1 e
  unfold setKey modNode at h1
  split at h1
  · next n hn =>
    cases h1
    unfold setKeyLen modNode at h2
    simp only [upd_same] at h2
    cases h2
    cases k2
    exact ⟨a, A, _, hv, upd_same _ _ _, rfl, rfl⟩
  · cases h1

theorem ends_keyTarget {v} : Ends (fun _ => True) (keyTarget v) (fun o st => ∀ a, o = some a → ∃ A, st.vals v = some ⟨some a, A⟩) := by
  intro st r st' _ e
  unfold keyTarget at e
  obtain ⟨val, s0, h0, k0⟩ := M.bind_inv e
  obtain rfl := still_rdVal _ _ _ h0
  have hv : s0.vals v = some val := by
    unfold rdVal at h0
    split at h0 <;> cases h0
    assumption
  cases hn : val.n with
  | some a =>
    rw [hn] at k0
    obtain ⟨f, s1, h1, k1⟩ := M.bind_inv k0
    obtain rfl := still_nFather _ _ _ h1
    rintro a' rfl
    have hgoal : a' = a ∧ st' = s1 := by
      cases f with
      | none => cases k1; exact ⟨rfl, rfl⟩
      | some f =>
        obtain ⟨ty, s2, h2, k2⟩ := M.bind_inv k1
        obtain rfl := still_nType _ _ _ h2
        split at k2 <;> cases k2
        exact ⟨rfl, rfl⟩
    obtain ⟨rfl, rfl⟩ := hgoal
    exact ⟨val.a, by rw [hv, ← hn]⟩
  | none =>
    rw [hn] at k0
    refine (?_ : Ends (fun _ => True) _ (fun o st => ∀ a, o = some a → ∃ A, st.vals v = some ⟨some a, A⟩)) _ _ _ trivial k0
    exact Ends.bind (R := fun _ _ => True) (fun _ _ _ _ _ => trivial) fun n => Ends.bind ends_setValN fun _ =>
      Ends.bind ends_valN fun _ => Ends.bind ends_valN fun _ => Ends.bind ends_valN fun _ => Ends.bind ends_valN fun _ =>
      Ends.bind ends_valN fun _ => Ends.bind ends_valN fun _ => Ends.pure fun _ h a ha => by cases ha; exact h

theorem any_ends {I : St → Prop} {m : M α} : Ends I m (fun _ _ => True) := fun _ _ _ _ _ => trivial

/-- Each of the Fast setters of texts stores the caller's pointer. -/
theorem setFast_hasText {v p n} :
    (setStrFast v p st = .ok (true, st') → ∃ len, HasText st' v .string p len) ∧
    (setNumStrFast v p st = .ok (true, st') → ∃ len, HasText st' v .number p len) ∧
    (setStrLenFast v p n st = .ok (true, st') → HasText st' v .string p n) ∧
    (setNumStrLenFast v p n st = .ok (true, st') → HasText st' v .number p n) := by
  refine ⟨fun e => ?_, fun e => ?_, fun e => ?_, fun e => ?_⟩
  · refine (?_ : Ends (fun _ => True) (setStrFast v p) (fun r st => r = true → ∃ len, HasText st v .string p len)) _ _ _ trivial e rfl
    unfold setStrFast
    refine any_ends.bind fun o => ?_
    cases o with
    | none => exact Ends.pure fun _ _ h => by cases h
    | some len => exact Ends.bind ends_setScalar fun _ => Ends.pure fun _ h _ => ⟨_, h⟩
  · refine (?_ : Ends (fun _ => True) (setNumStrFast v p) (fun r st => r = true → ∃ len, HasText st v .number p len)) _ _ _ trivial e rfl
    unfold setNumStrFast
    refine any_ends.bind fun o => ?_
    cases o with
    | none => exact Ends.pure fun _ _ h => by cases h
    | some len => exact Ends.bind ends_setScalar fun _ => Ends.pure fun _ h _ => ⟨_, h⟩
  · refine (?_ : Ends (fun _ => True) (setStrLenFast v p n) (fun r st => r = true → HasText st v .string p n)) _ _ _ trivial e rfl
    unfold setStrLenFast
    refine any_ends.bind fun _ => any_ends.bind fun o => ?_
    split
    · exact Ends.pure fun _ _ h => by cases h
    · exact Ends.bind ends_setScalar fun _ => Ends.pure fun _ h _ => h
  · refine (?_ : Ends (fun _ => True) (setNumStrLenFast v p n) (fun r st => r = true → HasText st v .number p n)) _ _ _ trivial e rfl
    unfold setNumStrLenFast
    refine any_ends.bind fun _ => any_ends.bind fun o => ?_
    split
    · exact Ends.pure fun _ _ h => by cases h
    · exact Ends.bind ends_setScalar fun _ => Ends.pure fun _ h _ => h

theorem setKeyFast_hasKey {v p n} :
    (setKeyFast v p st = .ok (true, st') → ∃ len, HasKey st' v p len) ∧
    (setKeyLenFast v p n st = .ok (true, st') → HasKey st' v p n) := by
  refine ⟨fun e => ?_, fun e => ?_⟩
  · refine (?_ : Ends (fun _ => True) (setKeyFast v p) (fun r st => r = true → ∃ len, HasKey st v p len)) _ _ _ trivial e rfl
    unfold setKeyFast
    refine any_ends.bind fun o => ?_
    cases o with
    | none => exact Ends.pure fun _ _ h => by cases h
    | some len =>
      refine Ends.bind ends_keyTarget fun o => ?_
      cases o with
      | none => exact Ends.pure fun _ _ h => by cases h
      | some a => exact (ends_storeKey.post fun _ _ h _ => ⟨_, h⟩).weaken fun _ h => h a rfl
  · refine (?_ : Ends (fun _ => True) (setKeyLenFast v p n) (fun r st => r = true → HasKey st v p n)) _ _ _ trivial e rfl
    unfold setKeyLenFast
    refine any_ends.bind fun _ => any_ends.bind fun o => ?_
    split
    · exact Ends.pure fun _ _ h => by cases h
    · refine Ends.bind ends_keyTarget fun o => ?_
      cases o with
      | none => exact Ends.pure fun _ _ h => by cases h
      | some a =>
        exact Ends.weaken (I := fun st => ∃ A, st.vals v = some ⟨some a, A⟩) (ends_storeKey.post fun _ _ h _ => h) fun _ h => h a rfl

theorem HasText.follows {ty : JType} {len : Nat} (h : HasText st v ty (.buf c off) len)
    (ht : ty = .string ∨ ty = .number) {bf' : Buf} (hl : off + len ≤ bf'.data.length) :
    Shows (st.clobber c (some bf')) v (if ty = .string then .str (slice bf'.data off len) else .num (slice bf'.data off len)) := by
  obtain ⟨a, A, n, h1, h2, h3, h4, h5⟩ := h
  have hlen : (slice bf'.data off len).length = len := by
    unfold slice
    simp only [List.length_take, List.length_drop]
    omega
  have hp : Points (st.clobber c (some bf')) (.buf c off) (slice bf'.data off len) :=
    ⟨trivial, bf', (bf'.data.drop off).drop len, upd_same _ _ _, by unfold slice; rw [List.take_append_drop]⟩
  rcases ht with rfl | rfl
  · exact ⟨a, A, h1, .str h2 h3 h4 (by rw [hlen]; exact h5) hp⟩
  · exact ⟨a, A, h1, .num h2 h3 h4 (by rw [hlen]; exact h5) hp⟩

theorem HasText.freed {ty : JType} {len : Nat} (h : HasText st v ty (.buf c off) len)
    (ht : ty = .string ∨ ty = .number) : ¬ Shows (st.clobber c none) v t := by
  rintro ⟨a, A, g1, g2⟩
  obtain ⟨a', A', n, h1, h2, h3, h4, h5⟩ := h
  rw [show (st.clobber c none).vals v = st.vals v from rfl, h1] at g1
  cases g1
  have key : ∀ {n'}, (st.clobber c none).nodes a = some n' → n' = n := fun h => Option.some.inj (h.symm.trans h2)
  cases g2 with
  | null e1 e2 => rcases ht with rfl | rfl <;> (cases key e1; rw [h3] at e2; cases e2)
  | bool b e1 e2 => rcases ht with rfl | rfl <;> (cases key e1; rw [h3] at e2; cases e2)
  | num e1 e2 e3 e4 e5 => cases key e1; rw [h4] at e3; cases e3; exact e5.gone
  | str e1 e2 e3 e4 e5 => cases key e1; rw [h4] at e3; cases e3; exact e5.gone
  | arr e1 e2 => rcases ht with rfl | rfl <;> (cases key e1; rw [h3] at e2; cases e2)
  | obj e1 e2 => rcases ht with rfl | rfl <;> (cases key e1; rw [h3] at e2; cases e2)

/-- C10, the Fast setters of strings borrow: the value is whatever the caller's block holds at
that place, and nothing once the block is freed. -/
theorem C10_setStrFast_follows (h : Ready st P G v x A) (hs : CStr st (.buf c off) b) (hl : Lent st (.buf c off))
    (hb : IsSetBody b) :
    ∃ st', setStrFast v (.buf c off) st = .ok (true, st') ∧ Shows st' v (.str b) ∧
      (∀ bf', off + b.length ≤ bf'.data.length →
        Shows (st'.clobber c (some bf')) v (.str (slice bf'.data off b.length))) ∧
      ∀ t, ¬ Shows (st'.clobber c none) v t := by
  rcases C15_setStrFast h hs hl with ⟨_, st', e, hB⟩ | ⟨hn, _⟩
  · obtain ⟨len, hT⟩ := (setFast_hasText (n := 0)).1 e
    have hlen : len = b.length := by
      obtain ⟨a, A, g1, g2⟩ := hB.shows
      obtain ⟨a', A', n, h1, h2, h3, h4, h5⟩ := hT
      rw [h1] at g1
      cases g1
      cases g2 with
      | str e1 e2 e3 e4 => rw [h2] at e1; cases e1; rw [h5] at e4; exact Option.some.inj e4
    subst hlen
    exact ⟨st', e, hB.shows, fun bf' hle => by simpa using hT.follows (.inl rfl) hle, fun t => hT.freed (.inl rfl)⟩
  · exact absurd hb hn

/-- C10, the Fast setters of numbers borrow. -/
theorem C10_setNumStrFast_follows (h : Ready st P G v x A) (hs : CStr st (.buf c off) b) (hl : Lent st (.buf c off))
    (hb : IsNum b) :
    ∃ st', setNumStrFast v (.buf c off) st = .ok (true, st') ∧ Shows st' v (.num b) ∧
      (∀ bf', off + b.length ≤ bf'.data.length →
        Shows (st'.clobber c (some bf')) v (.num (slice bf'.data off b.length))) ∧
      ∀ t, ¬ Shows (st'.clobber c none) v t := by
  rcases C16_setNumStrFast h hs hl with ⟨_, st', e, hB⟩ | ⟨hn, _⟩
  · obtain ⟨len, hT⟩ := (setFast_hasText (n := 0)).2.1 e
    have hlen : len = b.length := by
      obtain ⟨a, A, g1, g2⟩ := hB.shows
      obtain ⟨a', A', n, h1, h2, h3, h4, h5⟩ := hT
      rw [h1] at g1
      cases g1
      cases g2 with
      | num e1 e2 e3 e4 => rw [h2] at e1; cases e1; rw [h5] at e4; exact Option.some.inj e4
    subst hlen
    exact ⟨st', e, hB.shows, fun bf' hle => by simpa using hT.follows (.inr rfl) hle, fun t => hT.freed (.inr rfl)⟩
  · exact absurd hb hn

/-- C10, the Fast setters that are given a length borrow as well (whatever the state they are
called in). -/
theorem C10_setLenFast_follows {n : Nat} :
    (setStrLenFast v (.buf c off) n st = .ok (true, st') →
      (∀ bf', off + n ≤ bf'.data.length → Shows (st'.clobber c (some bf')) v (.str (slice bf'.data off n))) ∧
      ∀ t, ¬ Shows (st'.clobber c none) v t) ∧
    (setNumStrLenFast v (.buf c off) n st = .ok (true, st') →
      (∀ bf', off + n ≤ bf'.data.length → Shows (st'.clobber c (some bf')) v (.num (slice bf'.data off n))) ∧
      ∀ t, ¬ Shows (st'.clobber c none) v t) := by
  refine ⟨fun e => ?_, fun e => ?_⟩
  · have hT := setFast_hasText.2.2.1 e
    exact ⟨fun bf' hle => by simpa using hT.follows (.inl rfl) hle, fun t => hT.freed (.inl rfl)⟩
  · have hT := setFast_hasText.2.2.2 e
    exact ⟨fun bf' hle => by simpa using hT.follows (.inr rfl) hle, fun t => hT.freed (.inr rfl)⟩

theorem HasKey.getKeyFast {p : SPtr} {len : Nat} (h : HasKey st v p len) : getKeyFast v st = .ok (some (p, len), st) := by
  obtain ⟨a, A, n, h1, h2, h3, h4⟩ := h
  unfold ZJ.getKeyFast
  refine (M.bind_ok (a := ⟨some a, A⟩) (st' := st) (by unfold rdVal; rw [h1])).trans ?_
  have hr : rdNode a st = .ok (n, st) := by unfold rdNode; rw [h2]
  refine (M.bind_ok (a := some p) (st' := st) (by unfold nKey; rw [M.bind_ok hr, h3]; rfl)).trans ?_
  refine (M.bind_ok (a := len) (st' := st) (by unfold nKeyLen; rw [M.bind_ok hr, h4]; rfl)).trans ?_
  rfl

theorem HasKey.getKey_freed {len : Nat} (h : HasKey st v (.buf c off) len) : getKey v (st.clobber c none) = .ub .wild := by
  obtain ⟨a, A, n, h1, h2, h3, h4⟩ := h
  unfold getKey
  refine (M.bind_ok (a := ⟨some a, A⟩) (st' := st.clobber c none) (by
    unfold rdVal; rw [show (st.clobber c none).vals v = st.vals v from rfl, h1])).trans ?_
  have hr : rdNode a (st.clobber c none) = .ok (n, st.clobber c none) := by
    unfold rdNode; rw [show (st.clobber c none).nodes a = st.nodes a from rfl, h2]
  refine (M.bind_ok (a := some (.buf c off)) (st' := st.clobber c none) (by unfold nKey; rw [M.bind_ok hr, h3]; rfl)).trans ?_
  refine (M.bind_ok (a := len) (st' := st.clobber c none) (by unfold nKeyLen; rw [M.bind_ok hr, h4]; rfl)).trans ?_
  refine M.bind_ub ?_
  unfold copyOut
  refine M.bind_ub ?_
  unfold readN
  dsimp only
  rw [show (st.clobber c none).bufs c = none from upd_same _ _ _]

/-- C10, the Fast setters of keys borrow: the pointer handed out by `zj_GetKeyFast` is the
caller's own, whatever the block holds by then, and `zj_GetKey` reads freed memory once the block
is freed. -/
theorem C10_setKeyFast_follows {n : Nat} :
    (setKeyFast v (.buf c off) st = .ok (true, st') →
      (∃ len, ∀ o, getKeyFast v (st'.clobber c o) = .ok (some (.buf c off, len), st'.clobber c o)) ∧
      getKey v (st'.clobber c none) = .ub .wild) ∧
    (setKeyLenFast v (.buf c off) n st = .ok (true, st') →
      (∀ o, getKeyFast v (st'.clobber c o) = .ok (some (.buf c off, n), st'.clobber c o)) ∧
      getKey v (st'.clobber c none) = .ub .wild) := by
  refine ⟨fun e => ?_, fun e => ?_⟩
  · obtain ⟨len, hK⟩ := (setKeyFast_hasKey (n := 0)).1 e
    exact ⟨⟨len, fun o => HasKey.getKeyFast (st := st'.clobber c o) hK⟩, hK.getKey_freed⟩
  · have hK := setKeyFast_hasKey.2 e
    exact ⟨fun o => HasKey.getKeyFast (st := st'.clobber c o) hK, hK.getKey_freed⟩

/-- The situation of `C10_parseFast_follows` and `C10_parseFast_freed`: a text in a block of the
caller, with a string in it, so that nothing can be read once the block is freed. -/
example : ∃ st P G v x A c b t, Ready st P G v x A ∧ CStr st (.buf c 0) b ∧ Lent st (.buf c 0) ∧ JText t b ∧ ¬ Bare t ∧
    ∃ st', parseFast v (.buf c 0) st = .ok (true, st') ∧ ¬ ∃ t', Shows (st'.clobber c none) v t' := by
  have hr := (start_ready fun _ => 0).addC (d := b!"[\"a\",null]" ++ [0])
  have ht : JText (.arr [.str b!"a", .null]) b!"[\"a\",null]" :=
    print_text (t := .arr [.str b!"a", .null]) (by
      simp only [Json.Valid, Json.ValidElems, and_true]
      exact .plain (by decide) (by decide) (by decide) .nil)
  have hb : ¬ Bare (.arr [.str b!"a", .null]) := by
    intro h
    cases h with
    | arr h => cases h (.str b!"a") (by simp)
  have hl : Lent _ (.buf 0 0) := addC_lent (d := b!"[\"a\",null]" ++ [0]) (start_ready fun _ => 0).inv.ok
  have hs := addC_cstr (st := start fun _ => 0) (b := b!"[\"a\",null]") (by decide)
  obtain ⟨st', e, _, hi⟩ := C10_parseFast_freed hr hs hl ht
  exact ⟨_, _, _, _, _, _, 0, _, _, hr, hs, hl, ht, hb, st', e, fun h => hb (hi.1 h)⟩

/-- `[1]` overwritten by `[2]` can be followed only to `[2]`. -/
example (t' : Json) (h : Follows (b!"[1]" ++ [0]) (b!"[2]" ++ [0]) (.arr [.num b!"1"]) t') : t' = .arr [.num b!"2"] := by
  cases h with
  | arr h =>
    generalize hx : Json.num b!"1" = x at h
    cases h with
    | cons h1 h2 =>
      cases h2
      cases h1 with
      | num hl =>
        rename_i o n
        simp only [Json.num.injEq] at hx
        have hn : n = 1 := by
          have := congrArg List.length hx
          simp only [slice, List.length_take, List.length_drop, List.length_cons, List.length_nil, List.length_append] at this hl
          omega
        subst hn
        have ho : o ≤ 3 := by simp only [List.length_cons, List.length_nil, List.length_append] at hl; omega
        rcases o with _ | _ | _ | _ | o
        · simp [slice] at hx
        · rfl
        · simp [slice] at hx
        · simp [slice] at hx
        · omega
      | _ => cases hx

/-- A proper state for the Fast setters. -/
example : ∃ st P G v x A c, Ready st P G v x A ∧ CStr st (.buf c 0) b!"12" ∧ Lent st (.buf c 0) ∧ IsSetBody b!"12" ∧
    (∃ st', setNumStrFast v (.buf c 0) st = .ok (true, st')) ∧ (∃ st', setStrLenFast v (.buf c 0) 1 st = .ok (true, st')) ∧
    (∃ st', setKeyFast v (.buf c 0) st = .ok (true, st')) ∧ ∃ st', setKeyLenFast v (.buf c 0) 1 st = .ok (true, st') := by
  have hr := (start_ready fun _ => 0).addC (d := b!"12" ++ [0])
  refine ⟨_, _, _, 0, none, 0, 0, hr, addC_cstr (by decide), addC_lent (start_ready fun _ => 0).inv.ok,
    .plain (by decide) (by decide) (by decide) (.plain (by decide) (by decide) (by decide) .nil), ?_, ?_, ?_, ?_⟩
  · exact Res.out_ok (by decide +kernel)
  · exact Res.out_ok (by decide +kernel)
  · exact Res.out_ok (by decide +kernel)
  · exact Res.out_ok (by decide +kernel)

end

end

end ZJ
