import Verif.TimePrint

/-
Steps: bounds for `zj_Copy`. The steps are paid for by the bytes asked for (a node is 72 bytes, a
text its length) and by the depth of the node last made: each time the loop goes up, it goes up in
the copy too.
-/

set_option linter.unusedSimpArgs false

namespace ZJ

/-- Every result of `x` from `st`. -/
def Run {α : Type} (x : TM α) (st : St) (Q : α → Nat → St → Prop) : Prop := ∀ a k st', x st = .ok ((a, k), st') → Q a k st'

section
variable {α β : Type} {st st' st0 st1 : St}

theorem Run.mono {x : TM α} {Q R : α → Nat → St → Prop} (h : Run x st Q) (hq : ∀ a k st', Q a k st' → R a k st') : Run x st R :=
  fun a k st' e => hq _ _ _ (h a k st' e)

theorem Run.bind {x : TM α} {f : α → TM β} {Q : β → Nat → St → Prop} {R : α → Nat → St → Prop} (h : Run x st R)
    (hf : ∀ a k st1, R a k st1 → Run (f a) st1 fun b n st' => Q b (k + n) st') : Run (x >>= f) st Q := by
  intro b k st' e
  obtain ⟨a, m, st1, n, h1, h2, rfl⟩ := TM.bind_inv e
  exact hf _ _ _ (h _ _ _ h1) _ _ _ h2

theorem Run.pure {a : α} {Q : α → Nat → St → Prop} (h : Q a 0 st) : Run (Pure.pure a : TM α) st Q := by
  intro b k st' e; cases e; exact h

theorem Run.steps {n : Nat} {x : M α} {Q : α → Nat → St → Prop} (h : ∀ a st', x st = .ok (a, st') → Q a n st') : Run (ZJ.steps n x) st Q := by
  intro b k st' e
  obtain ⟨rfl, h1⟩ := TM.steps_inv e
  exact h _ _ h1

theorem Run.ite {c : Prop} [Decidable c] {x y : TM α} {Q : α → Nat → St → Prop} (h1 : c → Run x st Q) (h2 : ¬ c → Run y st Q) :
    Run (if c then x else y) st Q := by
  split <;> rename_i h
  · exact h1 h
  · exact h2 h

/-- The field `Father`. -/
def fat (st : St) (a : Addr) : Option (Option Addr) := (st.nodes a).bind (·.father)

/-- From `st` to `st'`, `e` bytes were asked for, and the `Father` fields there were are untouched. -/
structure Bigger (st : St) (e : Nat) (st' : St) : Prop where
  log : total st'.log = total st.log + e
  nn : st.nn ≤ st'.nn
  fat : ∀ a, a < st.nn → fat st' a = fat st a

theorem Bigger.refl (st : St) : Bigger st 0 st := ⟨rfl, Nat.le_refl _, fun _ _ => rfl⟩

theorem Bigger.trans {e e' : Nat} (h : Bigger st e st1) (h' : Bigger st1 e' st') : Bigger st (e + e') st' :=
  ⟨by rw [h'.log, h.log]; omega, Nat.le_trans h.nn h'.nn, fun a ha => (h'.fat a (Nat.lt_of_lt_of_le ha h.nn)).trans (h.fat a ha)⟩

/-- `m` asks for nothing and touches no `Father` field. -/
def Calm (m : M α) : Prop := ∀ st r st', m st = .ok (r, st') → Bigger st 0 st'

theorem Run.calm {m : M α} {n : Nat} {f : α → TM β} {Q : β → Nat → St → Prop} {e : Nat} (hm : Calm m) (hg : Bigger st0 e st)
    (hf : ∀ a st1, Bigger st0 e st1 → Run (f a) st1 fun b k st' => Q b (n + k) st') : Run (ZJ.steps n m >>= f) st Q :=
  Run.bind (R := fun _ k st1 => k = n ∧ Bigger st0 e st1) (Run.steps fun a st1 h => ⟨rfl, hg.trans (hm _ _ _ h)⟩)
    fun a k st1 h => by obtain ⟨rfl, h1⟩ := h; exact hf a st1 h1

theorem Calm.pure {a : α} : Calm (Pure.pure a : M α) := fun _ _ _ e => by cases e; exact Bigger.refl _
theorem Calm.fail {u : UB} : Calm (ZJ.fail u : M α) := fun _ _ _ e => (nomatch e)
theorem Calm.bind {m : M α} {f : α → M β} (h : Calm m) (hf : ∀ a, Calm (f a)) : Calm (m >>= f) := fun st r st' e => by
  obtain ⟨a, st1, h1, h2⟩ := M.bind_inv e
  exact (h _ _ _ h1).trans (hf _ _ _ _ h2)
theorem Calm.fld {x : Option α} : Calm (ZJ.fld x) := by cases x; exact Calm.fail; exact Calm.pure
theorem Calm.deref {x : Option Addr} : Calm (ZJ.deref x) := by cases x; exact Calm.fail; exact Calm.pure
theorem Calm.rdNode {a : Addr} : Calm (ZJ.rdNode a) := fun st r st' e => by
  unfold ZJ.rdNode at e; split at e <;> cases e; exact Bigger.refl _
theorem Calm.rdVal {a : Addr} : Calm (ZJ.rdVal a) := fun st r st' e => by
  unfold ZJ.rdVal at e; split at e <;> cases e; exact Bigger.refl _
theorem Calm.setValN {v : Addr} {x} : Calm (ZJ.setValN v x) := fun st r st' e => by
  unfold ZJ.setValN at e; split at e <;> cases e; exact ⟨rfl, Nat.le_refl _, fun _ _ => rfl⟩
theorem Calm.readN {p : SPtr} {n : Nat} : Calm (ZJ.readN p n) := fun st r st' e => by
  unfold ZJ.readN at e
  repeat' split at e
  all_goals first | (cases e; done) | (cases e; exact Bigger.refl _)
theorem Calm.modNode {a : Addr} {g : Node → Node} (hg : ∀ n, (g n).father = n.father) : Calm (ZJ.modNode a g) := fun st r st' e => by
  unfold ZJ.modNode at e
  split at e <;> cases e
  rename_i n hn
  refine ⟨rfl, Nat.le_refl _, fun b _ => ?_⟩
  simp only [ZJ.fat, upd]
  split
  · subst_vars; rw [hn]; exact hg n
  · rfl
theorem Calm.nType {a : Addr} : Calm (ZJ.nType a) := Calm.rdNode.bind fun _ => Calm.fld
theorem Calm.nKey {a : Addr} : Calm (ZJ.nKey a) := Calm.rdNode.bind fun _ => Calm.fld
theorem Calm.nKeyLen {a : Addr} : Calm (ZJ.nKeyLen a) := Calm.rdNode.bind fun _ => Calm.fld
theorem Calm.nLen {a : Addr} : Calm (ZJ.nLen a) := Calm.rdNode.bind fun _ => Calm.fld
theorem Calm.nNext {a : Addr} : Calm (ZJ.nNext a) := Calm.rdNode.bind fun _ => Calm.fld
theorem Calm.nFather {a : Addr} : Calm (ZJ.nFather a) := Calm.rdNode.bind fun _ => Calm.fld
theorem Calm.nNode {a : Addr} : Calm (ZJ.nNode a) :=
  Calm.rdNode.bind fun _ => Calm.fld.bind fun x => by cases x; exact Calm.pure; exact Calm.fail
theorem Calm.nStr {a : Addr} : Calm (ZJ.nStr a) :=
  Calm.rdNode.bind fun _ => Calm.fld.bind fun x => by cases x; exact Calm.fail; exact Calm.pure

theorem Calm.setKey {a : Addr} {x} : Calm (ZJ.setKey a x) := Calm.modNode fun _ => rfl
theorem Calm.setKeyLen {a : Addr} {x} : Calm (ZJ.setKeyLen a x) := Calm.modNode fun _ => rfl

theorem Calm.setPrev {a : Addr} {x} : Calm (ZJ.setPrev a x) := Calm.modNode fun _ => rfl
theorem Calm.setNext {a : Addr} {x} : Calm (ZJ.setNext a x) := Calm.modNode fun _ => rfl

macro "calm" : tactic => `(tactic| first
  | exact Calm.nType | exact Calm.nKey | exact Calm.nKeyLen | exact Calm.nLen | exact Calm.nNext | exact Calm.nFather
  | exact Calm.nNode | exact Calm.nStr | exact Calm.rdVal | exact Calm.setValN | exact Calm.readN | exact Calm.deref
  | exact Calm.modNode fun _ => rfl)

theorem newNode_grown {A : Nat} {n : Addr} (h : newNode A st = .ok (n, st')) :
    Bigger st 72 st' ∧ n = st.nn ∧ st'.nn = st.nn + 1 := by
  unfold newNode at h
  obtain ⟨_, st1, h1, h2⟩ := M.bind_inv h
  unfold request at h1
  split at h1 <;> cases h1
  cases h2
  refine ⟨⟨?_, Nat.le_succ _, fun a ha => ?_⟩, rfl, rfl⟩
  · simp only [total]; omega
  · have : a < st.nn := ha
    simp only [ZJ.fat, upd]
    rw [if_neg (by omega)]

theorem newBuf_grown {A size : Nat} {d : Bytes} {n : Addr} (h : newBuf A size d st = .ok (n, st')) : Bigger st size st' := by
  unfold newBuf at h
  obtain ⟨_, st1, h1, h2⟩ := M.bind_inv h
  unfold request at h1
  split at h1 <;> cases h1
  split at h2 <;> cases h2
  refine ⟨?_, Nat.le_refl _, fun a ha => rfl⟩
  simp only [total]; omega

theorem setFather_grown {n : Addr} {x : Option Addr} {e : Nat} {u : Unit} (hg : Bigger st0 e st) (hn : st0.nn ≤ n)
    (h : setFather n x st = .ok (u, st')) : Bigger st0 e st' ∧ fat st' n = some x ∧ st'.nn = st.nn := by
  unfold setFather modNode at h
  split at h <;> cases h
  refine ⟨⟨hg.log, hg.nn, fun a ha => ?_⟩, by simp [fat, upd], rfl⟩
  have := hg.fat a ha
  simp only [fat, upd] at this ⊢
  rw [if_neg (by omega)]
  exact this

/-- `a` has `d` ancestors. -/
def Up (st : St) : Nat → Addr → Prop
  | 0, a => a < st.nn ∧ fat st a = some none
  | d + 1, a => a < st.nn ∧ ∃ f, fat st a = some (some f) ∧ Up st d f

theorem Up.lt : ∀ {d : Nat} {a : Addr}, Up st d a → a < st.nn
  | 0, _, h => h.1
  | _ + 1, _, h => h.1

theorem Up.grown {e : Nat} (hg : Bigger st e st') : ∀ {d : Nat} {a : Addr}, Up st d a → Up st' d a
  | 0, a, h => ⟨Nat.lt_of_lt_of_le h.1 hg.nn, (hg.fat a h.1).trans h.2⟩
  | d + 1, a, h => by
    obtain ⟨f, h1, h2⟩ := h.2
    exact ⟨Nat.lt_of_lt_of_le h.1 hg.nn, f, (hg.fat a h.1).trans h1, h2.grown hg⟩

theorem nFather_fat {a : Addr} {x : Option Addr} (h : nFather a st = .ok (x, st')) : fat st a = some x ∧ st' = st := by
  unfold nFather at h
  obtain ⟨n, st1, h1, h2⟩ := M.bind_inv h
  unfold rdNode at h1
  split at h1 <;> cases h1
  rename_i hn
  simp only [fat, hn, Option.bind_some]
  cases hf : n.father with
  | none => rw [hf] at h2; cases h2
  | some y => rw [hf] at h2; cases h2; exact ⟨rfl, rfl⟩

theorem Run.newNode {A n : Nat} {f : Addr → TM β} {Q : β → Nat → St → Prop} {e : Nat} (hg : Bigger st0 e st)
    (hf : ∀ a st1, Bigger st0 (e + 72) st1 → st0.nn ≤ a → a < st1.nn → Run (f a) st1 fun b k st' => Q b (n + k) st') :
    Run (ZJ.steps n (ZJ.newNode A) >>= f) st Q :=
  Run.bind (R := fun a k st1 => k = n ∧ Bigger st0 (e + 72) st1 ∧ st0.nn ≤ a ∧ a < st1.nn)
    (Run.steps fun a st1 h => by
      obtain ⟨h1, rfl, h3⟩ := newNode_grown h
      exact ⟨rfl, hg.trans h1, hg.nn, by omega⟩)
    fun a k st1 h => by obtain ⟨rfl, h1, h2, h3⟩ := h; exact hf a st1 h1 h2 h3

theorem Run.newBuf {A n size : Nat} {d : Bytes} {f : Addr → TM β} {Q : β → Nat → St → Prop} {e : Nat} (hg : Bigger st0 e st)
    (hf : ∀ a st1, Bigger st0 (e + size) st1 → Run (f a) st1 fun b k st' => Q b (n + k) st') :
    Run (ZJ.steps n (ZJ.newBuf A size d) >>= f) st Q :=
  Run.bind (R := fun a k st1 => k = n ∧ Bigger st0 (e + size) st1)
    (Run.steps fun a st1 h => ⟨rfl, hg.trans (newBuf_grown h)⟩)
    fun a k st1 h => by obtain ⟨rfl, h1⟩ := h; exact hf a st1 h1

theorem Run.setFather {n m : Nat} {x : Option Addr} {f : Unit → TM β} {Q : β → Nat → St → Prop} {e : Nat} (hg : Bigger st0 e st)
    (hn : st0.nn ≤ n) (hlt : n < st.nn)
    (hf : ∀ a st1, Bigger st0 e st1 → fat st1 n = some x → n < st1.nn → Run (f a) st1 fun b k st' => Q b (m + k) st') :
    Run (ZJ.steps m (ZJ.setFather n x) >>= f) st Q :=
  Run.bind (R := fun _ k st1 => k = m ∧ Bigger st0 e st1 ∧ fat st1 n = some x ∧ n < st1.nn)
    (Run.steps fun a st1 h => by
      obtain ⟨h1, h2, h3⟩ := setFather_grown hg hn h
      exact ⟨rfl, h1, h2, by omega⟩)
    fun a k st1 h => by obtain ⟨rfl, h1, h2, h3⟩ := h; exact hf a st1 h1 h2 h3

/-- What the steps of one node cost. -/
def Paid (st : St) (d c : Nat) (o : Option (Addr × Addr)) (k : Nat) (st' : St) : Prop :=
  ∃ e, Bigger st e st' ∧ match o with
    | none => k ≤ e + c
    | some (_, n) => k + 72 ≤ e + c + 8 ∧ Up st' (d + 1) n

theorem copyKeyT_run {A : Nat} {node des : Addr} : Run (copyKeyT A node des) st fun _ k st' => ∃ e, Bigger st e st' ∧ k ≤ e + 6 := by
  unfold copyKeyT
  refine Run.calm (by calm) (Bigger.refl _) fun o st1 g => ?_
  cases o with
  | none => exact Run.steps fun _ _ h => ⟨0, g.trans (Calm.setKey _ _ _ h), by omega⟩
  | some p =>
    refine Run.calm (by calm) g fun len st1 g => ?_
    refine Run.calm (by calm) g fun t st1 g => ?_
    refine Run.newBuf g fun b st1 g => ?_
    refine Run.calm (by calm) g fun _ st1 g => ?_
    exact Run.steps fun _ _ h => ⟨_, g.trans (Calm.setKeyLen _ _ _ h), by omega⟩

theorem copyBodyT_run {A d : Nat} {node des : Addr} {ty : JType} (hu : Up st d des) : Run (copyBodyT A node des ty) st (Paid st d 8) := by
  have cont : Run (do
      one (setLen des (← one (nLen node)))
      match ← one (nNode node) with
      | some c =>
        let n ← one (newNode A)
        one (setFather n (some des))
        one (setPrev n none)
        one (setNodeP des (some n))
        one (setEnd des (some n))
        return some (c, n)
      | none =>
        one (setNodeP des none)
        one (setEnd des none)
        return none : TM (Option (Addr × Addr))) st (Paid st d 8) := by
    refine Run.calm (by calm) (Bigger.refl _) fun o st1 g => ?_
    refine Run.calm (by calm) g fun o st1 g => ?_
    refine Run.calm (by calm) g fun o st1 g => ?_
    cases o with
    | none =>
      refine Run.calm (by calm) g fun _ st1 g => ?_
      refine Run.calm (by calm) g fun _ st1 g => ?_
      exact Run.pure ⟨0, g, by simp⟩
    | some c =>
      refine Run.newNode g fun n st1 g h1 h2 => ?_
      refine Run.setFather g h1 h2 fun _ st1 g h1 h2 => ?_
      have hu' : Up st1 (d + 1) n := ⟨h2, des, h1, hu.grown g⟩
      refine Run.calm (by calm) (Bigger.refl _) fun _ st2 g2 => ?_
      refine Run.calm (by calm) g2 fun _ st2 g2 => ?_
      refine Run.calm (by calm) g2 fun _ st2 g2 => ?_
      exact Run.pure ⟨72, g.trans g2, by omega, hu'.grown g2⟩
  have lit : Run (do
      one (setStrP des (← one (nStr node)))
      one (setLen des (← one (nLen node)))
      return none : TM (Option (Addr × Addr))) st (Paid st d 8) := by
    refine Run.calm (by calm) (Bigger.refl _) fun o st1 g => ?_
    refine Run.calm (by calm) g fun o st1 g => ?_
    refine Run.calm (by calm) g fun o st1 g => ?_
    refine Run.calm (by calm) g fun o st1 g => ?_
    exact Run.pure ⟨0, g, by simp⟩
  have txt : Run (do
      let len ← one (nLen node)
      let t ← readNT (← one (nStr node)) len
      let b ← one (newBuf A len t)
      one (setStrP des (.buf b 0))
      one (setLen des len)
      return none : TM (Option (Addr × Addr))) st (Paid st d 8) := by
    refine Run.calm (by calm) (Bigger.refl _) fun len st1 g => ?_
    refine Run.calm (by calm) g fun o st1 g => ?_
    refine Run.calm (by calm) g fun o st1 g => ?_
    refine Run.newBuf g fun b st1 g => ?_
    refine Run.calm (by calm) g fun o st1 g => ?_
    refine Run.calm (by calm) g fun o st1 g => ?_
    exact Run.pure ⟨_, g, by simp only; omega⟩
  cases ty <;> assumption

theorem copyNodeT_run {A d : Nat} {node des : Addr} (hu : Up st d des) : Run (copyNodeT A node des) st (Paid st d 16) := by
  unfold copyNodeT
  refine Run.calm (by calm) (Bigger.refl _) fun ty st1 g => ?_
  refine Run.calm (by calm) g fun _ st1 g => ?_
  refine Run.bind copyKeyT_run fun _ m st2 h => ?_
  obtain ⟨e, g2, hm⟩ := h
  refine (copyBodyT_run (hu.grown (g.trans g2))).mono fun o k st' h => ?_
  obtain ⟨e', g3, h3⟩ := h
  refine ⟨_, (g.trans g2).trans g3, ?_⟩
  match o, h3 with
  | none, h3 => simp only at h3 ⊢; omega
  | some (_, n), h3 => exact ⟨by have := h3.1; omega, h3.2⟩

def CPC.fee : CPC → Nat
  | .body => 22
  | .test => 23
  | .inner => 6

theorem copyLoopT_run {A : Nat} {vv : Addr} : ∀ (fuel : Nat) (pc : CPC) (node des : Addr) (d : Nat) (st : St), Up st d des →
    Run (copyLoopT A vv fuel pc node des) st fun _ k st' => k + total st.log ≤ total st'.log + pc.fee + 7 * d
  | 0, _, _, _, _, _, _ => fun _ _ _ e => (nomatch e)
  | fuel + 1, .body, node, des, d, st, hu => by
    unfold copyLoopT
    refine Run.bind (copyNodeT_run hu) fun o m st1 h => ?_
    obtain ⟨e, g, h⟩ := h
    have := g.log
    match o, h with
    | none, h =>
      refine (copyLoopT_run fuel .inner node des d st1 (hu.grown g)).mono fun _ k st' h' => ?_
      simp only [CPC.fee] at h' h ⊢
      omega
    | some (c, n), h =>
      refine (copyLoopT_run fuel .test c n (d + 1) st1 h.2).mono fun _ k st' h' => ?_
      have := h.1
      simp only [CPC.fee] at h' ⊢
      omega
  | fuel + 1, .test, node, des, d, st, hu => by
    unfold copyLoopT
    refine Run.calm (by calm) (Bigger.refl _) fun x st1 g => ?_
    have := g.log
    refine Run.ite (fun _ => Run.pure (by simp only [CPC.fee]; omega)) fun _ => ?_
    refine (copyLoopT_run fuel .body node des d st1 (hu.grown g)).mono fun _ k st' h' => ?_
    simp only [CPC.fee] at h' ⊢
    omega
  | fuel + 1, .inner, node, des, d, st, hu => by
    unfold copyLoopT
    intro a k st' e
    obtain ⟨x, m, st1, n, g1, e1, rfl⟩ := TM.bind_inv e
    obtain ⟨rfl, h1⟩ := TM.steps_inv g1
    by_cases hx : some node = x.n
    · rw [if_pos hx] at e1
      obtain rfl := rdVal_same h1
      match fuel, e1 with
      | 0, e1 => cases e1
      | fuel + 1, e1 =>
        unfold copyLoopT at e1
        obtain ⟨y, m, st2, n, g2, e2, rfl⟩ := TM.bind_inv e1
        obtain ⟨rfl, h3⟩ := TM.steps_inv g2
        rw [h1] at h3
        cases h3
        rw [if_pos hx] at e2
        cases e2
        simp only [CPC.fee]
        omega
    · have g := Calm.rdVal _ _ _ h1
      rw [if_neg hx] at e1
      suffices hs : Run (do
          match ← one (nNext node) with
          | some x =>
            let n ← one (newNode A)
            let f ← one (nFather des)
            one (setFather n f)
            one (setPrev n (some des))
            one (setEnd (← one (deref f)) (some n))
            one (setNext des (some n))
            copyLoopT A vv fuel .test x n
          | none =>
            let f ← one (deref (← one (nFather node)))
            one (setNext des none)
            let df ← one (deref (← one (nFather des)))
            copyLoopT A vv fuel .inner f df : TM Unit) st1 fun _ n st' =>
              1 + n + total st.log ≤ total st'.log + CPC.inner.fee + 7 * d from hs _ _ _ e1
      refine Run.calm (by calm) g fun o st1 g => ?_
      cases o with
      | some x =>
        refine Run.newNode g fun n st1 g h1 h2 => ?_
        refine Run.bind (R := fun f k st2 => k = 1 ∧ fat st1 des = some f ∧ st2 = st1)
          (Run.steps fun f st2 h => ⟨rfl, nFather_fat h⟩) fun f k st2 h => ?_
        obtain ⟨rfl, hf, rfl⟩ := h
        have hf1 := (g.fat _ hu.lt).symm.trans hf
        refine Run.setFather g h1 h2 fun _ st1 g h1 h2 => ?_
        refine Run.calm (by calm) (Bigger.refl _) fun _ st3 g3 => ?_
        cases d with
        | zero =>
          cases hf1.symm.trans hu.2
          exact fun _ _ _ e => (nomatch e)
        | succ d =>
          obtain ⟨f', h3, h4⟩ := hu.2
          cases hf1.symm.trans h3
          refine Run.calm (by calm) g3 fun _ st3 g3 => ?_
          refine Run.calm (by calm) g3 fun _ st3 g3 => ?_
          refine Run.calm (by calm) g3 fun _ st3 g3 => ?_
          have hn : Up st1 (d + 1) n := ⟨h2, f', h1, h4.grown g⟩
          refine (copyLoopT_run fuel .test x n (d + 1) st3 (hn.grown g3)).mono fun _ k st' h' => ?_
          have := (g.trans g3).log
          simp only [CPC.fee] at h' ⊢
          omega
      | none =>
        refine Run.calm (by calm) g fun _ st1 g => ?_
        refine Run.calm (by calm) g fun f st1 g => ?_
        refine Run.calm (by calm) g fun _ st1 g => ?_
        refine Run.bind (R := fun f k st2 => k = 1 ∧ fat st1 des = some f ∧ st2 = st1)
          (Run.steps fun f st2 h => ⟨rfl, nFather_fat h⟩) fun o k st2 h => ?_
        obtain ⟨rfl, hf, rfl⟩ := h
        have hf1 := (g.fat _ hu.lt).symm.trans hf
        cases d with
        | zero =>
          cases hf1.symm.trans hu.2
          exact fun _ _ _ e => (nomatch e)
        | succ d =>
          obtain ⟨f', h3, h4⟩ := hu.2
          cases hf1.symm.trans h3
          refine Run.bind (R := fun df k st3 => k = 1 ∧ df = f' ∧ st3 = st2)
            (Run.steps fun df st3 h => by cases h; exact ⟨rfl, rfl, rfl⟩) fun df k st3 h => ?_
          obtain ⟨rfl, rfl, rfl⟩ := h
          refine (copyLoopT_run fuel .inner f df d st3 (h4.grown g)).mono fun _ k st' h' => ?_
          have := g.log
          simp only [CPC.fee] at h' ⊢
          omega

theorem valueCopyFromT_run {F : Nat} {v vv : Addr} : Run (valueCopyFromT F v vv) st fun _ k st' =>
    k + total st.log ≤ total st'.log + 30 := by
  unfold valueCopyFromT
  refine Run.calm (by calm) (Bigger.refl _) fun x st1 g => ?_
  cases hx : x.n with
  | none => exact Run.pure (by have := g.log; omega)
  | some src =>
    simp only
    refine Run.calm (by calm) g fun y st1 g => ?_
    refine Run.newNode g fun n st1 g h1 h2 => ?_
    have h3 : Bigger st1 0 st1 := Bigger.refl _
    refine Run.bind (R := fun _ k st2 => k = 1 ∧ Bigger st 72 st2 ∧ n < st2.nn)
      (Run.steps fun _ st2 h => ⟨rfl, g.trans (Calm.setValN _ _ _ h), Nat.lt_of_lt_of_le h2 (Calm.setValN _ _ _ h).nn⟩) fun _ k st2 h => ?_
    obtain ⟨rfl, g, h2⟩ := h
    refine Run.bind (R := fun _ k st2 => k = 1 ∧ Bigger st 72 st2 ∧ n < st2.nn)
      (Run.steps fun _ st2 h => ⟨rfl, g.trans (Calm.setPrev _ _ _ h), Nat.lt_of_lt_of_le h2 (Calm.setPrev _ _ _ h).nn⟩) fun _ k st2 h => ?_
    obtain ⟨rfl, g, h2⟩ := h
    refine Run.bind (R := fun _ k st2 => k = 1 ∧ Bigger st 72 st2 ∧ n < st2.nn)
      (Run.steps fun _ st2 h => ⟨rfl, g.trans (Calm.setNext _ _ _ h), Nat.lt_of_lt_of_le h2 (Calm.setNext _ _ _ h).nn⟩) fun _ k st2 h => ?_
    obtain ⟨rfl, g, h2⟩ := h
    refine Run.setFather g h1 h2 fun _ st1 g h1 h2 => ?_
    refine Run.bind (copyLoopT_run F .body src n 0 st1 ⟨h2, h1⟩) fun _ k st2 h => Run.pure ?_
    have := g.log
    simp only [CPC.fee] at h
    omega

/-- The steps of `zj_Copy` are at most the bytes it asks for, and a few. -/
theorem copyT_run {F : Nat} {v : Addr} : Run (copyT F v) st fun _ k st' => k + total st.log ≤ total st'.log + 16 := by
  unfold copyT
  refine Run.calm (by calm) (Bigger.refl _) fun x st1 g => ?_
  refine Run.bind (R := fun _ k st2 => k = 1 ∧ total st2.log = total st.log + 16) (Run.steps fun r st2 h => ⟨rfl, ?_⟩) fun r k st2 h => ?_
  · have := g.log
    unfold newValue newVal at h
    obtain ⟨_, st3, h1, h2⟩ := M.bind_inv h
    unfold request at h1
    split at h1 <;> cases h1
    cases h2
    simp only [total]
    omega
  · obtain ⟨rfl, h⟩ := h
    refine Run.bind valueCopyFromT_run fun b k st3 h3 => ?_
    exact Run.ite (fun _ => Run.pure (by omega)) fun _ => Run.pure (by omega)

end

end ZJ
