import Verif.PropHist

/-
Every call of the API changes the memory only by a few kinds of steps (`Hop`): it creates
an object with memory from an allocator, changes the fields of an existing object, creates or
releases an allocator, or handles memory of the caller. What every such step preserves, every
client preserves, whatever it does.
-/

set_option linter.unusedSimpArgs false
set_option linter.unusedVariables false

namespace ZJ

/-- The state after the new string of `zj_newString` (24 bytes of struct, `n` of data). -/
def St.addS (st : St) (A n : Nat) : St :=
  { st with bufs := upd st.bufs st.nb (some ⟨some A, n, st.slack st.nb, []⟩), nb := st.nb + 1, log := .alloc A (24 + n) :: st.log }

/-- One step. Allocators with `Q` may be released, the caller makes texts with `K`, and the
blocks below `N` stay as they are. -/
inductive Hop (Q : Nat → Prop) (K : Bytes → Prop) (N : Nat) (st : St) : St → Prop
  | request {A n} : st.allocs A = true → Hop Q K N st { st with log := .alloc A n :: st.log }
  | node {A} : st.allocs A = true → Hop Q K N st (st.addN A)
  | val {A o} : st.allocs A = true → Hop Q K N st (st.addV A o)
  | buf {A n d} : st.allocs A = true → d.length ≤ n → Hop Q K N st (st.addB A n d)
  | str {A n} : st.allocs A = true → Hop Q K N st (st.addS A n)
  | setNode {a n n'} : st.nodes a = some n → n'.owner = n.owner → Hop Q K N st (st.setN a n')
  | setVal {v x x'} : st.vals v = some x → x'.a = x.a → Hop Q K N st (st.setV v x')
  | setBuf {b x d} : (N ≤ b ∨ ∃ z, st.cache = some z ∧ z.data = b) → st.bufs b = some x → d.length ≤ x.size → Hop Q K N st { st with bufs := upd st.bufs b (some { x with data := d }) }
  | cache {z} : ((N ≤ z.data ∧ z.data < st.nb) ∨ ∃ z0, st.cache = some z0 ∧ z0.data = z.data) → Hop Q K N st { st with cache := some z }
  | new : Hop Q K N st { st with allocs := upd st.allocs st.na true, na := st.na + 1, log := .new st.na :: st.log }
  | release {R} : Q R → st.allocs R = true → Hop Q K N st (st.without R)
  | caller {d} : K d → Hop Q K N st (st.addC d)
  | free {b} : N ≤ b → b < st.nb → (∀ x, st.bufs b = some x → x.owner = none) → Hop Q K N st (st.clobber b none)

inductive Hops (Q : Nat → Prop) (K : Bytes → Prop) (N : Nat) : St → St → Prop
  | refl {st} : Hops Q K N st st
  | tail {st st1 st2} : Hops Q K N st st1 → Hop Q K N st1 st2 → Hops Q K N st st2

variable {Q : Nat → Prop} {K : Bytes → Prop} {N : Nat}

theorem Hop.one {st st' : St} (h : Hop Q K N st st') : Hops Q K N st st' := .tail .refl h

theorem Hops.trans {a b c : St} (h : Hops Q K N a b) (h' : Hops Q K N b c) : Hops Q K N a c := by
  induction h' with
  | refl => exact h
  | tail _ h2 ih => exact .tail ih h2

/-- What every step preserves is preserved. -/
theorem Hops.keeps {I : St → Prop} (hI : ∀ a b, Hop Q K N a b → I a → I b) {st st' : St} (h : Hops Q K N st st') (h0 : I st) : I st' := by
  induction h with
  | refl => exact h0
  | tail _ h2 ih => exact hI _ _ h2 ih

theorem Hop.nb {st st' : St} (h : Hop Q K N st st') : st.nb ≤ st'.nb := by
  cases h <;> first | exact Nat.le_refl _ | exact Nat.le_succ _

theorem Hops.nb {st st' : St} (h : Hops Q K N st st') : st.nb ≤ st'.nb := by
  induction h with
  | refl => exact Nat.le_refl _
  | tail _ h2 ih => exact Nat.le_trans ih h2.nb

/-- The settings stay. -/
theorem Hops.cfg {st st' : St} (h : Hops Q K N st st') : st'.cfg = st.cfg :=
  h.keeps (I := fun x => x.cfg = st.cfg) (fun a b h e => by cases h <;> exact e) rfl

/-- When `m` succeeds it has only made such steps. -/
def Traces (Q : Nat → Prop) (K : Bytes → Prop) (N : Nat) {α : Type} (m : M α) : Prop := ∀ st r st', N ≤ st.nb → m st = .ok (r, st') → Hops Q K N st st'

section
variable {α β : Type}

theorem tr_pure (a : α) : Traces Q K N (pure a : M α) := fun st r st' hN h => by cases h; exact .refl

theorem tr_lift (r : Res α) : Traces Q K N (lift r) := fun st x st' hN h => by
  unfold ZJ.lift at h
  split at h
  · cases h; exact .refl
  · cases h
  · cases h

theorem tr_fail (u : UB) : Traces Q K N (fail u : M α) := fun st r st' hN h => by cases h

theorem tr_bind {m : M α} {f : α → M β} (h : Traces Q K N m) (hf : ∀ a, Traces Q K N (f a)) : Traces Q K N (m >>= f) := fun st r st' hN e => by
  rw [M.bind_run] at e
  split at e
  · rename_i a st1 e1
    exact (h _ _ _ hN e1).trans (hf a _ _ _ (Nat.le_trans hN (h _ _ _ hN e1).nb) e)
  · cases e
  · cases e

theorem tr_ite {c : Prop} [Decidable c] {a b : M α} (h : Traces Q K N a) (h' : Traces Q K N b) : Traces Q K N (if c then a else b) := by
  split <;> assumption

/-- A computation that does not change the state. -/
theorem tr_look {m : M α} (h : ∀ st r st', m st = .ok (r, st') → st' = st) : Traces Q K N m := fun st r st' hN e => by
  rw [h _ _ _ e]; exact .refl

end

/-- The functions known so far. -/
syntax "trc1" : tactic
macro_rules | `(tactic| trc1) => `(tactic| assumption)
macro_rules | `(tactic| trc1) => `(tactic| with_reducible exact tr_pure _)
macro_rules | `(tactic| trc1) => `(tactic| with_reducible exact tr_lift _)
macro_rules | `(tactic| trc1) => `(tactic| with_reducible exact tr_fail _)
macro_rules | `(tactic| trc1) => `(tactic| with_reducible apply tr_ite)
macro_rules | `(tactic| trc1) => `(tactic| with_reducible refine tr_bind ?_ fun _ => ?_)

/-- Goes through the text of a function. -/
macro "trc" : tactic => `(tactic| repeat' (first | trc1 | split))

/-! ### Memory -/

section
variable {α : Type}

theorem tr_fld (x : Option α) : Traces Q K N (fld x) := by
  cases x
  · exact tr_fail _
  · exact tr_pure _

theorem tr_deref (x : Option Addr) : Traces Q K N (deref x) := by
  cases x
  · exact tr_fail _
  · exact tr_pure _

theorem tr_rdNode (a : Addr) : Traces Q K N (rdNode a) := tr_look fun st r st' e => by
  unfold ZJ.rdNode at e
  split at e <;> cases e
  rfl

theorem tr_rdVal (a : Addr) : Traces Q K N (rdVal a) := tr_look fun st r st' e => by
  unfold ZJ.rdVal at e
  split at e <;> cases e
  rfl

theorem tr_view (p : SPtr) : Traces Q K N (view p) := tr_look fun st r st' e => by
  unfold ZJ.view at e
  repeat' split at e
  all_goals cases e
  all_goals rfl

theorem tr_readN (p : SPtr) (n : Nat) : Traces Q K N (readN p n) := tr_look fun st r st' e => by
  unfold ZJ.readN at e
  repeat' split at e
  all_goals cases e
  all_goals rfl

theorem tr_touchStr (z : ZStr) : Traces Q K N (touchStr z) := tr_look fun st r st' e => by
  unfold ZJ.touchStr at e
  split at e <;> cases e
  rfl

theorem tr_modNode {a : Addr} {f : Node → Node} (h : ∀ n, (f n).owner = n.owner) : Traces Q K N (modNode a f) := fun st r st' hN e => by
  unfold ZJ.modNode at e
  split at e <;> cases e
  rename_i n hn
  exact (Hop.setNode hn (h n)).one

theorem tr_setValN (v : Addr) (o : Option Addr) : Traces Q K N (setValN v o) := fun st r st' hN e => by
  unfold ZJ.setValN at e
  split at e <;> cases e
  rename_i x hx
  exact (Hop.setVal (x' := { x with n := o }) hx rfl).one

theorem tr_request (A n : Nat) : Traces Q K N (request A n) := fun st r st' hN e => by
  unfold ZJ.request at e
  split at e <;> cases e
  exact (Hop.request ‹_›).one

theorem tr_newNode (A : Nat) : Traces Q K N (newNode A) := fun st r st' hN e => by
  by_cases h : st.allocs A = true
  · rw [newNode_run h] at e; cases e; exact (Hop.node h).one
  · exact absurd ((M.bind_ub (u := .wild) (by simp [request, h])).symm.trans e) (by simp)

theorem tr_newVal (A : Nat) (o : Option Addr) : Traces Q K N (newVal A o) := fun st r st' hN e => by
  by_cases h : st.allocs A = true
  · rw [newVal_run h] at e; cases e; exact (Hop.val h).one
  · exact absurd ((M.bind_ub (u := .wild) (by simp [request, h])).symm.trans e) (by simp)

theorem tr_newBuf (A n : Nat) (d : Bytes) : Traces Q K N (newBuf A n d) := fun st r st' hN e => by
  by_cases h : st.allocs A = true
  · have e := (M.bind_ok (request_run h)).symm.trans e
    dsimp only at e
    split at e <;> cases e
    exact (Hop.buf h ‹_›).one
  · exact absurd ((M.bind_ub (u := .wild) (by simp [request, h])).symm.trans e) (by simp)

theorem tr_newString (A n : Nat) : Traces Q K N (newString A n) := fun st r st' hN e => by
  by_cases h : st.allocs A = true
  · have e := (M.bind_ok (request_run h)).symm.trans e
    cases e
    exact (Hop.str h).one
  · exact absurd ((M.bind_ub (u := .wild) (by simp [request, h])).symm.trans e) (by simp)

theorem tr_newAllocator : Traces Q K N newAllocator := fun st r st' hN e => by
  cases e; exact Hop.new.one

theorem tr_releaseAllocator (A : Nat) (hA : Q A) : Traces Q K N (releaseAllocator A) := fun st r st' hN e => by
  by_cases h : st.allocs A = true
  · rw [release_run h] at e; cases e; exact (Hop.release hA h).one
  · simp [ZJ.releaseAllocator, h] at e
end

macro_rules | `(tactic| trc1) => `(tactic| with_reducible exact tr_fld _)
macro_rules | `(tactic| trc1) => `(tactic| with_reducible exact tr_deref _)
macro_rules | `(tactic| trc1) => `(tactic| with_reducible exact tr_rdNode _)
macro_rules | `(tactic| trc1) => `(tactic| with_reducible exact tr_rdVal _)
macro_rules | `(tactic| trc1) => `(tactic| with_reducible exact tr_view _)
macro_rules | `(tactic| trc1) => `(tactic| with_reducible exact tr_readN _ _)
macro_rules | `(tactic| trc1) => `(tactic| with_reducible exact tr_touchStr _)
macro_rules | `(tactic| trc1) => `(tactic| with_reducible exact tr_modNode fun _ => rfl)
macro_rules | `(tactic| trc1) => `(tactic| with_reducible exact tr_setValN _ _)
macro_rules | `(tactic| trc1) => `(tactic| with_reducible exact tr_request _ _)
macro_rules | `(tactic| trc1) => `(tactic| with_reducible exact tr_newNode _)
macro_rules | `(tactic| trc1) => `(tactic| with_reducible exact tr_newVal _ _)
macro_rules | `(tactic| trc1) => `(tactic| with_reducible exact tr_newBuf _ _ _)
macro_rules | `(tactic| trc1) => `(tactic| with_reducible exact tr_newString _ _)
macro_rules | `(tactic| trc1) => `(tactic| with_reducible exact tr_newAllocator)
macro_rules | `(tactic| trc1) => `(tactic| with_reducible exact tr_releaseAllocator _ (by assumption))

/-! ### The functions of the library -/

theorem nType_tr (a : Addr)  : Traces Q K N (ZJ.nType a) := by
  unfold ZJ.nType; trc
macro_rules | `(tactic| trc1) => `(tactic| with_reducible exact nType_tr _)

theorem nKey_tr (a : Addr)  : Traces Q K N (ZJ.nKey a) := by
  unfold ZJ.nKey; trc
macro_rules | `(tactic| trc1) => `(tactic| with_reducible exact nKey_tr _)

theorem nKeyLen_tr (a : Addr)  : Traces Q K N (ZJ.nKeyLen a) := by
  unfold ZJ.nKeyLen; trc
macro_rules | `(tactic| trc1) => `(tactic| with_reducible exact nKeyLen_tr _)

theorem nLen_tr (a : Addr)  : Traces Q K N (ZJ.nLen a) := by
  unfold ZJ.nLen; trc
macro_rules | `(tactic| trc1) => `(tactic| with_reducible exact nLen_tr _)

theorem nNext_tr (a : Addr)  : Traces Q K N (ZJ.nNext a) := by
  unfold ZJ.nNext; trc
macro_rules | `(tactic| trc1) => `(tactic| with_reducible exact nNext_tr _)

theorem nPrev_tr (a : Addr)  : Traces Q K N (ZJ.nPrev a) := by
  unfold ZJ.nPrev; trc
macro_rules | `(tactic| trc1) => `(tactic| with_reducible exact nPrev_tr _)

theorem nFather_tr (a : Addr)  : Traces Q K N (ZJ.nFather a) := by
  unfold ZJ.nFather; trc
macro_rules | `(tactic| trc1) => `(tactic| with_reducible exact nFather_tr _)

theorem nEnd_tr (a : Addr)  : Traces Q K N (ZJ.nEnd a) := by
  unfold ZJ.nEnd; trc
macro_rules | `(tactic| trc1) => `(tactic| with_reducible exact nEnd_tr _)

theorem nNode_tr (a : Addr)  : Traces Q K N (ZJ.nNode a) := by
  unfold ZJ.nNode; trc
macro_rules | `(tactic| trc1) => `(tactic| with_reducible exact nNode_tr _)

theorem nStr_tr (a : Addr)  : Traces Q K N (ZJ.nStr a) := by
  unfold ZJ.nStr; trc
macro_rules | `(tactic| trc1) => `(tactic| with_reducible exact nStr_tr _)

theorem setType_tr (a : Addr) (x : JType)  : Traces Q K N (ZJ.setType a x) := by
  unfold ZJ.setType; trc
macro_rules | `(tactic| trc1) => `(tactic| with_reducible exact setType_tr _ _)

theorem setKey_tr (a : Addr) (x : Option SPtr)  : Traces Q K N (ZJ.setKey a x) := by
  unfold ZJ.setKey; trc
macro_rules | `(tactic| trc1) => `(tactic| with_reducible exact setKey_tr _ _)

theorem setKeyLen_tr (a : Addr) (x : Nat)  : Traces Q K N (ZJ.setKeyLen a x) := by
  unfold ZJ.setKeyLen; trc
macro_rules | `(tactic| trc1) => `(tactic| with_reducible exact setKeyLen_tr _ _)

theorem setNodeP_tr (a : Addr) (x : Option Addr)  : Traces Q K N (ZJ.setNodeP a x) := by
  unfold ZJ.setNodeP; trc
macro_rules | `(tactic| trc1) => `(tactic| with_reducible exact setNodeP_tr _ _)

theorem setStrP_tr (a : Addr) (x : SPtr)  : Traces Q K N (ZJ.setStrP a x) := by
  unfold ZJ.setStrP; trc
macro_rules | `(tactic| trc1) => `(tactic| with_reducible exact setStrP_tr _ _)

theorem setLen_tr (a : Addr) (x : Nat)  : Traces Q K N (ZJ.setLen a x) := by
  unfold ZJ.setLen; trc
macro_rules | `(tactic| trc1) => `(tactic| with_reducible exact setLen_tr _ _)

theorem setNext_tr (a : Addr) (x : Option Addr)  : Traces Q K N (ZJ.setNext a x) := by
  unfold ZJ.setNext; trc
macro_rules | `(tactic| trc1) => `(tactic| with_reducible exact setNext_tr _ _)

theorem setPrev_tr (a : Addr) (x : Option Addr)  : Traces Q K N (ZJ.setPrev a x) := by
  unfold ZJ.setPrev; trc
macro_rules | `(tactic| trc1) => `(tactic| with_reducible exact setPrev_tr _ _)

theorem setFather_tr (a : Addr) (x : Option Addr)  : Traces Q K N (ZJ.setFather a x) := by
  unfold ZJ.setFather; trc
macro_rules | `(tactic| trc1) => `(tactic| with_reducible exact setFather_tr _ _)

theorem setEnd_tr (a : Addr) (x : Option Addr)  : Traces Q K N (ZJ.setEnd a x) := by
  unfold ZJ.setEnd; trc
macro_rules | `(tactic| trc1) => `(tactic| with_reducible exact setEnd_tr _ _)

/-- The data area of `z` is new, or it is that of the scratch string. -/
def Sane (N : Nat) (st : St) (z : ZStr) : Prop := N ≤ z.data ∨ ∃ zc, st.cache = some zc ∧ zc.data = z.data

theorem poke_sane {st st' : St} {z : ZStr} {s : Bytes} {r} (hz : Sane N st z) (e : pokeStr z s st = .ok (r, st')) :
    Hops Q K N st st' ∧ st'.cache = st.cache := by
  unfold ZJ.pokeStr at e
  split at e
  · rename_i b hb
    split at e <;> cases e
    rename_i hl
    refine ⟨(Hop.setBuf hz hb ?_).one, rfl⟩
    simp only [List.length_append, List.length_take]
    omega
  · cases e

theorem newBuf_sane {st st' : St} {A n : Nat} {d : Bytes} {b : Addr} (hN : N ≤ st.nb) (e : newBuf A n d st = .ok (b, st')) :
    Hops Q K N st st' ∧ st'.cache = st.cache ∧ N ≤ b ∧ b < st'.nb := by
  refine ⟨tr_newBuf A n d st b st' hN e, ?_⟩
  by_cases h : st.allocs A = true
  · have e := (M.bind_ok (request_run h)).symm.trans e
    dsimp only at e
    split at e <;> cases e
    exact ⟨rfl, hN, Nat.lt_succ_self _⟩
  · exact absurd ((M.bind_ub (u := .wild) (by simp [request, h])).symm.trans e) (by simp)

/-- Takes the first step of a run. -/
theorem ok_bind {α β : Type} {m : M α} {f : α → M β} {st : St} {r : β × St} (e : (m >>= f) st = .ok r) :
    ∃ a st1, m st = .ok (a, st1) ∧ f a st1 = .ok r := by
  rw [M.bind_run] at e
  split at e
  · exact ⟨_, _, ‹_›, e⟩
  · cases e
  · cases e

theorem appendBytes_sane {st st' : St} {z r : ZStr} {s : Bytes} (hN : N ≤ st.nb) (hz : Sane N st z)
    (e : appendBytes z s st = .ok (r, st')) : Hops Q K N st st' ∧ st'.cache = st.cache ∧ ((N ≤ r.data ∧ r.data < st'.nb) ∨ r.data = z.data) := by
  obtain ⟨_, st1, e1, e'⟩ := ok_bind e
  clear e
  have : st1 = st := by
    unfold ZJ.touchStr at e1
    split at e1 <;> cases e1
    rfl
  subst this
  obtain ⟨z1, st2, e2, e⟩ := ok_bind e'
  clear e'
  have h2 : Hops Q K N st1 st2 ∧ st2.cache = st1.cache ∧ ((N ≤ z1.data ∧ z1.data < st2.nb) ∨ z1.data = z.data) := by
    split at e2
    · obtain ⟨cf, st0, e0, e2⟩ := ok_bind e2
      cases e0
      obtain ⟨ns, st3, e3, e4'⟩ := ok_bind e2
      clear e2 e
      have : st3 = st1 := by
        unfold ZJ.lift at e3
        split at e3 <;> cases e3
        rfl
      subst this
      obtain ⟨old, st4, e4, e5'⟩ := ok_bind e4'
      clear e4'
      have : st4 = st3 := by
        split at e4 <;> cases e4
        rfl
      subst this
      obtain ⟨d, st5, e5, e6⟩ := ok_bind e5'
      cases e6
      obtain ⟨g1, g2, g3⟩ := newBuf_sane (K := K) hN e5
      exact ⟨g1, g2, .inl g3⟩
    · cases e2; exact ⟨.refl, rfl, .inr rfl⟩
  obtain ⟨_, st3, e3, e⟩ := ok_bind e
  cases e
  obtain ⟨g1, g2, g3⟩ := h2
  have hz1 : Sane N st2 z1 := by
    rcases g3 with g3 | g3
    · exact .inl g3.1
    · unfold Sane; rw [g3, g2]; exact hz
  obtain ⟨f1, f2⟩ := poke_sane (K := K) hz1 e3
  exact ⟨g1.trans f1, f2.trans g2, g3.imp_left fun h => ⟨h.1, Nat.lt_of_lt_of_le h.2 f1.nb⟩⟩

theorem appendStr_sane {st st' : St} {z r : ZStr} {p : SPtr} {n : Nat} (hN : N ≤ st.nb) (hz : Sane N st z)
    (e : appendStr z p n st = .ok (r, st')) : Hops Q K N st st' ∧ st'.cache = st.cache ∧ ((N ≤ r.data ∧ r.data < st'.nb) ∨ r.data = z.data) := by
  obtain ⟨s, st1, e1, e'⟩ := ok_bind e
  clear e
  have : st1 = st := by
    unfold ZJ.readN at e1
    repeat' split at e1
    all_goals cases e1
    all_goals rfl
  subst this
  exact appendBytes_sane hN hz e'

theorem appendChar_sane {st st' : St} {z r : ZStr} {c : Byte} (hN : N ≤ st.nb) (hz : Sane N st z)
    (e : appendChar z c st = .ok (r, st')) : Hops Q K N st st' ∧ st'.cache = st.cache ∧ ((N ≤ r.data ∧ r.data < st'.nb) ∨ r.data = z.data) := by
  obtain ⟨_, st1, e1, e'⟩ := ok_bind e
  clear e
  have : st1 = st := by
    unfold ZJ.touchStr at e1
    split at e1 <;> cases e1
    rfl
  subst this
  obtain ⟨z1, st2, e2, e⟩ := ok_bind e'
  clear e'
  have h2 : Hops Q K N st1 st2 ∧ st2.cache = st1.cache ∧ ((N ≤ z1.data ∧ z1.data < st2.nb) ∨ z1.data = z.data) := by
    split at e2
    · obtain ⟨cf, st0, e0, e2⟩ := ok_bind e2
      cases e0
      obtain ⟨old, st4, e4, e5'⟩ := ok_bind e2
      clear e2 e
      have : st4 = st1 := by
        split at e4 <;> cases e4
        rfl
      subst this
      obtain ⟨d, st5, e5, e6⟩ := ok_bind e5'
      cases e6
      obtain ⟨g1, g2, g3⟩ := newBuf_sane (K := K) hN e5
      exact ⟨g1, g2, .inl g3⟩
    · cases e2; exact ⟨.refl, rfl, .inr rfl⟩
  obtain ⟨_, st3, e3, e⟩ := ok_bind e
  cases e
  obtain ⟨g1, g2, g3⟩ := h2
  have hz1 : Sane N st2 z1 := by
    rcases g3 with g3 | g3
    · exact .inl g3.1
    · unfold Sane; rw [g3, g2]; exact hz
  obtain ⟨f1, f2⟩ := poke_sane (K := K) hz1 e3
  exact ⟨g1.trans f1, f2.trans g2, g3.imp_left fun h => ⟨h.1, Nat.lt_of_lt_of_le h.2 f1.nb⟩⟩

/-- `m` makes such steps, and `R` holds of its result. -/
def TracesTo (Q : Nat → Prop) (K : Bytes → Prop) (N : Nat) {α : Type} (m : M α) (R : α → Prop) : Prop :=
  ∀ st r st', N ≤ st.nb → m st = .ok (r, st') → Hops Q K N st st' ∧ R r

section
variable {α β : Type} {R : α → Prop} {R' : β → Prop}

theorem TracesTo.tr {m : M α} (h : TracesTo Q K N m R) : Traces Q K N m := fun st r st' hN e => (h st r st' hN e).1
theorem Traces.to {m : M α} (h : Traces Q K N m) : TracesTo Q K N m fun _ => True := fun st r st' hN e => ⟨h st r st' hN e, trivial⟩
theorem tt_pure {a : α} (h : R a) : TracesTo Q K N (pure a : M α) R := fun st r st' hN e => by cases e; exact ⟨.refl, h⟩
theorem tt_bind {m : M α} {f : α → M β} (h : TracesTo Q K N m R) (hf : ∀ a, R a → TracesTo Q K N (f a) R') :
    TracesTo Q K N (m >>= f) R' := fun st r st' hN e => by
  obtain ⟨a, st1, e1, e⟩ := ok_bind e
  obtain ⟨h1, h2⟩ := h _ _ _ hN e1
  obtain ⟨h3, h4⟩ := hf a h2 _ _ _ (Nat.le_trans hN h1.nb) e
  exact ⟨h1.trans h3, h4⟩
/-- The result of the first step does not matter. -/
theorem tt_then {m : M α} {f : α → M β} (h : Traces Q K N m) (hf : ∀ a, TracesTo Q K N (f a) R') : TracesTo Q K N (m >>= f) R' :=
  tt_bind h.to fun a _ => hf a
end

theorem appendBytes_tt {z : ZStr} {s : Bytes} (h : N ≤ z.data) : TracesTo Q K N (appendBytes z s) fun r => N ≤ r.data := fun st r st' hN e => by
  obtain ⟨h1, _, h3⟩ := appendBytes_sane (K := K) hN (.inl h) e
  exact ⟨h1, by omega⟩
theorem appendStr_tt {z : ZStr} {p : SPtr} {n : Nat} (h : N ≤ z.data) : TracesTo Q K N (appendStr z p n) fun r => N ≤ r.data := fun st r st' hN e => by
  obtain ⟨h1, _, h3⟩ := appendStr_sane (K := K) hN (.inl h) e
  exact ⟨h1, by omega⟩
theorem appendChar_tt {z : ZStr} {c : Byte} (h : N ≤ z.data) : TracesTo Q K N (appendChar z c) fun r => N ≤ r.data := fun st r st' hN e => by
  obtain ⟨h1, _, h3⟩ := appendChar_sane (K := K) hN (.inl h) e
  exact ⟨h1, by omega⟩
theorem newString_tt {A n : Nat} : TracesTo Q K N (newString A n) fun r => N ≤ r.data := fun st r st' hN e => by
  refine ⟨tr_newString A n st r st' hN e, ?_⟩
  by_cases h : st.allocs A = true
  · have e := (M.bind_ok (request_run h)).symm.trans e
    cases e
    exact hN
  · exact absurd ((M.bind_ub (u := .wild) (by simp [request, h])).symm.trans e) (by simp)

theorem newOut_tt {A : Nat} {f : Cfg → Nat} : TracesTo Q K N (newOut A f) fun r => N ≤ r.data :=
  fun st r st' hN e => newString_tt (n := f st.cfg) st r st' hN e

theorem openContainer_tr (A : Nat) (s : Bytes) (ty : JType) (close : Byte) (node : Addr) (i : Nat)  : Traces Q K N (ZJ.openContainer A s ty close node i) := by
  unfold ZJ.openContainer; trc
macro_rules | `(tactic| trc1) => `(tactic| with_reducible exact openContainer_tr _ _ _ _ _ _)

theorem switchValue_tr (A : Nat) (p : SPtr) (s : Bytes) (lim : Nat) (node : Addr) (i : Nat)  : Traces Q K N (ZJ.switchValue A p s lim node i) := by
  unfold ZJ.switchValue; trc
macro_rules | `(tactic| trc1) => `(tactic| with_reducible exact switchValue_tr _ _ _ _ _ _)

theorem parseKey_tr (p : SPtr) (s : Bytes) (node : Addr) (i : Nat)  : Traces Q K N (ZJ.parseKey p s node i) := by
  unfold ZJ.parseKey; trc
macro_rules | `(tactic| trc1) => `(tactic| with_reducible exact parseKey_tr _ _ _ _)

theorem restore_tr (v : Addr) (src : Option Addr)  : Traces Q K N (ZJ.restore v src) := by
  unfold ZJ.restore; trc
macro_rules | `(tactic| trc1) => `(tactic| with_reducible exact restore_tr _ _)

theorem parseLoop_tr (v : Addr) (A : Nat) (p : SPtr) (s : Bytes) (lim : Nat) (src : Option Addr) :
    ∀ F pc node i, Traces Q K N (parseLoop v A p s lim src F pc node i)
  | 0, _, _, _ => tr_lift _
  | F + 1, .head, node, i => by
    have IH := parseLoop_tr v A p s lim src F
    unfold parseLoop; trc <;> apply IH
  | F + 1, .close, node, i => by
    have IH := parseLoop_tr v A p s lim src F
    unfold parseLoop; trc <;> apply IH
macro_rules | `(tactic| trc1) => `(tactic| with_reducible exact parseLoop_tr _ _ _ _ _ _ _ _ _ _)

theorem parseFast_tr (v : Addr) (p : SPtr)  : Traces Q K N (ZJ.parseFast v p) := by
  unfold ZJ.parseFast; trc
macro_rules | `(tactic| trc1) => `(tactic| with_reducible exact parseFast_tr _ _)

theorem parseLen_tr (v : Addr) (p : SPtr) (len : Nat)  : Traces Q K N (ZJ.parseLen v p len) := by
  unfold ZJ.parseLen; trc
macro_rules | `(tactic| trc1) => `(tactic| with_reducible exact parseLen_tr _ _ _)

theorem parse_tr (v : Addr) (p : SPtr)  : Traces Q K N (ZJ.parse v p) := by
  unfold ZJ.parse; trc
macro_rules | `(tactic| trc1) => `(tactic| with_reducible exact parse_tr _ _)

theorem strToInt_tr (p : SPtr) (len : Nat)  : Traces Q K N (ZJ.strToInt p len) := by
  unfold ZJ.strToInt; trc
macro_rules | `(tactic| trc1) => `(tactic| with_reducible exact strToInt_tr _ _)

theorem strToLong_tr (p : SPtr) (len : Nat)  : Traces Q K N (ZJ.strToLong p len) := by
  unfold ZJ.strToLong; trc
macro_rules | `(tactic| trc1) => `(tactic| with_reducible exact strToLong_tr _ _)

theorem strToLongLong_tr (p : SPtr) (len : Nat)  : Traces Q K N (ZJ.strToLongLong p len) := by
  unfold ZJ.strToLongLong; trc
macro_rules | `(tactic| trc1) => `(tactic| with_reducible exact strToLongLong_tr _ _)

theorem strToDouble_tr {D : Type} (fp : FP D) (p : SPtr) (len : Nat)  : Traces Q K N (ZJ.strToDouble fp p len) := by
  unfold ZJ.strToDouble; trc
macro_rules | `(tactic| trc1) => `(tactic| with_reducible exact strToDouble_tr _ _ _)

theorem newValue_tr (A : Nat)  : Traces Q K N (ZJ.newValue A) := by
  unfold ZJ.newValue; trc
macro_rules | `(tactic| trc1) => `(tactic| with_reducible exact newValue_tr _)

/-- Goes through the text of a function that writes to a string. -/
macro "tts" : tactic => `(tactic| repeat' (first
  | (with_reducible refine tt_pure ?_; assumption)
  | (with_reducible refine tt_bind (appendChar_tt (by assumption)) fun _ _ => ?_)
  | (with_reducible refine tt_bind (appendStr_tt (by assumption)) fun _ _ => ?_)
  | (with_reducible refine tt_bind (appendBytes_tt (by assumption)) fun _ _ => ?_)
  | (with_reducible refine tt_then (by trc; done) fun _ => ?_)
  | split))

theorem putValue_tt {z : ZStr} {node : Addr} (h : N ≤ z.data) : TracesTo Q K N (ZJ.putValue z node) fun r => N ≤ r.1.data := by
  unfold ZJ.putValue; tts

theorem putKey_tt {z : ZStr} {node : Addr} (h : N ≤ z.data) : TracesTo Q K N (ZJ.putKey z node) fun r => N ≤ r.data := by
  unfold ZJ.putKey; tts
  exact appendBytes_tt (by assumption)

theorem stringifyLoop_tt (v : Addr) : ∀ F pc node {z : ZStr}, N ≤ z.data → TracesTo Q K N (stringifyLoop v F pc node z) fun r => N ≤ r.data
  | 0, _, _, _, h => fun st r st' hN e => by cases e
  | F + 1, .head, node, z, h => by
    have IH := stringifyLoop_tt v F
    unfold stringifyLoop
    refine tt_then (by trc) fun _ => ?_
    split
    · exact tt_pure h
    · refine tt_bind (putKey_tt h) fun _ h => tt_bind (putValue_tt h) fun r h => ?_
      split <;> exact IH _ _ h
  | F + 1, .close, node, z, h => by
    have IH := stringifyLoop_tt v F
    unfold stringifyLoop
    tts <;> apply IH <;> assumption

theorem stringify_tr (fuel : Nat) (v : Addr)  : Traces Q K N (ZJ.stringify fuel v) := by
  unfold ZJ.stringify
  refine tr_bind (by trc) fun val => ?_
  split
  · exact tr_pure _
  · refine (tt_bind newOut_tt fun z hz => tt_bind (putValue_tt hz) fun r hr => ?_ : TracesTo Q K N _ fun _ => True).tr
    obtain ⟨z, c⟩ := r
    cases c <;> exact tt_bind (stringifyLoop_tt _ _ _ _ hr) fun z hz => tt_bind (appendChar_tt hz) fun _ _ => tt_pure (R := fun _ => True) trivial
macro_rules | `(tactic| trc1) => `(tactic| with_reducible exact stringify_tr _ _)

theorem copyOut_tr (A : Nat) (p : SPtr) (len : Nat)  : Traces Q K N (ZJ.copyOut A p len) := by
  unfold ZJ.copyOut; trc
macro_rules | `(tactic| trc1) => `(tactic| with_reducible exact copyOut_tr _ _ _)

theorem getStrFast_tr (v : Addr)  : Traces Q K N (ZJ.getStrFast v) := by
  unfold ZJ.getStrFast; trc
macro_rules | `(tactic| trc1) => `(tactic| with_reducible exact getStrFast_tr _)

theorem getStr_tr (v : Addr)  : Traces Q K N (ZJ.getStr v) := by
  unfold ZJ.getStr; trc
macro_rules | `(tactic| trc1) => `(tactic| with_reducible exact getStr_tr _)

theorem getUnEscapeStr_tr (v : Addr)  : Traces Q K N (ZJ.getUnEscapeStr v) := by
  unfold ZJ.getUnEscapeStr; trc
macro_rules | `(tactic| trc1) => `(tactic| with_reducible exact getUnEscapeStr_tr _)

theorem getNumFast_tr (v : Addr)  : Traces Q K N (ZJ.getNumFast v) := by
  unfold ZJ.getNumFast; trc
macro_rules | `(tactic| trc1) => `(tactic| with_reducible exact getNumFast_tr _)

theorem getNumStr_tr (v : Addr)  : Traces Q K N (ZJ.getNumStr v) := by
  unfold ZJ.getNumStr; trc
macro_rules | `(tactic| trc1) => `(tactic| with_reducible exact getNumStr_tr _)

theorem getDouble_tr {D : Type} (fp : FP D) (v : Addr)  : Traces Q K N (ZJ.getDouble fp v) := by
  unfold ZJ.getDouble; trc
macro_rules | `(tactic| trc1) => `(tactic| with_reducible exact getDouble_tr _ _)

theorem getInt_tr (v : Addr)  : Traces Q K N (ZJ.getInt v) := by
  unfold ZJ.getInt; trc
macro_rules | `(tactic| trc1) => `(tactic| with_reducible exact getInt_tr _)

theorem getLong_tr (v : Addr)  : Traces Q K N (ZJ.getLong v) := by
  unfold ZJ.getLong; trc
macro_rules | `(tactic| trc1) => `(tactic| with_reducible exact getLong_tr _)

theorem getLongLong_tr (v : Addr)  : Traces Q K N (ZJ.getLongLong v) := by
  unfold ZJ.getLongLong; trc
macro_rules | `(tactic| trc1) => `(tactic| with_reducible exact getLongLong_tr _)

theorem getBool_tr (v : Addr)  : Traces Q K N (ZJ.getBool v) := by
  unfold ZJ.getBool; trc
macro_rules | `(tactic| trc1) => `(tactic| with_reducible exact getBool_tr _)

theorem isNull_tr (v : Addr)  : Traces Q K N (ZJ.isNull v) := by
  unfold ZJ.isNull; trc
macro_rules | `(tactic| trc1) => `(tactic| with_reducible exact isNull_tr _)

theorem getKey_tr (v : Addr)  : Traces Q K N (ZJ.getKey v) := by
  unfold ZJ.getKey; trc
macro_rules | `(tactic| trc1) => `(tactic| with_reducible exact getKey_tr _)

theorem getUnEscapeKey_tr (v : Addr)  : Traces Q K N (ZJ.getUnEscapeKey v) := by
  unfold ZJ.getUnEscapeKey; trc
macro_rules | `(tactic| trc1) => `(tactic| with_reducible exact getUnEscapeKey_tr _)

theorem getKeyFast_tr (v : Addr)  : Traces Q K N (ZJ.getKeyFast v) := by
  unfold ZJ.getKeyFast; trc
macro_rules | `(tactic| trc1) => `(tactic| with_reducible exact getKeyFast_tr _)

theorem deref'_tr (x : Option SPtr) : Traces Q K N (objGetLoop.deref' x) := by
  cases x <;> unfold objGetLoop.deref' <;> trc
macro_rules | `(tactic| trc1) => `(tactic| with_reducible exact deref'_tr _)

theorem objGetLoop_tr (p : SPtr) : ∀ F o, Traces Q K N (objGetLoop p F o)
  | 0, _ => tr_lift _
  | F + 1, none => tr_pure _
  | F + 1, some n => by
    have IH := objGetLoop_tr p F
    unfold objGetLoop; trc; apply IH
macro_rules | `(tactic| trc1) => `(tactic| with_reducible exact objGetLoop_tr _ _ _)

theorem objGet_tr (fuel : Nat) (v : Addr) (key : SPtr)  : Traces Q K N (ZJ.objGet fuel v key) := by
  unfold ZJ.objGet; trc
macro_rules | `(tactic| trc1) => `(tactic| with_reducible exact objGet_tr _ _ _)

theorem objGetLenLoop_tr (p : SPtr) (len : Nat) : ∀ F o, Traces Q K N (objGetLenLoop p len F o)
  | 0, _ => tr_lift _
  | F + 1, none => tr_pure _
  | F + 1, some n => by
    have IH := objGetLenLoop_tr p len F
    unfold objGetLenLoop; trc; apply IH
macro_rules | `(tactic| trc1) => `(tactic| with_reducible exact objGetLenLoop_tr _ _ _ _)

theorem objGetLen_tr (fuel : Nat) (v : Addr) (key : SPtr) (len : Nat)  : Traces Q K N (ZJ.objGetLen fuel v key len) := by
  unfold ZJ.objGetLen; trc
macro_rules | `(tactic| trc1) => `(tactic| with_reducible exact objGetLen_tr _ _ _ _)

theorem getType_tr (v : Addr)  : Traces Q K N (ZJ.getType v) := by
  unfold ZJ.getType; trc
macro_rules | `(tactic| trc1) => `(tactic| with_reducible exact getType_tr _)

theorem sizeOf_tr (v : Addr)  : Traces Q K N (ZJ.sizeOf v) := by
  unfold ZJ.sizeOf; trc
macro_rules | `(tactic| trc1) => `(tactic| with_reducible exact sizeOf_tr _)

theorem arrayGetLoop_tr (ix : Nat) : ∀ F i o, Traces Q K N (arrayGetLoop ix F i o)
  | 0, _, _ => tr_lift _
  | F + 1, _, none => tr_pure _
  | F + 1, _, some n => by
    have IH := arrayGetLoop_tr ix F
    unfold arrayGetLoop; trc; apply IH
macro_rules | `(tactic| trc1) => `(tactic| with_reducible exact arrayGetLoop_tr _ _ _ _)

theorem arrayGet_tr (fuel : Nat) (v : Addr) (index : Nat)  : Traces Q K N (ZJ.arrayGet fuel v index) := by
  unfold ZJ.arrayGet; trc
macro_rules | `(tactic| trc1) => `(tactic| with_reducible exact arrayGet_tr _ _ _)

theorem begin__tr (v : Addr)  : Traces Q K N (ZJ.begin_ v) := by
  unfold ZJ.begin_; trc
macro_rules | `(tactic| trc1) => `(tactic| with_reducible exact begin__tr _)

theorem next__tr (v : Addr)  : Traces Q K N (ZJ.next_ v) := by
  unfold ZJ.next_; trc
macro_rules | `(tactic| trc1) => `(tactic| with_reducible exact next__tr _)

theorem copyKey_tr (A : Nat) (node des : Addr)  : Traces Q K N (ZJ.copyKey A node des) := by
  unfold ZJ.copyKey; trc
macro_rules | `(tactic| trc1) => `(tactic| with_reducible exact copyKey_tr _ _ _)

theorem copyBody_tr (A : Nat) (node des : Addr) (x0 : JType) : Traces Q K N (ZJ.copyBody A node des x0) := by
  cases x0 <;> unfold ZJ.copyBody <;> trc
macro_rules | `(tactic| trc1) => `(tactic| with_reducible exact copyBody_tr _ _ _ _)

theorem copyNode_tr (A : Nat) (node des : Addr)  : Traces Q K N (ZJ.copyNode A node des) := by
  unfold ZJ.copyNode; trc
macro_rules | `(tactic| trc1) => `(tactic| with_reducible exact copyNode_tr _ _ _)

theorem copyLoop_tr (A : Nat) (vv : Addr) : ∀ F pc n d, Traces Q K N (copyLoop A vv F pc n d)
  | 0, _, _, _ => tr_lift _
  | F + 1, .body, _, _ => by
    have IH := copyLoop_tr A vv F
    unfold copyLoop; trc <;> apply IH
  | F + 1, .test, _, _ => by
    have IH := copyLoop_tr A vv F
    unfold copyLoop; trc; apply IH
  | F + 1, .inner, _, _ => by
    have IH := copyLoop_tr A vv F
    unfold copyLoop; trc <;> apply IH
macro_rules | `(tactic| trc1) => `(tactic| with_reducible exact copyLoop_tr _ _ _ _ _ _)

theorem valueCopyFrom_tr (fuel : Nat) (v vv : Addr)  : Traces Q K N (ZJ.valueCopyFrom fuel v vv) := by
  unfold ZJ.valueCopyFrom; trc
macro_rules | `(tactic| trc1) => `(tactic| with_reducible exact valueCopyFrom_tr _ _ _)

theorem copy_tr (fuel : Nat) (v : Addr)  : Traces Q K N (ZJ.copy fuel v) := by
  unfold ZJ.copy; trc
macro_rules | `(tactic| trc1) => `(tactic| with_reducible exact copy_tr _ _)

theorem valN_tr (v : Addr)  : Traces Q K N (ZJ.valN v) := by
  unfold ZJ.valN; trc
macro_rules | `(tactic| trc1) => `(tactic| with_reducible exact valN_tr _)

theorem unlinkPrev_tr (f a : Addr)  : Traces Q K N (ZJ.unlinkPrev f a) := by
  unfold ZJ.unlinkPrev; trc
macro_rules | `(tactic| trc1) => `(tactic| with_reducible exact unlinkPrev_tr _ _)

theorem unlinkNext_tr (f a : Addr)  : Traces Q K N (ZJ.unlinkNext f a) := by
  unfold ZJ.unlinkNext; trc
macro_rules | `(tactic| trc1) => `(tactic| with_reducible exact unlinkNext_tr _ _)

theorem move_tr (v : Addr)  : Traces Q K N (ZJ.move v) := by
  unfold ZJ.move; trc
macro_rules | `(tactic| trc1) => `(tactic| with_reducible exact move_tr _)

theorem ensureNode_tr (v : Addr)  : Traces Q K N (ZJ.ensureNode v) := by
  unfold ZJ.ensureNode; trc
macro_rules | `(tactic| trc1) => `(tactic| with_reducible exact ensureNode_tr _)

theorem setScalar_tr (v : Addr) (t : JType) (p : SPtr) (len : Nat)  : Traces Q K N (ZJ.setScalar v t p len) := by
  unfold ZJ.setScalar; trc
macro_rules | `(tactic| trc1) => `(tactic| with_reducible exact setScalar_tr _ _ _ _)

theorem setNull_tr (v : Addr)  : Traces Q K N (ZJ.setNull v) := by
  unfold ZJ.setNull; trc
macro_rules | `(tactic| trc1) => `(tactic| with_reducible exact setNull_tr _)

theorem setBool_tr (v : Addr) (b : Bool)  : Traces Q K N (ZJ.setBool v b) := by
  unfold ZJ.setBool; trc
macro_rules | `(tactic| trc1) => `(tactic| with_reducible exact setBool_tr _ _)

theorem checkNumAt_tr (p : SPtr)  : Traces Q K N (ZJ.checkNumAt p) := by
  unfold ZJ.checkNumAt; trc
macro_rules | `(tactic| trc1) => `(tactic| with_reducible exact checkNumAt_tr _)

theorem checkStrAt_tr (p : SPtr)  : Traces Q K N (ZJ.checkStrAt p) := by
  unfold ZJ.checkStrAt; trc
macro_rules | `(tactic| trc1) => `(tactic| with_reducible exact checkStrAt_tr _)

theorem newString_lt {A n : Nat} {st st' : St} {r : ZStr} (e : newString A n st = .ok (r, st')) : r.data < st'.nb := by
  by_cases h : st.allocs A = true
  · have e := (M.bind_ok (request_run h)).symm.trans e
    cases e
    exact Nat.lt_succ_self _
  · exact absurd ((M.bind_ub (u := .wild) (by simp [request, h])).symm.trans e) (by simp)

theorem fillCache_tr (A : Nat) (p : SPtr) (len : Nat)  : Traces Q K N (ZJ.fillCache A p len) := fun st r st' hN e => by
  obtain ⟨c, st0, e0, e⟩ := ok_bind e
  cases e0
  obtain ⟨z, st1, e1, e⟩ := ok_bind e
  have h1 : Hops Q K N st st1 ∧ ((N ≤ z.data ∧ z.data < st1.nb) ∨ ∃ z0, st1.cache = some z0 ∧ z0.data = z.data) := by
    revert e1
    cases hc : st.cache with
    | none =>
      intro e1
      obtain ⟨g1, g2⟩ := newOut_tt (Q := Q) (K := K) _ _ _ hN e1
      exact ⟨g1, .inl ⟨g2, newString_lt (n := st.cfg.cache) e1⟩⟩
    | some z0 =>
      intro e1
      obtain ⟨_, st2, e2, e1⟩ := ok_bind e1
      unfold ZJ.touchStr at e2
      split at e2 <;> cases e2
      cases e1
      exact ⟨.refl, .inr ⟨z0, hc, rfl⟩⟩
  obtain ⟨h1, s1⟩ := h1
  have n1 := Nat.le_trans hN h1.nb
  obtain ⟨z2, st2, e2, e⟩ := ok_bind e
  obtain ⟨h2, c2, d2⟩ := appendStr_sane (Q := Q) (K := K) n1 (s1.imp_left And.left) e2
  have n2 := Nat.le_trans n1 h2.nb
  have s2 : (N ≤ z2.data ∧ z2.data < st2.nb) ∨ ∃ z0, st2.cache = some z0 ∧ z0.data = z2.data := by
    rcases d2 with d2 | d2
    · exact .inl d2
    · rw [d2, c2]; exact s1.imp_left fun h => ⟨h.1, Nat.lt_of_lt_of_le h.2 h2.nb⟩
  obtain ⟨z3, st3, e3, e⟩ := ok_bind e
  obtain ⟨h3, c3, d3⟩ := appendChar_sane (Q := Q) (K := K) n2 (s2.imp_left And.left) e3
  have s3 : (N ≤ z3.data ∧ z3.data < st3.nb) ∨ ∃ z0, st3.cache = some z0 ∧ z0.data = z3.data := by
    rcases d3 with d3 | d3
    · exact .inl d3
    · rw [d3, c3]; exact s2.imp_left fun h => ⟨h.1, Nat.lt_of_lt_of_le h.2 h3.nb⟩
  cases e
  exact (h1.trans h2).trans (h3.tail (.cache s3))
macro_rules | `(tactic| trc1) => `(tactic| with_reducible exact fillCache_tr _ _ _)

theorem checkStrLenAt_tr (A : Nat) (p : SPtr) (len : Nat)  : Traces Q K N (ZJ.checkStrLenAt A p len) := by
  unfold ZJ.checkStrLenAt; trc
macro_rules | `(tactic| trc1) => `(tactic| with_reducible exact checkStrLenAt_tr _ _ _)

theorem checkNumLenAt_tr (A : Nat) (p : SPtr) (len : Nat)  : Traces Q K N (ZJ.checkNumLenAt A p len) := by
  unfold ZJ.checkNumLenAt; trc
macro_rules | `(tactic| trc1) => `(tactic| with_reducible exact checkNumLenAt_tr _ _ _)

theorem dup_tr (A : Nat) (p : SPtr) (len : Nat)  : Traces Q K N (ZJ.dup A p len) := by
  unfold ZJ.dup; trc
macro_rules | `(tactic| trc1) => `(tactic| with_reducible exact dup_tr _ _ _)

theorem setNumStrFast_tr (v : Addr) (p : SPtr)  : Traces Q K N (ZJ.setNumStrFast v p) := by
  unfold ZJ.setNumStrFast; trc
macro_rules | `(tactic| trc1) => `(tactic| with_reducible exact setNumStrFast_tr _ _)

theorem setNumStrLenFast_tr (v : Addr) (p : SPtr) (len : Nat)  : Traces Q K N (ZJ.setNumStrLenFast v p len) := by
  unfold ZJ.setNumStrLenFast; trc
macro_rules | `(tactic| trc1) => `(tactic| with_reducible exact setNumStrLenFast_tr _ _ _)

theorem setNumStr_tr (v : Addr) (p : SPtr)  : Traces Q K N (ZJ.setNumStr v p) := by
  unfold ZJ.setNumStr; trc
macro_rules | `(tactic| trc1) => `(tactic| with_reducible exact setNumStr_tr _ _)

theorem setNumStrLen_tr (v : Addr) (p : SPtr) (len : Nat)  : Traces Q K N (ZJ.setNumStrLen v p len) := by
  unfold ZJ.setNumStrLen; trc
macro_rules | `(tactic| trc1) => `(tactic| with_reducible exact setNumStrLen_tr _ _ _)

theorem setDouble_tr {D : Type} (fp : FP D) (v : Addr) (d : D)  : Traces Q K N (ZJ.setDouble fp v d) := by
  unfold ZJ.setDouble; trc
macro_rules | `(tactic| trc1) => `(tactic| with_reducible exact setDouble_tr _ _ _)

theorem setInt_tr (v : Addr) (n : Int)  : Traces Q K N (ZJ.setInt v n) := by
  unfold ZJ.setInt; trc
macro_rules | `(tactic| trc1) => `(tactic| with_reducible exact setInt_tr _ _)

theorem setLong_tr (v : Addr) (n : Int)  : Traces Q K N (ZJ.setLong v n) := by
  unfold ZJ.setLong; trc
macro_rules | `(tactic| trc1) => `(tactic| with_reducible exact setLong_tr _ _)

theorem setLongLong_tr (v : Addr) (n : Int)  : Traces Q K N (ZJ.setLongLong v n) := by
  unfold ZJ.setLongLong; trc
macro_rules | `(tactic| trc1) => `(tactic| with_reducible exact setLongLong_tr _ _)

theorem setStrFast_tr (v : Addr) (p : SPtr)  : Traces Q K N (ZJ.setStrFast v p) := by
  unfold ZJ.setStrFast; trc
macro_rules | `(tactic| trc1) => `(tactic| with_reducible exact setStrFast_tr _ _)

theorem escapeAt_tr (A : Nat) (p : SPtr)  : Traces Q K N (ZJ.escapeAt A p) := by
  unfold ZJ.escapeAt; trc
macro_rules | `(tactic| trc1) => `(tactic| with_reducible exact escapeAt_tr _ _)

theorem escapeLenAt_tr (A : Nat) (p : SPtr) (len : Nat)  : Traces Q K N (ZJ.escapeLenAt A p len) := by
  unfold ZJ.escapeLenAt; trc
macro_rules | `(tactic| trc1) => `(tactic| with_reducible exact escapeLenAt_tr _ _ _)

theorem setStrEscape_tr (v : Addr) (p : SPtr)  : Traces Q K N (ZJ.setStrEscape v p) := by
  unfold ZJ.setStrEscape; trc
macro_rules | `(tactic| trc1) => `(tactic| with_reducible exact setStrEscape_tr _ _)

theorem setStrLenEscape_tr (v : Addr) (p : SPtr) (len : Nat)  : Traces Q K N (ZJ.setStrLenEscape v p len) := by
  unfold ZJ.setStrLenEscape; trc
macro_rules | `(tactic| trc1) => `(tactic| with_reducible exact setStrLenEscape_tr _ _ _)

theorem setStrLenFast_tr (v : Addr) (p : SPtr) (len : Nat)  : Traces Q K N (ZJ.setStrLenFast v p len) := by
  unfold ZJ.setStrLenFast; trc
macro_rules | `(tactic| trc1) => `(tactic| with_reducible exact setStrLenFast_tr _ _ _)

theorem setStr_tr (v : Addr) (p : SPtr)  : Traces Q K N (ZJ.setStr v p) := by
  unfold ZJ.setStr; trc
macro_rules | `(tactic| trc1) => `(tactic| with_reducible exact setStr_tr _ _)

theorem setStrLen_tr (v : Addr) (p : SPtr) (len : Nat)  : Traces Q K N (ZJ.setStrLen v p len) := by
  unfold ZJ.setStrLen; trc
macro_rules | `(tactic| trc1) => `(tactic| with_reducible exact setStrLen_tr _ _ _)

theorem keyTarget_tr (v : Addr)  : Traces Q K N (ZJ.keyTarget v) := by
  unfold ZJ.keyTarget; trc
macro_rules | `(tactic| trc1) => `(tactic| with_reducible exact keyTarget_tr _)

theorem setKeyFast_tr (v : Addr) (p : SPtr)  : Traces Q K N (ZJ.setKeyFast v p) := by
  unfold ZJ.setKeyFast; trc
macro_rules | `(tactic| trc1) => `(tactic| with_reducible exact setKeyFast_tr _ _)

theorem setKeyEscape_tr (v : Addr) (p : SPtr)  : Traces Q K N (ZJ.setKeyEscape v p) := by
  unfold ZJ.setKeyEscape; trc
macro_rules | `(tactic| trc1) => `(tactic| with_reducible exact setKeyEscape_tr _ _)

theorem setKeyLenEscape_tr (v : Addr) (p : SPtr) (len : Nat)  : Traces Q K N (ZJ.setKeyLenEscape v p len) := by
  unfold ZJ.setKeyLenEscape; trc
macro_rules | `(tactic| trc1) => `(tactic| with_reducible exact setKeyLenEscape_tr _ _ _)

theorem setKeyLenFast_tr (v : Addr) (p : SPtr) (len : Nat)  : Traces Q K N (ZJ.setKeyLenFast v p len) := by
  unfold ZJ.setKeyLenFast; trc
macro_rules | `(tactic| trc1) => `(tactic| with_reducible exact setKeyLenFast_tr _ _ _)

theorem setKeyC_tr (v : Addr) (p : SPtr)  : Traces Q K N (ZJ.setKeyC v p) := by
  unfold ZJ.setKeyC; trc
macro_rules | `(tactic| trc1) => `(tactic| with_reducible exact setKeyC_tr _ _)

theorem setKeyLenC_tr (v : Addr) (p : SPtr) (len : Nat)  : Traces Q K N (ZJ.setKeyLenC v p len) := by
  unfold ZJ.setKeyLenC; trc
macro_rules | `(tactic| trc1) => `(tactic| with_reducible exact setKeyLenC_tr _ _ _)

theorem setArray_tr (v : Addr)  : Traces Q K N (ZJ.setArray v) := by
  unfold ZJ.setArray; trc
macro_rules | `(tactic| trc1) => `(tactic| with_reducible exact setArray_tr _)

theorem setObj_tr (v : Addr)  : Traces Q K N (ZJ.setObj v) := by
  unfold ZJ.setObj; trc
macro_rules | `(tactic| trc1) => `(tactic| with_reducible exact setObj_tr _)

theorem adopt_tr (f : Addr) : ∀ F o, Traces Q K N (adopt f F o)
  | 0, _ => tr_lift _
  | F + 1, none => tr_pure _
  | F + 1, some n => by
    have IH := adopt_tr f F
    unfold adopt; trc; apply IH
macro_rules | `(tactic| trc1) => `(tactic| with_reducible exact adopt_tr _ _ _)

theorem graft_tr (fuel : Nat) (a x e : Addr)  : Traces Q K N (ZJ.graft fuel a x e) := by
  unfold ZJ.graft; trc
macro_rules | `(tactic| trc1) => `(tactic| with_reducible exact graft_tr _ _ _ _)

theorem setFast_tr (fuel : Nat) (v vv : Addr)  : Traces Q K N (ZJ.setFast fuel v vv) := by
  unfold ZJ.setFast; trc
macro_rules | `(tactic| trc1) => `(tactic| with_reducible exact setFast_tr _ _ _)

theorem set_tr (fuel : Nat) (v vv : Addr)  : Traces Q K N (ZJ.set fuel v vv) := by
  unfold ZJ.set; trc
macro_rules | `(tactic| trc1) => `(tactic| with_reducible exact set_tr _ _ _)

theorem attach_tr (f x : Addr)  : Traces Q K N (ZJ.attach f x) := by
  unfold ZJ.attach; trc
macro_rules | `(tactic| trc1) => `(tactic| with_reducible exact attach_tr _ _)

theorem objAddFast_tr (v vv : Addr)  : Traces Q K N (ZJ.objAddFast v vv) := by
  unfold ZJ.objAddFast; trc
macro_rules | `(tactic| trc1) => `(tactic| with_reducible exact objAddFast_tr _ _)

theorem objAdd_tr (fuel : Nat) (v vv : Addr)  : Traces Q K N (ZJ.objAdd fuel v vv) := by
  unfold ZJ.objAdd; trc
macro_rules | `(tactic| trc1) => `(tactic| with_reducible exact objAdd_tr _ _ _)

theorem arrayAddFast_tr (v vv : Addr)  : Traces Q K N (ZJ.arrayAddFast v vv) := by
  unfold ZJ.arrayAddFast; trc
macro_rules | `(tactic| trc1) => `(tactic| with_reducible exact arrayAddFast_tr _ _)

theorem arrayAdd_tr (fuel : Nat) (v vv : Addr)  : Traces Q K N (ZJ.arrayAdd fuel v vv) := by
  unfold ZJ.arrayAdd; trc
macro_rules | `(tactic| trc1) => `(tactic| with_reducible exact arrayAdd_tr _ _ _)

theorem arrayDel_tr (fuel : Nat) (v : Addr) (index : Nat)  : Traces Q K N (ZJ.arrayDel fuel v index) := by
  unfold ZJ.arrayDel; trc
macro_rules | `(tactic| trc1) => `(tactic| with_reducible exact arrayDel_tr _ _ _)

theorem objDel_tr (fuel : Nat) (v : Addr) (key : SPtr)  : Traces Q K N (ZJ.objDel fuel v key) := by
  unfold ZJ.objDel; trc
macro_rules | `(tactic| trc1) => `(tactic| with_reducible exact objDel_tr _ _ _)

theorem readC_tr  (x0 : Option SPtr) : Traces Q K N (ZJ.readC x0) := by
  cases x0 <;> unfold ZJ.readC <;> trc
macro_rules | `(tactic| trc1) => `(tactic| with_reducible exact readC_tr _)

theorem readL_tr  (x0 : Option (SPtr × Nat)) : Traces Q K N (ZJ.readL x0) := by
  cases x0 <;> unfold ZJ.readL <;> trc
macro_rules | `(tactic| trc1) => `(tactic| with_reducible exact readL_tr _)

theorem ParseFn_run_tr  (x0 : ParseFn) (x1 : Addr) (x2 : Nat) (x3 : SPtr) : Traces Q K N (ZJ.ParseFn.run x0 x1 x2 x3) := by
  cases x0 <;> unfold ParseFn.run <;> trc
macro_rules | `(tactic| trc1) => `(tactic| with_reducible exact ParseFn_run_tr _ _ _ _)

theorem TextFn_run_tr  (x0 : TextFn) (x1 : Addr) (x2 : Nat) (x3 : SPtr) : Traces Q K N (ZJ.TextFn.run x0 x1 x2 x3) := by
  cases x0 <;> unfold TextFn.run <;> trc
macro_rules | `(tactic| trc1) => `(tactic| with_reducible exact TextFn_run_tr _ _ _ _)

theorem KeyFn_run_tr  (x0 : KeyFn) (x1 : Addr) (x2 : Nat) (x3 : SPtr) : Traces Q K N (ZJ.KeyFn.run x0 x1 x2 x3) := by
  cases x0 <;> unfold KeyFn.run <;> trc
macro_rules | `(tactic| trc1) => `(tactic| with_reducible exact KeyFn_run_tr _ _ _ _)

theorem IntFn_run_tr  (x0 : IntFn) (x1 : Addr) (x2 : Int) : Traces Q K N (ZJ.IntFn.run x0 x1 x2) := by
  cases x0 <;> unfold IntFn.run <;> trc
macro_rules | `(tactic| trc1) => `(tactic| with_reducible exact IntFn_run_tr _ _ _)

theorem GetFn_run_tr {D : Type} (fp : FP D) (F : Nat) (x0 : GetFn) (x1 : Addr) : Traces Q K N (ZJ.GetFn.run fp F x0 x1) := by
  cases x0 <;> unfold GetFn.run <;> trc
macro_rules | `(tactic| trc1) => `(tactic| with_reducible exact GetFn_run_tr _ _ _ _)

/-- The memory of the caller stays the caller's. -/
theorem Hop.foreign {st st' : St} (h : Hop Q K N st st') {b : Addr} (hb : b < st.nb) (ho : ∀ x, st.bufs b = some x → x.owner = none) :
    b < st'.nb ∧ ∀ x, st'.bufs b = some x → x.owner = none := by
  have hne : b ≠ st.nb := by omega
  cases h with
  | buf => exact ⟨Nat.lt_succ_of_lt hb, fun x hx => ho x (by simpa [St.addB, upd, hne] using hx)⟩
  | str => exact ⟨Nat.lt_succ_of_lt hb, fun x hx => ho x (by simpa [St.addS, upd, hne] using hx)⟩
  | caller => exact ⟨Nat.lt_succ_of_lt hb, fun x hx => ho x (by simpa [St.addC, upd, hne] using hx)⟩
  | @setBuf c y d hw hc hd =>
    refine ⟨hb, fun x hx => ?_⟩
    simp only [upd] at hx
    split at hx
    · rename_i e; subst e; cases hx; exact ho y hc
    · exact ho x hx
  | @free c =>
    refine ⟨hb, fun x hx => ?_⟩
    simp only [St.clobber, upd] at hx
    split at hx
    · cases hx
    · exact ho x hx
  | release =>
    refine ⟨hb, fun x hx => ?_⟩
    simp only [St.without, Option.bind_eq_some_iff] at hx
    obtain ⟨y, hy, hx⟩ := hx
    split at hx
    · cases hx
    · cases hx; exact ho _ hy
  | _ => exact ⟨hb, ho⟩

theorem withText_tr {α : Type} {d : Bytes} (hd : K d) (keep : Bool) {f : SPtr → M α} (hf : ∀ p, Traces Q K N (f p)) : Traces Q K N (withText d keep f) := by
  intro st r st' hN e
  have e := (M.bind_ok (callerText_run d st)).symm.trans e
  rw [M.bind_run] at e
  split at e
  · rename_i x st1 e1
    have h1 : Hops Q K N st st1 := ((Hop.caller hd).one).trans (hf _ _ _ _ (Nat.le_succ_of_le hN) e1)
    have h2 : st.nb < st1.nb ∧ ∀ x, st1.bufs st.nb = some x → x.owner = none :=
      (hf _ _ _ _ (Nat.le_succ_of_le hN) e1).keeps (I := fun s => st.nb < s.nb ∧ ∀ x, s.bufs st.nb = some x → x.owner = none)
        (fun a b h hI => h.foreign hI.1 hI.2)
        ⟨Nat.lt_succ_self _, fun x hx => by simp [St.addC, upd] at hx; rw [← hx]⟩
    split at e
    · cases e; exact h1
    · cases e
      exact h1.tail (.free hN h2.1 h2.2)
  · cases e
  · cases e

theorem NavFn_run_tr (F : Nat) (x0 : NavFn) (x1 : Addr) (hk : ∀ k, x0 = .obj k → K (k ++ [0])) (hk' : ∀ k, x0 = .objLen k → K k) :
    Traces Q K N (ZJ.NavFn.run F x0 x1) := by
  cases x0 with
  | obj k => exact withText_tr (hk k rfl) _ fun p => objGet_tr _ _ _
  | objLen k => exact withText_tr (hk' k rfl) _ fun p => objGetLen_tr _ _ _ _
  | _ => simp only [NavFn.run]; trc

/-- The texts that the client hands over in a call, as they lie in its memory. -/
def Call.texts {D : Type} : Call D → List Bytes
  | .parse f _ b => [passed f.len b]
  | .text f _ b => [passed f.len b]
  | .key f _ b => [passed f.len b]
  | .nav (.obj k) _ => [k ++ [0]]
  | .nav (.objLen k) _ => [k]
  | .delKey _ k => [k ++ [0]]
  | _ => []

/-- Every call of the API makes only such steps. -/
theorem exec_tr {D : Type} (fp : FP D) (F : Nat) (c : Call D) (hc : ∀ d ∈ c.texts, K d) (hr : ∀ R, c = .release R → Q R) : Traces Q K N (exec fp F c) := by
  unfold exec
  split <;> trc
  · exact tr_releaseAllocator _ (hr _ rfl)
  · exact withText_tr (hc _ (by simp [Call.texts])) _ fun p => ParseFn_run_tr _ _ _ _
  · exact withText_tr (hc _ (by simp [Call.texts])) _ fun p => TextFn_run_tr _ _ _ _
  · exact withText_tr (hc _ (by simp [Call.texts])) _ fun p => KeyFn_run_tr _ _ _ _
  · refine NavFn_run_tr _ _ _ (fun k e => hc _ ?_) fun k e => hc _ ?_
    · subst e; simp [Call.texts]
    · subst e; simp [Call.texts]
  · exact withText_tr (hc _ (by simp [Call.texts])) _ fun p => objDel_tr _ _ _

/-- Every text that the client ever hands over satisfies `K`. -/
def Prog.Hands {D : Type} (K : Bytes → Prop) : Prog D → Prop
  | .done => True
  | .call c k => (∀ d ∈ c.texts, K d) ∧ ∀ r, (k r).Hands K

theorem Prog.hands_all {D : Type} (p : Prog D) : p.Hands fun _ => True := by
  induction p with
  | done => trivial
  | call c k ih => exact ⟨fun _ _ => trivial, ih⟩

/-- So does every client. -/
theorem Prog.traces {D : Type} (fp : FP D) (F : Nat) (p : Prog D) (hp : p.Hands K) : Traces (fun _ => True) K N (p.run fp F) := by
  induction p with
  | done => exact tr_pure _
  | call c k ih => exact tr_bind (exec_tr fp F c hp.1 fun _ _ => trivial) fun r => tr_bind (ih r (hp.2 r)) fun _ => tr_pure _

end ZJ
