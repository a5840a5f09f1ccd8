import Verif.Cpp
import Verif.Hops

/-
C54: the C++ classes give the same service as the C functions.

A client written in C++ (`Prog.cppRun`) and the same client written in C (`Prog.cRun`) are told
the same, whatever they do, as long as the client in C does not pass handles whose memory has
been released; then both have undefined behaviour.
-/

set_option linter.unusedSimpArgs false
set_option linter.unusedVariables false

namespace ZJ

variable {D : Type} {fp : FP D} {F : Nat}

/-! ### The same client in C -/

/-- The handles that are passed in a call. -/
def Call.handles : Call D → List Addr
  | .newAlloc | .release _ | .newValue _ => []
  | .parse _ v _ | .text _ v _ | .null v | .bool v _ | .array v | .object v | .int _ v _ | .double v _ | .key _ v _
  | .get _ v | .nav _ v | .copy v | .move v | .delAt v _ | .delKey v _ => [v]
  | .add _ _ v w | .set _ v w => [v, w]

/-- `*v` for these handles: undefined if one of them is gone. -/
def touch : List Addr → M Unit
  | [] => return ()
  | v :: vs => do
    let _ ← rdVal v
    touch vs

/-- The C function for a method: the method `SetNumStrLenFast` is the function `zj_SetNumStrLen`
(zzzjson.hpp:93-95). -/
def Call.cpp : Call D → Call D
  | .text .numLenFast v b => .text .numLen v b
  | c => c

/-- The client in C, which passes only handles that are not gone. -/
def Prog.cRun (fp : FP D) (F : Nat) : Prog D → Tab → M (List (Ans D))
  | .done, _ => return []
  | .call c k, T =>
    match T.call c with
    | none => return []
    | some c' => do
      touch c'.handles
      let r ← exec fp F c'.cpp
      let rs ← (k (T.ans r)).cRun fp F (T.next r)
      return T.ans r :: rs

/-! ### Handles stay until their allocator is released -/

/-- Handles are in memory of allocators that are in use. -/
structure Owned (st : St) : Prop where
  live : ∀ v x, st.vals v = some x → st.allocs x.a = true
  old : ∀ v x, st.vals v = some x → v < st.nv
  na : ∀ A, st.allocs A = true → A < st.na

/-- The handle is as before, apart from the node it points to. -/
def StaysAt (v : Addr) (st st' : St) : Prop :=
  (st.vals v = none ∧ st'.vals v = none) ∨ ∃ x x', st.vals v = some x ∧ st'.vals v = some x' ∧ x'.a = x.a

theorem StaysAt.refl {v : Addr} {st st' : St} (h : st'.vals v = st.vals v) : StaysAt v st st' := by
  cases e : st.vals v with
  | none => exact .inl ⟨e, h.trans e⟩
  | some x => exact .inr ⟨x, x, e, h.trans e, rfl⟩

theorem StaysAt.trans {v : Addr} {st st1 st2 : St} (h : StaysAt v st st1) (h' : StaysAt v st1 st2) : StaysAt v st st2 := by
  rcases h with ⟨h1, h2⟩ | ⟨x, x', h1, h2, h3⟩ <;> rcases h' with ⟨g1, g2⟩ | ⟨y, y', g1, g2, g3⟩
  · exact .inl ⟨h1, g2⟩
  · rw [h2] at g1; cases g1
  · rw [h2] at g1; cases g1
  · rw [h2] at g1; cases g1; exact .inr ⟨x, y', h1, g2, g3.trans h3⟩

section
variable {Q : Nat → Prop} {K : Bytes → Prop} {N : Nat} {st st' : St}

theorem Hop.owned (hs : Hop Q K N st st') (h : Owned st) : Owned st' := by
  cases hs with
  | @val A o hA =>
    refine ⟨fun v x e => ?_, fun v x e => ?_, h.na⟩
    · replace e : upd st.vals st.nv (some ⟨o, A⟩) v = some x := e
      unfold upd at e
      split at e
      · cases e; exact hA
      · exact h.live v x e
    · replace e : upd st.vals st.nv (some ⟨o, A⟩) v = some x := e
      unfold upd at e
      show v < st.nv + 1
      split at e
      · omega
      · have := h.old v x e; omega
  | @setVal w y y' hw ha =>
    refine ⟨fun v x e => ?_, fun v x e => ?_, h.na⟩
    · replace e : upd st.vals w (some y') v = some x := e
      unfold upd at e
      split at e
      · cases e; rw [ha]; exact h.live w y hw
      · exact h.live v x e
    · replace e : upd st.vals w (some y') v = some x := e
      unfold upd at e
      split at e
      · rename_i q; rw [q]; exact h.old w y hw
      · exact h.old v x e
  | new =>
    refine ⟨fun v x e => ?_, h.old, fun A hA => ?_⟩
    · show upd st.allocs st.na true x.a = true
      unfold upd
      split
      · rfl
      · exact h.live v x e
    · replace hA : upd st.allocs st.na true A = true := hA
      unfold upd at hA
      show A < st.na + 1
      split at hA
      · omega
      · have := h.na A hA; omega
  | @release R _ hR =>
    have key : ∀ v x, (st.without R).vals v = some x → st.vals v = some x ∧ x.a ≠ R := by
      intro v x e
      simp only [St.without] at e
      cases q : st.vals v with
      | none => simp [q] at e
      | some y =>
        simp only [q, Option.bind_some] at e
        split at e
        · cases e
        · cases e; exact ⟨rfl, by assumption⟩
    refine ⟨fun v x e => ?_, fun v x e => h.old v x (key v x e).1, fun A hA => ?_⟩
    · obtain ⟨e1, e2⟩ := key v x e
      show upd st.allocs R false x.a = true
      rw [upd_ne _ _ e2]; exact h.live v x e1
    · replace hA : upd st.allocs R false A = true := hA
      unfold upd at hA
      split at hA
      · cases hA
      · exact h.na A hA
  | _ => exact ⟨h.live, h.old, h.na⟩

/-- Without a release. -/
theorem Hop.stays (hs : Hop (fun _ => False) K N st st') {v : Addr} (hv : v < st.nv) : StaysAt v st st' ∧ v < st'.nv := by
  cases hs with
  | @val A o hA => exact ⟨.refl (upd_ne _ _ (by omega)), Nat.lt_succ_of_lt hv⟩
  | @setVal w y y' hw ha =>
    refine ⟨?_, hv⟩
    by_cases e : v = w
    · subst e; exact .inr ⟨y, y', hw, upd_same _ _ _, ha⟩
    · exact .refl (upd_ne _ _ e)
  | release h => exact h.elim
  | _ => exact ⟨.refl rfl, hv⟩

theorem Hops.owned (hs : Hops Q K N st st') (h : Owned st) : Owned st' := hs.keeps (fun _ _ g h => g.owned h) h

theorem Hops.stays (hs : Hops (fun _ => False) K N st st') {v : Addr} (hv : v < st.nv) : StaysAt v st st' ∧ v < st'.nv := by
  induction hs with
  | refl => exact ⟨.refl rfl, hv⟩
  | tail h1 h2 ih =>
    obtain ⟨h3, h4⟩ := h2.stays ih.2
    exact ⟨ih.1.trans h3, h4⟩

end

/-- A call that is not a release. -/
theorem exec_hops {c : Call D} (hc : c.releases = false) {st st' : St} {r : Ans D} (e : exec fp F c st = .ok (r, st')) :
    Hops (fun _ => False) (fun _ => True) 0 st st' :=
  exec_tr fp F c (fun _ _ => trivial) (fun R h => by subst h; cases hc) _ _ _ (Nat.zero_le _) e

/-! ### Handles that are returned exist -/

/-- What is returned exists. -/
def Makes (m : M (Option Addr)) : Prop := ∀ st v st', m st = .ok (some v, st') → (st'.vals v).isSome = true

theorem mk_bind {α : Type} {m : M α} {f : α → M (Option Addr)} (h : ∀ a, Makes (f a)) : Makes (m >>= f) := fun st v st' e => by
  obtain ⟨a, st1, _, e⟩ := ok_bind e
  exact h a _ _ _ e

theorem mk_none : Makes (pure none) := fun st v st' e => by cases e

theorem mk_new (A : Nat) (o : Option Addr) : Makes (do return some (← newVal A o)) := fun st v st' e => by
  obtain ⟨a, st1, e1, e⟩ := ok_bind e
  cases e
  obtain ⟨_, st2, _, e1⟩ := ok_bind e1
  cases e1
  simp [upd]

theorem mk_ite {c : Prop} [Decidable c] {a b : M (Option Addr)} (h : Makes a) (h' : Makes b) : Makes (if c then a else b) := by
  split <;> assumption

theorem mk_text {d : Bytes} {f : SPtr → M (Option Addr)} (h : ∀ p, Makes (f p)) : Makes (withText d false f) := fun st v st' e => by
  obtain ⟨p, st1, _, e⟩ := ok_bind e
  obtain ⟨r, st2, e2, e⟩ := ok_bind e
  simp only [Bool.false_eq_true, if_false] at e
  obtain ⟨_, st3, e3, e⟩ := ok_bind e
  cases e
  have := h p _ _ _ e2
  unfold freeText at e3
  repeat' split at e3
  all_goals cases e3
  all_goals exact this

theorem nav_makes (f : NavFn) (v : Addr) : Makes (f.run F v) := by
  cases f with
  | begin =>
    refine mk_bind fun x => ?_
    split
    · exact mk_none
    · refine mk_bind fun t => mk_ite mk_none (mk_bind fun y => ?_)
      split
      · exact mk_new _ _
      · exact mk_none
  | next =>
    refine mk_bind fun x => ?_
    split
    · exact mk_none
    · refine mk_bind fun y => ?_
      split
      · exact mk_new _ _
      · exact mk_none
  | array i =>
    refine mk_bind fun x => ?_
    split
    · exact mk_none
    · refine mk_bind fun t => mk_ite mk_none (mk_bind fun _ => mk_bind fun y => ?_)
      split
      · exact mk_none
      · exact mk_new _ _
  | obj k =>
    refine mk_text fun p => mk_bind fun x => ?_
    split
    · exact mk_none
    · refine mk_bind fun t => mk_ite mk_none (mk_bind fun _ => mk_bind fun y => ?_)
      split
      · exact mk_none
      · exact mk_new _ _
  | objLen k =>
    refine mk_text fun p => mk_bind fun x => ?_
    split
    · exact mk_none
    · refine mk_bind fun t => mk_ite mk_none (mk_bind fun _ => mk_bind fun y => ?_)
      split
      · exact mk_none
      · exact mk_new _ _

theorem copy_makes (v : Addr) : Makes (ZJ.copy F v) := fun st w st' e => by
  obtain ⟨x, st1, _, e⟩ := ok_bind e
  obtain ⟨r, st2, e2, e⟩ := ok_bind e
  obtain ⟨b, st3, e3, e⟩ := ok_bind e
  have h2 : (st2.vals r).isSome = true ∧ r < st2.nv := by
    obtain ⟨_, st4, _, e2⟩ := ok_bind e2
    cases e2
    exact ⟨by simp [upd], Nat.lt_succ_self _⟩
  have h3 := (valueCopyFrom_tr (Q := fun _ => False) (K := fun _ => True) (N := 0) F r v _ _ _ (Nat.zero_le _) e3).stays h2.2
  cases b with
  | false => cases e
  | true =>
    cases e
    rcases h3.1 with ⟨h, _⟩ | ⟨_, _, _, h, _⟩
    · rw [h] at h2; cases h2.1
    · rw [h]; rfl

/-! ### Boxes and handles -/

/-- The box `w` stands for the handle `v`. -/
structure Tied (bx : Boxes) (st : St) (w v : Addr) : Prop where
  lt : w < bx.next
  nv : v < st.nv
  both : (bx.map w = none ∧ st.vals v = none) ∨ ∃ x, bx.map w = some ⟨v, x.a⟩ ∧ st.vals v = some x

structure Match (bx : Boxes) (S T : Tab) (st : St) : Prop where
  hs : Each (Tied bx st) S.hs T.hs
  as : S.as = T.as
  own : Owned st

theorem Tied.stays {bx : Boxes} {st st' : St} {w v : Addr} (h : Tied bx st w v) (hs : StaysAt v st st' ∧ v < st'.nv) : Tied bx st' w v := by
  refine ⟨h.lt, hs.2, ?_⟩
  rcases h.both with ⟨h1, h2⟩ | ⟨x, h1, h2⟩ <;> rcases hs.1 with ⟨g1, g2⟩ | ⟨y, y', g1, g2, g3⟩
  · exact .inl ⟨h1, g2⟩
  · rw [h2] at g1; cases g1
  · rw [h2] at g1; cases g1
  · rw [h2] at g1; cases g1
    exact .inr ⟨y', by rw [g3]; exact h1, g2⟩

theorem Match.hops {bx : Boxes} {S T : Tab} {st st' : St} {K : Bytes → Prop} {N : Nat} (h : Match bx S T st) (hs : Hops (fun _ => False) K N st st') : Match bx S T st' :=
  ⟨h.hs.mono fun w v ht => ht.stays (hs.stays ht.nv), h.as, hs.owned h.own⟩

/-- The answers, the boxes and the memory after a call of the method and of the function. -/
inductive Twin (S T : Tab) : Res ((Ans D × Boxes) × St) → Res (Ans D × St) → Prop
  | ok {r r' bx st} : T.ans r' = S.ans r → Match bx (S.next r) (T.next r') st → Twin S T (.ok ((r, bx), st)) (.ok (r', st))
  | ub {u} : Twin S T (.ub u) (.ub u)
  | timeout : Twin S T .timeout .timeout

/-- The call in C, with the handles it passes looked at. -/
def cExec (fp : FP D) (F : Nat) (c : Call D) : M (Ans D) := do
  touch c.handles
  exec fp F c.cpp

/-- The calls whose answers are neither handles nor allocators. -/
def Call.isPlain : Call D → Bool
  | .newAlloc | .release _ | .newValue _ | .nav _ _ | .copy _ => false
  | _ => true

theorem exec_plain {c : Call D} (hc : c.isPlain = true) {st st' : St} {r : Ans D} (e : exec fp F c st = .ok (r, st')) : r.plain := by
  cases c with
  | newAlloc => cases hc
  | release A => cases hc
  | newValue A => cases hc
  | nav f v => cases hc
  | copy v => cases hc
  | get f v =>
    cases f <;> (obtain ⟨_, _, _, e⟩ := ok_bind e; first | (cases e; trivial) | (obtain ⟨_, _, _, e⟩ := ok_bind e; cases e; trivial))
  | add o fast v w => cases o <;> cases fast <;> (obtain ⟨_, _, _, e⟩ := ok_bind e; cases e; trivial)
  | set fast v w => cases fast <;> (obtain ⟨_, _, _, e⟩ := ok_bind e; cases e; trivial)
  | _ => obtain ⟨_, _, _, e⟩ := ok_bind e; cases e; trivial

theorem Tab.ans_plain {S : Tab} {r : Ans D} (h : r.plain) : S.ans r = r ∧ S.next r = S := by
  cases r with
  | alloc A => cases h
  | handle o => cases h
  | _ => exact ⟨rfl, rfl⟩

theorem Tied.dead {bx : Boxes} {st : St} {w v : Addr} (h : Tied bx st w v) :
    (bx.get w st = .ok (v, st) ∧ ∃ x, rdVal v st = .ok (x, st)) ∨ (bx.get w st = .ub .wild ∧ rdVal v st = .ub .wild) := by
  rcases h.both with ⟨h1, h2⟩ | ⟨x, h1, h2⟩
  · exact .inr ⟨by simp [Boxes.get, h1, fail], by simp [rdVal, h2]⟩
  · exact .inl ⟨by simp [Boxes.get, h1], x, by simp [rdVal, h2]⟩

section
variable {bx : Boxes} {S T : Tab} {st : St}

/-- A call with a plain answer. -/
theorem Match.plain (h : Match bx S T st) {c : Call D} (hc : c.isPlain = true) :
    Twin S T ((do return (← exec fp F c, bx) : M (Ans D × Boxes)) st) (exec fp F c st) := by
  cases e : exec fp F c st with
  | ub u => rw [M.bind_ub e]; exact .ub
  | timeout => rw [M.bind_run, e]; exact .timeout
  | ok y =>
    obtain ⟨r, st'⟩ := y
    rw [M.bind_ok e]
    have hp := exec_plain hc e
    refine .ok ?_ ?_
    · rw [(Tab.ans_plain hp).1, (Tab.ans_plain hp).1]
    · rw [(Tab.ans_plain hp).2, (Tab.ans_plain hp).2]
      exact h.hops (exec_hops (by cases c <;> first | rfl | cases hc) e)

theorem Match.one (h : Match bx S T st) {w v : Addr} (ht : Tied bx st w v) {c : Addr → Call D} (hc : ∀ v, (c v).isPlain = true) :
    Twin S T ((do return (← exec fp F (c (← bx.get w)), bx) : M (Ans D × Boxes)) st) ((do touch [v]; exec fp F (c v)) st) := by
  rcases ht.dead with ⟨h1, x, h2⟩ | ⟨h1, h2⟩
  · have e1 : touch [v] st = .ok ((), st) := M.bind_ok h2
    rw [M.bind_ok h1, M.bind_ok e1]
    exact h.plain (hc v)
  · have e1 : touch [v] st = .ub .wild := M.bind_ub h2
    rw [M.bind_ub h1, M.bind_ub e1]
    exact .ub

theorem Match.two (h : Match bx S T st) {w v w' v' : Addr} (ht : Tied bx st w v) (ht' : Tied bx st w' v') {c : Addr → Addr → Call D}
    (hc : ∀ v v', (c v v').isPlain = true) :
    Twin S T ((do return (← exec fp F (c (← bx.get w) (← bx.get w')), bx) : M (Ans D × Boxes)) st) ((do touch [v, v']; exec fp F (c v v')) st) := by
  rcases ht.dead with ⟨h1, x, h2⟩ | ⟨h1, h2⟩
  · rcases ht'.dead with ⟨g1, y, g2⟩ | ⟨g1, g2⟩
    · have e1 : touch [v, v'] st = .ok ((), st) := (M.bind_ok h2).trans (M.bind_ok g2)
      rw [M.bind_ok h1, M.bind_ok g1, M.bind_ok e1]
      exact h.plain (hc v v')
    · have e1 : touch [v, v'] st = .ub .wild := (M.bind_ok h2).trans (M.bind_ub g2)
      rw [M.bind_ok h1, M.bind_ub g1, M.bind_ub e1]
      exact .ub
  · have e1 : touch [v, v'] st = .ub .wild := M.bind_ub h2
    rw [M.bind_ub h1, M.bind_ub e1]
    exact .ub

/-- A box for what was returned. -/
theorem Match.boxed (h : Match bx S T st) {o : Option Addr} (ho : ∀ v, o = some v → (st.vals v).isSome = true) :
    Twin S T ((do let (w, bx) ← bx.innerNew o; return (.handle w, bx) : M (Ans D × Boxes)) st) (.ok (.handle o, st)) := by
  cases o with
  | none => exact .ok rfl h
  | some v =>
    obtain ⟨x, hx⟩ := Option.isSome_iff_exists.1 (ho v rfl)
    have hl := h.own.live v x hx
    have e : bx.innerNew (some v) st = .ok ((some bx.next, ⟨upd bx.map bx.next (some ⟨v, x.a⟩), bx.next + 1⟩), st) := by
      refine (M.bind_ok (show rdVal v st = .ok (x, st) by simp [rdVal, hx])).trans ?_
      refine (M.bind_ok (show bx.add x.a v st = .ok ((bx.next, ⟨upd bx.map bx.next (some ⟨v, x.a⟩), bx.next + 1⟩), st) by simp [Boxes.add, hl])).trans rfl
    rw [M.bind_ok e]
    refine .ok ?_ ⟨?_, h.as, h.own⟩
    · simp [Tab.ans, h.hs.length]
    · have keep : ∀ w u, Tied bx st w u → Tied ⟨upd bx.map bx.next (some ⟨v, x.a⟩), bx.next + 1⟩ st w u := fun w u ht => by
        refine ⟨Nat.lt_succ_of_lt ht.lt, ht.nv, ?_⟩
        have : upd bx.map bx.next (some ⟨v, x.a⟩) w = bx.map w := upd_ne _ _ (by have := ht.lt; omega)
        show (upd bx.map bx.next (some ⟨v, x.a⟩) w = none ∧ _) ∨ ∃ y, upd bx.map bx.next (some ⟨v, x.a⟩) w = _ ∧ _
        rw [this]; exact ht.both
      exact (h.hs.mono keep).append (.cons ⟨Nat.lt_succ_self _, h.own.old v x hx, .inr ⟨x, upd_same _ _ _, hx⟩⟩ .nil)

theorem Match.made (h : Match bx S T st) {m : M (Option Addr)} (hm : Makes m) (ht : Traces (fun _ => False) (fun _ => True) 0 m) :
    Twin S T ((do let (w, bx) ← bx.innerNew (← m); return (.handle w, bx) : M (Ans D × Boxes)) st) ((do return .handle (← m) : M (Ans D)) st) := by
  cases e : m st with
  | ub u => rw [M.bind_ub e, M.bind_ub e]; exact .ub
  | timeout => rw [M.bind_run, e, M.bind_run, e]; exact .timeout
  | ok y =>
    obtain ⟨o, st'⟩ := y
    rw [M.bind_ok e, M.bind_ok e]
    exact (h.hops (ht _ _ _ (Nat.zero_le _) e)).boxed fun v hv => by subst hv; exact hm _ _ _ e

theorem Match.makes (h : Match bx S T st) {w v : Addr} (ht : Tied bx st w v) {m : Addr → M (Option Addr)} (hm : Makes (m v))
    (htr : Traces (fun _ => False) (fun _ => True) 0 (m v)) :
    Twin S T ((do let (w, bx) ← bx.innerNew (← m (← bx.get w)); return (.handle w, bx) : M (Ans D × Boxes)) st)
      ((do touch [v]; return .handle (← m v) : M (Ans D)) st) := by
  rcases ht.dead with ⟨h1, x, h2⟩ | ⟨h1, h2⟩
  · have e1 : touch [v] st = .ok ((), st) := M.bind_ok h2
    rw [M.bind_ok h1, M.bind_ok e1]
    exact h.made hm htr
  · have e1 : touch [v] st = .ub .wild := M.bind_ub h2
    rw [M.bind_ub h1, M.bind_ub e1]
    exact .ub

/-- The box goes with the handle. -/
theorem Tied.without {w v A : Addr} (h : Tied bx st w v) : Tied (bx.drop A) (st.without A) w v := by
  refine ⟨h.lt, h.nv, ?_⟩
  rcases h.both with ⟨h1, h2⟩ | ⟨x, h1, h2⟩
  · exact .inl ⟨by simp [Boxes.drop, h1], by simp [St.without, h2]⟩
  · by_cases e : x.a = A
    · exact .inl ⟨by simp [Boxes.drop, h1, e], by simp [St.without, h2, e]⟩
    · exact .inr ⟨x, by simp [Boxes.drop, h1, e], by simp [St.without, h2, e]⟩

/-- Each method and its function. -/
theorem Match.call (h : Match bx S T st) (c : Call D) :
    (S.call c = none ∧ T.call c = none) ∨ ∃ cw cv, S.call c = some cw ∧ T.call c = some cv ∧ Twin S T (cppExec fp F bx cw st) (cExec fp F cv st) := by
  have one : ∀ (w : Addr) {C : Addr → Call D}, (∀ w v, Tied bx st w v → Twin S T (cppExec fp F bx (C w) st) (cExec fp F (C v) st)) →
      (S.hs[w]?.map C = none ∧ T.hs[w]?.map C = none) ∨ ∃ cw cv, S.hs[w]?.map C = some cw ∧ T.hs[w]?.map C = some cv ∧ Twin S T (cppExec fp F bx cw st) (cExec fp F cv st) := by
    intro w C hC
    have h1 := h.hs.get w
    generalize S.hs[w]? = x at h1
    generalize T.hs[w]? = y at h1
    cases h1 with
    | none => exact .inl ⟨rfl, rfl⟩
    | some ht => exact .inr ⟨_, _, rfl, rfl, hC _ _ ht⟩
  have two : ∀ (w x : Addr) {C : Addr → Addr → Call D}, (∀ w v x u, Tied bx st w v → Tied bx st x u → Twin S T (cppExec fp F bx (C w x) st) (cExec fp F (C v u) st)) →
      ((S.hs[w]?.bind fun w => S.hs[x]?.map fun x => C w x) = none ∧ (T.hs[w]?.bind fun w => T.hs[x]?.map fun x => C w x) = none) ∨
      ∃ cw cv, (S.hs[w]?.bind fun w => S.hs[x]?.map fun x => C w x) = some cw ∧ (T.hs[w]?.bind fun w => T.hs[x]?.map fun x => C w x) = some cv ∧
        Twin S T (cppExec fp F bx cw st) (cExec fp F cv st) := by
    intro w x C hC
    have h1 := h.hs.get w
    have h2 := h.hs.get x
    generalize S.hs[w]? = a at h1
    generalize T.hs[w]? = b at h1
    generalize S.hs[x]? = a' at h2
    generalize T.hs[x]? = b' at h2
    cases h1 with
    | none => exact .inl ⟨rfl, rfl⟩
    | some ht =>
      cases h2 with
      | none => exact .inl ⟨rfl, rfl⟩
      | some ht' => exact .inr ⟨_, _, rfl, rfl, hC _ _ _ _ ht ht'⟩
  have alc : ∀ (A : Nat) {C : Nat → Call D}, (∀ A, Twin S T (cppExec fp F bx (C A) st) (cExec fp F (C A) st)) →
      (S.as[A]?.map C = none ∧ T.as[A]?.map C = none) ∨ ∃ cw cv, S.as[A]?.map C = some cw ∧ T.as[A]?.map C = some cv ∧ Twin S T (cppExec fp F bx cw st) (cExec fp F cv st) := by
    intro A C hC
    rw [h.as]
    cases T.as[A]? with
    | none => exact .inl ⟨rfl, rfl⟩
    | some A => exact .inr ⟨_, _, rfl, rfl, hC A⟩
  cases c with
  | newAlloc =>
    refine .inr ⟨_, _, rfl, rfl, .ok ?_ ⟨(h.hops (Hop.new (Q := fun _ => False) (K := fun _ => True) (N := 0)).one).hs, ?_, (Hop.new (Q := fun _ => False) (K := fun _ => True) (N := 0)).owned h.own⟩⟩
    · simp [Tab.ans, h.as]
    · simp [Tab.next, h.as]
  | release A =>
    refine alc A fun A => ?_
    by_cases e : st.allocs A = true
    · have e1 : cppExec fp F bx (.release A) st = .ok ((.unit, bx.drop A), st.without A) := M.bind_ok (release_run e)
      have e2 : cExec fp F (.release A) st = .ok (.unit, st.without A) := M.bind_ok (release_run e)
      rw [e1, e2]
      exact .ok rfl ⟨h.hs.mono fun _ _ ht => ht.without, h.as, (Hop.release (Q := fun _ => True) (K := fun _ => True) (N := 0) trivial e).owned h.own⟩
    · have e1 : cppExec fp F bx (.release A) st = .ub .badFree := M.bind_ub (by simp [releaseAllocator, e])
      have e2 : cExec fp F (.release A) st = .ub .badFree := M.bind_ub (x := releaseAllocator A) (by simp [releaseAllocator, e])
      rw [e1, e2]
      exact .ub
  | newValue A =>
    refine alc A fun A => ?_
    have := h.made (m := do return some (← newVal A none)) (mk_new A none) (tr_bind (tr_newVal _ _) fun _ => tr_pure _) (D := D)
    have e : ∀ {α : Type} (f : Option Addr → M α), ((do return some (← newVal A none) : M (Option Addr)) >>= f) st = (newVal A none >>= fun v => f (some v)) st := by
      intro α f
      rw [M.bind_run, M.bind_run, M.bind_run]
      cases newVal A none st <;> rfl
    rw [e, e] at this
    exact this
  | parse f v b => exact one v fun w v ht => h.one ht (c := fun v => .parse f v b) fun _ => rfl
  | text f v b =>
    cases f with
    | numLenFast => exact one v fun w v ht => h.one ht (c := fun v => .text .numLen v b) fun _ => rfl
    | str => exact one v fun w v ht => h.one ht (c := fun v => .text .str v b) fun _ => rfl
    | strLen => exact one v fun w v ht => h.one ht (c := fun v => .text .strLen v b) fun _ => rfl
    | strFast => exact one v fun w v ht => h.one ht (c := fun v => .text .strFast v b) fun _ => rfl
    | strLenFast => exact one v fun w v ht => h.one ht (c := fun v => .text .strLenFast v b) fun _ => rfl
    | strEsc => exact one v fun w v ht => h.one ht (c := fun v => .text .strEsc v b) fun _ => rfl
    | strLenEsc => exact one v fun w v ht => h.one ht (c := fun v => .text .strLenEsc v b) fun _ => rfl
    | num => exact one v fun w v ht => h.one ht (c := fun v => .text .num v b) fun _ => rfl
    | numLen => exact one v fun w v ht => h.one ht (c := fun v => .text .numLen v b) fun _ => rfl
    | numFast => exact one v fun w v ht => h.one ht (c := fun v => .text .numFast v b) fun _ => rfl
  | null v => exact one v fun w v ht => h.one ht (c := fun v => .null v) fun _ => rfl
  | bool v b => exact one v fun w v ht => h.one ht (c := fun v => .bool v b) fun _ => rfl
  | array v => exact one v fun w v ht => h.one ht (c := fun v => .array v) fun _ => rfl
  | object v => exact one v fun w v ht => h.one ht (c := fun v => .object v) fun _ => rfl
  | int f v n => exact one v fun w v ht => h.one ht (c := fun v => .int f v n) fun _ => rfl
  | double v d => exact one v fun w v ht => h.one ht (c := fun v => .double v d) fun _ => rfl
  | key f v b => exact one v fun w v ht => h.one ht (c := fun v => .key f v b) fun _ => rfl
  | get f v => exact one v fun w v ht => h.one ht (c := fun v => .get f v) fun _ => rfl
  | nav f v => exact one v fun w v ht => h.makes ht (m := fun v => f.run F v) (nav_makes f v) (NavFn_run_tr F f v (fun _ _ => trivial) fun _ _ => trivial)
  | copy v => exact one v fun w v ht => h.makes ht (m := fun v => ZJ.copy F v) (copy_makes v) (copy_tr F v)
  | move v => exact one v fun w v ht => h.one ht (c := fun v => .move v) fun _ => rfl
  | add o fast v w => exact two v w fun w v x u ht ht' => h.two ht ht' (c := fun v u => .add o fast v u) fun _ _ => rfl
  | delAt v i => exact one v fun w v ht => h.one ht (c := fun v => .delAt v i) fun _ => rfl
  | delKey v k => exact one v fun w v ht => h.one ht (c := fun v => .delKey v k) fun _ => rfl
  | set fast v w => exact two v w fun w v x u ht ht' => h.two ht ht' (c := fun v u => .set fast v u) fun _ _ => rfl

end

/-! ### All clients -/

theorem Prog.twin {p : Prog D} : ∀ {bx : Boxes} {S T : Tab} {st : St}, Match bx S T st → p.cppRun fp F S bx st = p.cRun fp F T st := by
  induction p with
  | done => intro bx S T st h; rfl
  | call c k ih =>
    intro bx S T st h
    simp only [Prog.cppRun, Prog.cRun]
    rcases h.call (fp := fp) (F := F) c with ⟨e1, e2⟩ | ⟨cw, cv, e1, e2, ht⟩
    · rw [e1, e2]
    · rw [e1, e2]
      dsimp only
      have ea : ∀ (f : Ans D → M (List (Ans D))), (do touch cv.handles; let r ← exec fp F cv.cpp; f r : M (List (Ans D))) st = (cExec fp F cv >>= f) st := by
        intro f
        unfold cExec
        rw [M.bind_run, M.bind_run, M.bind_run]
        cases touch cv.handles st <;> rfl
      rw [ea]
      rw [M.bind_run, M.bind_run]
      generalize cppExec fp F bx cw st = x at ht
      generalize cExec fp F cv st = y at ht
      cases ht with
      | ub => rfl
      | timeout => rfl
      | @ok r r' bx' st' e hm =>
        dsimp only
        rw [M.bind_run, M.bind_run, e, ih (S.ans r) hm]

theorem Match.init {slack : Nat → Nat} : Match .empty .empty .empty (St.init slack cfg) :=
  ⟨.nil, rfl, ⟨fun _ _ h => (nomatch h), fun _ _ h => (nomatch h), fun _ h => (nomatch h)⟩⟩

/-- C54: a client in C++ and the same client in C, which passes only handles that are not gone,
have the same answers and the same memory, or both have undefined behaviour of the same kind.
This holds for all clients, whatever they do. -/
theorem C54_same (p : Prog D) (slack : Nat → Nat) : p.cppRun fp F .empty .empty (St.init slack cfg) = p.cRun fp F .empty (St.init slack cfg) :=
  Prog.twin .init

/-! ### Allowed clients -/

theorem Legit.cpp {s : Store} {c : Call D} (h : Legit fp s c) : Legit fp s c.cpp := by
  unfold Call.cpp
  split
  · exact h
  · exact h

theorem TextFn.takes_fast {b : Bytes} {gv : GVal} : TextFn.Takes .numLen b gv ↔ TextFn.Takes .numLenFast b gv := by
  constructor
  · intro h
    cases h with
    | str h _ => simp at h
    | esc h => simp at h
    | num _ h => exact .num (by simp) h
  · intro h
    cases h with
    | str h _ => simp at h
    | esc h => simp at h
    | num _ h => exact .num (by simp) h

/-- The abstract store does not tell the copying setter from the other one. -/
theorem AStep.uncpp {s s' : Store} {c : Call D} {r : Ans D} (h : AStep fp s c.cpp r s') : AStep fp s c r s' := by
  unfold Call.cpp at h
  split at h
  · generalize hf : TextFn.numLen = f at h
    cases h with
    | text h1 h2 => subst hf; exact .text (TextFn.takes_fast.1 h1) h2
    | textNo h1 h2 => subst hf; exact .textNo h1 fun gv hg => h2 gv (TextFn.takes_fast.2 hg)
  · exact h

theorem touch_ok {st : St} : ∀ {l : List Addr}, (∀ v ∈ l, (st.vals v).isSome = true) → touch l st = .ok ((), st)
  | [], _ => rfl
  | v :: l, h => by
    obtain ⟨x, hx⟩ := Option.isSome_iff_exists.1 (h v (by simp))
    exact (M.bind_ok (show rdVal v st = .ok (x, st) by simp [rdVal, hx])).trans (touch_ok fun w hw => h w (by simp [hw]))

theorem Legit.handles {s : Store} {c : Call D} (h : Legit fp s c) : ∀ v ∈ c.handles, s.alive v := by
  cases c <;> simp only [Call.handles, List.mem_cons, List.not_mem_nil, or_false, forall_eq_or_imp, forall_eq, false_imp_iff, implies_true] <;>
    first
    | exact h
    | exact h.1
    | exact ⟨h.1, h.2.1⟩

theorem Prog.cGoes {p : Prog D} : ∀ {T : Tab} {st : St} {P : Addr → Prop} {s : Store}, WP st P s → (p.named T).Safe fp s →
    ∃ c rs st' s', (∀ F, c ≤ F → p.cRun fp F T st = .ok (T.views rs, st')) ∧ (p.named T).Gives fp s rs s' := by
  induction p with
  | done => intro T st P s h _; exact ⟨0, [], st, s, fun F _ => rfl, .done⟩
  | call c k ih =>
    intro T st P s h hs
    simp only [Prog.named] at hs ⊢
    simp only [Prog.cRun]
    cases hc : T.call c with
    | none => exact ⟨0, [], st, s, fun F _ => rfl, .done⟩
    | some c' =>
      rw [hc] at hs
      dsimp only at hs ⊢
      obtain ⟨c1, st1, r, s1, P1, e1, hA, h1⟩ := ZJ.goes h hs.1.cpp
      obtain ⟨c2, rs, st2, s2, e2, hG⟩ := ih (T.ans r) h1 (hs.2 r s1 hA.uncpp h1.wf)
      refine ⟨max c1 c2, r :: rs, st2, s2, fun F hF => ?_, .call hA.uncpp h1.wf hG⟩
      have ht : touch c'.handles st = .ok ((), st) := touch_ok fun v hv => by
        obtain ⟨y, hy⟩ := Option.isSome_iff_exists.1 (hs.1.handles v hv)
        rw [(h.hnd v y hy).1]; rfl
      refine (M.bind_ok ht).trans ?_
      mstep e1 F (by omega)
      mstep e2 F (by omega)
      rfl

/-- C54 for clients that make only allowed calls: the client in C++ runs without undefined
behaviour and is told exactly what the client in C is told, although the method
`SetNumStrLenFast` is another function than `zj_SetNumStrLenFast`. -/
theorem C54_allowed {pad : Bool} {slack slack' : Nat → Nat} (hp : pad = true → ∀ b, 3 ≤ slack b) (hp' : pad = true → ∀ b, 3 ≤ slack' b)
    (p : Prog D) (hs : (p.named .empty).Safe fp (Store.init pad)) :
    ∃ c rs st st', (∀ F, c ≤ F → (p.named .empty).run fp F (St.init slack cfg) = .ok (rs, st)) ∧
      (∀ F, c ≤ F → p.cppRun fp F .empty .empty (St.init slack' cfg') = .ok (Tab.empty.views rs, st')) := by
  obtain ⟨c, rs, st, s, P, e, hG, h⟩ := (p.named .empty).goes (WP.init hp) hs
  obtain ⟨c', rs', st', s', e', hG'⟩ := Prog.cGoes (WP.init hp') hs
  refine ⟨max c c', rs, st, st', fun F hF => e F (by omega), fun F hF => ?_⟩
  rw [C54_same, e' F (by omega), C53_abstract hG hG']

/-- The method `NewValue()` (zzzjson.hpp:34-39) makes a value in the allocator of the value it is
called on, like `NewValue(Allocator *)` with that allocator. -/
theorem C54_newValue {bx : Boxes} {st : St} {w v : Addr} {x : Option Addr} {A : Nat} (hw : bx.map w = some ⟨v, A⟩) (hv : st.vals v = some ⟨x, A⟩) :
    cppNewValue bx w st = (do let v ← newValue A; bx.innerNew (some v) : M (Option Addr × Boxes)) st := by
  refine (M.bind_ok (show bx.get w st = .ok (v, st) by simp [Boxes.get, hw])).trans ?_
  refine (M.bind_ok (show rdVal v st = .ok (⟨x, A⟩, st) by simp [rdVal, hv])).trans ?_
  by_cases hA : st.allocs A = true
  · have e : newValue A st = .ok (st.nv, st.addV A none) := newVal_run hA
    rw [M.bind_ok e, M.bind_ok e]
    refine Eq.trans ?_ (M.bind_ok (show rdVal st.nv (st.addV A none) = .ok (⟨none, A⟩, st.addV A none) by simp [rdVal, St.addV, upd])).symm
    rfl
  · have e : newValue A st = .ub .wild := M.bind_ub (by simp [request, hA])
    rw [M.bind_ub e, M.bind_ub e]

/-- The clients of `C52_false` meet the hypothesis of `C54_allowed`. -/
example : (stayer.named .empty).Safe fp (Store.init false) := stayer_safe

/-- A client in C++: a number is set with `SetNumStrLenFast` in one allocator, copied, and read
after a lookup that finds nothing. -/
def cppClient : Prog D := .seq [.newAlloc, .newValue 0, .text .numLenFast 0 b!"12", .copy 0, .nav .begin 1, .get .numStr 1, .get .print 0, .release 0]

example : (cppClient.cppRun (⟨fun _ => [], fun _ => ()⟩ : FP Unit) 99 .empty .empty (St.init fun _ => 0)).out =
    .ok [.alloc 0, .handle (some 0), .bool true, .handle (some 1), .handle none, .bytes (some b!"12"), .bytes (some b!"12"), .unit] := by decide +kernel

/-- The box is gone with its allocator. -/
example : ((Prog.seq [.newAlloc, .newValue 0, .release 0, .get .size 0]).cppRun (⟨fun _ => [], fun _ => ()⟩ : FP Unit) 99 .empty .empty (St.init fun _ => 0)).out =
    .ub .wild := by decide +kernel

/-- The condition on the client in C is needed: `zj_SetStr` refuses a text before it looks at
the handle, so this client in C passes a handle that is gone and is not punished; the client in
C++ is. -/
example : ((Prog.seq [.newAlloc, .newValue 0, .release 0, .text .str 0 b!"\""] : Prog Unit).named .empty |>.run
      (⟨fun _ => [], fun _ => ()⟩ : FP Unit) 99 (St.init fun _ => 0)).out = .ok [.alloc 0, .handle (some 0), .unit, .bool false] ∧
    ((Prog.seq [.newAlloc, .newValue 0, .release 0, .text .str 0 b!"\""]).cppRun (⟨fun _ => [], fun _ => ()⟩ : FP Unit) 99 .empty .empty
      (St.init fun _ => 0)).out = .ub .wild := by decide +kernel

end ZJ
