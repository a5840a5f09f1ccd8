import Verif.PropBudget

/-
C45 and C67: a `malloc` that may refuse. The code never looks at what `malloc` returned
(`C45_false`), so a refused request is followed by an access through the null pointer. Here:
that is all that can happen. Whatever `malloc` refuses and whenever, the program either goes on
as if memory were plenty, or it stops at a null pointer; no other undefined behaviour, no
overlapping blocks, no damage before the stop. And it does not stop as long as `malloc` serves
requests within the bound of C63.
-/

set_option linter.unusedSimpArgs false
set_option linter.unusedVariables false
set_option linter.unusedSectionVars false

namespace ZJ.Alloc

/-- A `malloc` that serves what `E` serves, and also what `E` refuses. -/
def patch (E : Env) : Env := fun k live n =>
  match E k live n with
  | some p => some p
  | none => bump k live n

theorem patch_sound {E : Env} (h : Sound E) : Sound (patch E) := by
  intro k live n p hp
  unfold patch at hp
  split at hp
  · next e => cases hp; exact h _ _ _ _ e
  · exact bump_sound _ _ _ _ hp

theorem patch_plenty (E : Env) : Plenty (patch E) := by
  intro k live n
  unfold patch
  split
  · rfl
  · rfl

theorem patch_some {E : Env} {k n p : Nat} {live : List Block} (h : E k live n = some p) : patch E k live n = some p := by
  unfold patch; rw [h]

/-- Memory after a refused request. -/
def Mem.asked1 (m : Mem) : Mem := { m with calls := m.calls + 1 }

theorem zjNew_patch (E : Env) (m : Mem) (n : Nat) :
    (zjNew E m n = zjNew (patch E) m n) ∨ (E m.calls m.live (w32 n) = none ∧ zjNew E m n = (0, m.asked1)) := by
  unfold zjNew
  cases h : E m.calls m.live (w32 n) with
  | some p => left; rw [patch_some h]
  | none => exact Or.inr ⟨rfl, rfl⟩

/-! ### What a step does to the live blocks -/

theorem wrAN_live {m m' : Mem} {p : Nat} {n : ANode} (h : wrAN m p n = .ok m') : m'.live = m.live := by
  unfold wrAN at h
  split at h
  · cases h
  · split at h
    · cases h; rfl
    · cases h

theorem wrAl_live {m m' : Mem} {p : Nat} {n : Alc} (h : wrAl m p n = .ok m') : m'.live = m.live := by
  unfold wrAl at h
  split at h
  · cases h
  · split at h
    · cases h; rfl
    · cases h

theorem zjNew_live (E : Env) (m : Mem) (n : Nat) :
    (zjNew (patch E) m n).2.live = ((zjNew (patch E) m n).1, w32 n) :: m.live := by
  have := patch_plenty E m.calls m.live (w32 n)
  unfold zjNew
  cases h : patch E m.calls m.live (w32 n) with
  | some p => rfl
  | none => rw [h] at this; cases this

section
variable [Knobs]

theorem newAllocator_patch (E : Env) (m : Mem) :
    newAllocator E m = newAllocator (patch E) m ∨ newAllocator E m = .ub .nullDeref := by
  unfold newAllocator
  rcases zjNew_patch E m (16 + 24 + chunk) with h | ⟨_, h⟩
  · left; rw [h]
  · right; rw [h]; rfl

theorem appendChild_patch (E : Env) (m : Mem) (a size : Nat) :
    appendChild E m a size = appendChild (patch E) m a size ∨ appendChild E m a size = .ub .nullDeref := by
  unfold appendChild
  rcases zjNew_patch E m (24 + size) with h | ⟨_, h⟩
  · left; rw [h]
  · right; rw [h]; rfl

theorem alloc_patch (E : Env) (fuel : Nat) (m : Mem) (a size : Nat) :
    alloc E fuel m a size = alloc (patch E) fuel m a size ∨ alloc E fuel m a size = .ub .nullDeref := by
  unfold alloc
  cases rdAl m a with
  | ub u => exact Or.inl rfl
  | timeout => exact Or.inl rfl
  | ok al =>
    simp only [Res.ok_bind]
    cases rdAN m al.end_ with
    | ub u => exact Or.inl rfl
    | timeout => exact Or.inl rfl
    | ok cur =>
      simp only [Res.ok_bind]
      split
      · cases growTo fuel (w32 (cur.sizeOf * delta)) size with
        | ub u => exact Or.inl rfl
        | timeout => exact Or.inl rfl
        | ok s =>
          simp only [Res.ok_bind]
          rcases appendChild_patch E m a s with h | h
          · left; rw [h]
          · right; rw [h]; rfl
      · exact Or.inl rfl

/-- One step of a program: it does what it would do with plenty of memory; or it stops at a
null pointer; or it was a request by the program itself (`malloc`, C++ `new`), and the program
was told. -/
theorem step_patch (E : Env) (fuel : Nat) (w : World) (op : Op) :
    step E fuel w op = step (patch E) fuel w op ∨ step E fuel w op = .ub .nullDeref ∨
      step E fuel w op = .ok { w with m := w.m.asked1 } := by
  cases op with
  | new =>
    simp only [step]
    rcases newAllocator_patch E w.m with h | h
    · left; rw [h]
    · right; left; rw [h]; rfl
  | newCpp =>
    simp only [step]
    rcases zjNew_patch E w.m 16 with h | ⟨_, h⟩
    · rw [h]
      have hl := zjNew_live E w.m 16
      generalize zjNew (patch E) w.m 16 = x at hl
      obtain ⟨self, m⟩ := x
      by_cases h0 : self = 0
      · left; simp [h0]
      · simp only [h0, if_false]
        unfold construct
        rcases zjNew_patch E m (24 + chunk) with h | ⟨_, h⟩
        · left; rw [h]
        · right; left
          rw [h]
          have : inLive m.asked1 self 16 = true := by
            refine inLive_of (b := (self, w32 16)) ?_ ?_
            · show _ ∈ m.live
              rw [show m.live = _ from hl]
              exact List.mem_cons_self ..
            · exact ⟨Nat.le_refl _, Nat.le_refl _⟩
          simp only [wrAl, h0, if_false, this, if_true, Res.ok_bind]
          rfl
    · right; right; rw [h]; rfl
  | alloc i size =>
    simp only [step]
    cases w.hs[i]? with
    | none => exact Or.inl rfl
    | some h =>
      simp only
      rcases alloc_patch E fuel w.m h.a size with h | h
      · left; rw [h]
      · right; left; rw [h]; rfl
  | release i => exact Or.inl rfl
  | free i => exact Or.inl rfl
  | write i j off s => exact Or.inl rfl
  | malloc n =>
    simp only [step]
    split
    · exact Or.inl rfl
    · rcases zjNew_patch E w.m n with h | ⟨_, h⟩
      · left; rw [h]
      · right; right; rw [h]; rfl

theorem WInv.asked1 {w : World} {os : List Own} (h : WInv w os) : WInv { w with m := w.m.asked1 } os :=
  ⟨h.hs, h.sep, h.live, fun o ho => (h.good o ho).frame (R := []) ⟨fun _ _ => rfl, fun _ _ => rfl, fun _ _ => rfl, fun _ _ => rfl⟩
    (fun _ _ _ hr => by cases hr) fun b hb => h.mem_live ho hb⟩

theorem step_failstop [Sensible] {E : Env} (hE : Sound E) {fuel : Nat} (hfuel : 33 ≤ fuel)
    {w : World} {os : List Own} (h : WInv w os) {op : Op} (hop : op.fine w) :
    step E fuel w op = .ub .nullDeref ∨ ∃ w' os', step E fuel w op = .ok w' ∧ WInv w' os' ∧
      ∀ b, (∃ x ∈ w.hs, b ∈ x.blocks) → ¬ op.touches w b → SameBytes w.m w'.m b := by
  rcases step_patch E fuel w op with e | e | e
  · right; rw [e]; exact step_inv (patch_sound hE) (patch_plenty E) hfuel h hop
  · exact Or.inl e
  · exact Or.inr ⟨_, os, e, h.asked1, fun b _ _ q _ _ => rfl⟩

theorem run_failstop [Sensible] {E : Env} (hE : Sound E) {fuel : Nat} (hfuel : 33 ≤ fuel) :
    ∀ (ops : List Op) {w : World} {os : List Own}, WInv w os → Fine E fuel w ops →
      run E fuel w ops = .ub .nullDeref ∨ ∃ w' os', run E fuel w ops = .ok w' ∧ WInv w' os'
  | [], w, os, h, _ => Or.inr ⟨w, os, rfl, h⟩
  | op :: r, w, os, h, hf => by
    simp only [run]
    rcases step_failstop hE hfuel h hf.1 with e | ⟨w1, os1, e1, h1, _⟩
    · left; rw [e]; rfl
    · rw [e1]
      exact run_failstop hE hfuel r h1 (hf.2 w1 e1)

/-! ### C45 -/

/-- C45, what is left of it: with any `malloc` whatsoever that does not hand out memory in use,
refusing any requests it likes, a program that keeps to the rules either stops at a null
pointer, or: its blocks are pairwise disjoint and lie in memory from `malloc`; every live
`malloc` block is its own or belongs to an allocator it has not released, so nothing is leaked;
and the memory held is within the bound of C40.

Partial: the claim is that the call reports the failure; the code stops (`C45_false`). -/
theorem C45_failstop_partial [Sensible] {E : Env} (hE : Sound E) {fuel : Nat} (hfuel : 33 ≤ fuel) {ops : List Op}
    (hf : Fine E fuel World.init ops) :
    run E fuel World.init ops = .ub .nullDeref ∨
    ∃ w, run E fuel World.init ops = .ok w ∧
      (w.hs.flatMap Hand.blocks ++ w.user).Pairwise Disj ∧
      (∀ h ∈ w.hs, ∀ b ∈ h.blocks, ∃ c ∈ w.m.live, Within b c) ∧
      (w.hs = [] → w.m.live.Perm w.user) ∧
      (w.m.live.map (·.2)).sum ≤ (w.hs.map fun h => heldFor h.asked).sum + (w.user.map (·.2)).sum := by
  rcases run_failstop hE hfuel ops WInv.init hf with e | ⟨w, os, e, h⟩
  · exact Or.inl e
  · refine Or.inr ⟨w, e, h.blocks, ?_, ?_, ?_⟩
    · intro x hx b hb
      obtain ⟨o, ho, _, c, hc, hw⟩ := h.block_live ⟨x, hx, hb⟩
      exact ⟨c, h.mem_live ho hc, hw⟩
    · intro h0
      have : os = [] := by
        have := h.hs
        rw [h0] at this
        simpa using this.symm
      subst this
      simpa using h.live
    · have h1 : (w.m.live.map (·.2)).sum = ((os.flatMap Own.mem ++ w.user).map (·.2)).sum :=
        (h.live.map _).sum_nat
      rw [h1, h.hs, List.map_append, List.sum_append]
      have : ((os.flatMap Own.mem).map (·.2)).sum ≤ ((os.map Own.hand).map fun h => heldFor h.asked).sum := by
        have hg := h.good
        clear h h1 e
        induction os with
        | nil => simp
        | cons o r ih =>
          have hi := ih fun x hx => hg x (List.mem_cons_of_mem _ hx)
          have ho := (hg o (List.mem_cons_self ..)).lay.held
          simp only [List.flatMap_cons, List.map_append, List.sum_append, List.map_cons, List.sum_cons] at hi ⊢
          have : o.hand.asked = o.req := rfl
          rw [this]
          omega
      omega

/-- C45: and up to the stop, a refused request changes nothing of what the program stored:
the step that is not a stop leaves every block as it was, unless the step itself writes to it
or releases it. -/
theorem C45_contents_partial [Sensible] {E : Env} (hE : Sound E) {fuel : Nat} (hfuel : 33 ≤ fuel) {ops : List Op} {op : Op}
    {w : World} (hf : Fine E fuel World.init (ops ++ [op])) (hr : run E fuel World.init ops = .ok w) :
    step E fuel w op = .ub .nullDeref ∨
    ∃ w', step E fuel w op = .ok w' ∧ ∀ h ∈ w.hs, ∀ b ∈ h.blocks, ¬ op.touches w b → SameBytes w.m w'.m b := by
  have key : ∀ (ops : List Op) {w0 : World} {os : List Own}, WInv w0 os →
      Fine E fuel w0 (ops ++ [op]) → run E fuel w0 ops = .ok w → ∃ os, WInv w os ∧ op.fine w := by
    intro ops
    induction ops with
    | nil =>
      intro w0 os h hf hr
      simp only [run, Res.ok.injEq] at hr
      subst hr
      exact ⟨os, h, hf.1⟩
    | cons x r ih =>
      intro w0 os h hf hr
      simp only [run] at hr
      rcases step_failstop hE hfuel h hf.1 with e | ⟨w1, os1, e1, h1, _⟩
      · rw [e] at hr; cases hr
      · rw [e1] at hr
        exact ih h1 (hf.2 w1 e1) hr
  obtain ⟨os, h, hop⟩ := key ops WInv.init hf hr
  rcases step_failstop hE hfuel h hop with e | ⟨w', _, e1, _, e3⟩
  · exact Or.inl e
  · exact Or.inr ⟨w', e1, fun x hx b hb => e3 b ⟨x, hx, hb⟩⟩

/-! ### Clients of the API -/

theorem play_patch (E : Env) (fuel : Nat) (r : Arena) (e : Ev) :
    r.play E fuel e = r.play (patch E) fuel e ∨ r.play E fuel e = .ub .nullDeref := by
  cases e with
  | new A =>
    simp only [Arena.play, step]
    rcases newAllocator_patch E r.w.m with h | h
    · left; rw [h]
    · right; rw [h]; rfl
  | alloc A n =>
    simp only [Arena.play, step]
    cases r.w.hs[r.ids.idxOf A]? with
    | none => exact Or.inl rfl
    | some h =>
      simp only
      rcases alloc_patch E fuel r.w.m h.a n with h | h
      · left; rw [h]
      · right; rw [h]; rfl
  | release A => exact Or.inl rfl

theorem replay_patch (E : Env) (fuel : Nat) : ∀ log : List Ev,
    replay E fuel log = replay (patch E) fuel log ∨ replay E fuel log = .ub .nullDeref
  | [] => Or.inl rfl
  | e :: l => by
    simp only [replay]
    rcases replay_patch E fuel l with h | h
    · rw [h]
      cases replay (patch E) fuel l with
      | ub u => exact Or.inl rfl
      | timeout => exact Or.inl rfl
      | ok r => exact play_patch E fuel r e
    · right; rw [h]; rfl

/-- C45 for clients of the API: whatever the client calls, careless calls included, and
whatever `malloc` refuses: playing the client's requests on the chunk allocator either stops at
a null pointer or gives every live object of the client its own memory.

Partial: as `C45_failstop_partial`; and while every allocator has room (C57). -/
theorem C45_client_partial [Sensible] {D : Type} {fp : FP D} {F : Nat} {E : Env} (hE : Sound E) {fuel : Nat}
    (hfuel : 33 ≤ fuel) {slack : Nat → Nat} {cfg : Cfg} {p : Prog D} {rs : List (Ans D)} {st : St}
    (hp : p.run fp F (St.init slack cfg) = .ok (rs, st)) (hb : ∀ A, Room (asked A st.log)) :
    replay E fuel st.log = .ub .nullDeref ∨
    ∃ r place, replay E fuel st.log = .ok r ∧ Laid st r place ∧ ∀ A b, r.Gave A b → ∃ c ∈ r.w.m.live, Within b c := by
  obtain ⟨r, os, pl, f, _⟩ := played (patch_sound hE) (patch_plenty E) hfuel hp hb
  rcases replay_patch E fuel st.log with h | h
  · exact Or.inr ⟨r, pl, h.trans f.re, f.laid, fun A b => f.chunk⟩
  · exact Or.inl h

/-! ### C67 Enough memory -/

/-- `malloc` serves every request that keeps the memory in use within `B` bytes. -/
def Grants (E : Env) (B : Nat) : Prop := ∀ k live n, (live.map (·.2)).sum + n ≤ B → (E k live n).isSome

/-- Number of allocators made. -/
def made : List Ev → Nat
  | [] => 0
  | .new _ :: l => made l + 1
  | _ :: l => made l

theorem zjNew_grants {E : Env} {B : Nat} (hg : Grants E B) {m : Mem} {n : Nat}
    (hB : ((zjNew (patch E) m n).2.live.map (·.2)).sum ≤ B) : zjNew E m n = zjNew (patch E) m n := by
  rcases zjNew_patch E m n with h | ⟨h, _⟩
  · exact h
  · rw [zjNew_live, List.map_cons, List.sum_cons] at hB
    have := hg m.calls m.live (w32 n) (by simp only at hB; omega)
    rw [h] at this
    cases this

theorem newAllocator_grants {E : Env} {B : Nat} (hg : Grants E B) {m m' : Mem} {p : Nat}
    (h : newAllocator (patch E) m = .ok (p, m')) (hB : (m'.live.map (·.2)).sum ≤ B) : newAllocator E m = .ok (p, m') := by
  have h0 := h
  unfold newAllocator at h
  cases e1 : wrAl (zjNew (patch E) m (16 + 24 + chunk)).2 (zjNew (patch E) m (16 + 24 + chunk)).1
      ⟨(zjNew (patch E) m (16 + 24 + chunk)).1 + 16, (zjNew (patch E) m (16 + 24 + chunk)).1 + 16⟩ with
  | ub u => simp only [e1] at h; cases h
  | timeout => simp only [e1] at h; cases h
  | ok m1 =>
    simp only [e1, Res.ok_bind] at h
    cases e2 : wrAN m1 ((zjNew (patch E) m (16 + 24 + chunk)).1 + 16) ⟨(zjNew (patch E) m (16 + 24 + chunk)).1 + 16 + 24, chunk, 0, 0⟩ with
    | ub u => rw [e2] at h; cases h
    | timeout => rw [e2] at h; cases h
    | ok m2 =>
      rw [e2] at h
      cases h
      have := zjNew_grants hg (m := m) (n := 16 + 24 + chunk) (by rw [← wrAl_live e1, ← wrAN_live e2]; exact hB)
      rw [← h0]
      unfold newAllocator
      rw [this]

theorem appendChild_grants {E : Env} {B : Nat} (hg : Grants E B) {m m' : Mem} {a size : Nat}
    (h : appendChild (patch E) m a size = .ok m') (hB : (m'.live.map (·.2)).sum ≤ B) : appendChild E m a size = .ok m' := by
  have h0 := h
  unfold appendChild at h
  cases e1 : wrAN (zjNew (patch E) m (24 + size)).2 (zjNew (patch E) m (24 + size)).1
      ⟨(zjNew (patch E) m (24 + size)).1 + 24, size, 0, 0⟩ with
  | ub u => simp only [e1] at h; cases h
  | timeout => simp only [e1] at h; cases h
  | ok m1 =>
    simp only [e1, Res.ok_bind] at h
    cases e2 : rdAl m1 a with
    | ub u => rw [e2] at h; cases h
    | timeout => rw [e2] at h; cases h
    | ok al =>
      rw [e2] at h
      simp only [Res.ok_bind] at h
      cases e3 : rdAN m1 al.end_ with
      | ub u => rw [e3] at h; cases h
      | timeout => rw [e3] at h; cases h
      | ok e =>
        rw [e3] at h
        simp only [Res.ok_bind] at h
        cases e4 : wrAN m1 al.end_ { e with next := (zjNew (patch E) m (24 + size)).1 } with
        | ub u => rw [e4] at h; cases h
        | timeout => rw [e4] at h; cases h
        | ok m2 =>
          rw [e4] at h
          simp only [Res.ok_bind] at h
          have := zjNew_grants hg (m := m) (n := 24 + size)
            (by rw [← wrAN_live e1, ← wrAN_live e4, ← wrAl_live h]; exact hB)
          rw [← h0]
          unfold appendChild
          rw [this]

theorem alloc_grants {E : Env} {B : Nat} (hg : Grants E B) {fuel : Nat} {m m' : Mem} {a size p : Nat}
    (h : alloc (patch E) fuel m a size = .ok (p, m')) (hB : (m'.live.map (·.2)).sum ≤ B) : alloc E fuel m a size = .ok (p, m') := by
  unfold alloc at h
  cases e1 : rdAl m a with
  | ub u => rw [e1] at h; cases h
  | timeout => rw [e1] at h; cases h
  | ok al =>
    rw [e1] at h
    simp only [Res.ok_bind] at h
    cases e2 : rdAN m al.end_ with
    | ub u => rw [e2] at h; cases h
    | timeout => rw [e2] at h; cases h
    | ok cur =>
      rw [e2] at h
      simp only [Res.ok_bind] at h
      unfold alloc
      rw [e1]
      simp only [Res.ok_bind]
      rw [e2]
      simp only [Res.ok_bind]
      split at h
      · next hc =>
        rw [if_pos hc]
        cases e3 : growTo fuel (w32 (cur.sizeOf * delta)) size with
        | ub u => rw [e3] at h; cases h
        | timeout => rw [e3] at h; cases h
        | ok s =>
          rw [e3] at h
          simp only [Res.ok_bind] at h ⊢
          cases e4 : appendChild (patch E) m a s with
          | ub u => rw [e4] at h; cases h
          | timeout => rw [e4] at h; cases h
          | ok m1 =>
            rw [e4] at h
            have hl : m'.live = m1.live := by
              simp only [Res.ok_bind] at h
              cases e5 : rdAl m1 a with
              | ub u => rw [e5] at h; cases h
              | timeout => rw [e5] at h; cases h
              | ok al1 =>
                rw [e5] at h
                simp only [Res.ok_bind] at h
                replace h : (do
                  let cur ← rdAN m1 al1.end_
                  let m ← wrAN m1 al1.end_ { cur with pos := w32 (cur.pos + size) }
                  pure (cur.data + cur.pos, m) : Res (Nat × Mem)) = .ok (p, m') := h
                cases e6 : rdAN m1 al1.end_ with
                | ub u => rw [e6] at h; cases h
                | timeout => rw [e6] at h; cases h
                | ok c1 =>
                  rw [e6] at h
                  simp only [Res.ok_bind] at h
                  cases e7 : wrAN m1 al1.end_ { c1 with pos := w32 (c1.pos + size) } with
                  | ub u => rw [e7] at h; cases h
                  | timeout => rw [e7] at h; cases h
                  | ok m2 =>
                    rw [e7] at h
                    cases h
                    exact wrAN_live e7
            rw [appendChild_grants hg e4 (hl ▸ hB)]
            exact h
      · next hc => rw [if_neg hc]; exact h

theorem play_grants {E : Env} {B : Nat} (hg : Grants E B) {fuel : Nat} {r r' : Arena} {e : Ev}
    (h : r.play (patch E) fuel e = .ok r') (hB : (r'.w.m.live.map (·.2)).sum ≤ B) : r.play E fuel e = .ok r' := by
  cases e with
  | new A =>
    simp only [Arena.play, step] at h ⊢
    cases e1 : newAllocator (patch E) r.w.m with
    | ub u => rw [e1] at h; cases h
    | timeout => rw [e1] at h; cases h
    | ok x =>
      rw [e1] at h
      obtain ⟨q, m⟩ := x
      have hr : r' = ⟨{ r.w with m := m, hs := ⟨q, false, []⟩ :: r.w.hs }, A :: r.ids⟩ := by cases h; rfl
      rw [newAllocator_grants hg e1 (by rw [hr] at hB; exact hB)]
      exact h
  | alloc A n =>
    simp only [Arena.play, step] at h ⊢
    cases e0 : r.w.hs[r.ids.idxOf A]? with
    | none => rw [e0] at h; exact h
    | some x =>
      rw [e0] at h
      simp only at h ⊢
      cases e1 : alloc (patch E) fuel r.w.m x.a n with
      | ub u => rw [e1] at h; cases h
      | timeout => rw [e1] at h; cases h
      | ok y =>
        rw [e1] at h
        obtain ⟨q, m⟩ := y
        have hr : r'.w.m = m := by cases h; rfl
        rw [alloc_grants hg e1 (by rw [hr] at hB; exact hB)]
        exact h
  | release A => exact h

theorem play_made {E : Env} {fuel : Nat} {r r' : Arena} {e : Ev} {l : List Ev} (h : r.play E fuel e = .ok r')
    (hm : r.ids.length ≤ made l) : r'.ids.length ≤ made (e :: l) := by
  cases e with
  | new A =>
    simp only [Arena.play] at h
    cases e1 : step E fuel r.w .new with
    | ub u => rw [e1] at h; cases h
    | timeout => rw [e1] at h; cases h
    | ok w => rw [e1] at h; cases h; simpa [made] using hm
  | alloc A n =>
    simp only [Arena.play] at h
    cases e1 : step E fuel r.w (.alloc (r.ids.idxOf A) n) with
    | ub u => rw [e1] at h; cases h
    | timeout => rw [e1] at h; cases h
    | ok w => rw [e1] at h; cases h; exact hm
  | release A =>
    simp only [Arena.play] at h
    cases e1 : step E fuel r.w (.release (r.ids.idxOf A)) with
    | ub u => rw [e1] at h; cases h
    | timeout => rw [e1] at h; cases h
    | ok w =>
      rw [e1] at h; cases h
      refine Nat.le_trans ?_ hm
      show (r.ids.eraseIdx _).length ≤ _
      rw [List.length_eraseIdx]
      split <;> omega

theorem replay_made {E : Env} {fuel : Nat} : ∀ {l : List Ev} {r : Arena}, replay E fuel l = .ok r → r.ids.length ≤ made l
  | [], r, h => by cases h; exact Nat.le_refl _
  | e :: l, r, h => by
    simp only [replay] at h
    cases e1 : replay E fuel l with
    | ub u => rw [e1] at h; cases h
    | timeout => rw [e1] at h; cases h
    | ok r0 =>
      rw [e1] at h
      exact play_made h (replay_made e1)

theorem hop_log {Q : Nat → Prop} {K : Bytes → Prop} {N : Nat} {st st' : St} (h : Hop Q K N st st') :
    st'.log = st.log ∨ ∃ e, st'.log = e :: st.log := by
  cases h <;> first | exact Or.inl rfl | exact Or.inr ⟨_, rfl⟩

/-- Enough memory for a client that made these requests. -/
def enough (log : List Ev) : Nat := made log * heldFor 0 + 2 * (delta * total log)

theorem enough_cons (e : Ev) (l : List Ev) : enough l ≤ enough (e :: l) := by
  have h1 : made l ≤ made (e :: l) := by cases e <;> simp [made]
  have h2 : total l ≤ total (e :: l) := by cases e <;> simp [total]
  have h3 := Nat.mul_le_mul_right (heldFor 0) h1
  have h4 := Nat.mul_le_mul_left delta h2
  unfold enough
  omega

theorem Fits.enough [Sensible] {E : Env} {fuel : Nat} {st : St} {r : Arena} {os : List Own} {place : Obj → Block}
    (h : Fits E fuel st r os place) : (r.w.m.live.map (·.2)).sum ≤ Alloc.enough st.log := by
  refine Nat.le_trans h.held ?_
  rw [sum_heldFor]
  have h1 := Nat.mul_le_mul_right (heldFor 0) (replay_made h.re)
  have h2 := Nat.mul_le_mul_left delta (sum_asked h.nodup st.log)
  unfold Alloc.enough
  omega

theorem Fits.granted [Sensible] {Q : Nat → Prop} {K : Bytes → Prop} {E : Env} (hE : Sound E) {B : Nat} (hg : Grants E B) {fuel : Nat}
    (hfuel : 33 ≤ fuel) {st st' : St} {r : Arena} {os : List Own} {place : Obj → Block}
    (h : Fits (patch E) fuel st r os place) (h0 : replay E fuel st.log = .ok r) (hs : Hops Q K 0 st st')
    (hb : ∀ A, Room (asked A st'.log)) (hB : Alloc.enough st'.log ≤ B) :
    ∃ r' os' place', Fits (patch E) fuel st' r' os' place' ∧ replay E fuel st'.log = .ok r' := by
  induction hs with
  | refl => exact ⟨r, os, place, h, h0⟩
  | @tail st1 st2 h1 h2 ih =>
    have hle : Alloc.enough st1.log ≤ Alloc.enough st2.log := by
      rcases hop_log h2 with e | ⟨x, e⟩
      · rw [e]; exact Nat.le_refl _
      · rw [e]; exact enough_cons ..
    obtain ⟨r1, os1, pl1, f1, g1⟩ := ih (fun A => (hb A).mono ((hop_old h2).2 A)) (Nat.le_trans hle hB)
    obtain ⟨r2, os2, pl2, f2, -⟩ := f1.hop (patch_sound hE) (patch_plenty E) hfuel h2 hb
    refine ⟨r2, os2, pl2, f2, ?_⟩
    rcases hop_log h2 with e | ⟨x, e⟩
    · have := f2.re
      rw [e, f1.re] at this
      rw [e, g1]
      exact this
    · have h3 := f2.re
      rw [e] at h3 ⊢
      simp only [replay] at h3 ⊢
      rw [f1.re] at h3
      rw [g1]
      exact play_grants hg h3 (Nat.le_trans f2.enough hB)

/-- C67: a client makes any calls whatsoever, and its run does not stop with undefined
behaviour when memory is plenty. `malloc` may refuse, but serves every request that keeps the
memory in use within a constant for each allocator made, and `2 * delta` times the bytes asked
of them all. Then no request of the client is refused, and every live object has its own memory.

Partial: while every allocator has room for all that is asked of it (2 GiB by default). -/
theorem C67_enough_partial [Sensible] {D : Type} {fp : FP D} {F : Nat} {E : Env} (hE : Sound E) {fuel : Nat}
    (hfuel : 33 ≤ fuel) {slack : Nat → Nat} {cfg : Cfg} {p : Prog D} {rs : List (Ans D)} {st : St}
    (hp : p.run fp F (St.init slack cfg) = .ok (rs, st)) (hb : ∀ A, Room (asked A st.log))
    (hg : Grants E (made st.log * heldFor 0 + 2 * (delta * total st.log))) :
    ∃ r place, replay E fuel st.log = .ok r ∧ Laid st r place ∧ ∀ A b, r.Gave A b → ∃ c ∈ r.w.m.live, Within b c := by
  have h1 := Prog.traces fp F p p.hands_all _ _ _ (Nat.zero_le _) hp
  obtain ⟨r, os, pl, f1, g⟩ := (Fits.init (patch E) fuel slack).granted hE hg hfuel rfl h1 hb (Nat.le_refl _)
  exact ⟨r, pl, g, f1.laid, fun A b => f1.chunk⟩

end

/-- A `malloc` for the examples: it refuses when more than `B` bytes would be in use. -/
def quota (B : Nat) : Env := fun k live n => if (live.map (·.2)).sum + n ≤ B then bump k live n else none

theorem quota_sound (B : Nat) : Sound (quota B) := by
  intro k live n p h
  unfold quota at h
  split at h
  · exact bump_sound _ _ _ _ h
  · cases h

theorem quota_grants (B : Nat) : Grants (quota B) B := by
  intro k live n h
  unfold quota
  rw [if_pos h]
  rfl

/-- The record and the state agree on how many allocators were made. -/
theorem made_na {D : Type} {fp : FP D} {F : Nat} {slack : Nat → Nat} {cfg : Cfg} {p : Prog D} {rs : List (Ans D)} {st : St}
    (hp : p.run fp F (St.init slack cfg) = .ok (rs, st)) : made st.log = st.na := by
  refine (Prog.traces fp F p p.hands_all _ _ _ (Nat.zero_le _) hp).keeps (I := fun st => made st.log = st.na) ?_ rfl
  intro a b h e
  cases h <;> first | exact e | exact congrArg (· + 1) e

section
attribute [local instance] Knobs.default Knobs.default_sensible

/-- C67 with the default settings, for the commonest client: a document of `n` bytes is parsed
without a refused request when `malloc` has 9060 + 292 `n` bytes.
Partial: `n` at most 29 million. -/
theorem C67_parse_partial {D : Type} {fp : FP D} {F : Nat} {E : Env} (hE : Sound E) {slack : Nat → Nat}
    {b : Bytes} (h0 : (0 : Byte) ∉ b) (hn : b.length ≤ 29000000) {rs : List (Ans D)} {st : St}
    (hp : (Prog.seq [.newAlloc, .newValue 0, .parse .parse 0 b]).run fp F (St.init slack) = .ok (rs, st))
    (hg : Grants E (9060 + 292 * b.length)) :
    ∃ r place, replay E 33 st.log = .ok r ∧ Laid st r place ∧ ∀ A b, r.Gave A b → ∃ c ∈ r.w.m.live, Within b c := by
  have hc : costs (D := D) {} [.newAlloc, .newValue 0, .parse .parse 0 b] = some (0 + (16 + ((73 * b.length + 73) + 0))) := rfl
  have ht : total st.log ≤ 0 + (16 + ((73 * b.length + 73) + 0)) := by
    have := C55_program (st := St.init slack {}) (by exact hc) hp
    simpa [St.init, total] using this
  refine C67_enough_partial hE (Nat.le_refl 33) hp (fun A => Room.default (by have := asked_total A st.log; omega)) ?_
  have hd : (delta : Nat) = 2 := rfl
  rw [made_na hp, parse_na h0 hp, C40_default, hd]
  exact fun k live n h => hg k live n (by omega)

/-- The calls `cs` with `B` bytes of memory. -/
def withQuota (B : Nat) (cs : List (Call Unit)) : Option (Res (List Block)) :=
  match (Prog.seq cs).run ⟨fun _ => [], fun _ => ()⟩ 99 (St.init fun _ => 0) with
  | .ok (_, st) =>
    match replay (quota B) 40 st.log with
    | .ok r => some (.ok r.w.m.live)
    | .ub u => some (.ub u)
    | .timeout => some .timeout
  | _ => none

/-- Two allocators need 8272 bytes. -/
example : withQuota 8272 [.newAlloc, .newValue 0, .parse .parse 0 b!"[1,2]", .newAlloc, .newValue 1] =
    some (.ok [(4160, 4136), (16, 4136)]) := by decide +kernel

/-- With one byte less the second `zj_NewAllocator` stops at a null pointer. -/
example : withQuota 8271 [.newAlloc, .newValue 0, .parse .parse 0 b!"[1,2]", .newAlloc, .newValue 1] =
    some (.ub .nullDeref) := by decide +kernel

/-- A program whose own `malloc` is refused goes on. -/
example : (match run (quota 5000) 40 World.init [.new, .alloc 0 24, .malloc 1000, .malloc 100] with
    | .ok w => some (w.user, w.m.live)
    | _ => none) = some ([(4160, 100)], [(4160, 100), (16, 4136)]) := by decide +kernel

/-- One that needs a second chunk stops. -/
example : (match run (quota 5000) 40 World.init [.new, .alloc 0 5000] with
    | .ub u => some u
    | _ => none) = some .nullDeref := by decide +kernel

example : run (quota 5000) 40 World.init [.new, .alloc 0 24, .malloc 1000, .malloc 100] = .ub .nullDeref ∨
    ∃ w, run (quota 5000) 40 World.init [.new, .alloc 0 24, .malloc 1000, .malloc 100] = .ok w ∧
      (w.hs.flatMap Hand.blocks ++ w.user).Pairwise Disj ∧
      (∀ h ∈ w.hs, ∀ b ∈ h.blocks, ∃ c ∈ w.m.live, Within b c) ∧
      (w.hs = [] → w.m.live.Perm w.user) ∧
      (w.m.live.map (·.2)).sum ≤ (w.hs.map fun h => heldFor h.asked).sum + (w.user.map (·.2)).sum :=
  C45_failstop_partial (quota_sound 5000) (by decide) (fineB_fine (by decide +kernel))

example : ∃ rs st r, (Prog.seq [.newAlloc, .newValue 0, .parse .parse 0 b!"[1,2]"]).run
      (⟨fun _ => [], fun _ => ()⟩ : FP Unit) 99 (St.init fun _ => 0) = .ok (rs, st) ∧ replay (quota 10520) 33 st.log = .ok r := by
  have h : logOf ((Prog.seq [.newAlloc, .newValue 0, .parse .parse 0 b!"[1,2]"]).run
      (⟨fun _ => [], fun _ => ()⟩ : FP Unit) 99 (St.init fun _ => 0)) =
      some [.alloc 0 72, .alloc 0 72, .alloc 0 72, .alloc 0 6, .alloc 0 16, .new 0] := by decide +kernel
  cases e : (Prog.seq [.newAlloc, .newValue 0, .parse .parse 0 b!"[1,2]"]).run
      (⟨fun _ => [], fun _ => ()⟩ : FP Unit) 99 (St.init fun _ => 0) with
  | ub u => rw [e] at h; cases h
  | timeout => rw [e] at h; cases h
  | ok x =>
    obtain ⟨rs, st⟩ := x
    obtain ⟨r, _, h1, _⟩ := C67_parse_partial (quota_sound 10520) (by decide) (by decide) e (quota_grants 10520)
    exact ⟨rs, st, r, rfl, h1⟩

end

end ZJ.Alloc
