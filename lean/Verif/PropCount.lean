import Verif.PropOom

/-
C68: the counters of the testing mode (`zj_MEMORY_MODE == 2`, zzzjson.h:83-91), by which the
project's tests look for leaks (`AllocMemoryCount == FreeMemoryCount`, for example
test/function/function_test.cpp:18).
-/

set_option linter.unusedSimpArgs false
set_option linter.unusedVariables false
set_option linter.unusedSectionVars false

namespace ZJ.Alloc

/-- As many blocks are live as were obtained and not freed. -/
def Bal (m : Mem) : Prop := m.calls = m.frees + m.live.length

theorem wrAN_bal {m m' : Mem} {p : Nat} {n : ANode} (h : wrAN m p n = .ok m') (hb : Bal m) : Bal m' := by
  unfold wrAN at h
  split at h
  · cases h
  · split at h
    · cases h; exact hb
    · cases h

theorem wrAl_bal {m m' : Mem} {p : Nat} {n : Alc} (h : wrAl m p n = .ok m') (hb : Bal m) : Bal m' := by
  unfold wrAl at h
  split at h
  · cases h
  · split at h
    · cases h; exact hb
    · cases h

/-- A request that was served keeps the balance; one that was refused gives the null pointer. -/
theorem zjNew_bal (E : Env) (m : Mem) (n : Nat) (hb : Bal m) : (zjNew E m n).1 = 0 ∨ Bal (zjNew E m n).2 := by
  unfold zjNew
  cases h : E m.calls m.live (w32 n) with
  | some p =>
    right
    show m.calls + 1 = m.frees + (m.live.length + 1)
    unfold Bal at hb
    omega
  | none => exact Or.inl rfl

theorem zjFree_bal {m m' : Mem} {p : Nat} (hp : p ≠ 0) (h : zjFree m p = .ok m') (hb : Bal m) : Bal m' := by
  unfold zjFree at h
  rw [if_neg hp] at h
  cases e : m.live.find? fun b => b.1 == p with
  | none => rw [e] at h; cases h
  | some b =>
    rw [e] at h
    cases h
    have hm := List.mem_of_find?_eq_some e
    have h1 := List.length_erase_of_mem hm
    have h2 := List.length_pos_of_mem hm
    show m.calls = m.frees + 1 + (m.live.erase b).length
    unfold Bal at hb
    omega

section
variable [Knobs]

theorem newAllocator_bal {E : Env} {m m' : Mem} {p : Nat} (h : newAllocator E m = .ok (p, m')) (hb : Bal m) : Bal m' := by
  unfold newAllocator at h
  rcases zjNew_bal E m (16 + 24 + chunk) hb with h0 | h0
  · generalize zjNew E m (16 + 24 + chunk) = x at h h0
    obtain ⟨q, m1⟩ := x
    simp only at h0
    subst h0
    simp [wrAl] at h
  · generalize zjNew E m (16 + 24 + chunk) = x at h h0
    obtain ⟨q, m1⟩ := x
    simp only at h h0
    cases e1 : wrAl m1 q ⟨q + 16, q + 16⟩ with
    | ub u => rw [e1] at h; cases h
    | timeout => rw [e1] at h; cases h
    | ok m2 =>
      rw [e1] at h
      simp only [Res.ok_bind] at h
      cases e2 : wrAN m2 (q + 16) ⟨q + 16 + 24, chunk, 0, 0⟩ with
      | ub u => rw [e2] at h; cases h
      | timeout => rw [e2] at h; cases h
      | ok m3 =>
        rw [e2] at h
        cases h
        exact wrAN_bal e2 (wrAl_bal e1 h0)

theorem appendChild_bal {E : Env} {m m' : Mem} {a size : Nat} (h : appendChild E m a size = .ok m') (hb : Bal m) : Bal m' := by
  unfold appendChild at h
  rcases zjNew_bal E m (24 + size) hb with h0 | h0
  · generalize zjNew E m (24 + size) = x at h h0
    obtain ⟨q, m1⟩ := x
    simp only at h0
    subst h0
    simp [wrAN] at h
  · generalize zjNew E m (24 + size) = x at h h0
    obtain ⟨q, m1⟩ := x
    simp only at h h0
    cases e1 : wrAN m1 q ⟨q + 24, size, 0, 0⟩ with
    | ub u => rw [e1] at h; cases h
    | timeout => rw [e1] at h; cases h
    | ok m2 =>
      rw [e1] at h
      simp only [Res.ok_bind] at h
      cases e2 : rdAl m2 a with
      | ub u => rw [e2] at h; cases h
      | timeout => rw [e2] at h; cases h
      | ok al =>
        rw [e2] at h
        simp only [Res.ok_bind] at h
        cases e3 : rdAN m2 al.end_ with
        | ub u => rw [e3] at h; cases h
        | timeout => rw [e3] at h; cases h
        | ok e =>
          rw [e3] at h
          simp only [Res.ok_bind] at h
          cases e4 : wrAN m2 al.end_ { e with next := q } with
          | ub u => rw [e4] at h; cases h
          | timeout => rw [e4] at h; cases h
          | ok m3 =>
            rw [e4] at h
            exact wrAl_bal h (wrAN_bal e4 (wrAN_bal e1 h0))

theorem alloc_bal {E : Env} {fuel : Nat} {m m' : Mem} {a size p : Nat} (h : alloc E fuel m a size = .ok (p, m')) (hb : Bal m) : Bal m' := by
  have tail : ∀ {m1 : Mem} {q : Nat}, Bal m1 → (do
      let cur ← rdAN m1 q
      let m ← wrAN m1 q { cur with pos := w32 (cur.pos + size) }
      pure (cur.data + cur.pos, m) : Res (Nat × Mem)) = .ok (p, m') → Bal m' := by
    intro m1 q hb h
    cases e6 : rdAN m1 q with
    | ub u => rw [e6] at h; cases h
    | timeout => rw [e6] at h; cases h
    | ok c1 =>
      rw [e6] at h
      simp only [Res.ok_bind] at h
      cases e7 : wrAN m1 q { c1 with pos := w32 (c1.pos + size) } with
      | ub u => rw [e7] at h; cases h
      | timeout => rw [e7] at h; cases h
      | ok m2 =>
        rw [e7] at h
        cases h
        exact wrAN_bal e7 hb
  unfold alloc at h
  cases e1 : rdAl m a with
  | ub u => rw [e1] at h; cases h
  | timeout => rw [e1] at h; cases h
  | ok al =>
    rw [e1] at h
    simp only [Res.ok_bind] at h
    cases e2 : rdAN m al.end_ with
    | ub u => rw [e2] at h; cases h
    | timeout => rw [e2] at h; cases h
    | ok cur =>
      rw [e2] at h
      simp only [Res.ok_bind] at h
      split at h
      · cases e3 : growTo fuel (w32 (cur.sizeOf * delta)) size with
        | ub u => rw [e3] at h; cases h
        | timeout => rw [e3] at h; cases h
        | ok s =>
          rw [e3] at h
          simp only [Res.ok_bind] at h
          cases e4 : appendChild E m a s with
          | ub u => rw [e4] at h; cases h
          | timeout => rw [e4] at h; cases h
          | ok m1 =>
            rw [e4] at h
            simp only [Res.ok_bind] at h
            cases e5 : rdAl m1 a with
            | ub u => rw [e5] at h; cases h
            | timeout => rw [e5] at h; cases h
            | ok al1 =>
              rw [e5] at h
              exact tail (appendChild_bal e4 hb) h
      · exact tail hb h

theorem freeChain_bal : ∀ {fuel : Nat} {m m' : Mem} {next : Nat}, freeChain fuel m next = .ok m' → Bal m → Bal m'
  | 0, _, _, _, h, _ => by cases h
  | fuel + 1, m, m', next, h, hb => by
    unfold freeChain at h
    split at h
    · cases h; exact hb
    · next h0 =>
      cases e1 : rdAN m next with
      | ub u => rw [e1] at h; cases h
      | timeout => rw [e1] at h; cases h
      | ok n =>
        rw [e1] at h
        simp only [Res.ok_bind] at h
        cases e2 : zjFree m next with
        | ub u => rw [e2] at h; cases h
        | timeout => rw [e2] at h; cases h
        | ok m1 =>
          rw [e2] at h
          exact freeChain_bal h (zjFree_bal h0 e2 hb)

theorem release_bal {fuel : Nat} {m m' : Mem} {a : Nat} (h : release fuel m a = .ok m') (hb : Bal m) : Bal m' := by
  unfold release at h
  have ha : a ≠ 0 := by
    rintro rfl
    simp [rdAl] at h
  cases e1 : rdAl m a with
  | ub u => rw [e1] at h; cases h
  | timeout => rw [e1] at h; cases h
  | ok al =>
    rw [e1] at h
    simp only [Res.ok_bind] at h
    cases e2 : rdAN m al.root with
    | ub u => rw [e2] at h; cases h
    | timeout => rw [e2] at h; cases h
    | ok n =>
      rw [e2] at h
      simp only [Res.ok_bind] at h
      cases e3 : freeChain fuel m n.next with
      | ub u => rw [e3] at h; cases h
      | timeout => rw [e3] at h; cases h
      | ok m1 =>
        rw [e3] at h
        exact zjFree_bal ha h (freeChain_bal e3 hb)

/-- All allocators are those of C, made by `zj_NewAllocator`. -/
def AllC (w : World) : Prop := ∀ h ∈ w.hs, h.cpp = false

theorem play_bal {E : Env} {fuel : Nat} {r r' : Arena} {e : Ev} (h : r.play E fuel e = .ok r') (hb : Bal r.w.m ∧ AllC r.w) :
    Bal r'.w.m ∧ AllC r'.w := by
  obtain ⟨hb, hc⟩ := hb
  cases e with
  | new A =>
    simp only [Arena.play, step] at h
    cases e1 : newAllocator E r.w.m with
    | ub u => rw [e1] at h; cases h
    | timeout => rw [e1] at h; cases h
    | ok x =>
      rw [e1] at h
      obtain ⟨q, m⟩ := x
      cases h
      refine ⟨newAllocator_bal e1 hb, fun x hx => ?_⟩
      rcases List.mem_cons.1 hx with rfl | hx
      · rfl
      · exact hc x hx
  | alloc A n =>
    simp only [Arena.play, step] at h
    cases e0 : r.w.hs[r.ids.idxOf A]? with
    | none => rw [e0] at h; cases h; exact ⟨hb, hc⟩
    | some x =>
      rw [e0] at h
      simp only at h
      cases e1 : alloc E fuel r.w.m x.a n with
      | ub u => rw [e1] at h; cases h
      | timeout => rw [e1] at h; cases h
      | ok y =>
        rw [e1] at h
        obtain ⟨q, m⟩ := y
        cases h
        refine ⟨alloc_bal e1 hb, fun y hy => ?_⟩
        rcases List.mem_or_eq_of_mem_set hy with hy | rfl
        · exact hc y hy
        · exact hc x (List.mem_of_getElem? e0)
  | release A =>
    simp only [Arena.play, step] at h
    cases e0 : r.w.hs[r.ids.idxOf A]? with
    | none => rw [e0] at h; cases h; exact ⟨hb, hc⟩
    | some x =>
      rw [e0] at h
      simp only [dispose, hc x (List.mem_of_getElem? e0)] at h
      cases e1 : release fuel r.w.m x.a with
      | ub u => rw [e1] at h; cases h
      | timeout => rw [e1] at h; cases h
      | ok m =>
        rw [e1] at h
        cases h
        exact ⟨release_bal e1 hb, fun y hy => hc y (List.mem_of_mem_eraseIdx hy)⟩

theorem replay_bal {E : Env} {fuel : Nat} : ∀ {l : List Ev} {r : Arena}, replay E fuel l = .ok r → Bal r.w.m ∧ AllC r.w
  | [], r, h => by
    cases h
    exact ⟨rfl, fun x hx => by cases hx⟩
  | e :: l, r, h => by
    simp only [replay] at h
    cases e1 : replay E fuel l with
    | ub u => rw [e1] at h; cases h
    | timeout => rw [e1] at h; cases h
    | ok r0 =>
      rw [e1] at h
      exact play_bal h (replay_bal e1)

end

/-- C68: whatever calls a client makes and whatever `malloc` does, as long as the program runs,
`AllocMemoryCount` is `FreeMemoryCount` and the number of blocks that are live, on 32 bits. -/
theorem C68_counters [Knobs] {E : Env} {fuel : Nat} {l : List Ev} {r : Arena} (h : replay E fuel l = .ok r) :
    w32 r.w.m.calls = w32 (w32 r.w.m.frees + r.w.m.live.length) := by
  have := (replay_bal h).1
  unfold Bal at this
  unfold w32
  omega

/-- C68: the check of the tests, `AllocMemoryCount == FreeMemoryCount`, is right: it holds
exactly when the client has released every allocator it made. (There may be any `malloc`,
refusing or not; the program has not stopped; and there are less than 2^32 live blocks.)

Partial: while every allocator has room for all that is asked of it (2 GiB by default). -/
theorem C68_leak_check_partial [Knobs] [Sensible] {D : Type} {fp : FP D} {F : Nat} {E : Env} (hE : Sound E) {fuel : Nat}
    (hfuel : 33 ≤ fuel) {slack : Nat → Nat} {cfg : Cfg} {p : Prog D} {rs : List (Ans D)} {st : St} {r : Arena}
    (hp : p.run fp F (St.init slack cfg) = .ok (rs, st)) (hb : ∀ A, Room (asked A st.log))
    (hr : replay E fuel st.log = .ok r) (hl : r.w.m.live.length < 4294967296) :
    w32 r.w.m.calls = w32 r.w.m.frees ↔ ∀ A, .new A ∈ st.log → .release A ∈ st.log := by
  obtain ⟨r', os, pl, f, hR⟩ := played (patch_sound hE) (patch_plenty E) hfuel hp hb
  have hr' : r' = r := by
    rcases replay_patch E fuel st.log with h | h
    · rw [h, f.re] at hr; exact Res.ok.inj hr
    · rw [h] at hr; cases hr
  subst hr'
  have hB := (replay_bal hr).1
  have h1 : w32 r'.w.m.calls = w32 r'.w.m.frees ↔ r'.w.m.live = [] := by
    rw [← List.length_eq_zero_iff]
    unfold Bal at hB
    unfold w32
    omega
  rw [h1]
  have h2 : r'.w.m.live = [] ↔ r'.ids = [] := by
    have hlive := f.inv.live
    rw [f.user, List.append_nil] at hlive
    have hlen := f.len
    rw [f.inv.hs, List.length_map] at hlen
    constructor
    · intro h0
      rw [h0] at hlive
      have := hlive.nil_eq
      cases os with
      | nil => exact List.eq_nil_of_length_eq_zero hlen
      | cons o r =>
        have hm := o.chunk_mem o.last_mem
        rw [List.flatMap_cons] at this
        have := (List.append_eq_nil_iff.1 this.symm).1
        rw [this] at hm
        cases hm
    · intro h0
      rw [h0] at hlen
      have : os = [] := List.eq_nil_of_length_eq_zero hlen.symm
      subst this
      simpa using hlive
  rw [h2]
  have hA : ∀ A, A ∈ r'.ids ↔ Unreleased st.log A := fun A => (f.ids A).trans (hR.live A)
  constructor
  · intro h0 A hn
    apply Classical.byContradiction
    intro hnr
    have := (hA A).2 ⟨hn, hnr⟩
    rw [h0] at this
    cases this
  · intro h0
    exact List.eq_nil_iff_forall_not_mem.2 fun A hm =>
      have := (hA A).1 hm
      this.2 (h0 A this.1)

section
attribute [local instance] Knobs.default Knobs.default_sensible

/-- The counters after the calls `cs`. -/
def countersAfter (cs : List (Call Unit)) : Option (Nat × Nat) :=
  match (Prog.seq cs).run ⟨fun _ => [], fun _ => ()⟩ 99 (St.init fun _ => 0) with
  | .ok (_, st) =>
    match replay bump 40 st.log with
    | .ok r => some (r.w.m.calls, r.w.m.frees)
    | _ => none
  | _ => none

/-- Two allocators, one of them released. -/
example : countersAfter [.newAlloc, .newValue 0, .parse .parse 0 b!"[1,2]", .newAlloc, .newValue 1, .parse .parse 1 b!"7", .release 1] =
    some (2, 1) := by decide +kernel

/-- Both released. -/
example : countersAfter [.newAlloc, .newValue 0, .parse .parse 0 b!"[1,2]", .newAlloc, .newValue 1, .release 1, .release 0] =
    some (2, 2) := by decide +kernel

/-- A client with a second chunk meets the hypotheses of `C68_leak_check_partial`. -/
example : ∃ r, replay bump 40 [.release 0, .alloc 0 5000, .alloc 0 16, .new 0] = .ok r ∧
    w32 r.w.m.calls = w32 r.w.m.frees ∧ r.w.m.calls = 2 := by
  have h : (match replay bump 40 [.release 0, .alloc 0 5000, .alloc 0 16, .new 0] with
    | .ok r => some (r.w.m.calls, r.w.m.frees)
    | _ => none) = some (2, 2) := by decide +kernel
  cases e : replay bump 40 [.release 0, .alloc 0 5000, .alloc 0 16, .new 0] with
  | ub u => rw [e] at h; cases h
  | timeout => rw [e] at h; cases h
  | ok r =>
    rw [e] at h
    simp only [Option.some.injEq, Prod.mk.injEq] at h
    exact ⟨r, rfl, by rw [h.1, h.2], h.1⟩

end

end ZJ.Alloc
