import Verif.ConcRun

/-
C61: threads.

Threads that share no allocators and no values, each of them an allowed client, call the library
at the same time: their steps (`Conc`) are mixed in any order. If at most one of them uses the
scratch string, no step has undefined behaviour, and every thread is told what it is told when
it is alone. If two of them use the scratch string, this is false: `zj_SetStrLen` of one thread
accepts a text because it checks the text of the other (`C61_false`).

The threads take turns (sequential consistency). `malloc` and `free` can be called by several
threads, as in C11.
-/

set_option linter.unusedSimpArgs false
set_option linter.unusedVariables false

namespace ZJ

variable {N : Nat} {D : Type} {fp : FP D}

/-- The threads `X` take steps in the order `τ`. A thread that has come to its end takes no
more. -/
def sched {α : Type} : List (Fin N) → (Fin N → Act α) → Shared N → Res ((Fin N → Act α) × Shared N)
  | [], X, sh => .ok (X, sh)
  | t :: τ, X, sh =>
    match X t with
    | .ret _ => sched τ X sh
    | .stop (some u) => .ub u
    | .stop none => .timeout
    | .op m k =>
      match sh.step t m with
      | .ok (b, sh') => sched τ (fun u => if u = t then k b else X u) sh'
      | .ub u => .ub u
      | .timeout => .timeout

/-- What the thread has in the end, `none` while it is running. -/
def Act.result {α : Type} : Act α → Option α
  | .ret a => some a
  | _ => none

theorem sched_goes {who : Fin N} {α : Type} : ∀ (τ : List (Fin N)) {X : Fin N → Act α} {sh : Shared N} {S : Fin N → St} {n : Fin N → Nat} {R : Fin N → α}
    {E : Fin N → St}, Joined who sh S → (∀ t, Runs who t (n t) (X t) (S t) (R t) (E t)) →
    ∃ X' sh', sched τ X sh = .ok (X', sh') ∧ ∀ t, (∀ a, (X' t).result = some a → a = R t) ∧ (n t ≤ τ.count t → (X' t).result = some (R t))
  | [], X, sh, S, n, R, E, J, h => by
    refine ⟨X, sh, rfl, fun t => ⟨fun a e => ?_, fun e => ?_⟩⟩
    · have := h t
      generalize X t = x at this e
      generalize n t = m at this
      generalize R t = r at this ⊢
      generalize S t = s at this
      generalize E t = s' at this
      cases this with
      | ret => cases e; rfl
      | op => cases e
    · have := h t
      have e : n t = 0 := by simpa using e
      rw [e] at this
      generalize X t = x at this ⊢
      generalize R t = r at this ⊢
      generalize S t = s at this
      generalize E t = s' at this
      cases this; rfl
  | t :: τ, X, sh, S, n, R, E, J, h => by
    have ht := h t
    generalize hx : X t = x at ht
    generalize hm : n t = m at ht
    generalize hr : R t = r at ht
    generalize hs : S t = s at ht
    generalize he : E t = e at ht
    cases ht with
    | ret =>
      obtain ⟨X', sh', h1, h2⟩ := sched_goes τ J h
      refine ⟨X', sh', by unfold sched; rw [hx]; exact h1, fun u => ⟨(h2 u).1, fun hu => (h2 u).2 ?_⟩⟩
      by_cases hut : u = t
      · subst hut; omega
      · rw [List.count_cons_of_ne (Ne.symm hut)] at hu; exact hu
    | @op β n' m k s s1 b a s2 hM hR =>
      obtain ⟨sh1, e1, J1⟩ := hM sh S hs J
      obtain ⟨X', sh', h1, h2⟩ := sched_goes τ (X := fun u => if u = t then k b else X u) (n := fun u => if u = t then n' else n u) (R := R) (E := E) J1 (fun u => by
        by_cases hut : u = t
        · subst hut; simp only [if_true, turn]; rw [hr, he]; exact hR
        · simp only [hut, if_false, turn]; exact h u)
      refine ⟨X', sh', by unfold sched; rw [hx]; dsimp only; rw [e1]; exact h1, fun u => ⟨(h2 u).1, fun hu => (h2 u).2 ?_⟩⟩
      by_cases hut : u = t
      · subst hut; rw [List.count_cons_self] at hu; simp only [if_true]; omega
      · rw [List.count_cons_of_ne (Ne.symm hut)] at hu; simp only [hut, if_false]; exact hu

theorem Joined.init {who : Fin N} {slack : Nat → Nat} {cfg : Cfg} : Joined who (Shared.init slack cfg) fun t => St.init (fun a => slack (tag t a)) cfg where
  nodes _ _ := rfl
  vals _ _ := rfl
  bufs _ _ := rfl
  allocs _ _ := rfl
  slack _ _ := rfl
  next t := by simp [Shared.init, St.init, tag]
  cfg _ := rfl
  cache := rfl

/-- Finitely many numbers have a bound. -/
theorem exists_bound : ∀ {N : Nat} (f : Fin N → Nat), ∃ c, ∀ t, f t ≤ c
  | 0, f => ⟨0, fun t => t.elim0⟩
  | N + 1, f => by
    obtain ⟨c, h⟩ := exists_bound fun t : Fin N => f t.succ
    refine ⟨max (f 0) c, fun t => ?_⟩
    refine Fin.cases (by omega) (fun t => ?_) t
    have := h t
    omega

/-- C61 (at most one thread, `who`, uses the scratch string): `N` allowed clients run as threads
with any order `τ` of their steps. There is no undefined behaviour. A thread that has come to its
end was told what it is told alone (`ra t`), whatever memory it gets there, and it comes to its end
when it has had enough steps, whatever the others do. -/
theorem C61_threads_partial {pad : Bool} {slack : Nat → Nat} {slackA : Fin N → Nat → Nat} {cfg : Cfg} {cfgA : Fin N → Cfg}
    (hp : pad = true → ∀ b, 3 ≤ slack b) (hpA : pad = true → ∀ t b, 3 ≤ slackA t b) (P : Fin N → Prog D)
    (hs : ∀ t, ((P t).named .empty).Safe fp (Store.init pad)) (who : Fin N) (hscr : ∀ t, t ≠ who → (P t).Never Call.scratches) :
    ∃ (c : Nat) (ra : Fin N → List (Ans D)),
      (∀ t F, c ≤ F → ∃ rs st, ((P t).named .empty).run fp F (St.init (slackA t) (cfgA t)) = .ok (rs, st) ∧ Tab.empty.views rs = ra t) ∧
      ∀ F, c ≤ F → ∃ n : Fin N → Nat, ∀ τ : List (Fin N), ∃ X sh,
        sched τ (fun t => Thr.run fp F (P t) .empty) (Shared.init slack cfg) = .ok (X, sh) ∧
        ∀ t, (∀ a, (X t).result = some a → a = ra t) ∧ (n t ≤ τ.count t → (X t).result = some (ra t)) := by
  have h0 : ∀ t : Fin N, ∃ c ra, (∀ F, c ≤ F → ∃ rs st, ((P t).named .empty).run fp F (St.init (slackA t) (cfgA t)) = .ok (rs, st) ∧ Tab.empty.views rs = ra) ∧
      ∀ F, c ≤ F → ∃ n st, Runs who t n (Thr.run fp F (P t) .empty) (St.init (fun a => slack (tag t a)) cfg) ra st := by
    intro t
    obtain ⟨c1, rs1, st1, s1, _, e1, hG1, _⟩ := ((P t).named .empty).goes (WP.init (cfg := cfgA t) fun h => hpA h t) (hs t)
    obtain ⟨c2, rs2, st2, s2, _, e2, hG2, _⟩ := ((P t).named .empty).goes (WP.init (slack := fun a => slack (tag t a)) (cfg := cfg) fun h b => hp h _) (hs t)
    refine ⟨max c1 c2, Tab.empty.views rs1, fun F hF => ⟨rs1, st1, e1 F (by omega), rfl⟩, fun F hF => ?_⟩
    have hw : (P t).Never Call.scratches ∨ t = who := by
      by_cases h : t = who
      · exact .inr h
      · exact .inl (hscr t h)
    obtain ⟨n, h⟩ := Sim.run hw (e2 F (by omega))
    rw [C53_abstract hG1 hG2] at h
    exact ⟨n, st2, h⟩
  obtain ⟨c, h1⟩ := Classical.axiomOfChoice h0
  obtain ⟨ra, h2⟩ := Classical.axiomOfChoice h1
  obtain ⟨cm, hcm⟩ := exists_bound c
  refine ⟨cm, ra, fun t F hF => (h2 t).1 F (Nat.le_trans (hcm t) hF), fun F hF => ?_⟩
  obtain ⟨n, h3⟩ := Classical.axiomOfChoice fun t => (h2 t).2 F (Nat.le_trans (hcm t) hF)
  obtain ⟨E, h4⟩ := Classical.axiomOfChoice h3
  exact ⟨n, fun τ => sched_goes τ Joined.init h4⟩

/-! ### No races -/

/-- The two memories hold the same. -/
structure Shared.Same (a b : Shared N) : Prop where
  nodes : a.mem.nodes = b.mem.nodes
  vals : a.mem.vals = b.mem.vals
  bufs : a.mem.bufs = b.mem.bufs
  allocs : a.mem.allocs = b.mem.allocs
  cache : a.mem.cache = b.mem.cache
  slack : a.mem.slack = b.mem.slack
  cfg : a.mem.cfg = b.mem.cfg
  next : a.next = b.next

/-- Every address belongs to a thread. -/
theorem tag_all (who : Fin N) (x : Nat) : ∃ u : Fin N, ∃ a, x = tag u a :=
  have h : 0 < N := by have := who.isLt; omega
  ⟨⟨x % N, Nat.mod_lt _ h⟩, x / N, by simp only [tag]; exact (Nat.div_add_mod x N).symm⟩

/-- The parts determine the shared memory. -/
theorem Joined.same {who : Fin N} {a b : Shared N} {S : Fin N → St} (h : Joined who a S) (h' : Joined who b S) : a.Same b where
  nodes := funext fun x => by obtain ⟨u, y, rfl⟩ := tag_all who x; rw [h.nodes, h'.nodes]
  vals := funext fun x => by obtain ⟨u, y, rfl⟩ := tag_all who x; rw [h.vals, h'.vals]
  bufs := funext fun x => by obtain ⟨u, y, rfl⟩ := tag_all who x; rw [h.bufs, h'.bufs]
  allocs := funext fun x => by obtain ⟨u, y, rfl⟩ := tag_all who x; rw [h.allocs, h'.allocs]
  cache := h.cache.trans h'.cache.symm
  slack := funext fun x => by obtain ⟨u, y, rfl⟩ := tag_all who x; rw [h.slack, h'.slack]
  cfg := (h.cfg who).trans (h'.cfg who).symm
  next := funext fun u => (h.next u).trans (h'.next u).symm

theorem sched_joined {who : Fin N} {α : Type} : ∀ (τ : List (Fin N)) {X : Fin N → Act α} {sh : Shared N} {S : Fin N → St} {n : Fin N → Nat} {R : Fin N → α}
    {E : Fin N → St}, Joined who sh S → (∀ t, Runs who t (n t) (X t) (S t) (R t) (E t)) →
    ∃ X' sh', sched τ X sh = .ok (X', sh') ∧ ∃ S' : Fin N → St, Joined who sh' S' ∧ ∀ t, ∃ n', Runs who t n' (X' t) (S' t) (R t) (E t)
  | [], X, sh, S, n, R, E, J, h => ⟨X, sh, rfl, S, J, fun t => ⟨n t, h t⟩⟩
  | t :: τ, X, sh, S, n, R, E, J, h => by
    have ht := h t
    generalize hx : X t = x at ht
    generalize hm : n t = m at ht
    generalize hr : R t = r at ht
    generalize hs : S t = s at ht
    generalize he : E t = e at ht
    cases ht with
    | ret =>
      obtain ⟨X', sh', h1, h2⟩ := sched_joined τ J h
      exact ⟨X', sh', by unfold sched; rw [hx]; exact h1, h2⟩
    | @op β n' m k s s1 b a s2 hM hR =>
      obtain ⟨sh1, e1, J1⟩ := hM sh S hs J
      obtain ⟨X', sh', h1, h2⟩ := sched_joined τ (X := fun u => if u = t then k b else X u) (n := fun u => if u = t then n' else n u) (R := R) (E := E) J1 (fun u => by
        by_cases hut : u = t
        · subst hut; simp only [if_true, turn]; rw [hr, he]; exact hR
        · simp only [hut, if_false, turn]; exact h u)
      exact ⟨X', sh', by unfold sched; rw [hx]; dsimp only; rw [e1]; exact h1, h2⟩

theorem Runs.op_inv {who t : Fin N} {α β : Type} {n : Nat} {m : M β} {k : β → Act α} {s s' : St} {a : α}
    (h : Runs who t n (.op m k) s a s') : ∃ b s1, Steps who t m s b s1 := by
  generalize hx : Act.op m k = x at h
  cases h with
  | ret => cases hx
  | op h1 _ => cases hx; exact ⟨_, _, h1⟩

theorem turn_swap {t u : Fin N} (h : t ≠ u) (S : Fin N → St) (a b : St) : turn u (turn t S a) b = turn t (turn u S b) a := by
  funext x
  unfold turn
  by_cases h1 : x = t
  · subst h1; simp [h]
  · simp [h1]

/-- C61, no races (at most one thread uses the scratch string): wherever the threads have got to,
the next steps of any two of them can be made in either order, with the same results and the same
memory. So no step of a thread touches what another thread is about to read or write, and the
assumption that the threads take turns costs nothing: C11 promises it to programs without races. -/
theorem C61_no_races_partial {pad : Bool} {slack : Nat → Nat} {cfg : Cfg} (hp : pad = true → ∀ b, 3 ≤ slack b) (P : Fin N → Prog D)
    (hs : ∀ t, ((P t).named .empty).Safe fp (Store.init pad)) (who : Fin N) (hscr : ∀ t, t ≠ who → (P t).Never Call.scratches) :
    ∃ c, ∀ F, c ≤ F → ∀ τ : List (Fin N), ∃ X sh, sched τ (fun t => Thr.run fp F (P t) .empty) (Shared.init slack cfg) = .ok (X, sh) ∧
      ∀ (t u : Fin N), t ≠ u → ∀ (β γ : Type) (m : M β) (m' : M γ) k k', X t = .op m k → X u = .op m' k' →
        ∃ b b' sh1 sh2 sh12 sh21, sh.step t m = .ok (b, sh1) ∧ sh1.step u m' = .ok (b', sh12) ∧
          sh.step u m' = .ok (b', sh2) ∧ sh2.step t m = .ok (b, sh21) ∧ sh12.Same sh21 := by
  have h0 : ∀ t : Fin N, ∃ c ra, ∀ F, c ≤ F → ∃ n st, Runs who t n (Thr.run fp F (P t) .empty) (St.init (fun a => slack (tag t a)) cfg) ra st := by
    intro t
    obtain ⟨c2, rs2, st2, s2, _, e2, hG2, _⟩ := ((P t).named .empty).goes (WP.init (slack := fun a => slack (tag t a)) (cfg := cfg) fun h b => hp h _) (hs t)
    refine ⟨c2, Tab.empty.views rs2, fun F hF => ?_⟩
    have hw : (P t).Never Call.scratches ∨ t = who := by
      by_cases h : t = who
      · exact .inr h
      · exact .inl (hscr t h)
    obtain ⟨n, h⟩ := Sim.run hw (e2 F (by omega))
    exact ⟨n, st2, h⟩
  obtain ⟨c, h1⟩ := Classical.axiomOfChoice h0
  obtain ⟨ra, h2⟩ := Classical.axiomOfChoice h1
  obtain ⟨cm, hcm⟩ := exists_bound c
  refine ⟨cm, fun F hF τ => ?_⟩
  obtain ⟨n, h3⟩ := Classical.axiomOfChoice fun t => h2 t F (Nat.le_trans (hcm t) hF)
  obtain ⟨E, h4⟩ := Classical.axiomOfChoice h3
  obtain ⟨X, sh, e, S, J, hR⟩ := sched_joined τ Joined.init h4
  refine ⟨X, sh, e, fun t u htu β γ m m' k k' ht hu => ?_⟩
  obtain ⟨n1, r1⟩ := hR t
  obtain ⟨n2, r2⟩ := hR u
  rw [ht] at r1
  rw [hu] at r2
  obtain ⟨b, s1, S1⟩ := r1.op_inv
  obtain ⟨b', s2, S2⟩ := r2.op_inv
  obtain ⟨sh1, e1, J1⟩ := S1 sh S rfl J
  obtain ⟨sh2, e2, J2⟩ := S2 sh S rfl J
  obtain ⟨sh12, e12, J12⟩ := S2 sh1 _ (by simp [turn, Ne.symm htu]) J1
  obtain ⟨sh21, e21, J21⟩ := S1 sh2 _ (by simp [turn, htu]) J2
  rw [turn_swap htu] at J12
  exact ⟨b, b', sh1, sh2, sh12, sh21, e1, e12, e2, e21, J12.same J21⟩

/-! ### The defect, and threads that meet the hypotheses -/

/-- What thread `t` was told, if it has come to its end. -/
def Res.answers {α : Type} (r : Res ((Fin N → Act α) × Shared N)) (t : Fin N) : Option α :=
  match r with
  | .ok (X, _) => (X t).result
  | _ => none

/-- A client that makes a string with a `Len` function and prints it. -/
def writer (b : Bytes) : Prog D := .seq [.newAlloc, .newValue 0, .text .strLen 0 b, .get .print 0]

theorem writer_safe {b : Bytes} : ((writer b).named .empty).Safe fp (Store.init false) := by
  refine ⟨trivial, fun r s1 h1 _ => ?_⟩
  cases h1 with | @newAlloc A hA => ?_
  refine ⟨by simp [Legit, upd], fun r s2 h2 _ => ?_⟩
  cases h2 with | @newValue _ v hl hn => ?_
  refine ⟨⟨by simp [Store.alive, Store.handle, upd], .inl rfl, fun _ _ h => (nomatch h)⟩, fun r s3 h3 _ => ?_⟩
  have : s3.alive v := by
    cases h3 with
    | text _ hT =>
      cases hT with
      | old e _ => simp [Store.handle, upd] at e
      | new e _ => simp [Store.alive, Store.put, Store.use, TextFn.scratch, Store.handle, upd]
    | textNo => simp [Store.alive, Store.use, TextFn.scratch, Store.handle, upd]
  have hr : ∃ x, r = .bool x := by cases h3 <;> exact ⟨_, rfl⟩
  obtain ⟨_, rfl⟩ := hr
  exact ⟨⟨this, fun _ _ _ _ _ _ _ => trivial⟩, fun r s4 h4 _ => trivial⟩

/-- C61 is false: two threads, each of them allowed. The first sets the two bytes 01 01, which are
no text of a JSON string: alone it is told so. When the second thread makes all of its calls after
the first has filled the scratch string and before it checks it (zzzjson.h:1272-1289), the first is
told that the string was set, and it prints what is no JSON text. (Each thread is stopped once at
most, so this run does not depend on what is one step.) -/
theorem C61_false : (∀ b, ((writer b).named .empty).Safe (⟨fun _ => [], fun _ => ()⟩ : FP Unit) (Store.init false)) ∧
    (((writer [1, 1]).named .empty).run (⟨fun _ => [], fun _ => ()⟩ : FP Unit) 99 (St.init fun _ => 0)).out =
      .ok [.alloc 0, .handle (some 0), .bool false, .bytes (some [])] ∧
    (sched (N := 2) (List.replicate 13 0 ++ List.replicate 60 1 ++ List.replicate 60 0)
        (fun t => Thr.run (⟨fun _ => [], fun _ => ()⟩ : FP Unit) 99 (if t = 0 then writer [1, 1] else writer b!"ab") .empty)
        (Shared.init fun _ => 0)).answers 0 = some [.alloc 0, .handle (some 0), .bool true, .bytes (some [34, 1, 1, 34])] ∧
    ¬ ∃ t, JText t [34, 1, 1, 34] := by
  refine ⟨fun b => writer_safe, ?_, ?_, ?_⟩
  · decide +kernel
  · decide +kernel
  · rcases JText_dec [34, 1, 1, 34] [34, 1, 1, 34, 0, 0, 0, 0] [0, 0, 0] 8 (by decide) rfl (by decide) with ⟨t, _, h⟩ | ⟨h, _⟩
    · have h1 : (match pText [34, 1, 1, 34, 0, 0, 0, 0] 8 25 with
        | .ok (some _) => false
        | _ => true) = true := by decide +kernel
      rw [show pText [34, 1, 1, 34, 0, 0, 0, 0] 8 25 = .ok (some t) from h] at h1
      cases h1
    · exact h

/-- Three threads that meet the hypotheses of `C61_threads_partial`: one uses the scratch string. -/
def three : Fin 3 → Prog D := fun t => if t = 1 then writer b!"ab" else reader

example (τ : List (Fin 3)) : ∃ (c : Nat) (ra : Fin 3 → List (Ans D)),
      (∀ t F, c ≤ F → ∃ rs st, ((three t).named .empty).run fp F (St.init fun _ => 0) = .ok (rs, st) ∧ Tab.empty.views rs = ra t) ∧
      ∀ F, c ≤ F → ∃ X sh, sched τ (fun t => Thr.run fp F (three t) .empty) (Shared.init fun _ => 0) = .ok (X, sh) ∧
        ∀ t a, (X t).result = some a → a = ra t := by
  obtain ⟨c, ra, h1, h2⟩ := C61_threads_partial (N := 3) (fp := fp) (pad := false) (slack := fun _ => 0) (slackA := fun _ _ => 0) (cfg := {}) (cfgA := fun _ => {})
    nofun nofun three (fun t => by unfold three; split <;> first | exact writer_safe | exact reader_safe) 1
    (fun t ht => by
      unfold three
      rw [if_neg ht]
      exact ⟨rfl, fun _ => ⟨rfl, fun _ => ⟨rfl, fun _ => ⟨rfl, fun _ => ⟨rfl, fun _ => ⟨rfl, fun _ => trivial⟩⟩⟩⟩⟩⟩)
  refine ⟨c, ra, h1, fun F hF => ?_⟩
  obtain ⟨n, h⟩ := h2 F hF
  obtain ⟨X, sh, h3, h4⟩ := h τ
  exact ⟨X, sh, h3, fun t => (h4 t).1⟩

/-- The three threads in turns. -/
example : let r := sched (N := 3) (List.replicate 60 [0, 1, 2]).flatten (fun t => Thr.run (⟨fun _ => [], fun _ => ()⟩ : FP Unit) 99 (three t) .empty) (Shared.init fun _ => 0)
    r.answers 0 = some [.alloc 0, .handle (some 0), .bool true, .handle none, .bytes (some b!"\"c\""), .unit] ∧
    r.answers 1 = some [.alloc 0, .handle (some 0), .bool true, .bytes (some b!"\"ab\"")] ∧
    r.answers 2 = some [.alloc 0, .handle (some 0), .bool true, .handle none, .bytes (some b!"\"c\""), .unit] := by decide +kernel

end ZJ
