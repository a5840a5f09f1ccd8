import Verif.PropLayout
import Verif.PropMem

/-
C63: how much memory a whole client takes from the system, and that it is all given back.

C40 bounds the memory of the chunk allocator by what is asked of it, C55 what the calls of the
API ask for, C38 says that a release gives back every chunk. Here the three meet: the allocator
calls a client of the API makes are played on the chunk allocator (as in C48), and the `malloc`
blocks that are live afterwards are counted.
-/

set_option linter.unusedSimpArgs false
set_option linter.unusedVariables false
set_option linter.unusedSectionVars false

namespace ZJ.Alloc

/-- The client made allocator `A` and has not released it, by the record of its calls. -/
def Unreleased (log : List Ev) (A : Nat) : Prop := .new A ∈ log ∧ .release A ∉ log

/-- The record and the state agree on which allocators live. -/
structure Recorded (st : St) : Prop where
  live : ∀ A, st.allocs A = true ↔ Unreleased st.log A
  next : ∀ A, st.na ≤ A → .new A ∉ st.log ∧ .release A ∉ st.log

theorem Recorded.hop {Q : Nat → Prop} {K : Bytes → Prop} {st st' : St} (hs : Hop Q K 0 st st') (h : Recorded st) : Recorded st' := by
  have same : ∀ {st' : St} {A n}, st'.log = .alloc A n :: st.log → st'.allocs = st.allocs → st'.na = st.na → Recorded st' := by
    intro st' A n hl ha hn
    refine ⟨fun B => ?_, fun B hB => ?_⟩
    · rw [ha, h.live, Unreleased, Unreleased, hl]; simp
    · have := h.next B (hn ▸ hB)
      rw [hl]; simpa using this
  cases hs with
  | request _ => exact same rfl rfl rfl
  | node _ => exact same rfl rfl rfl
  | val _ => exact same rfl rfl rfl
  | buf _ _ => exact same rfl rfl rfl
  | str _ => exact same rfl rfl rfl
  | setNode _ _ => exact ⟨h.live, h.next⟩
  | setVal _ _ => exact ⟨h.live, h.next⟩
  | setBuf _ _ _ => exact ⟨h.live, h.next⟩
  | cache _ => exact ⟨h.live, h.next⟩
  | caller _ => exact ⟨h.live, h.next⟩
  | free _ _ _ => exact ⟨h.live, h.next⟩
  | new =>
    refine ⟨fun B => ?_, fun B hB => ?_⟩
    · have hn := h.next st.na (Nat.le_refl _)
      by_cases hB : B = st.na
      · subst hB
        simp [Unreleased, upd, hn.2]
      · simp only [upd, h.live, Unreleased, List.mem_cons, Ev.new.injEq, hB, if_false, false_or, reduceCtorEq]
    · have := h.next B (by simp at hB; omega)
      have hB' : B ≠ st.na := by simp at hB; omega
      simpa [hB'] using this
  | @release R _ hR =>
    refine ⟨fun B => ?_, fun B hB => ?_⟩
    · by_cases hB : B = R
      · subst hB
        simp [Unreleased, St.without, upd]
      · simp only [St.without, upd, h.live, Unreleased, List.mem_cons, Ev.release.injEq, hB, if_false, false_or, reduceCtorEq]
    · have hn := h.next B hB
      have hB' : B ≠ R := by
        rintro rfl
        exact hn.1 ((h.live B).1 hR).1
      simpa [St.without, hB'] using hn

theorem Recorded.init (slack : Nat → Nat) (cfg : Cfg) : Recorded (St.init slack cfg) :=
  ⟨fun A => by simp [St.init, Unreleased], fun A _ => by simp [St.init]⟩

section
variable [Knobs]

/-- The memory of the live allocators, by what was asked of each. -/
theorem Fits.held [Sensible] {E : Env} {fuel : Nat} {st : St} {r : Arena} {os : List Own} {place : Obj → Block}
    (h : Fits E fuel st r os place) :
    (r.w.m.live.map (·.2)).sum ≤ (r.ids.map fun A => heldFor (asked A st.log)).sum := by
  have h1 : (r.w.m.live.map (·.2)).sum = ((os.flatMap Own.mem).map (·.2)).sum := by
    have := (h.inv.live.map (·.2)).sum_nat
    rw [h.user, List.append_nil] at this
    exact this
  rw [h1]
  have hl : r.ids.length = os.length := by rw [h.len, h.inv.hs, List.length_map]
  have hr : ∀ (i A : Nat) (o : Own), r.ids[i]? = some A → os[i]? = some o → o.req = asked A st.log := fun i A o h1 h2 =>
    h.sum i A o.hand h1 (by rw [h.inv.hs, List.getElem?_map, h2]; rfl)
  have hg := h.inv.good
  generalize r.ids = ids at hl hr
  clear h h1
  induction os generalizing ids with
  | nil => simp
  | cons o os ih =>
    cases ids with
    | nil => simp at hl
    | cons A ids =>
      have hi := ih (fun x hx => hg x (List.mem_cons_of_mem _ hx)) ids (by simpa using hl)
        fun i B x h1 h2 => hr (i + 1) B x (by simpa using h1) (by simpa using h2)
      have ho := (hg o (List.mem_cons_self ..)).lay.held
      have he := hr 0 A o rfl rfl
      rw [he] at ho
      simp only [List.flatMap_cons, List.map_append, List.sum_append, List.map_cons, List.sum_cons] at hi ⊢
      omega

theorem recorded {D : Type} {fp : FP D} {F : Nat} {slack : Nat → Nat} {cfg : Cfg} {p : Prog D} {rs : List (Ans D)} {st : St}
    (hp : p.run fp F (St.init slack cfg) = .ok (rs, st)) : Recorded st :=
  (Prog.traces fp F p p.hands_all _ _ _ (Nat.zero_le _) hp).keeps (fun _ _ => Recorded.hop) (Recorded.init _ _)

/-- What a client does, played on the chunk allocator. -/
theorem played [Sensible] {D : Type} {fp : FP D} {F : Nat} {E : Env} (hE : Sound E) (hP : Plenty E) {fuel : Nat}
    (hfuel : 33 ≤ fuel) {slack : Nat → Nat} {cfg : Cfg} {p : Prog D} {rs : List (Ans D)} {st : St}
    (hp : p.run fp F (St.init slack cfg) = .ok (rs, st)) (hb : ∀ A, Room (asked A st.log)) :
    ∃ r os place, Fits E fuel st r os place ∧ Recorded st := by
  have h1 := Prog.traces fp F p p.hands_all _ _ _ (Nat.zero_le _) hp
  obtain ⟨r, os, pl, f1, _⟩ := (Fits.init E fuel slack).hops hE hP hfuel h1 hb
  exact ⟨r, os, pl, f1, recorded hp⟩

/-- C63: a client makes any calls whatsoever, careless ones included, and its run does not stop
with undefined behaviour. Then the chunk allocator serves its calls, and the memory it holds
from `malloc` is at most the bound of C40 for each allocator not yet released. Stopping the
client anywhere gives the same statement for that moment.

Partial: while every allocator has room for all that is asked of it (2 GiB by default). -/
theorem C63_bounded_partial [Sensible] {D : Type} {fp : FP D} {F : Nat} {E : Env} (hE : Sound E) (hP : Plenty E) {fuel : Nat}
    (hfuel : 33 ≤ fuel) {slack : Nat → Nat} {cfg : Cfg} {p : Prog D} {rs : List (Ans D)} {st : St}
    (hp : p.run fp F (St.init slack cfg) = .ok (rs, st)) (hb : ∀ A, Room (asked A st.log)) :
    ∃ r, ∃ ids : List Nat, replay E fuel st.log = .ok r ∧ ids.Nodup ∧ (∀ A, A ∈ ids ↔ Unreleased st.log A) ∧
      (r.w.m.live.map (·.2)).sum ≤ (ids.map fun A => heldFor (asked A st.log)).sum := by
  obtain ⟨r, os, pl, f, h⟩ := played hE hP hfuel hp hb
  exact ⟨r, r.ids, f.re, f.nodup, fun A => (f.ids A).trans (h.live A), f.held⟩

/-- C63: when the client has released every allocator it made, no `malloc` block is left.

Partial: as `C63_bounded_partial`. -/
theorem C63_given_back_partial [Sensible] {D : Type} {fp : FP D} {F : Nat} {E : Env} (hE : Sound E) (hP : Plenty E) {fuel : Nat}
    (hfuel : 33 ≤ fuel) {slack : Nat → Nat} {cfg : Cfg} {p : Prog D} {rs : List (Ans D)} {st : St}
    (hp : p.run fp F (St.init slack cfg) = .ok (rs, st)) (hb : ∀ A, Room (asked A st.log))
    (hr : ∀ A, .new A ∈ st.log → .release A ∈ st.log) :
    ∃ r, replay E fuel st.log = .ok r ∧ r.w.m.live = [] := by
  obtain ⟨r, os, pl, f, h⟩ := played hE hP hfuel hp hb
  refine ⟨r, f.re, ?_⟩
  have h0 : r.ids = [] := List.eq_nil_iff_forall_not_mem.2 fun A hA =>
    have := (h.live A).1 ((f.ids A).1 hA)
    this.2 (hr A this.1)
  have h1 := f.held
  have h2 : os = [] := by
    have := f.len
    rw [h0, f.inv.hs] at this
    exact List.eq_nil_of_length_eq_zero (by simpa using this.symm)
  have h3 := f.inv.live
  rw [h2, f.user] at h3
  simpa using h3

/-! ### Clients whose calls have a bound -/

theorem asked_total (A : Nat) : ∀ log : List Ev, asked A log ≤ total log
  | [] => Nat.le_refl _
  | .alloc B n :: l => by
    have := asked_total A l
    unfold asked total
    split <;> omega
  | .new _ :: l => asked_total A l
  | .release _ :: l => asked_total A l

theorem sum_ite : ∀ {ids : List Nat} (hd : ids.Nodup) (B n : Nat), (ids.map fun A => if B = A then n else 0).sum ≤ n
  | [], _, B, n => Nat.zero_le _
  | x :: ids, hd, B, n => by
    rw [List.map_cons, List.sum_cons]
    have hd' := List.nodup_cons.1 hd
    by_cases hx : B = x
    · subst hx
      have : (ids.map fun A => if B = A then n else 0).sum = 0 := by
        have : ids.map (fun A => if B = A then n else 0) = ids.map fun _ => 0 :=
          List.map_congr_left fun A hA => by
            rw [if_neg]
            rintro rfl
            exact hd'.1 hA
        rw [this]
        clear this hd hd'
        induction ids with
        | nil => rfl
        | cons _ _ ih => simpa using ih
      simp [this]
    · have := sum_ite hd'.2 B n
      simp [hx, this]

theorem sum_add {f g : Nat → Nat} : ∀ ids : List Nat, (ids.map fun A => f A + g A).sum = (ids.map f).sum + (ids.map g).sum
  | [] => rfl
  | x :: ids => by
    have := sum_add (f := f) (g := g) ids
    simp only [List.map_cons, List.sum_cons]
    omega

theorem sum_asked {ids : List Nat} (hd : ids.Nodup) : ∀ log : List Ev, (ids.map fun A => asked A log).sum ≤ total log
  | [] => by
    have : ∀ ids : List Nat, (ids.map fun A => asked A []).sum = 0 := fun ids => by
      induction ids with
      | nil => rfl
      | cons _ _ ih => simpa [asked] using ih
    rw [this]
    exact Nat.zero_le _
  | .alloc B n :: l => by
    have h1 := sum_asked hd l
    have h2 := sum_ite hd B n
    have h3 : (ids.map fun A => asked A (.alloc B n :: l)) = ids.map fun A => (if B = A then n else 0) + asked A l :=
      List.map_congr_left fun A _ => by
        show (if B = A then n + asked A l else asked A l) = _
        split <;> simp
    rw [h3, sum_add]
    show _ ≤ n + total l
    omega
  | .new _ :: l => sum_asked hd l
  | .release _ :: l => sum_asked hd l

theorem sum_heldFor (f : Nat → Nat) : ∀ ids : List Nat,
    (ids.map fun A => heldFor (f A)).sum = ids.length * heldFor 0 + 2 * (delta * (ids.map f).sum)
  | [] => by simp
  | x :: ids => by
    have := sum_heldFor f ids
    simp only [List.map_cons, List.sum_cons, List.length_cons, this]
    have h1 : heldFor (f x) = heldFor 0 + 2 * (delta * f x) := by
      unfold heldFor
      simp only [Nat.mul_zero]
    have h2 : (ids.length + 1) * heldFor 0 = ids.length * heldFor 0 + heldFor 0 := Nat.succ_mul _ _
    rw [h1, h2, Nat.mul_add]
    omega

/-- C63, in terms of what the client passes to the API: calls whose bounds by C55 add up to `k`
leave at most `2 * delta * k` bytes allocated, and a constant for each allocator not released.
Partial: `Room k`. -/
theorem C63_program_partial [Sensible] {D : Type} {fp : FP D} {F : Nat} {E : Env} (hE : Sound E) (hP : Plenty E) {fuel : Nat}
    (hfuel : 33 ≤ fuel) {slack : Nat → Nat} {cfg : Cfg} {cs : List (Call D)} {rs : List (Ans D)} {st : St} {k : Nat}
    (hk : costs cfg cs = some k) (hb : Room k) (hp : (Prog.seq cs).run fp F (St.init slack cfg) = .ok (rs, st)) :
    ∃ r, ∃ ids : List Nat, replay E fuel st.log = .ok r ∧ ids.Nodup ∧ (∀ A, A ∈ ids ↔ Unreleased st.log A) ∧
      (r.w.m.live.map (·.2)).sum ≤ ids.length * heldFor 0 + 2 * (delta * k) := by
  have ht : total st.log ≤ k := by
    have := C55_program (st := St.init slack cfg) (by exact hk) hp
    simpa [St.init, total] using this
  obtain ⟨r, ids, h1, h2, h3, h4⟩ := C63_bounded_partial hE hP hfuel hp
    fun A => hb.mono (Nat.le_trans (asked_total A _) ht)
  refine ⟨r, ids, h1, h2, h3, Nat.le_trans h4 ?_⟩
  rw [sum_heldFor]
  have := Nat.mul_le_mul_left delta (Nat.le_trans (sum_asked h2 st.log) ht)
  omega

end

section
attribute [local instance] Knobs.default Knobs.default_sensible

theorem parse_sum {m n : Nat} (h : m ≤ 8704) : m + 2 * (2 * (0 + (16 + (73 * n + 73 + 0)))) ≤ 9060 + 292 * n := by omega

theorem nodup_one {ids : List Nat} (h : ids.Nodup) (h0 : ∀ A ∈ ids, A = 0) : ids.length ≤ 1 := by
  match ids with
  | [] => exact Nat.zero_le _
  | [_] => exact Nat.le_refl _
  | x :: y :: _ =>
    have hx := h0 x (by simp)
    have hy := h0 y (by simp)
    subst hx
    simp [hy] at h

/-- That client makes one allocator. -/
theorem parse_na {D : Type} {fp : FP D} {F : Nat} {slack : Nat → Nat} {b : Bytes} (h0 : (0 : Byte) ∉ b) {rs : List (Ans D)} {st : St}
    (hp : (Prog.seq [.newAlloc, .newValue 0, .parse .parse 0 b]).run fp F (St.init slack) = .ok (rs, st)) : st.na = 1 := by
  have hR := (start_ready slack {}).addC (d := b ++ [0])
  have hc := addC_cstr (st := start slack {}) h0
  obtain ⟨a1, s1, e1, hp⟩ := M.bind_inv hp
  cases e1
  obtain ⟨l1, t1, hp, e⟩ := M.bind_inv hp
  cases e
  obtain ⟨a2, s2, e2, hp⟩ := M.bind_inv hp
  cases e2
  obtain ⟨l2, t2, hp, e⟩ := M.bind_inv hp
  cases e
  obtain ⟨a3, s3, e3, hp⟩ := M.bind_inv hp
  obtain ⟨l3, t3, hp, e⟩ := M.bind_inv hp
  cases e
  cases hp
  obtain ⟨x, s4, e4, e5⟩ := M.bind_inv e3
  cases e5
  obtain ⟨p, s5, e6, e7⟩ := M.bind_inv e4
  cases e6
  obtain ⟨y, s6, e8, e9⟩ := M.bind_inv e7
  have h6 : s6.na = 1 := by
    rcases parse_cases hR hc with ⟨_, _, _, h1, _, h2⟩ | ⟨_, ⟨_, h1, h2, _⟩ | ⟨h1, _⟩⟩
    · cases h1.symm.trans e8
      exact h2.na
    · cases h1.symm.trans e8
      exact h2.1.na
    · cases h1.symm.trans e8
  cases e9
  exact h6

/-- C63 with the default settings, for the commonest client: a document of `n` bytes is parsed
with less than 9060 + 292 `n` bytes of memory, whether it is accepted or not.
Partial: `n` at most 29 million. -/
theorem C63_parse_partial {D : Type} {fp : FP D} {F : Nat} {E : Env} (hE : Sound E) (hP : Plenty E) {slack : Nat → Nat}
    {b : Bytes} (h0 : (0 : Byte) ∉ b) (hn : b.length ≤ 29000000) {rs : List (Ans D)} {st : St}
    (hp : (Prog.seq [.newAlloc, .newValue 0, .parse .parse 0 b]).run fp F (St.init slack) = .ok (rs, st)) :
    ∃ r, replay E 33 st.log = .ok r ∧ (r.w.m.live.map (·.2)).sum ≤ 9060 + 292 * b.length := by
  have hc : costs (D := D) {} [.newAlloc, .newValue 0, .parse .parse 0 b] = some (0 + (16 + ((73 * b.length + 73) + 0))) := rfl
  obtain ⟨r, ids, h1, h2, h3, h4⟩ := C63_program_partial hE hP (Nat.le_refl 33) hc (Room.default (by omega)) hp
  refine ⟨r, h1, Nat.le_trans h4 ?_⟩
  clear h4
  have hd : (delta : Nat) = 2 := rfl
  have hlen : ids.length ≤ 1 := by
    have hna : st.na = 1 := parse_na h0 hp
    have hR := recorded hp
    have hall : ∀ A ∈ ids, A = 0 := fun A hA => by
      have h5 := (h3 A).1 hA
      by_cases h6 : st.na ≤ A
      · exact absurd h5.1 (hR.next A h6).1
      · omega
    exact nodup_one h2 hall
  rw [C40_default, hd]
  have : ids.length * (8704 + 4 * 0) ≤ 8704 := by
    have := Nat.mul_le_mul_right (8704 + 4 * 0) hlen
    omega
  exact parse_sum this

/-- The blocks from `malloc` that are live after the calls `cs`. -/
def liveAfter (cs : List (Call Unit)) : Option (List Block) :=
  match (Prog.seq cs).run ⟨fun _ => [], fun _ => ()⟩ 99 (St.init fun _ => 0) with
  | .ok (_, st) =>
    match replay bump 40 st.log with
    | .ok r => some r.w.m.live
    | _ => none
  | _ => none

/-- One allocator in use, one released: a block of 4096 bytes and its two structs are left. -/
example : liveAfter [.newAlloc, .newValue 0, .parse .parse 0 b!"[1,2]", .newAlloc, .newValue 1, .parse .parse 1 b!"7", .release 1] =
    some [(16, 4136)] := by decide +kernel

/-- Both released: nothing is left. -/
example : liveAfter [.newAlloc, .newValue 0, .parse .parse 0 b!"[1,2]", .newAlloc, .newValue 1, .release 1, .release 0] =
    some [] := by decide +kernel

/-- The hypotheses of `C63_given_back_partial` are met by such clients. -/
example : ∃ rs st, (Prog.seq [.newAlloc, .newValue 0, .parse .parse 0 b!"[1,2]", .release 0]).run
      (⟨fun _ => [], fun _ => ()⟩ : FP Unit) 99 (St.init fun _ => 0) = .ok (rs, st) ∧
    (∀ A, Room (asked A st.log)) ∧ ∀ A, Ev.new A ∈ st.log → Ev.release A ∈ st.log := by
  have h : logOf ((Prog.seq [.newAlloc, .newValue 0, .parse .parse 0 b!"[1,2]", .release 0]).run
      (⟨fun _ => [], fun _ => ()⟩ : FP Unit) 99 (St.init fun _ => 0)) =
      some [.release 0, .alloc 0 72, .alloc 0 72, .alloc 0 72, .alloc 0 6, .alloc 0 16, .new 0] := by decide +kernel
  generalize (Prog.seq [.newAlloc, .newValue 0, .parse .parse 0 b!"[1,2]", .release 0]).run
      (⟨fun _ => [], fun _ => ()⟩ : FP Unit) 99 (St.init fun _ => 0) = x at h
  match x, h with
  | .ok (rs, st), h =>
    have h : st.log = _ := Option.some.inj h
    refine ⟨rs, st, rfl, fun A => ?_, fun A hA => ?_⟩
    · rw [h]
      exact Room.default (Nat.le_trans (asked_total A _) (by decide))
    · rw [h] at hA ⊢
      simpa using hA

end

end ZJ.Alloc
