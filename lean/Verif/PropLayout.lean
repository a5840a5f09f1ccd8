import Verif.Hops
import Verif.PropAlloc

/-
C48: every object that the API creates has memory of its own.

The model of the API (`Heap`, `Parse`, `Api`) gives every new node, handle and byte block a
fresh address and only records what was asked of the allocator functions (`St.log`). Here the
recorded calls are played on the model of the chunk allocator (`Alloc`), and every live object
is shown to have a place in a block that its own allocator handed out, apart from the places of
all other live objects. So the two models fit together: `Heap` does not assume more of the
allocator than it delivers.
-/

set_option linter.unusedSimpArgs false
set_option linter.unusedVariables false
set_option linter.unusedSectionVars false

namespace ZJ.Alloc

/-- The allocators of the program: their memory and the numbers by which the model of the API
calls them, in the same order. -/
structure Arena where
  w : World
  ids : List Nat

def Arena.init : Arena := ⟨World.init, []⟩

section
variable [Knobs]

/-- One recorded call, made on the chunk allocator. -/
def Arena.play (E : Env) (fuel : Nat) (r : Arena) : Ev → Res Arena
  | .new A => do
    let w ← step E fuel r.w .new
    pure ⟨w, A :: r.ids⟩
  | .alloc A n => do
    let w ← step E fuel r.w (.alloc (r.ids.idxOf A) n)
    pure ⟨w, r.ids⟩
  | .release A => do
    let w ← step E fuel r.w (.release (r.ids.idxOf A))
    pure ⟨w, r.ids.eraseIdx (r.ids.idxOf A)⟩

/-- All recorded calls (latest first in the list). -/
def replay (E : Env) (fuel : Nat) : List Ev → Res Arena
  | [] => .ok Arena.init
  | e :: l => do
    let r ← replay E fuel l
    r.play E fuel e

end

/-- Bytes asked of allocator `A`. -/
def asked (A : Nat) : List Ev → Nat
  | [] => 0
  | .alloc B n :: l => if B = A then n + asked A l else asked A l
  | _ :: l => asked A l

/-- An object of the API. -/
inductive Obj where
  | node (a : Nat)
  | val (v : Nat)
  | buf (b : Nat)
deriving DecidableEq

/-- `o` exists in `st`, was created with allocator `A` and takes `n` bytes. -/
def Obj.Live (st : St) (A n : Nat) : Obj → Prop
  | .node a => n = 72 ∧ ∃ x, st.nodes a = some x ∧ x.owner = A
  | .val v => n = 16 ∧ ∃ x, st.vals v = some x ∧ x.a = A
  | .buf b => ∃ x, st.bufs b = some x ∧ x.owner = some A ∧ x.size = n

/-- Its address has been given out. -/
def Obj.Old (st : St) : Obj → Prop
  | .node a => a < st.nn
  | .val v => v < st.nv
  | .buf b => b < st.nb

/-- Allocator `A` has handed out block `b`. -/
def Arena.Gave (r : Arena) (A : Nat) (b : Block) : Prop :=
  ∃ (i : Nat) (h : Hand), r.ids[i]? = some A ∧ r.w.hs[i]? = some h ∧ b ∈ h.blocks

/-- Every live object has its own place. -/
structure Laid (st : St) (r : Arena) (place : Obj → Block) : Prop where
  size : ∀ (o : Obj) A n, o.Live st A n → (place o).2 = n
  own : ∀ (o : Obj) A n, o.Live st A n → ∃ b, r.Gave A b ∧ Within (place o) b
  apart : ∀ (o : Obj) A n (o' : Obj) A' n', o.Live st A n → o'.Live st A' n' → o ≠ o' → Disj (place o) (place o')

section
variable [Knobs]

/-- The state of the API and the allocators fit together. -/
structure Fits (E : Env) (fuel : Nat) (st : St) (r : Arena) (os : List Own) (place : Obj → Block) : Prop where
  re : replay E fuel st.log = .ok r
  inv : WInv r.w os
  user : r.w.user = []
  nodup : r.ids.Nodup
  ids : ∀ A, A ∈ r.ids ↔ st.allocs A = true
  len : r.ids.length = r.w.hs.length
  sum : ∀ (i A : Nat) (h : Hand), r.ids[i]? = some A → r.w.hs[i]? = some h → h.asked = asked A st.log
  laid : Laid st r place
  old : ∀ (o : Obj) A n, o.Live st A n → o.Old st
  na : ∀ A, st.na ≤ A → st.allocs A = false ∧ asked A st.log = 0

theorem WInv.blocks {w : World} {os : List Own} (h : WInv w os) : (w.hs.flatMap Hand.blocks ++ w.user).Pairwise Disj := by
  have hp := h.pair
  rw [h.hs]
  have hg := h.good
  clear h
  revert hp hg
  generalize w.user = us
  induction os with
  | nil => intro hp _; simpa using hp
  | cons o r ih =>
    intro hp hg
    rw [List.flatMap_cons, List.append_assoc] at hp
    obtain ⟨h1, h2, h3⟩ := List.pairwise_append.1 hp
    have ho := hg o (List.mem_cons_self ..)
    rw [List.map_cons, List.flatMap_cons, List.append_assoc]
    refine List.pairwise_append.2 ⟨ho.lay.blocks, ih h2 fun x hx => hg x (List.mem_cons_of_mem _ hx), ?_⟩
    intro b hb c hc
    obtain ⟨d, hd, hw⟩ := ho.block_in hb
    rcases List.mem_append.1 hc with hc | hc
    · obtain ⟨x, hx, hcx⟩ := List.mem_flatMap.1 hc
      obtain ⟨o', ho', rfl⟩ := List.mem_map.1 hx
      obtain ⟨d', hd', hw'⟩ := (hg o' (List.mem_cons_of_mem _ ho')).block_in hcx
      exact ((h3 d hd d' (List.mem_append_left _ (List.mem_flatMap.2 ⟨o', ho', hd'⟩))).sub hw).sub_right hw'
    · exact (h3 d hd c (List.mem_append_right _ hc)).sub hw

theorem pairwise_mid {l r : List Block} {x : Block} (h : (l ++ x :: r).Pairwise Disj) : ∀ y ∈ l ++ r, Disj x y := by
  intro y hy
  obtain ⟨h1, h2, h3⟩ := List.pairwise_append.1 h
  rcases List.mem_append.1 hy with hy | hy
  · exact (h3 y hy x (List.mem_cons_self ..)).symm
  · exact (List.pairwise_cons.1 h2).1 y hy

section
variable [Sensible] {Q : Nat → Prop} {K : Bytes → Prop} {E : Env} {fuel : Nat} {st st' : St} {r : Arena} {os : List Own} {place : Obj → Block}

theorem idxOf_get {l : List Nat} {A : Nat} (h : A ∈ l) : l[l.idxOf A]? = some A := by
  rw [List.getElem?_eq_getElem (List.idxOf_lt_length_iff.2 h), List.getElem_idxOf]

theorem nodup_get {l : List Nat} (h : l.Nodup) {i j A : Nat} (hi : l[i]? = some A) (hj : l[j]? = some A) : i = j := by
  exact (List.getElem?_inj (List.getElem?_eq_some_iff.1 hi).1 h).1 (hi.trans hj.symm)

/-- A request is served with a block apart from all that was handed out before. -/
theorem Fits.alloc (hE : Sound E) (hP : Plenty E) (hfuel : 33 ≤ fuel) (h : Fits E fuel st r os place) {A n : Nat}
    (hA : st.allocs A = true) (hb : Room (asked A st.log + n)) :
    ∃ r' os' p, replay E fuel (.alloc A n :: st.log) = .ok r' ∧ WInv r'.w os' ∧ r'.w.user = [] ∧ r'.ids = r.ids ∧
      r'.w.hs.length = r.w.hs.length ∧
      (∀ (i B : Nat) (x : Hand), r'.ids[i]? = some B → r'.w.hs[i]? = some x → x.asked = asked B (.alloc A n :: st.log)) ∧
      (∀ B b, r.Gave B b → r'.Gave B b) ∧ r'.Gave A (p, n) ∧ ∀ B b, r.Gave B b → Disj (p, n) b := by
  have hm := (h.ids A).2 hA
  have hi := idxOf_get hm
  generalize hj : r.ids.idxOf A = j at hi
  have hlt : j < r.w.hs.length := by
    rw [← h.len, ← hj]; exact List.idxOf_lt_length_iff.2 hm
  obtain ⟨x, hx⟩ : ∃ x, r.w.hs[j]? = some x := ⟨_, List.getElem?_eq_getElem hlt⟩
  have hop : (Op.alloc j n).fine r.w := fun y hy => by
    rw [hx] at hy; cases hy
    rw [h.sum j A x hi hx]; exact hb
  obtain ⟨w', os', e1, e2, -⟩ := step_inv hE hP hfuel h.inv hop
  have hr : replay E fuel (.alloc A n :: st.log) = .ok ⟨w', r.ids⟩ := by
    show (replay E fuel st.log >>= fun r => r.play E fuel (.alloc A n)) = _
    rw [h.re]
    show (step E fuel r.w (.alloc (r.ids.idxOf A) n) >>= fun w => pure (⟨w, r.ids⟩ : Arena)) = _
    rw [hj, e1]; rfl
  simp only [step, hx] at e1
  cases ha : Alloc.alloc E fuel r.w.m x.a n with
  | ub u => rw [ha] at e1; cases e1
  | timeout => rw [ha] at e1; cases e1
  | ok pm =>
    obtain ⟨p, m⟩ := pm
    rw [ha] at e1
    obtain rfl : { r.w with m := m, hs := r.w.hs.set j { x with blocks := (p, n) :: x.blocks } } = w' := by
      injection e1
    refine ⟨_, os', p, hr, e2, h.user, rfl, by simp, ?_, ?_, ?_, ?_⟩
    · intro i B y hB hy
      simp only at hB hy
      rw [List.getElem?_set] at hy
      by_cases e : j = i
      · subst e
        rw [if_pos rfl, if_pos hlt] at hy
        rw [hi] at hB
        cases hB; cases hy
        simp only [asked, if_true]
        rw [← h.sum j A x hi hx]
        simp [Hand.asked]
      · rw [if_neg e] at hy
        have hne : A ≠ B := fun e' => e (nodup_get h.nodup hi (e' ▸ hB))
        simp only [asked, if_neg hne]
        exact h.sum i B y hB hy
    · rintro B b ⟨i, y, h1, h2, h3⟩
      by_cases e : j = i
      · subst e
        rw [hx] at h2; cases h2
        exact ⟨j, { x with blocks := (p, n) :: x.blocks }, h1, by simp [List.getElem?_set, hlt], List.mem_cons_of_mem _ h3⟩
      · exact ⟨i, y, h1, by simp [List.getElem?_set, e, h2], h3⟩
    · exact ⟨j, { x with blocks := (p, n) :: x.blocks }, hi, by simp [List.getElem?_set, hlt], List.mem_cons_self ..⟩
    · rintro B b ⟨i, y, h1, h2, h3⟩
      have hp := (List.pairwise_append.1 e2.blocks).1
      simp only at hp
      obtain ⟨l, z, t, el, ll, ez⟩ := split_get id (l := r.w.hs) (i := j) (y := x) (by simpa using hx)
      cases ez
      rw [el, set_mid ll, List.flatMap_append, List.flatMap_cons] at hp
      have := pairwise_mid (x := (p, n)) (l := l.flatMap Hand.blocks) (r := z.blocks ++ t.flatMap Hand.blocks) (by simpa using hp)
      refine this b ?_
      have hy : y ∈ r.w.hs := List.mem_of_getElem? h2
      rw [el] at hy
      simp only [List.mem_append, List.mem_flatMap]
      rcases List.mem_append.1 hy with hy | hy
      · exact Or.inl ⟨y, hy, h3⟩
      · rcases List.mem_cons.1 hy with rfl | hy
        · exact Or.inr (Or.inl h3)
        · exact Or.inr (Or.inr ⟨y, hy, h3⟩)

/-- A step that asks nothing of the allocators and creates nothing. -/
theorem Fits.same (h : Fits E fuel st r os place) (hl : st'.log = st.log) (ha : st'.allocs = st.allocs) (hn : st'.na = st.na)
    (hL : ∀ o A n, Obj.Live st' A n o → Obj.Live st A n o) (hO : ∀ o, Obj.Old st o → Obj.Old st' o) :
    Fits E fuel st' r os place where
  re := hl ▸ h.re
  inv := h.inv
  user := h.user
  nodup := h.nodup
  ids := fun A => by rw [ha]; exact h.ids A
  len := h.len
  sum := fun i A x h1 h2 => by rw [hl]; exact h.sum i A x h1 h2
  laid := ⟨fun o A n ho => h.laid.size o A n (hL _ _ _ ho), fun o A n ho => h.laid.own o A n (hL _ _ _ ho),
    fun o A n o' A' n' ho ho' => h.laid.apart o A n o' A' n' (hL _ _ _ ho) (hL _ _ _ ho')⟩
  old := fun o A n ho => hO _ (h.old o A n (hL _ _ _ ho))
  na := fun A hA => by rw [hl, ha]; exact h.na A (hn ▸ hA)

/-- A step that asks for memory and creates object `o0` in it. -/
theorem Fits.grow (hE : Sound E) (hP : Plenty E) (hfuel : 33 ≤ fuel) (h : Fits E fuel st r os place) {A n : Nat}
    (hA : st.allocs A = true) (hb : Room (asked A st'.log)) (hl : st'.log = .alloc A n :: st.log)
    (ha : st'.allocs = st.allocs) (hn : st'.na = st.na) {o0 : Obj} {k n0 : Nat} (hk : k + n0 ≤ n) (h0 : ¬ o0.Old st)
    (hL : ∀ o B m, Obj.Live st' B m o → (o = o0 ∧ B = A ∧ m = n0) ∨ Obj.Live st B m o)
    (hO : ∀ o B m, Obj.Live st' B m o → o.Old st') :
    ∃ r' os' place', Fits E fuel st' r' os' place' ∧ ∀ o, o.Old st → place' o = place o := by
  rw [hl] at hb
  simp only [asked, if_true] at hb
  obtain ⟨r', os', p, e1, e2, e3, e4, e5, e6, e7, e8, e9⟩ := h.alloc hE hP hfuel hA (n := n) (hb.mono (by omega))
  have hw : Within (p + k, n0) (p, n) := by simp [Within]; omega
  have hne : ∀ o B m, Obj.Live st B m o → o ≠ o0 := fun o B m ho e => h0 (e ▸ h.old o B m ho)
  refine ⟨r', os', fun o => if o = o0 then (p + k, n0) else place o, ?_, fun o ho => if_neg fun (e : o = o0) => h0 (e ▸ ho)⟩
  refine ⟨by rw [hl]; exact e1, e2, e3, by rw [e4]; exact h.nodup, fun B => by rw [e4, ha]; exact h.ids B,
    by rw [e4, e5]; exact h.len, fun i B x h1 h2 => by rw [hl]; exact e6 i B x h1 h2, ⟨?_, ?_, ?_⟩, hO, ?_⟩
  · intro o B m ho
    rcases hL o B m ho with ⟨rfl, rfl, rfl⟩ | ho
    · simp
    · simp only [if_neg (hne _ _ _ ho)]; exact h.laid.size o B m ho
  · intro o B m ho
    rcases hL o B m ho with ⟨rfl, rfl, rfl⟩ | ho
    · exact ⟨(p, n), e8, by simpa using hw⟩
    · simp only [if_neg (hne _ _ _ ho)]
      obtain ⟨b, h1, h2⟩ := h.laid.own o B m ho
      exact ⟨b, e7 _ _ h1, h2⟩
  · intro o B m o' B' m' ho ho' hoo
    rcases hL o B m ho with ⟨rfl, rfl, rfl⟩ | ho
    · rcases hL o' B' m' ho' with ⟨rfl, -, -⟩ | ho'
      · exact absurd rfl hoo
      · simp only [if_neg (hne _ _ _ ho'), if_pos]
        obtain ⟨b, h1, h2⟩ := h.laid.own o' B' m' ho'
        exact ((e9 _ _ h1).sub hw).sub_right h2
    · rcases hL o' B' m' ho' with ⟨rfl, -, -⟩ | ho'
      · simp only [if_neg (hne _ _ _ ho), if_pos]
        obtain ⟨b, h1, h2⟩ := h.laid.own o B m ho
        exact (((e9 _ _ h1).sub hw).sub_right h2).symm
      · simp only [if_neg (hne _ _ _ ho'), if_neg (hne _ _ _ ho)]
        exact h.laid.apart o B m o' B' m' ho ho' hoo
  · intro B hB
    rw [hl, ha]
    obtain ⟨h1, h2⟩ := h.na B (hn ▸ hB)
    refine ⟨h1, ?_⟩
    have : A ≠ B := fun e => by rw [← e, hA] at h1; cases h1
    simp only [asked, if_neg this]; exact h2

/-- A new allocator. -/
theorem Fits.new (hE : Sound E) (hP : Plenty E) (hfuel : 33 ≤ fuel) (h : Fits E fuel st r os place) :
    ∃ r' os', Fits E fuel { st with allocs := upd st.allocs st.na true, na := st.na + 1, log := .new st.na :: st.log } r' os' place := by
  obtain ⟨w', os', e1, e2, -⟩ := step_inv hE hP hfuel h.inv (op := .new) trivial
  have hr : replay E fuel (.new st.na :: st.log) = .ok ⟨w', st.na :: r.ids⟩ := by
    show (replay E fuel st.log >>= fun r => r.play E fuel (.new st.na)) = _
    rw [h.re]
    show (step E fuel r.w .new >>= fun w => pure (⟨w, st.na :: r.ids⟩ : Arena)) = _
    rw [e1]; rfl
  simp only [step] at e1
  cases ha : newAllocator E r.w.m with
  | ub u => rw [ha] at e1; cases e1
  | timeout => rw [ha] at e1; cases e1
  | ok pm =>
    obtain ⟨p, m⟩ := pm
    rw [ha] at e1
    obtain rfl : { r.w with m := m, hs := ⟨p, false, []⟩ :: r.w.hs } = w' := by injection e1
    have hg : ∀ B b, r.Gave B b → Arena.Gave ⟨{ r.w with m := m, hs := ⟨p, false, []⟩ :: r.w.hs }, st.na :: r.ids⟩ B b := by
      rintro B b ⟨i, y, h1, h2, h3⟩
      exact ⟨i + 1, y, by simpa using h1, by simpa using h2, h3⟩
    have hna := h.na st.na (Nat.le_refl _)
    have hnot : st.na ∉ r.ids := fun hm => by rw [(h.ids _).1 hm] at hna; cases hna.1
    refine ⟨_, os', hr, e2, h.user, List.nodup_cons.2 ⟨hnot, h.nodup⟩, ?_, by simp [h.len], ?_, ⟨h.laid.size, ?_, h.laid.apart⟩,
      h.old, ?_⟩
    · intro A
      simp only [List.mem_cons, upd]
      split
      · simp_all
      · rename_i hne; simp [hne, h.ids]
    · intro i A x h1 h2
      cases i with
      | zero =>
        simp at h1 h2
        subst h1; subst h2
        simp only [asked]; rw [hna.2]; rfl
      | succ i => simpa only [asked] using h.sum i A x (by simpa using h1) (by simpa using h2)
    · intro o A n ho
      obtain ⟨b, h1, h2⟩ := h.laid.own o A n ho
      exact ⟨b, hg _ _ h1, h2⟩
    · intro A hA
      have hA : st.na + 1 ≤ A := hA
      have := h.na A (by omega)
      simp only [upd, asked, if_neg (show ¬ A = st.na by omega)]
      exact this

/-- The end of an allocator. -/
theorem Fits.release (hE : Sound E) (hP : Plenty E) (hfuel : 33 ≤ fuel) (h : Fits E fuel st r os place) {R : Nat}
    (hR : st.allocs R = true) : ∃ r' os', Fits E fuel (st.without R) r' os' place := by
  have hm := (h.ids R).2 hR
  have hi := idxOf_get hm
  have hu := fun j => nodup_get h.nodup (i := r.ids.idxOf R) (j := j) hi
  generalize hj : r.ids.idxOf R = j at hi hu
  have hlt : j < r.w.hs.length := by
    rw [← h.len, ← hj]; exact List.idxOf_lt_length_iff.2 hm
  obtain ⟨x, hx⟩ : ∃ x, r.w.hs[j]? = some x := ⟨_, List.getElem?_eq_getElem hlt⟩
  obtain ⟨w', os', e1, e2, -⟩ := step_inv hE hP hfuel h.inv (op := .release j) trivial
  have hr : replay E fuel (.release R :: st.log) = .ok ⟨w', r.ids.eraseIdx j⟩ := by
    show (replay E fuel st.log >>= fun r => r.play E fuel (.release R)) = _
    rw [h.re]
    show (step E fuel r.w (.release (r.ids.idxOf R)) >>= fun w => pure (⟨w, r.ids.eraseIdx (r.ids.idxOf R)⟩ : Arena)) = _
    rw [hj, e1]; rfl
  simp only [step, hx] at e1
  cases ha : dispose fuel r.w.m x.cpp x.a with
  | ub u => rw [ha] at e1; cases e1
  | timeout => rw [ha] at e1; cases e1
  | ok m =>
    rw [ha] at e1
    obtain rfl : { r.w with m := m, hs := r.w.hs.eraseIdx j } = w' := by injection e1
    have hL : ∀ o A n, Obj.Live (st.without R) A n o → Obj.Live st A n o ∧ A ≠ R := by
      intro o A n ho
      cases o with
      | node a =>
        obtain ⟨h1, y, h2, h3⟩ := ho
        simp only [St.without, Option.bind_eq_some_iff] at h2
        obtain ⟨z, hz, h2⟩ := h2
        split at h2
        · cases h2
        · rename_i hne; cases h2; exact ⟨⟨h1, _, hz, h3⟩, h3 ▸ hne⟩
      | val a =>
        obtain ⟨h1, y, h2, h3⟩ := ho
        simp only [St.without, Option.bind_eq_some_iff] at h2
        obtain ⟨z, hz, h2⟩ := h2
        split at h2
        · cases h2
        · rename_i hne; cases h2; exact ⟨⟨h1, _, hz, h3⟩, h3 ▸ hne⟩
      | buf a =>
        obtain ⟨y, h2, h3, h4⟩ := ho
        simp only [St.without, Option.bind_eq_some_iff] at h2
        obtain ⟨z, hz, h2⟩ := h2
        split at h2
        · cases h2
        · rename_i hne; cases h2; exact ⟨⟨_, hz, h3, h4⟩, fun e => hne (e ▸ h3)⟩
    have hget : ∀ (i B : Nat), (r.ids.eraseIdx j)[i]? = some B → ∃ i' : Nat, r.ids[i']? = some B ∧ i' ≠ j ∧
        (r.w.hs.eraseIdx j)[i]? = r.w.hs[i']? := by
      intro i B hB
      rw [List.getElem?_eraseIdx] at hB
      rw [List.getElem?_eraseIdx]
      split at hB
      · rename_i hlt'; exact ⟨i, hB, by omega, by rw [if_pos hlt']⟩
      · rename_i hlt'; exact ⟨i + 1, hB, by omega, by rw [if_neg hlt']⟩
    have hg : ∀ B b, B ≠ R → r.Gave B b → Arena.Gave ⟨{ r.w with m := m, hs := r.w.hs.eraseIdx j }, r.ids.eraseIdx j⟩ B b := by
      rintro B b hB ⟨i, y, h1, h2, h3⟩
      have hij : i ≠ j := fun e => hB (by rw [e, hi] at h1; cases h1; rfl)
      by_cases hlt' : i < j
      · exact ⟨i, y, by simp only [List.getElem?_eraseIdx, if_pos hlt']; exact h1,
          by simp only [List.getElem?_eraseIdx, if_pos hlt']; exact h2, h3⟩
      · refine ⟨i - 1, y, ?_, ?_, h3⟩
        · simp only [List.getElem?_eraseIdx, if_neg (show ¬ i - 1 < j by omega), show i - 1 + 1 = i by omega]; exact h1
        · simp only [List.getElem?_eraseIdx, if_neg (show ¬ i - 1 < j by omega), show i - 1 + 1 = i by omega]; exact h2
    refine ⟨_, os', hr, e2, h.user, h.nodup.sublist (List.eraseIdx_sublist ..), ?_, ?_, ?_, ⟨?_, ?_, ?_⟩, ?_, ?_⟩
    · intro A
      simp only [St.without, upd]
      constructor
      · intro hA
        obtain ⟨i, hiA⟩ := List.getElem?_of_mem hA
        obtain ⟨i', h1, h2, -⟩ := hget i A hiA
        have hne : A ≠ R := fun e => h2 (nodup_get h.nodup h1 (e ▸ hi))
        rw [if_neg hne]
        exact (h.ids A).1 (List.mem_of_getElem? h1)
      · intro hA
        split at hA
        · cases hA
        · rename_i hne
          obtain ⟨i, hiA⟩ := List.getElem?_of_mem ((h.ids A).2 hA)
          have hij : i ≠ j := fun e => hne (by rw [e, hi] at hiA; cases hiA; rfl)
          refine List.mem_of_getElem? (i := if i < j then i else i - 1) ?_
          rw [List.getElem?_eraseIdx]
          by_cases hlt' : i < j
          · simp only [if_pos hlt']; exact hiA
          · simp only [if_neg hlt', if_neg (show ¬ i - 1 < j by omega), show i - 1 + 1 = i by omega]; exact hiA
    · simp only [List.length_eraseIdx, h.len]
    · intro i A y h1 h2
      obtain ⟨i', h3, h4, h5⟩ := hget i A h1
      exact h.sum i' A y h3 (h5.symm.trans h2)
    · exact fun o A n ho => h.laid.size o A n (hL _ _ _ ho).1
    · intro o A n ho
      obtain ⟨b, h1, h2⟩ := h.laid.own o A n (hL _ _ _ ho).1
      exact ⟨b, hg _ _ (hL _ _ _ ho).2 h1, h2⟩
    · exact fun o A n o' A' n' ho ho' => h.laid.apart o A n o' A' n' (hL _ _ _ ho).1 (hL _ _ _ ho').1
    · intro o A n ho
      have := h.old o A n (hL _ _ _ ho).1
      cases o <;> exact this
    · intro A hA
      have := h.na A hA
      refine ⟨?_, this.2⟩
      simp only [St.without, upd]
      split
      · rfl
      · exact this.1

/-- One step. -/
theorem Fits.hop (hE : Sound E) (hP : Plenty E) (hfuel : 33 ≤ fuel) (h : Fits E fuel st r os place) (hs : Hop Q K 0 st st')
    (hb : ∀ A, Room (asked A st'.log)) :
    ∃ r' os' place', Fits E fuel st' r' os' place' ∧ ∀ o, o.Old st → place' o = place o := by
  cases hs with
  | @request A n hA =>
    refine h.grow hE hP hfuel hA (hb A) rfl rfl rfl (o0 := .node st.nn) (k := 0) (n0 := 0) (Nat.zero_le _)
      (Nat.lt_irrefl _) (fun o B m ho => Or.inr ?_) fun o B m ho => ?_
    · cases o <;> exact ho
    · have := h.old o B m (by cases o <;> exact ho)
      cases o <;> exact this
  | @node A hA =>
    have hL : ∀ o B m, Obj.Live (st.addN A) B m o → (o = .node st.nn ∧ B = A ∧ m = 72) ∨ Obj.Live st B m o := by
      intro o B m ho
      cases o with
      | node a =>
        obtain ⟨h1, x, h2, h3⟩ := ho
        simp only [St.addN, upd] at h2
        split at h2
        · rename_i e; subst e; cases h2; exact Or.inl ⟨rfl, h3.symm, h1⟩
        · exact Or.inr ⟨h1, x, h2, h3⟩
      | val a => exact Or.inr ho
      | buf a => exact Or.inr ho
    refine h.grow hE hP hfuel hA (hb A) rfl rfl rfl (o0 := .node st.nn) (k := 0) (n0 := 72) (Nat.le_refl _)
      (Nat.lt_irrefl _) hL fun o B m ho => ?_
    rcases hL o B m ho with ⟨rfl, -, -⟩ | ho
    · exact Nat.lt_succ_self _
    · have := h.old o B m ho
      cases o with
      | node a => exact Nat.lt_succ_of_lt this
      | _ => exact this
  | @val A q hA =>
    have hL : ∀ o B m, Obj.Live (st.addV A q) B m o → (o = .val st.nv ∧ B = A ∧ m = 16) ∨ Obj.Live st B m o := by
      intro o B m ho
      cases o with
      | val a =>
        obtain ⟨h1, x, h2, h3⟩ := ho
        simp only [St.addV, upd] at h2
        split at h2
        · rename_i e; subst e; cases h2; exact Or.inl ⟨rfl, h3.symm, h1⟩
        · exact Or.inr ⟨h1, x, h2, h3⟩
      | node a => exact Or.inr ho
      | buf a => exact Or.inr ho
    refine h.grow hE hP hfuel hA (hb A) rfl rfl rfl (o0 := .val st.nv) (k := 0) (n0 := 16) (Nat.le_refl _)
      (Nat.lt_irrefl _) hL fun o B m ho => ?_
    rcases hL o B m ho with ⟨rfl, -, -⟩ | ho
    · exact Nat.lt_succ_self _
    · have := h.old o B m ho
      cases o with
      | val a => exact Nat.lt_succ_of_lt this
      | _ => exact this
  | @buf A n d hA hd =>
    have hL : ∀ o B m, Obj.Live (st.addB A n d) B m o → (o = .buf st.nb ∧ B = A ∧ m = n) ∨ Obj.Live st B m o := by
      intro o B m ho
      cases o with
      | buf a =>
        obtain ⟨x, h2, h3, h4⟩ := ho
        simp only [St.addB, upd] at h2
        split at h2
        · rename_i e; subst e; cases h2; exact Or.inl ⟨rfl, by cases h3; rfl, h4.symm⟩
        · exact Or.inr ⟨x, h2, h3, h4⟩
      | node a => exact Or.inr ho
      | val a => exact Or.inr ho
    refine h.grow hE hP hfuel hA (hb A) rfl rfl rfl (o0 := .buf st.nb) (k := 0) (n0 := n) (by omega)
      (Nat.lt_irrefl _) hL fun o B m ho => ?_
    rcases hL o B m ho with ⟨rfl, -, -⟩ | ho
    · exact Nat.lt_succ_self _
    · have := h.old o B m ho
      cases o with
      | buf a => exact Nat.lt_succ_of_lt this
      | _ => exact this
  | @str A n hA =>
    have hL : ∀ o B m, Obj.Live (st.addS A n) B m o → (o = .buf st.nb ∧ B = A ∧ m = n) ∨ Obj.Live st B m o := by
      intro o B m ho
      cases o with
      | buf a =>
        obtain ⟨x, h2, h3, h4⟩ := ho
        simp only [St.addS, upd] at h2
        split at h2
        · rename_i e; subst e; cases h2; exact Or.inl ⟨rfl, by cases h3; rfl, h4.symm⟩
        · exact Or.inr ⟨x, h2, h3, h4⟩
      | node a => exact Or.inr ho
      | val a => exact Or.inr ho
    refine h.grow hE hP hfuel hA (hb A) rfl rfl rfl (o0 := .buf st.nb) (k := 24) (n0 := n) (Nat.le_refl _)
      (Nat.lt_irrefl _) hL fun o B m ho => ?_
    rcases hL o B m ho with ⟨rfl, -, -⟩ | ho
    · exact Nat.lt_succ_self _
    · have := h.old o B m ho
      cases o with
      | buf a => exact Nat.lt_succ_of_lt this
      | _ => exact this
  | @setNode a y y' hy ho =>
    refine ⟨r, os, place, h.same rfl rfl rfl ?_ (fun o ho => by cases o <;> exact ho), fun _ _ => rfl⟩
    intro o B m hl
    cases o with
    | node c =>
      obtain ⟨h1, x, h2, h3⟩ := hl
      rw [setN_nodes] at h2
      split at h2
      · rename_i e; subst e; cases h2; exact ⟨h1, y, hy, ho ▸ h3⟩
      · exact ⟨h1, x, h2, h3⟩
    | _ => exact hl
  | @setVal a y y' hy ho =>
    refine ⟨r, os, place, h.same rfl rfl rfl ?_ (fun o ho => by cases o <;> exact ho), fun _ _ => rfl⟩
    intro o B m hl
    cases o with
    | val c =>
      obtain ⟨h1, x, h2, h3⟩ := hl
      simp only [St.setV, upd] at h2
      split at h2
      · rename_i e; subst e; cases h2; exact ⟨h1, y, hy, ho ▸ h3⟩
      · exact ⟨h1, x, h2, h3⟩
    | _ => exact hl
  | @setBuf a y d _ hy hd =>
    refine ⟨r, os, place, h.same rfl rfl rfl ?_ (fun o ho => by cases o <;> exact ho), fun _ _ => rfl⟩
    intro o B m hl
    cases o with
    | buf c =>
      obtain ⟨x, h2, h3⟩ := hl
      simp only [upd] at h2
      split at h2
      · rename_i e; subst e; cases h2; exact ⟨y, hy, h3⟩
      · exact ⟨x, h2, h3⟩
    | _ => exact hl
  | cache =>
    exact ⟨r, os, place, h.same rfl rfl rfl (fun o _ _ ho => by cases o <;> exact ho) (fun o ho => by cases o <;> exact ho), fun _ _ => rfl⟩
  | new =>
    obtain ⟨r', os', h'⟩ := h.new hE hP hfuel
    exact ⟨r', os', place, h', fun _ _ => rfl⟩
  | release _ hR =>
    obtain ⟨r', os', h'⟩ := h.release hE hP hfuel hR
    exact ⟨r', os', place, h', fun _ _ => rfl⟩
  | caller =>
    refine ⟨r, os, place, h.same rfl rfl rfl ?_ ?_, fun _ _ => rfl⟩
    · intro o B m hl
      cases o with
      | buf c =>
        obtain ⟨x, h2, h3, h4⟩ := hl
        simp only [St.addC, upd] at h2
        split at h2
        · cases h2; cases h3
        · exact ⟨x, h2, h3, h4⟩
      | _ => exact hl
    · intro o ho
      cases o with
      | buf c => exact Nat.lt_succ_of_lt ho
      | _ => exact ho
  | @free b _ _ _ =>
    refine ⟨r, os, place, h.same rfl rfl rfl ?_ (fun o ho => by cases o <;> exact ho), fun _ _ => rfl⟩
    intro o B m hl
    cases o with
    | buf c =>
      obtain ⟨x, h2, h3, h4⟩ := hl
      simp only [St.clobber, upd] at h2
      split at h2
      · cases h2
      · exact ⟨x, h2, h3, h4⟩
    | _ => exact hl

/-- Addresses stay given out, and what was asked for stays on the record. -/
theorem hop_old (hs : Hop Q K 0 st st') : (∀ o, Obj.Old st o → Obj.Old st' o) ∧ ∀ A, asked A st.log ≤ asked A st'.log := by
  have le : ∀ A B n l, asked A l ≤ asked A (.alloc B n :: l) := fun A B n l => by simp only [asked]; split <;> omega
  cases hs with
  | request => exact ⟨fun o ho => by cases o <;> exact ho, fun A => le ..⟩
  | node => exact ⟨fun o ho => by cases o with | node => exact Nat.lt_succ_of_lt ho | _ => exact ho, fun A => le ..⟩
  | val => exact ⟨fun o ho => by cases o with | val => exact Nat.lt_succ_of_lt ho | _ => exact ho, fun A => le ..⟩
  | buf => exact ⟨fun o ho => by cases o with | buf => exact Nat.lt_succ_of_lt ho | _ => exact ho, fun A => le ..⟩
  | str => exact ⟨fun o ho => by cases o with | buf => exact Nat.lt_succ_of_lt ho | _ => exact ho, fun A => le ..⟩
  | caller => exact ⟨fun o ho => by cases o with | buf => exact Nat.lt_succ_of_lt ho | _ => exact ho, fun A => Nat.le_refl _⟩
  | _ => exact ⟨fun o ho => by cases o <;> exact ho, fun A => Nat.le_refl _⟩

theorem hops_old (hs : Hops Q K 0 st st') : (∀ o, Obj.Old st o → Obj.Old st' o) ∧ ∀ A, asked A st.log ≤ asked A st'.log := by
  induction hs with
  | refl => exact ⟨fun _ h => h, fun _ => Nat.le_refl _⟩
  | tail _ h2 ih =>
    exact ⟨fun o h => (hop_old h2).1 o (ih.1 o h), fun A => Nat.le_trans (ih.2 A) ((hop_old h2).2 A)⟩

theorem Fits.hops (hE : Sound E) (hP : Plenty E) (hfuel : 33 ≤ fuel) (h : Fits E fuel st r os place) (hs : Hops Q K 0 st st')
    (hb : ∀ A, Room (asked A st'.log)) :
    ∃ r' os' place', Fits E fuel st' r' os' place' ∧ ∀ o, o.Old st → place' o = place o := by
  induction hs with
  | refl => exact ⟨r, os, place, h, fun _ _ => rfl⟩
  | tail h1 h2 ih =>
    obtain ⟨r1, os1, pl1, f1, g1⟩ := ih fun A => (hb A).mono ((hop_old h2).2 A)
    obtain ⟨r2, os2, pl2, f2, g2⟩ := f1.hop hE hP hfuel h2 hb
    exact ⟨r2, os2, pl2, f2, fun o ho => (g2 o ((hops_old h1).1 o ho)).trans (g1 o ho)⟩

theorem Fits.init (E : Env) (fuel : Nat) (slack : Nat → Nat) : Fits E fuel (St.init slack cfg) Arena.init [] (fun _ => (0, 0)) := by
  have hL : ∀ o A n, ¬ Obj.Live (St.init slack cfg) A n o := by
    intro o A n h
    cases o with
    | node a => obtain ⟨_, x, h, _⟩ := h; cases h
    | val a => obtain ⟨_, x, h, _⟩ := h; cases h
    | buf a => obtain ⟨x, h, _⟩ := h; cases h
  refine ⟨rfl, WInv.init, rfl, List.nodup_nil, fun A => ?_, rfl, fun i A x h => ?_, ⟨?_, ?_, ?_⟩, ?_, ?_⟩
  · simp [Arena.init, St.init]
  · simp [Arena.init] at h
  · exact fun o A n h => absurd h (hL o A n)
  · exact fun o A n h => absurd h (hL o A n)
  · exact fun o A n _ _ _ h => absurd h (hL o A n)
  · exact fun o A n h => absurd h (hL o A n)
  · exact fun A _ => ⟨rfl, rfl⟩

/-- What an allocator handed out lies in memory from `malloc` that was not freed. -/
theorem Fits.chunk (h : Fits E fuel st r os place) {A : Nat} {b : Block} (hb : r.Gave A b) : ∃ c ∈ r.w.m.live, Within b c := by
  obtain ⟨i, x, _, h2, h3⟩ := hb
  obtain ⟨o, ho, _, c, hc, hw⟩ := h.inv.block_live ⟨x, List.mem_of_getElem? h2, h3⟩
  exact ⟨c, h.inv.mem_live ho hc, hw⟩

end

/-- C48: a client `p` makes any calls whatsoever, and then a client `q` makes more. When the
allocator calls that these made are played on the chunk allocator, with any `malloc` that
works, they succeed; every live node, handle and byte block has a place of its size inside a
block that the chunk allocator of the object handed out; that block lies in memory from
`malloc` that was not freed; different live objects have disjoint places; and an object that
lives on stays where it is. The calls may be careless (stale handles, cycles): the claim is
about every run that does not stop with undefined behaviour.

Partial: only while every allocator has room for all that is asked of it, which is 2 GiB with
the default settings (beyond that
`C37_false` shows overlapping blocks). -/
theorem C48_own_memory_partial [Sensible] {D : Type} {fp : FP D} {F : Nat} {E : Env} (hE : Sound E) (hP : Plenty E) {fuel : Nat}
    (hfuel : 33 ≤ fuel) {slack : Nat → Nat} {p q : Prog D} {rs rs' : List (Ans D)} {st st' : St}
    (hp : p.run fp F (St.init slack cfg) = .ok (rs, st)) (hq : q.run fp F st = .ok (rs', st'))
    (hb : ∀ A, Room (asked A st'.log)) :
    ∃ r r' place place', replay E fuel st.log = .ok r ∧ replay E fuel st'.log = .ok r' ∧
      Laid st r place ∧ Laid st' r' place' ∧
      (∀ A b, r'.Gave A b → ∃ c ∈ r'.w.m.live, Within b c) ∧
      ∀ o A n, Obj.Live st A n o → place' o = place o := by
  have h1 := Prog.traces fp F p p.hands_all _ _ _ (Nat.zero_le _) hp
  have h2 := Prog.traces fp F q q.hands_all _ _ _ (Nat.zero_le _) hq
  obtain ⟨r, os, pl, f1, _⟩ := (Fits.init E fuel slack).hops hE hP hfuel h1 fun A => (hb A).mono ((hops_old h2).2 A)
  obtain ⟨r', os', pl', f2, g2⟩ := f1.hops hE hP hfuel h2 hb
  exact ⟨r, r', pl, pl', f1.re, f2.re, f1.laid, f2.laid, fun A b => f2.chunk, fun o A n ho => g2 o (f1.old o A n ho)⟩

end

/-- The recorded calls of a client. -/
def logOf {D : Type} (r : Res (List (Ans D) × St)) : Option (List Ev) :=
  match r with
  | .ok (_, st) => some st.log
  | _ => none

/-- A run that meets the hypotheses: a document with three nodes, and a second
allocator that is released again. -/
example : logOf ((Prog.seq [.newAlloc, .newValue 0, .parse .parse 0 b!"[1,2]", .newAlloc, .newValue 1, .release 1]).run
    (⟨fun _ => [], fun _ => ()⟩ : FP Unit) 99 (St.init fun _ => 0)) =
    some [.release 1, .alloc 1 16, .new 1, .alloc 0 72, .alloc 0 72, .alloc 0 72, .alloc 0 6, .alloc 0 16, .new 0] := by decide +kernel

attribute [local instance] Knobs.default in
/-- The blocks handed out in that run: 16 bytes for the handle, 6 for the text, 72 for each node. -/
example : (match replay bump 40 [.release 1, .alloc 1 16, .new 1, .alloc 0 72, .alloc 0 72, .alloc 0 72, .alloc 0 6, .alloc 0 16, .new 0] with
    | .ok r => some (r.ids, r.w.hs.map Hand.blocks)
    | _ => none) = some ([0], [[(222, 72), (150, 72), (78, 72), (72, 6), (56, 16)]]) := by decide +kernel

end ZJ.Alloc
