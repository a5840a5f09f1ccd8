import Verif.AllocLemmas

/-
C37-C40: the allocator, for programs that create and release any number of
allocators (from C and from C++), request memory, write into what they got, and
use `malloc` and `free` themselves in between.
-/

namespace ZJ.Alloc

set_option linter.unusedSimpArgs false
set_option linter.unusedVariables false
set_option linter.unusedSectionVars false

/-- What a program holds of one allocator: its address, how it was made, and the
blocks it was given, with the sizes it asked for (latest first). -/
structure Hand where
  a : Nat
  cpp : Bool
  blocks : List Block

/-- Bytes asked for. -/
def Hand.asked (h : Hand) : Nat := (h.blocks.map (·.2)).sum

structure World where
  m : Mem
  hs : List Hand
  /-- blocks the program got from `malloc` itself -/
  user : List Block

def World.init : World := ⟨Mem.init, [], []⟩

/-- Steps of a program. -/
inductive Op where
  /-- `zj_NewAllocator()` -/
  | new
  /-- C++ `new zj_Allocator` -/
  | newCpp
  /-- `zj_allocatorAlloc` on the `i`-th allocator -/
  | alloc (i size : Nat)
  /-- `zj_ReleaseAllocator`, or C++ `delete` -/
  | release (i : Nat)
  /-- `malloc(n)` by the program -/
  | malloc (n : Nat)
  /-- `free` of the `i`-th block of the program -/
  | free (i : Nat)
  /-- the program stores `s` at offset `off` of the `j`-th block of allocator `i` -/
  | write (i j off : Nat) (s : Bytes)

/-- `zj_ReleaseAllocator(a)`, or C++ `delete a`: the destructor, then the object's own
memory. -/
def dispose (fuel : Nat) (m : Mem) (cpp : Bool) (a : Nat) : Res Mem :=
  match cpp with
  | false => Alloc.release fuel m a
  | true => do
    let m ← destruct fuel m a
    zjFree m a

section
variable [Knobs]

/-- Effect of a step. Steps that name an allocator or a block that does not exist
do nothing. -/
def step (E : Env) (fuel : Nat) (w : World) : Op → Res World
  | .new => do
    let (p, m) ← newAllocator E w.m
    pure { w with m := m, hs := ⟨p, false, []⟩ :: w.hs }
  | .newCpp =>
    let (self, m) := zjNew E w.m 16
    if self = 0 then .ok { w with m := m }
    else do
      let m ← construct E m self
      pure { w with m := m, hs := ⟨self, true, []⟩ :: w.hs }
  | .alloc i size =>
    match w.hs[i]? with
    | none => .ok w
    | some h => do
      let (p, m) ← alloc E fuel w.m h.a size
      pure { w with m := m, hs := w.hs.set i { h with blocks := (p, size) :: h.blocks } }
  | .release i =>
    match w.hs[i]? with
    | none => .ok w
    | some h => do
      let m ← dispose fuel w.m h.cpp h.a
      pure { w with m := m, hs := w.hs.eraseIdx i }
  | .malloc n =>
    if n = 0 then .ok w
    else
      let (p, m) := zjNew E w.m n
      if p = 0 then .ok { w with m := m } else .ok { w with m := m, user := (p, n) :: w.user }
  | .free i =>
    match w.user[i]? with
    | none => .ok w
    | some b => do
      let m ← zjFree w.m b.1
      pure { w with m := m, user := w.user.eraseIdx i }
  | .write i j off s =>
    match w.hs[i]? with
    | none => .ok w
    | some h =>
      match h.blocks[j]? with
      | none => .ok w
      | some b => do
        let m ← poke w.m (b.1 + off) s
        pure { w with m := m }

def run (E : Env) (fuel : Nat) (w : World) : List Op → Res World
  | [] => .ok w
  | op :: r => do
    let w ← step E fuel w op
    run E fuel w r

/-- What the program must respect at a step: no more is asked of an allocator than it has
room for (2 GiB with the default settings, `Room.default`), its own `malloc` sizes are 32-bit, writes stay in their block. -/
def Op.fine (w : World) : Op → Prop
  | .alloc i size => ∀ h, w.hs[i]? = some h → Room (h.asked + size)
  | .malloc n => n < 4294967296
  | .write i j off s => ∀ h b, w.hs[i]? = some h → h.blocks[j]? = some b → off + s.length ≤ b.2
  | _ => True

/-- Every step of the program respects these rules. -/
def Fine (E : Env) (fuel : Nat) : World → List Op → Prop
  | _, [] => True
  | w, op :: r => op.fine w ∧ ∀ w', step E fuel w op = .ok w' → Fine E fuel w' r

/-! ### Invariant -/

def Own.hand (o : Own) : Hand := ⟨o.a, o.cpp, o.blocks⟩

structure WInv (w : World) (os : List Own) : Prop where
  hs : w.hs = os.map Own.hand
  sep : Sep w.m.live
  live : w.m.live.Perm (os.flatMap Own.mem ++ w.user)
  good : ∀ o ∈ os, Good w.m o

theorem Good.frame {m m' : Mem} {o : Own} {R : List Block} (h : Good m o) (hO : Only m m' R)
    (hR : ∀ b ∈ o.mem, ∀ r ∈ R, Disj b r) (hl : ∀ b ∈ o.mem, b ∈ m'.live) : Good m' o := by
  refine ⟨h.shape.frame hO ?_, h.lay, hl, h.sep⟩
  intro f hf r hr
  obtain ⟨b, hb, hw⟩ := h.lay.foot_in f hf
  exact (hR b hb r hr).sub hw

/-- Handed-out memory is apart from the structs of its allocator. -/
theorem Good.used_foot {m : Mem} {o : Own} (h : Good m o) {c : Chunk} (hc : c ∈ o.cs) :
    ∀ f ∈ o.foot, Disj f c.used := by
  intro f hf
  have hwu : Within c.used (c.node, 24 + c.cap) := by
    have := h.lay.fill c hc
    simp [Within, Chunk.used, Chunk.data, Chunk.node]; omega
  rcases List.mem_cons.1 hf with rfl | hf
  · exact (h.struct_apart hc).sub_right hwu
  · obtain ⟨d, hd, rfl⟩ := List.mem_map.1 hf
    obtain ⟨l, r, e⟩ := List.append_of_mem hd
    have hc' := hc
    rw [e] at hc'
    rcases List.mem_append.1 hc' with h1 | h1
    · exact ((h.apart e (Or.inl h1)).sub d.hdr_in).sub_right (Chunk.used_in (h.lay.fill c hc))
    · rcases List.mem_cons.1 h1 with rfl | h1
      · exact Chunk.hdr_used
      · exact ((h.apart e (Or.inr h1)).sub d.hdr_in).sub_right (Chunk.used_in (h.lay.fill c hc))

theorem Good.block_in {m : Mem} {o : Own} (h : Good m o) {b : Block} (hb : b ∈ o.blocks) :
    ∃ c ∈ o.mem, Within b c := by
  obtain ⟨c, hc, hw⟩ := h.lay.inside b hb
  exact ⟨c.blk, Own.chunk_mem hc, hw.trans (Chunk.used_in (h.lay.fill c hc))⟩

/-- Blocks are apart from the structs. -/
theorem Good.block_foot {m : Mem} {o : Own} (h : Good m o) {b : Block} (hb : b ∈ o.blocks) :
    ∀ f ∈ o.foot, Disj f b := by
  intro f hf
  obtain ⟨c, hc, hw⟩ := h.lay.inside b hb
  exact (h.used_foot hc f hf).sub_right hw

theorem WInv.pair {w : World} {os : List Own} (h : WInv w os) :
    (os.flatMap Own.mem ++ w.user).Pairwise Disj := (h.sep.perm h.live).pair

/-- Blocks of different allocators are apart. -/
theorem WInv.apart {w : World} {l r : List Own} {o : Own} (h : WInv w (l ++ o :: r)) :
    ∀ o' ∈ l ++ r, ∀ b ∈ o'.mem, ∀ c ∈ o.mem, Disj b c := by
  intro o' ho' b hb c hc
  have hp := (List.pairwise_append.1 h.pair).1
  rw [List.flatMap_append, List.flatMap_cons] at hp
  have h1 := List.pairwise_append.1 hp
  rcases List.mem_append.1 ho' with ho' | ho'
  · exact h1.2.2 b (List.mem_flatMap.2 ⟨o', ho', hb⟩) c (List.mem_append_left _ hc)
  · exact ((List.pairwise_append.1 h1.2.1).2.2 c hc b (List.mem_flatMap.2 ⟨o', ho', hb⟩)).symm

theorem WInv.mem_live {w : World} {os : List Own} (h : WInv w os) {o : Own} (ho : o ∈ os)
    {b : Block} (hb : b ∈ o.mem) : b ∈ w.m.live := (h.good o ho).live b hb

theorem split_get {α β : Type} (f : α → β) {l : List α} {i : Nat} {y : β}
    (h : (l.map f)[i]? = some y) : ∃ a x r, l = a ++ x :: r ∧ a.length = i ∧ f x = y := by
  rw [List.getElem?_map] at h
  cases e : l[i]? with
  | none => rw [e] at h; cases h
  | some x =>
    rw [e] at h
    simp at h
    obtain ⟨hi, he⟩ := List.getElem?_eq_some_iff.1 e
    refine ⟨l.take i, x, l.drop (i + 1), ?_, ?_, h⟩
    · rw [← he, List.getElem_cons_drop, List.take_append_drop]
    · simp; omega

theorem set_mid {α : Type} {a r : List α} {x y : α} {i : Nat} (h : a.length = i) :
    (a ++ x :: r).set i y = a ++ y :: r := by
  subst h
  rw [List.set_append_right _ _ (Nat.le_refl _)]
  simp

theorem erase_mid {α : Type} {a r : List α} {x : α} {i : Nat} (h : a.length = i) :
    (a ++ x :: r).eraseIdx i = a ++ r := by
  subst h
  rw [List.eraseIdx_append_of_length_le (Nat.le_refl _)]
  simp

theorem poke_run {m : Mem} {p : Nat} {s : Bytes} {b : Block} (hb : b ∈ m.live)
    (hw : Within (p, s.length) b) :
    ∃ m', poke m p s = .ok m' ∧ m'.live = m.live ∧ m'.calls = m.calls ∧
      (∀ i, i < s.length → m'.bytes (p + i) = s[i]?) ∧ Only m m' [(p, s.length)] := by
  by_cases hs : s = []
  · subst hs
    exact ⟨m, rfl, rfl, rfl, fun i hi => by simp at hi, Only.refl ..⟩
  · refine ⟨{ m.wipe p s.length with
      bytes := fun q => if p ≤ q ∧ q < p + s.length then s[q - p]? else m.bytes q },
      ?_, rfl, rfl, ?_, ?_⟩
    · unfold poke
      rw [if_neg hs, if_pos (inLive_of hb hw)]
    · intro i hi
      simp only [Nat.le_add_right, true_and, Nat.add_lt_add_left hi, if_true]
      rw [Nat.add_sub_cancel_left]
    · have h := Only.wipe m p s.length
      refine ⟨h.an, h.al, h.ss, ?_⟩
      intro q hq
      have := hq _ (List.mem_singleton.2 rfl)
      unfold Disj at this
      simp only at this
      simp only [if_neg (show ¬ (p ≤ q ∧ q < p + s.length) by omega)]

/-- The memory an operation may touch, seen from the program: the handed-out blocks
of an allocator it releases, the bytes it writes. -/
def Op.touches (w : World) : Op → Block → Prop
  | .release i, b => ∃ h, w.hs[i]? = some h ∧ b ∈ h.blocks
  | .write i j off s, b => ∃ h c, w.hs[i]? = some h ∧ h.blocks[j]? = some c ∧
      ¬ Disj (c.1 + off, s.length) b
  | _, _ => False

/-- The bytes in `b` are the same in both memories. -/
def SameBytes (m m' : Mem) (b : Block) : Prop :=
  ∀ q, b.1 ≤ q → q < b.1 + b.2 → m'.bytes q = m.bytes q

theorem Only.same {m m' : Mem} {R : List Block} (h : Only m m' R) {b : Block}
    (hd : ∀ r ∈ R, Disj r b) : SameBytes m m' b := by
  intro q h1 h2
  refine h.bytes q fun r hr => ?_
  refine (hd r hr).symm.sub ?_
  simp [Within]; omega

theorem WInv.block_live {w : World} {os : List Own} (h : WInv w os) {b : Block}
    (hb : ∃ x ∈ w.hs, b ∈ x.blocks) : ∃ o ∈ os, b ∈ o.blocks ∧ ∃ c ∈ o.mem, Within b c := by
  obtain ⟨x, hx, hb⟩ := hb
  rw [h.hs] at hx
  obtain ⟨o, ho, rfl⟩ := List.mem_map.1 hx
  exact ⟨o, ho, hb, (h.good o ho).block_in hb⟩

theorem step_inv [Sensible] {E : Env} (hE : Sound E) (hP : Plenty E) {fuel : Nat} (hfuel : 33 ≤ fuel)
    {w : World} {os : List Own} (h : WInv w os) {op : Op} (hop : op.fine w) :
    ∃ w' os', step E fuel w op = .ok w' ∧ WInv w' os' ∧
      ∀ b, (∃ x ∈ w.hs, b ∈ x.blocks) → ¬ op.touches w b → SameBytes w.m w'.m b := by
  -- a change confined to a block apart from all live ones
  have fresh : ∀ {m' : Mem} {R : List Block}, Only w.m m' R →
      (∀ r ∈ R, ∀ b ∈ w.m.live, Disj r b) → (∀ b ∈ w.m.live, b ∈ m'.live) →
      (∀ o ∈ os, Good m' o) ∧ ∀ b, (∃ x ∈ w.hs, b ∈ x.blocks) → SameBytes w.m m' b := by
    intro m' R hO hR hl
    refine ⟨fun o ho => ?_, fun b hb => ?_⟩
    · exact (h.good o ho).frame hO (fun b hb r hr => (hR r hr b (h.mem_live ho hb)).symm)
        fun b hb => hl b (h.mem_live ho hb)
    · obtain ⟨o, ho, _, c, hc, hw⟩ := h.block_live hb
      exact hO.same fun r hr => (hR r hr c (h.mem_live ho hc)).sub_right hw
  cases op with
  | new =>
    obtain ⟨p, hp⟩ := Option.isSome_iff_exists.1 (hP w.m.calls w.m.live (40 + chunk))
    obtain ⟨m', e1, e2, e3, e4, e5, e6⟩ := newAllocator_run hE h.sep hp
    obtain ⟨f1, f2⟩ := fresh e6 (fun r hr => by rw [List.mem_singleton.1 hr]; exact e4)
      (fun b hb => by rw [e2]; exact List.mem_cons_of_mem _ hb)
    refine ⟨⟨m', ⟨p, false, []⟩ :: w.hs, w.user⟩, Own.fresh p :: os, ?_, ⟨?_, e3, ?_, ?_⟩,
      fun b hb _ => f2 b hb⟩
    · simp only [step]; rw [e1]; rfl
    · simp [h.hs, Own.hand, Own.fresh]
    · show m'.live.Perm _
      rw [e2]
      have : (Own.fresh p).mem = [(p, 40 + chunk)] := rfl
      rw [List.flatMap_cons, this]
      exact h.live.cons _
    · intro o ho
      rcases List.mem_cons.1 ho with rfl | ho
      · exact e5
      · exact f1 o ho
  | newCpp =>
    obtain ⟨self, hself⟩ := Option.isSome_iff_exists.1 (hP w.m.calls w.m.live 16)
    obtain ⟨m1, a1, a2, a3, a4, a5, a6⟩ := zjNew_run hE (n := 16) (by omega) (by omega) h.sep hself
    obtain ⟨p, hp⟩ := Option.isSome_iff_exists.1 (hP m1.calls m1.live (24 + chunk))
    obtain ⟨m', e1, e2, e3, e4, e5, e6⟩ := construct_run hE a3
      (by rw [a2]; exact List.mem_cons_self ..) hp
    have hO : Only w.m m' [(self, 16), (p, 24 + chunk)] := by
      refine (a6.mono ?_).trans (e6.mono ?_)
      · intro r hr; rw [List.mem_singleton.1 hr]
        exact ⟨_, List.mem_cons_self .., by simp [Within]⟩
      · intro r hr
        exact ⟨r, by simp at hr ⊢; exact hr.symm, by simp [Within]⟩
    obtain ⟨f1, f2⟩ := fresh hO
      (fun r hr b hb => by
        simp at hr
        rcases hr with rfl | rfl
        · exact a5 b hb
        · exact e4 b (by rw [a2]; exact List.mem_cons_of_mem _ hb))
      (fun b hb => by rw [e2, a2]; exact List.mem_cons_of_mem _ (List.mem_cons_of_mem _ hb))
    refine ⟨⟨m', ⟨self, true, []⟩ :: w.hs, w.user⟩, Own.freshCpp self p :: os, ?_,
      ⟨?_, e3, ?_, ?_⟩, fun b hb _ => f2 b hb⟩
    · simp only [step]; rw [a1]; simp only [if_neg a4]; rw [e1]; rfl
    · simp [h.hs, Own.hand, Own.freshCpp]
    · show m'.live.Perm _
      rw [e2, a2]
      have : (Own.freshCpp self p).mem = [(self, 16), (p, 24 + chunk)] := rfl
      rw [List.flatMap_cons, this]
      exact (List.Perm.swap ..).trans ((h.live.cons _).cons _)
    · intro o ho
      rcases List.mem_cons.1 ho with rfl | ho
      · exact e5
      · exact f1 o ho
  | alloc i size =>
    cases hi : w.hs[i]? with
    | none => exact ⟨w, os, by simp only [step, hi], h, fun b _ _ q _ _ => rfl⟩
    | some x =>
      have hx := hi
      rw [h.hs] at hx
      obtain ⟨l, o, r, rfl, hlen, rfl⟩ := split_get _ hx
      have hom : o ∈ l ++ o :: r := by simp
      have hG := h.good o hom
      obtain ⟨p, m', o', new, e1, e2, e3, e4, e5, e6, e7, e8, e9, e10⟩ :=
        alloc_run hE hP hG h.sep (show 33 ≤ fuel by omega) (hG.lay.serves (hop _ hi))
      have hsub : ∀ b ∈ w.m.live, b ∈ m'.live := fun b hb => by
        rw [e7]; exact List.mem_append_right _ hb
      refine ⟨⟨m', w.hs.set i ⟨o.a, o.cpp, (p, size) :: o.blocks⟩, w.user⟩, l ++ o' :: r, ?_,
        ⟨?_, e6, ?_, ?_⟩, ?_⟩
      · simp only [step, hi]
        simp only [Own.hand]
        rw [e1]; rfl
      · show w.hs.set i _ = _
        rw [h.hs, List.map_append, List.map_cons, set_mid (by simpa using hlen)]
        simp [Own.hand, e2, e3, e4]
      · show m'.live.Perm _
        rw [e7]
        refine (h.live.append_left new).trans ?_
        simp only [List.flatMap_append, List.flatMap_cons, e8, List.append_assoc]
        refine (List.perm_append_comm_assoc ..).trans ?_
        refine List.Perm.append_left _ ?_
        exact List.perm_append_comm_assoc ..
      · intro o2 ho2
        have hcase : o2 = o' ∨ o2 ∈ l ++ r := by
          simp at ho2 ⊢
          rcases ho2 with h | h | h
          · exact Or.inr (Or.inl h)
          · exact Or.inl h
          · exact Or.inr (Or.inr h)
        rcases hcase with rfl | ho2
        · exact e5
        · have ho2m : o2 ∈ l ++ o :: r := by
            simp at ho2 ⊢
            rcases ho2 with h | h
            · exact Or.inl h
            · exact Or.inr (Or.inr h)
          refine (h.good o2 ho2m).frame e10 ?_ fun b hb => hsub b (h.mem_live ho2m hb)
          intro b hb x hx
          rcases List.mem_append.1 hx with hx | hx
          · exact (e9 x hx b (h.mem_live ho2m hb)).symm
          · obtain ⟨c, hc, hw⟩ := hG.lay.foot_in x hx
            exact (h.apart o2 ho2 b hb c hc).sub_right hw
      · intro b hb _
        obtain ⟨o2, ho2, hbo, c, hc, hw⟩ := h.block_live hb
        refine e10.same fun x hx => ?_
        rcases List.mem_append.1 hx with hx | hx
        · exact (e9 x hx c (h.mem_live ho2 hc)).sub_right hw
        · have hcase : o2 = o ∨ o2 ∈ l ++ r := by
            simp at ho2 ⊢
            rcases ho2 with h | h | h
            · exact Or.inr (Or.inl h)
            · exact Or.inl h
            · exact Or.inr (Or.inr h)
          rcases hcase with rfl | ho2'
          · exact hG.block_foot hbo x hx
          · obtain ⟨d, hd, hwd⟩ := hG.lay.foot_in x hx
            exact (((h.apart o2 ho2' c hc d hd).sub hw).sub_right hwd).symm
  | release i =>
    cases hi : w.hs[i]? with
    | none => exact ⟨w, os, by simp only [step, hi], h, fun b _ _ q _ _ => rfl⟩
    | some x =>
      have hx := hi
      rw [h.hs] at hx
      obtain ⟨l, o, r, rfl, hlen, rfl⟩ := split_get _ hx
      have hG := h.good o (by simp)
      have hl : w.m.live.Perm (o.mem ++ ((l ++ r).flatMap Own.mem ++ w.user)) := by
        refine h.live.trans ?_
        simp only [List.flatMap_append, List.flatMap_cons, List.append_assoc]
        exact List.perm_append_comm_assoc ..
      have key : ∃ m', dispose fuel w.m o.cpp o.a = .ok m' ∧ m'.live.Perm ((l ++ r).flatMap Own.mem ++ w.user) ∧
          Sep m'.live ∧ Only w.m m' o.mem := by
        cases hc : o.cpp with
        | false =>
          obtain ⟨m', e1, e2, e3, e4⟩ := release_run hG h.sep (show 33 ≤ fuel by omega) hc hl
          exact ⟨m', e1, e2, e3, e4⟩
        | true =>
          obtain ⟨m1, e1, e2, e3, e4⟩ := destruct_run hG h.sep hfuel hc hl
          obtain ⟨m2, f1, f2, f3, f4⟩ := zjFree_run e3 e2
          refine ⟨m2, ?_, f2, f3, e4.trans (f4.mono ?_)⟩
          · simp only [dispose]; rw [e1]; exact f1
          · intro r hr; rw [List.mem_singleton.1 hr]
            exact ⟨(o.a, 16), by simp [Own.mem, hc], by simp [Within]⟩
      obtain ⟨m', e1, e2, e3, e4⟩ := key
      have hin : ∀ o2 ∈ l ++ r, o2 ∈ l ++ o :: r := by
        intro o2 ho2
        simp at ho2 ⊢
        rcases ho2 with h | h
        · exact Or.inl h
        · exact Or.inr (Or.inr h)
      refine ⟨⟨m', w.hs.eraseIdx i, w.user⟩, l ++ r, ?_, ⟨?_, e3, e2, ?_⟩, ?_⟩
      · simp only [step, hi]
        simp only [Own.hand]
        rw [e1]; rfl
      · show w.hs.eraseIdx i = _
        rw [h.hs, List.map_append, List.map_cons, erase_mid (by simpa using hlen), List.map_append]
      · intro o2 ho2
        refine (h.good o2 (hin o2 ho2)).frame e4 (h.apart o2 ho2) ?_
        intro b hb
        exact e2.mem_iff.2 (List.mem_append_left _ (List.mem_flatMap.2 ⟨o2, ho2, hb⟩))
      · intro b hb hnt
        obtain ⟨o2, ho2, hbo, c, hc, hw⟩ := h.block_live hb
        have ho2' : o2 ∈ l ++ r := by
          simp at ho2 ⊢
          rcases ho2 with h | rfl | h
          · exact Or.inl h
          · exact absurd ⟨_, hi, hbo⟩ hnt
          · exact Or.inr h
        exact e4.same fun x hx => ((h.apart o2 ho2' c hc x hx).sub hw).symm
  | malloc n =>
    by_cases hn : n = 0
    · exact ⟨w, os, by simp only [step, if_pos hn], h, fun b _ _ q _ _ => rfl⟩
    · obtain ⟨p, hp⟩ := Option.isSome_iff_exists.1 (hP w.m.calls w.m.live n)
      obtain ⟨m', a1, a2, a3, a4, a5, a6⟩ := zjNew_run hE (n := n) hop (by omega) h.sep hp
      obtain ⟨f1, f2⟩ := fresh a6 (fun r hr => by rw [List.mem_singleton.1 hr]; exact a5)
        (fun b hb => by rw [a2]; exact List.mem_cons_of_mem _ hb)
      refine ⟨⟨m', w.hs, (p, n) :: w.user⟩, os, ?_, ⟨h.hs, a3, ?_, f1⟩, fun b hb _ => f2 b hb⟩
      · simp only [step, if_neg hn]; rw [a1]; simp only [if_neg a4]
      · show m'.live.Perm _
        rw [a2]
        exact (h.live.cons _).trans List.perm_middle.symm
  | free i =>
    cases hi : w.user[i]? with
    | none => exact ⟨w, os, by simp only [step, hi], h, fun b _ _ q _ _ => rfl⟩
    | some b =>
      obtain ⟨l, b', r, hu, hlen, e⟩ := split_get id (l := w.user) (by simpa using hi)
      simp at e; subst e
      have hl : w.m.live.Perm (b' :: (os.flatMap Own.mem ++ (l ++ r))) := by
        refine h.live.trans ?_
        rw [hu, ← List.append_assoc, ← List.append_assoc]
        exact List.perm_middle
      obtain ⟨m', e1, e2, e3, e4⟩ := zjFree_run h.sep hl
      have hd := (h.sep.perm hl).pair
      rw [List.pairwise_cons] at hd
      refine ⟨⟨m', w.hs, w.user.eraseIdx i⟩, os, ?_, ⟨h.hs, e3, ?_, ?_⟩, ?_⟩
      · simp only [step, hi]; rw [e1]; rfl
      · show m'.live.Perm (_ ++ w.user.eraseIdx i)
        rw [hu, erase_mid hlen]
        exact e2
      · intro o ho
        refine (h.good o ho).frame e4 ?_ ?_
        · intro c hc x hx
          rw [List.mem_singleton.1 hx]
          exact (hd.1 c (List.mem_append_left _ (List.mem_flatMap.2 ⟨o, ho, hc⟩))).symm
        · intro c hc
          exact e2.mem_iff.2 (List.mem_append_left _ (List.mem_flatMap.2 ⟨o, ho, hc⟩))
      · intro c hc _
        obtain ⟨o, ho, _, d, hdm, hw⟩ := h.block_live hc
        refine e4.same fun x hx => ?_
        rw [List.mem_singleton.1 hx]
        exact (hd.1 d (List.mem_append_left _ (List.mem_flatMap.2 ⟨o, ho, hdm⟩))).sub_right hw
  | write i j off s =>
    cases hi : w.hs[i]? with
    | none => exact ⟨w, os, by simp only [step, hi], h, fun b _ _ q _ _ => rfl⟩
    | some x =>
      cases hj : x.blocks[j]? with
      | none => exact ⟨w, os, by simp only [step, hi, hj], h, fun b _ _ q _ _ => rfl⟩
      | some b =>
        have hlen := hop x b hi hj
        have hx := hi
        rw [h.hs] at hx
        obtain ⟨l, o, r, rfl, hll, rfl⟩ := split_get _ hx
        have hom : o ∈ l ++ o :: r := by simp
        have hG := h.good o hom
        have hbm : b ∈ o.blocks := List.mem_of_getElem? hj
        obtain ⟨c, hc, hw⟩ := hG.block_in hbm
        have hwb : Within (b.1 + off, s.length) b := by simp [Within]; omega
        obtain ⟨m', e1, e2, e3, e4, e5⟩ := poke_run (s := s) (h.mem_live hom hc) (hwb.trans hw)
        refine ⟨⟨m', w.hs, w.user⟩, l ++ o :: r, ?_, ⟨h.hs, by rw [e2]; exact h.sep, by rw [e2]; exact h.live, ?_⟩, ?_⟩
        · simp only [step, hi, hj]; rw [e1]; rfl
        · intro o2 ho2
          have hcase : o2 = o ∨ o2 ∈ l ++ r := by
            simp at ho2 ⊢
            rcases ho2 with h | h | h
            · exact Or.inr (Or.inl h)
            · exact Or.inl h
            · exact Or.inr (Or.inr h)
          have hG2 := h.good o2 ho2
          rcases hcase with rfl | ho2'
          · refine ⟨hG2.shape.frame e5 ?_, hG2.lay, by rw [e2]; exact hG2.live, hG2.sep⟩
            intro f hf x hx
            rw [List.mem_singleton.1 hx]
            exact (hG2.block_foot hbm f hf).sub_right hwb
          · refine hG2.frame e5 ?_ (by rw [e2]; exact hG2.live)
            intro d hd x hx
            rw [List.mem_singleton.1 hx]
            exact (h.apart o2 ho2' d hd c hc).sub_right (hwb.trans hw)
        · intro d hd hnt
          refine e5.same fun x hx => ?_
          rw [List.mem_singleton.1 hx]
          apply Classical.byContradiction
          intro hn
          exact hnt ⟨_, b, hi, hj, hn⟩

theorem run_inv [Sensible] {E : Env} (hE : Sound E) (hP : Plenty E) {fuel : Nat} (hfuel : 33 ≤ fuel) :
    ∀ (ops : List Op) {w : World} {os : List Own}, WInv w os → Fine E fuel w ops →
      ∃ w' os', run E fuel w ops = .ok w' ∧ WInv w' os'
  | [], w, os, h, _ => ⟨w, os, rfl, h⟩
  | op :: r, w, os, h, hf => by
    obtain ⟨w1, os1, e1, h1, _⟩ := step_inv hE hP hfuel h hf.1
    obtain ⟨w2, os2, e2, h2⟩ := run_inv hE hP hfuel r h1 (hf.2 w1 e1)
    exact ⟨w2, os2, by simp only [run]; rw [e1]; exact e2, h2⟩

theorem WInv.init : WInv World.init [] :=
  ⟨rfl, ⟨List.Pairwise.nil, fun b hb => by simp [World.init, Mem.init] at hb,
    fun b hb => by simp [World.init, Mem.init] at hb⟩, by simp [World.init, Mem.init], by simp⟩

theorem reach_inv [Sensible] {E : Env} (hE : Sound E) (hP : Plenty E) {fuel : Nat} (hfuel : 33 ≤ fuel)
    {ops : List Op} (hf : Fine E fuel World.init ops) :
    ∃ w os, run E fuel World.init ops = .ok w ∧ WInv w os :=
  run_inv hE hP hfuel ops WInv.init hf

end

/-- A `malloc` for the examples: the first multiple of 16 behind everything. -/
def bump : Env := fun _ live _ => some ((live.foldr (fun b m => max (b.1 + b.2) m) 0 / 16 + 1) * 16)

theorem bump_sound : Sound bump := by
  intro k live n p h
  simp only [bump, Option.some.injEq] at h
  have key : ∀ b ∈ live, b.1 + b.2 ≤ live.foldr (fun b m => max (b.1 + b.2) m) 0 := by
    clear h
    induction live with
    | nil => intro b hb; cases hb
    | cons x r ih =>
      intro b hb
      rcases List.mem_cons.1 hb with rfl | hb
      · exact Nat.le_max_left ..
      · exact Nat.le_trans (ih b hb) (Nat.le_max_right ..)
  refine ⟨by omega, by omega, ?_⟩
  intro b hb
  have := key b hb
  right
  simp only
  omega

theorem bump_plenty : Plenty bump := fun _ _ _ => rfl

section
attribute [local instance] Knobs.default Knobs.default_sensible

/-- A program for the examples: two allocators, one from C++; requests that need a
new chunk, a write, a block of the program's own; both released at the end. -/
def demo : List Op :=
  [.new, .alloc 0 24, .alloc 0 5000, .malloc 100, .newCpp, .alloc 0 72, .alloc 1 9,
   .write 1 0 2 [1, 2, 3], .free 0, .release 0, .alloc 0 100000]

/-- Boolean form of `Fine`, for the examples. -/
def fineB (E : Env) (fuel : Nat) : World → List Op → Bool
  | _, [] => true
  | w, op :: r =>
    (match op with
      | .alloc i size => match w.hs[i]? with
        | some h => decide (h.asked + size ≤ 2147483648)
        | none => true
      | .malloc n => decide (n < 4294967296)
      | .write i j off s => match w.hs[i]? with
        | some h => match h.blocks[j]? with
          | some b => decide (off + s.length ≤ b.2)
          | none => true
        | none => true
      | _ => true) &&
    (match step E fuel w op with
      | .ok w' => fineB E fuel w' r
      | _ => true)

theorem fineB_fine {E : Env} {fuel : Nat} : ∀ {ops : List Op} {w : World},
    fineB E fuel w ops = true → Fine E fuel w ops
  | [], _, _ => trivial
  | op :: r, w, h => by
    simp only [fineB, Bool.and_eq_true] at h
    refine ⟨?_, ?_⟩
    · have h1 := h.1
      cases op <;> simp only [Op.fine] <;> try trivial
      · intro x hx
        simp only [hx] at h1
        exact Room.default (by simpa using h1)
      · simpa using h1
      · intro x b hx hb
        simp only [hx, hb] at h1
        simpa using h1
    · intro w' hw
      have h2 := h.2
      rw [hw] at h2
      exact fineB_fine h2

example : Fine bump 40 World.init demo := fineB_fine (by decide +kernel)

end

section
variable [Knobs]

/-! ### C37 Allocator blocks never overlap -/

/-- Every program that keeps to the rules runs without undefined behaviour; the blocks
it holds, from whichever allocator, and its own `malloc` blocks are pairwise
disjoint, and every block lies in memory obtained from `malloc`. The 2 GiB limit in
`Fine` is needed, see `C37_false`. `Plenty`: running out of memory is not handled by
the code, see `C45_false`. -/
theorem C37_disjoint_partial [Sensible] {E : Env} (hE : Sound E) (hP : Plenty E) {fuel : Nat}
    (hfuel : 33 ≤ fuel) {ops : List Op} (hf : Fine E fuel World.init ops) :
    ∃ w, run E fuel World.init ops = .ok w ∧
      (w.hs.flatMap Hand.blocks ++ w.user).Pairwise Disj ∧
      ∀ h ∈ w.hs, ∀ b ∈ h.blocks, ∃ c ∈ w.m.live, Within b c := by
  obtain ⟨w, os, e, h⟩ := reach_inv hE hP hfuel hf
  refine ⟨w, e, ?_, ?_⟩
  · have hp := h.pair
    rw [h.hs]
    have hg := h.good
    clear h e
    revert hp hg
    generalize w.user = us
    induction os with
    | nil => intro hp _; simpa using hp
    | cons o r ih =>
      intro hp hg
      rw [List.flatMap_cons, List.append_assoc] at hp
      obtain ⟨h1, h2, h3⟩ := List.pairwise_append.1 hp
      have ho := hg o (List.mem_cons_self ..)
      rw [List.map_cons, List.flatMap_cons, List.append_assoc]
      refine List.pairwise_append.2 ⟨ho.lay.blocks, ih h2 fun x hx => hg x (List.mem_cons_of_mem _ hx), ?_⟩
      intro b hb c hc
      obtain ⟨d, hd, hw⟩ := ho.block_in hb
      rcases List.mem_append.1 hc with hc | hc
      · obtain ⟨x, hx, hcx⟩ := List.mem_flatMap.1 hc
        obtain ⟨o', ho', rfl⟩ := List.mem_map.1 hx
        obtain ⟨d', hd', hw'⟩ := (hg o' (List.mem_cons_of_mem _ ho')).block_in hcx
        exact ((h3 d hd d' (List.mem_append_left _ (List.mem_flatMap.2 ⟨o', ho', hd'⟩))).sub hw).sub_right hw'
      · exact (h3 d hd c (List.mem_append_right _ hc)).sub hw
  · intro x hx b hb
    obtain ⟨o, ho, _, c, hc, hw⟩ := h.block_live ⟨x, hx, hb⟩
    exact ⟨c, h.mem_live ho hc, hw⟩

end

section
attribute [local instance] Knobs.default Knobs.default_sensible

example : ∃ w, run bump 40 World.init demo = .ok w ∧
    (w.hs.flatMap Hand.blocks ++ w.user).Pairwise Disj ∧
    ∀ h ∈ w.hs, ∀ b ∈ h.blocks, ∃ c ∈ w.m.live, Within b c :=
  C37_disjoint_partial bump_sound bump_plenty (by decide) (fineB_fine (by decide +kernel))

example : (match run bump 40 World.init demo with
    | .ok w => some (w.hs.map Hand.blocks, w.user, w.m.live)
    | _ => none) = some ([[(12408, 100000), (9184, 9), (4184, 5000), (56, 24)]], [],
      [(12384, 131096), (4160, 8216), (16, 4136)]) := by decide +kernel

end

section
variable [Knobs]

/-- What a program stored in a block stays there, whatever else is done with this or
another allocator, until the program overwrites it or releases the allocator. -/
theorem C37_contents [Sensible] {E : Env} (hE : Sound E) (hP : Plenty E) {fuel : Nat} (hfuel : 33 ≤ fuel)
    {ops : List Op} {op : Op} {w : World} (hf : Fine E fuel World.init (ops ++ [op]))
    (hr : run E fuel World.init ops = .ok w) :
    ∃ w', step E fuel w op = .ok w' ∧
      ∀ h ∈ w.hs, ∀ b ∈ h.blocks, ¬ op.touches w b → SameBytes w.m w'.m b := by
  have key : ∀ (ops : List Op) {w0 : World} {os : List Own}, WInv w0 os →
      Fine E fuel w0 (ops ++ [op]) → run E fuel w0 ops = .ok w → ∃ os, WInv w os ∧ op.fine w := by
    intro ops
    induction ops with
    | nil =>
      intro w0 os h hf hr
      simp only [run, Res.ok.injEq] at hr
      subst hr
      exact ⟨os, h, hf.1⟩
    | cons x r ih =>
      intro w0 os h hf hr
      obtain ⟨w1, os1, e1, h1, _⟩ := step_inv hE hP hfuel h hf.1
      simp only [run] at hr
      rw [e1] at hr
      exact ih h1 (hf.2 w1 e1) hr
  obtain ⟨os, h, hop⟩ := key ops WInv.init hf hr
  obtain ⟨w', _, e1, _, e3⟩ := step_inv hE hP hfuel h hop
  exact ⟨w', e1, fun x hx b hb => e3 b ⟨x, hx, hb⟩⟩

end

section
attribute [local instance] Knobs.default Knobs.default_sensible

/-- Beyond 32 bits blocks overlap: after 24 bytes, a request of 2^32 - 16 bytes is
"served" and the next block lies on top of the first one. -/
theorem C37_false : ∃ w, run bump 40 World.init
      [.new, .alloc 0 24, .alloc 0 4294967280, .alloc 0 8] = .ok w ∧
    ¬ (w.hs.flatMap Hand.blocks).Pairwise Disj ∧
    (∃ b ∈ w.hs.flatMap Hand.blocks, ∀ c ∈ w.m.live, ¬ Within b c) := by
  have h : (match run bump 40 World.init
      [.new, .alloc 0 24, .alloc 0 4294967280, .alloc 0 8] with
    | .ok w => some (w.hs.flatMap Hand.blocks, w.m.live)
    | _ => none) = some ([(64, 8), (80, 4294967280), (56, 24)], [(16, 4136)]) := by decide +kernel
  cases hr : run bump 40 World.init [.new, .alloc 0 24, .alloc 0 4294967280, .alloc 0 8] with
  | ub u => rw [hr] at h; cases h
  | timeout => rw [hr] at h; cases h
  | ok w =>
    rw [hr] at h
    simp only [Option.some.injEq, Prod.mk.injEq] at h
    refine ⟨w, rfl, ?_, ?_⟩
    · rw [h.1]; simp [Disj]
    · rw [h.1, h.2]
      exact ⟨(80, 4294967280), by simp, by simp [Within]⟩

end

section
variable [Knobs]

/-! ### C38 ReleaseAllocator frees every chunk exactly once -/

/-- Once every allocator is released (by `zj_ReleaseAllocator` or the C++ destructor)
the live `malloc` blocks are exactly those the program itself still holds: nothing
leaked and nothing of the program was freed. A second `free` of a block would be
undefined behaviour and does not happen. -/
theorem C38_balanced [Sensible] {E : Env} (hE : Sound E) (hP : Plenty E) {fuel : Nat} (hfuel : 33 ≤ fuel)
    {ops : List Op} (hf : Fine E fuel World.init ops) :
    ∃ w, run E fuel World.init ops = .ok w ∧ (w.hs = [] → w.m.live.Perm w.user) := by
  obtain ⟨w, os, e, h⟩ := reach_inv hE hP hfuel hf
  refine ⟨w, e, fun h0 => ?_⟩
  have : os = [] := by
    have := h.hs
    rw [h0] at this
    simpa using this.symm
  subst this
  simpa using h.live

end

section
attribute [local instance] Knobs.default Knobs.default_sensible

example : (match run bump 40 World.init (demo ++ [.malloc 5, .release 0]) with
    | .ok w => some (w.hs.map Hand.a, w.user, w.m.live)
    | _ => none) = some ([], [(143488, 5)], [(143488, 5)]) := by decide +kernel

end

section
variable [Knobs]

/-- Releasing an allocator gives back exactly the blocks that were obtained since it
was made, when nothing else happened in between. -/
theorem C38_pair [Sensible] {E : Env} (hE : Sound E) (hP : Plenty E) {fuel : Nat} (hfuel : 33 ≤ fuel)
    {ops : List Op} (hf : Fine E fuel World.init ops) (cpp : Bool) (sizes : List Nat)
    (hs : Room sizes.sum) :
    ∃ w w', run E fuel World.init ops = .ok w ∧
      run E fuel w ((if cpp then .newCpp else .new) :: sizes.map (.alloc 0 ·) ++ [.release 0]) = .ok w' ∧
      w'.m.live.Perm w.m.live ∧ w'.hs = w.hs ∧ w'.user = w.user := by
  obtain ⟨w, os, e, h⟩ := reach_inv hE hP hfuel hf
  refine ⟨w, ?_⟩
  have mid : ∀ (sizes : List Nat) (w1 : World) (o : Own), WInv w1 (o :: os) →
      Room (o.req + sizes.sum) → ∃ w2 o2, run E fuel w1 (sizes.map (.alloc 0 ·)) = .ok w2 ∧
        WInv w2 (o2 :: os) ∧ w2.user = w1.user := by
    intro sizes
    induction sizes with
    | nil => intro w1 o h1 _; exact ⟨w1, o, rfl, h1, rfl⟩
    | cons n r ih =>
      intro w1 o h1 hb
      have hb' : Room (o.req + (n + r.sum)) := by simpa using hb
      have hh : w1.hs = o.hand :: os.map Own.hand := by rw [h1.hs]; rfl
      have h0 : w1.hs[0]? = some o.hand := by rw [hh]; rfl
      obtain ⟨w2, os2, e1, h2, _⟩ := step_inv hE hP hfuel h1 (op := .alloc 0 n) (by
        intro x hx
        rw [h0] at hx
        cases hx
        exact hb'.mono (show o.req + n ≤ _ by omega))
      have hG := h1.good o (List.mem_cons_self ..)
      have h1' : WInv w1 ([] ++ o :: os) := h1
      obtain ⟨p, m', o', new, f1, f2, f3, f4, f5, f6, f7, f8, f9, f10⟩ :=
        alloc_run hE hP hG h1.sep (show 33 ≤ fuel by omega) (size := n)
          (hG.lay.serves (hb'.mono (by omega)))
      have hw2 : w2 = ⟨m', w1.hs.set 0 ⟨o.a, o.cpp, (p, n) :: o.blocks⟩, w1.user⟩ := by
        have : step E fuel w1 (.alloc 0 n) =
            .ok ⟨m', w1.hs.set 0 ⟨o.a, o.cpp, (p, n) :: o.blocks⟩, w1.user⟩ := by
          simp only [step, h0]
          simp only [Own.hand]
          rw [f1]; rfl
        rw [this] at e1
        exact (Res.ok.inj e1).symm
      have hos2 : WInv w2 (o' :: os) := by
        refine ⟨?_, h2.sep, ?_, ?_⟩
        · rw [hw2]
          simp only
          rw [hh]
          simp [Own.hand, f2, f3, f4]
        · rw [hw2]
          show m'.live.Perm _
          rw [f7]
          refine (h1.live.append_left new).trans ?_
          simp only [List.flatMap_cons, f8, List.append_assoc]
          exact List.perm_append_comm_assoc ..
        · intro o2 ho2
          rw [hw2]
          rcases List.mem_cons.1 ho2 with rfl | ho2
          · exact f5
          · have ho2m : o2 ∈ o :: os := List.mem_cons_of_mem _ ho2
            refine (h1.good o2 ho2m).frame f10 ?_ fun b hb => by
              show b ∈ m'.live
              rw [f7]; exact List.mem_append_right _ (h1.mem_live ho2m hb)
            intro b hb x hx
            rcases List.mem_append.1 hx with hx | hx
            · exact (f9 x hx b (h1.mem_live ho2m hb)).symm
            · obtain ⟨c, hc, hw⟩ := hG.lay.foot_in x hx
              exact (h1'.apart o2 (by simpa using ho2) b hb c hc).sub_right hw
      obtain ⟨w3, o3, g1, g2, g3⟩ := ih w2 o' hos2 (by
        have : o'.req = n + o.req := by simp [Own.req, f4]
        exact hb'.mono (by omega))
      refine ⟨w3, o3, ?_, g2, ?_⟩
      · simp only [List.map_cons, run]
        rw [e1]
        exact g1
      · rw [g3, hw2]
  have mk : ∃ w1 o, step E fuel w (if cpp then .newCpp else .new) = .ok w1 ∧ WInv w1 (o :: os) ∧
      o.req = 0 ∧ w1.user = w.user := by
    cases cpp with
    | false =>
      obtain ⟨p, hp⟩ := Option.isSome_iff_exists.1 (hP w.m.calls w.m.live (40 + chunk))
      obtain ⟨m', e1, e2, e3, e4, e5, e6⟩ := newAllocator_run hE h.sep hp
      refine ⟨⟨m', ⟨p, false, []⟩ :: w.hs, w.user⟩, Own.fresh p, ?_, ⟨?_, e3, ?_, ?_⟩, rfl, rfl⟩
      · simp only [step, Bool.false_eq_true, if_false]; rw [e1]; rfl
      · simp [h.hs, Own.hand, Own.fresh]
      · show m'.live.Perm _
        rw [e2, List.flatMap_cons, show (Own.fresh p).mem = [(p, 40 + chunk)] from rfl]
        exact h.live.cons _
      · intro o ho
        rcases List.mem_cons.1 ho with rfl | ho
        · exact e5
        · exact (h.good o ho).frame e6
            (fun b hb r hr => by rw [List.mem_singleton.1 hr]; exact (e4 b (h.mem_live ho hb)).symm)
            fun b hb => by
              show b ∈ m'.live
              rw [e2]; exact List.mem_cons_of_mem _ (h.mem_live ho hb)
    | true =>
      obtain ⟨self, hself⟩ := Option.isSome_iff_exists.1 (hP w.m.calls w.m.live 16)
      obtain ⟨m1, a1, a2, a3, a4, a5, a6⟩ := zjNew_run hE (n := 16) (by omega) (by omega) h.sep hself
      obtain ⟨p, hp⟩ := Option.isSome_iff_exists.1 (hP m1.calls m1.live (24 + chunk))
      obtain ⟨m', e1, e2, e3, e4, e5, e6⟩ := construct_run hE a3
        (by rw [a2]; exact List.mem_cons_self ..) hp
      refine ⟨⟨m', ⟨self, true, []⟩ :: w.hs, w.user⟩, Own.freshCpp self p, ?_, ⟨?_, e3, ?_, ?_⟩, rfl, rfl⟩
      · simp only [step, if_true]; rw [a1]; simp only [if_neg a4]; rw [e1]; rfl
      · simp [h.hs, Own.hand, Own.freshCpp]
      · show m'.live.Perm _
        rw [e2, a2, List.flatMap_cons,
          show (Own.freshCpp self p).mem = [(self, 16), (p, 24 + chunk)] from rfl]
        exact (List.Perm.swap ..).trans ((h.live.cons _).cons _)
      · intro o ho
        rcases List.mem_cons.1 ho with rfl | ho
        · exact e5
        · have hg1 := (h.good o ho).frame a6
            (fun b hb r hr => by rw [List.mem_singleton.1 hr]; exact (a5 b (h.mem_live ho hb)).symm)
            fun b hb => by rw [a2]; exact List.mem_cons_of_mem _ (h.mem_live ho hb)
          refine hg1.frame e6 ?_ fun b hb => by
            show b ∈ m'.live
            rw [e2]; exact List.mem_cons_of_mem _ (hg1.live b hb)
          intro b hb r hr
          simp at hr
          rcases hr with rfl | rfl
          · exact (e4 b (hg1.live b hb)).symm
          · exact (a5 b (h.mem_live ho hb)).symm
  obtain ⟨w1, o1, e1, h1, hr1, hu1⟩ := mk
  obtain ⟨w2, o2, e2, h2, hu2⟩ := mid sizes w1 o1 h1 (hs.mono (by omega))
  have h2' : WInv w2 ([] ++ o2 :: os) := h2
  obtain ⟨w3, os3, e3, h3, _⟩ := step_inv hE hP hfuel h2 (op := .release 0) trivial
  have hh : w2.hs = o2.hand :: os.map Own.hand := by rw [h2.hs]; rfl
  have h0 : w2.hs[0]? = some o2.hand := by rw [hh]; rfl
  obtain ⟨m3, d1, hw3⟩ : ∃ m3, dispose fuel w2.m o2.hand.cpp o2.hand.a = .ok m3 ∧
      w3 = ⟨m3, w2.hs.eraseIdx 0, w2.user⟩ := by
    simp only [step, h0] at e3
    obtain ⟨m3, d1, d2⟩ := Res.bind_eq_ok.1 e3
    exact ⟨m3, d1, (Res.ok.inj d2).symm⟩
  have hhs3 : w3.hs = os.map Own.hand := by rw [hw3]; simp [hh]
  have hu3 : w3.user = w.user := by rw [hw3]; simp [hu2, hu1]
  refine ⟨w3, e, ?_, ?_, by rw [hhs3, h.hs], hu3⟩
  · simp only [List.cons_append, run]
    rw [e1]
    simp only [Res.ok_bind]
    have app : ∀ (a b : List Op) (w0 w1 : World), run E fuel w0 a = .ok w1 →
        run E fuel w0 (a ++ b) = run E fuel w1 b := by
      intro a
      induction a with
      | nil => intro b w0 w1 h; simp only [run, Res.ok.injEq] at h; subst h; rfl
      | cons x r ih =>
        intro b w0 w1 h
        simp only [run] at h
        obtain ⟨wx, hx1, hx2⟩ := Res.bind_eq_ok.1 h
        simp only [List.cons_append, run]
        rw [hx1]
        exact ih b wx w1 hx2
    rw [app _ _ _ _ e2]
    simp only [run]
    rw [e3]
    rfl
  · -- the blocks of the remaining allocators and the program
    have hG2 := h2.good o2 (List.mem_cons_self ..)
    have hl2 : w2.m.live.Perm (o2.mem ++ (os.flatMap Own.mem ++ w2.user)) := by
      refine h2.live.trans ?_
      simp
    have : w3.m.live.Perm (os.flatMap Own.mem ++ w2.user) := by
      rw [hw3]
      show m3.live.Perm _
      simp only [Own.hand] at d1
      cases hc : o2.cpp with
      | false =>
        obtain ⟨m', g1, g2, _, _⟩ := release_run hG2 h2.sep (show 33 ≤ fuel by omega) hc hl2
        rw [hc] at d1
        simp only [dispose] at d1
        rw [g1] at d1
        cases d1
        exact g2
      | true =>
        obtain ⟨m1, g1, g2, g3, _⟩ := destruct_run hG2 h2.sep hfuel hc hl2
        obtain ⟨m2, f1, f2, f3, f4⟩ := zjFree_run g3 g2
        rw [hc] at d1
        simp only [dispose] at d1
        rw [g1] at d1
        simp only [Res.ok_bind] at d1
        rw [f1] at d1
        cases d1
        exact f2
    refine this.trans ?_
    rw [hu2, hu1]
    exact h.live.symm

/-! ### C39 The allocator terminates and does not wrap around -/

theorem growTo_zero {size : Nat} (hs : 0 < size) : ∀ fuel, growTo fuel 0 size = .timeout
  | 0 => rfl
  | fuel + 1 => by
    unfold growTo
    rw [if_pos hs, Nat.zero_mul]
    exact growTo_zero hs fuel

theorem alloc_start {E : Env} {m : Mem} {o : Own} {fuel size : Nat} (h : Good m o)
    (hs : Sep m.live) (hw : w32 (o.last.pos + size) > o.last.cap)
    (hg : growTo fuel (w32 (o.last.cap * delta)) size = .timeout) :
    alloc E fuel m o.a size = .timeout := by
  have hl := h.shape.chain.last
  have hnz := h.node_nz hs o.last_mem
  unfold alloc
  rw [rdAl_some h.lay.nz h.shape.al]
  simp only [Res.ok_bind]
  rw [rdAN_some hnz hl]
  simp only [Res.ok_bind, if_pos hw, hg, Res.timeout_bind]

/-- A request that is served gets a block of its own inside live memory. -/
theorem alloc_served [Sensible] {E : Env} (hE : Sound E) (hP : Plenty E) {m : Mem} {o : Own} {fuel size : Nat}
    (h : Good m o) (hs : Sep m.live) (hsv : o.serves size) (hfuel : 33 ≤ fuel) :
    ∃ p m', alloc E fuel m o.a size = .ok (p, m') ∧
      (∃ c ∈ m'.live, Within (p, size) c) ∧ ∀ b ∈ o.blocks, Disj (p, size) b := by
  obtain ⟨p, m', o', new, e1, e2, e3, e4, e5, e6, e7, e8, e9, e10⟩ :=
    alloc_run hE hP h hs hfuel hsv
  refine ⟨p, m', e1, ?_, ?_⟩
  · obtain ⟨c, hc, hw⟩ := e5.block_in (b := (p, size)) (by rw [e4]; exact List.mem_cons_self ..)
    exact ⟨c, e5.live c hc, hw⟩
  · have := e5.lay.blocks
    rw [e4] at this
    exact (List.pairwise_cons.1 this).1

/-- In every program that keeps to the rules, a request that keeps the total for that
allocator within its room (2 GiB by default) returns, with a block of the requested size inside live
memory. -/
theorem C39_serves_partial [Sensible] {E : Env} (hE : Sound E) (hP : Plenty E) {fuel : Nat}
    (hfuel : 33 ≤ fuel) {ops : List Op} (hf : Fine E fuel World.init ops) :
    ∃ w, run E fuel World.init ops = .ok w ∧
      ∀ h ∈ w.hs, ∀ size, Room (h.asked + size) →
        ∃ p m', alloc E fuel w.m h.a size = .ok (p, m') ∧
          (∃ c ∈ m'.live, Within (p, size) c) ∧ ∀ b ∈ h.blocks, Disj (p, size) b := by
  obtain ⟨w, os, e, h⟩ := reach_inv hE hP hfuel hf
  refine ⟨w, e, ?_⟩
  intro x hx size hb
  rw [h.hs] at hx
  obtain ⟨o, ho, rfl⟩ := List.mem_map.1 hx
  have hG := h.good o ho
  exact alloc_served hE hP hG h.sep (hG.lay.serves hb) hfuel

end

section
attribute [local instance] Knobs.default Knobs.default_sensible

theorem growTo_diverge {size : Nat} (hs : 2147483648 < size) : ∀ (fuel k : Nat), k ≤ 19 →
    growTo fuel (4096 * 2 ^ k) size = .timeout
  | 0, _, _ => rfl
  | fuel + 1, k, hk => by
    have hp : 2 ^ k ≤ 2 ^ 19 := Nat.pow_le_pow_right (by omega) hk
    unfold growTo
    rw [if_pos (by omega)]
    rcases Nat.lt_or_ge k 19 with h | h
    · have hw : w32 (4096 * 2 ^ k * 2) = 4096 * 2 ^ (k + 1) := by
        have : 2 ^ (k + 1) ≤ 2 ^ 19 := Nat.pow_le_pow_right (by omega) h
        rw [Nat.pow_succ] at *
        unfold w32
        rw [Nat.mod_eq_of_lt] <;> omega
      have hd : (delta : Nat) = 2 := rfl
      rw [hd, hw]
      exact growTo_diverge hs fuel (k + 1) h
    · have : k = 19 := by omega
      subst this
      exact growTo_zero (by omega) fuel

/-- `serves` with the default settings. -/
theorem Lay.serves_default {o : Own} {size : Nat} (h : Lay o) :
    o.serves size ↔ size ≤ 2147483648 ∧ (o.last.cap < 2147483648 ∨ o.last.pos + size ≤ o.last.cap) := by
  obtain ⟨k, hk, hcap, hlen⟩ := h.cap
  rw [rung_default] at hk hcap
  have hk' := rung_default_fits.1 hk
  have hp2 : 2 ^ k ≤ 2 ^ 19 := Nat.pow_le_pow_right (by omega) hk'
  have hfill := h.fill _ o.last_mem
  constructor
  · rintro ⟨h1, h2 | ⟨j, h2, h3, h4⟩⟩
    · exact ⟨by omega, Or.inr h2⟩
    · rw [rung_default] at h2 h3 h4
      have hj : 2 ^ j ≤ 2 ^ 19 := Nat.pow_le_pow_right (by omega) (rung_default_fits.1 h4)
      rcases Nat.lt_or_ge k 19 with h5 | h5
      · have : 2 ^ k ≤ 2 ^ 18 := Nat.pow_le_pow_right (by omega) (by omega)
        exact ⟨by omega, Or.inl (by omega)⟩
      · obtain rfl : k = 19 := by omega
        omega
  · rintro ⟨h1, h2 | h2⟩
    · have hk2 : k < 19 := by
        rcases Nat.lt_or_ge k 19 with h5 | h5
        · exact h5
        · obtain rfl : k = 19 := by omega
          omega
      refine ⟨by omega, Or.inr ⟨19, ?_, ?_, ?_⟩⟩ <;> rw [rung_default] <;> omega
    · exact ⟨by omega, Or.inl h2⟩

/-- With the default settings, a request that does not fit in 32 bits never returns, or returns memory that is
not the allocator's: exactly when `serves` fails. `o` describes the allocator: last
chunk, handed-out blocks. -/
theorem C39_exact {E : Env} (hE : Sound E) (hP : Plenty E) {m : Mem} {o : Own} {size : Nat}
    (h : Good m o) (hs : Sep m.live) (h32 : size < 4294967296) :
    (o.serves size → ∀ fuel, 33 ≤ fuel → ∃ p m', alloc E fuel m o.a size = .ok (p, m') ∧
      (∃ c ∈ m'.live, Within (p, size) c) ∧ ∀ b ∈ o.blocks, Disj (p, size) b) ∧
    (¬ o.serves size → o.last.pos + size < 4294967296 → ∀ fuel, alloc E fuel m o.a size = .timeout) ∧
    (¬ o.serves size → 4294967296 ≤ o.last.pos + size → ∀ fuel, ∃ p m',
      alloc E fuel m o.a size = .ok (p, m') ∧ m'.live = m.live ∧ ∀ c ∈ o.mem, ¬ Within (p, size) c) := by
  obtain ⟨k, hk, hcap, hlen⟩ := h.lay.cap
  rw [rung_default] at hk hcap
  have hk := rung_default_fits.1 hk
  have hp2 : 2 ^ k ≤ 2 ^ 19 := Nat.pow_le_pow_right (by omega) hk
  have hfill := h.lay.fill _ o.last_mem
  refine ⟨fun hsv fuel hfuel => alloc_served hE hP h hs hsv hfuel, ?_, ?_⟩
  · intro hn hlt fuel
    have hw : w32 (o.last.pos + size) = o.last.pos + size := Nat.mod_eq_of_lt hlt
    rw [h.lay.serves_default] at hn
    rcases Nat.lt_or_ge 2147483648 size with hbig | hsm
    · refine alloc_start h hs (by omega) ?_
      rcases Nat.lt_or_ge k 19 with hk' | hk'
      · have hw2 : w32 (o.last.cap * delta) = 4096 * 2 ^ (k + 1) := by
          have : 2 ^ (k + 1) ≤ 2 ^ 19 := Nat.pow_le_pow_right (by omega) hk'
          rw [hcap]; rw [Nat.pow_succ] at *
          unfold w32
          show 4096 * 2 ^ k * 2 % _ = _
          rw [Nat.mod_eq_of_lt] <;> omega
        rw [hw2]
        exact growTo_diverge hbig fuel (k + 1) hk'
      · have : k = 19 := by omega
        subst this
        rw [hcap]
        exact growTo_zero (by omega) fuel
    · have h1 : ¬ (o.last.cap < 2147483648) := fun hc => hn ⟨hsm, Or.inl hc⟩
      have h2 : ¬ (o.last.pos + size ≤ o.last.cap) := fun hc => hn ⟨hsm, Or.inr hc⟩
      have hc31 : o.last.cap = 2147483648 := by omega
      refine alloc_start h hs (by omega) ?_
      rw [hc31]
      exact growTo_zero (by omega) fuel
  · intro hn hge fuel
    have hw : w32 (o.last.pos + size) = o.last.pos + size - 4294967296 := by
      unfold w32; omega
    have hl := h.shape.chain.last
    have hnz := h.node_nz hs o.last_mem
    obtain ⟨m', e1, e2, e3, e4, e5⟩ := wrAN_run (m := m) (p := o.last.node)
      (n := ⟨o.last.data, o.last.cap, o.last.pos + size - 4294967296, 0⟩) hnz
      (h.live _ (Own.chunk_mem o.last_mem)) o.last.hdr_in
    refine ⟨o.last.data + o.last.pos, m', ?_, e2, ?_⟩
    · unfold alloc
      rw [rdAl_some h.lay.nz h.shape.al]
      simp only [Res.ok_bind]
      rw [rdAN_some hnz hl]
      simp only [Res.ok_bind, hw,
        if_neg (show ¬ o.last.pos + size - 4294967296 > o.last.cap by omega), Res.pure_eq]
      rw [rdAN_some hnz hl]
      simp only [Res.ok_bind, hw, e1]
    · intro c hc hwi
      unfold Within at hwi
      simp only at hwi
      unfold Own.mem at hc
      rcases List.mem_append.1 hc with hc | hc
      · split at hc
        · rw [List.mem_singleton.1 hc] at hwi
          simp only at hwi
          omega
        · cases hc
      · obtain ⟨d, hd, rfl⟩ := List.mem_map.1 hc
        have hsz : d = o.last ∨ 2 * d.cap ≤ o.last.cap := by
          rcases List.mem_append.1 hd with hd | hd
          · exact Or.inr (h.lay.half d hd)
          · exact Or.inl (List.mem_singleton.1 hd)
        have hoff : d.off ≤ 16 := by
          cases hs : o.cs with
          | nil => rw [hs] at hd; cases hd
          | cons x r =>
            obtain ⟨h1, h2, h3⟩ := h.lay.first x r hs
            rw [hs] at hd
            rcases List.mem_cons.1 hd with rfl | hd
            · cases hcpp : o.cpp with
              | true => rw [h2 hcpp]; omega
              | false => rw [(h1 hcpp).2]; omega
            · rw [h3 d hd]; omega
        simp only [Chunk.blk, Chunk.data] at hwi
        rcases hsz with rfl | hsz <;> omega

/-- A request above 2 GiB never returns: the doubling loop runs forever. -/
theorem C39_false_loop {E : Env} (hE : Sound E) (hP : Plenty E) {size : Nat}
    (h1 : 2147483648 < size) (h2 : size < 4294967296) (fuel : Nat) :
    run E fuel World.init [.new, .alloc 0 size] = .timeout := by
  obtain ⟨p, hp⟩ := Option.isSome_iff_exists.1 (hP World.init.m.calls World.init.m.live 4136)
  obtain ⟨m', e1, e2, e3, e4, e5, e6⟩ := newAllocator_run hE WInv.init.sep hp
  have ht := (C39_exact hE hP e5 e3 (size := size) h2).2.1
    (fun h => by have := (e5.lay.serves_default.1 h).1; omega) (by simp [Own.fresh]; omega) fuel
  simp only [run, step]
  rw [e1]
  simp only [Res.ok_bind, Res.pure_eq, List.getElem?_cons_zero]
  have ht' : alloc E fuel m' p size = .timeout := ht
  rw [ht']
  rfl

/-- 2 GiB plus one byte, asked for in two requests, is also too much: the second one
never returns. So the bound of `C39_serves_partial` is sharp. -/
theorem C39_false_sum {E : Env} (hE : Sound E) (hP : Plenty E) (fuel : Nat) {x y : Nat}
    (hx : x = 1073741825) (hy : y = 1073741824) :
    run E (fuel + 33) World.init [.new, .alloc 0 x, .alloc 0 y] = .timeout := by
  obtain ⟨p, hp⟩ := Option.isSome_iff_exists.1 (hP World.init.m.calls World.init.m.live 4136)
  obtain ⟨m1, e1, e2, e3, e4, e5, e6⟩ := newAllocator_run hE WInv.init.sep hp
  have hsv : (Own.fresh p).serves x := by
    refine e5.lay.serves_default.2 ⟨by omega, Or.inl ?_⟩
    have h1 : (Own.fresh p).last.cap = 4096 := rfl
    omega
  have hf : (Own.fresh p).last.cap < (Own.fresh p).last.pos + x := by
    have h1 : (Own.fresh p).last.cap = 4096 := rfl
    omega
  obtain ⟨k, j, g1, g2, g3, g4, g5, g6⟩ := grow_size (fuel := fuel + 33) e5 (by omega) hsv hf
  rw [rung_default] at g1 g3 g5 g6
  have g3' := rung_default_fits.1 g3
  have hj : j = 19 := by
    rcases Nat.lt_or_ge j 19 with h | h
    · have : 2 ^ j ≤ 2 ^ 18 := Nat.pow_le_pow_right (by omega) (by omega)
      omega
    · omega
  subst hj
  obtain ⟨p2, hp2⟩ := Option.isSome_iff_exists.1 (hP m1.calls m1.live (24 + 4096 * 2 ^ 19))
  obtain ⟨m2, f1, f2, f3, f4, f5, f6⟩ := alloc_grow hE e5 e3 g1 g2 g3 g4 g5 g6 hf hsv hp2
  have ht := (C39_exact hE hP f5 f3 (size := y) (by omega)).2.1
    (fun h => by
      have := (f5.lay.serves_default.1 h).2
      simp only [Own.grow, rung_default] at this
      omega) (by simp only [Own.grow]; omega) (fuel + 33)
  simp only [run, step]
  rw [e1]
  simp only [Res.ok_bind, Res.pure_eq, List.getElem?_cons_zero]
  have f1' : alloc E (fuel + 33) m1 p x = .ok (p2 + 24, m2) := f1
  rw [f1']
  simp only [Res.ok_bind, Res.pure_eq, List.set_cons_zero, List.getElem?_cons_zero]
  have ht' : alloc E (fuel + 33) m2 p y = .timeout := ht
  rw [ht']
  rfl

/-- A request close to 4 GiB, after another one, wraps around: it "succeeds" although
the allocator holds a single block of 4136 bytes. -/
theorem C39_false_wrap {E : Env} (hE : Sound E) (hP : Plenty E) (fuel : Nat) :
    ∃ w, run E fuel World.init [.new, .alloc 0 24, .alloc 0 4294967280] = .ok w ∧
      ∃ p, w.m.live = [(p, 4136)] ∧
        w.hs.map Hand.blocks = [[(p + 64, 4294967280), (p + 40, 24)]] := by
  obtain ⟨p, hp⟩ := Option.isSome_iff_exists.1 (hP World.init.m.calls World.init.m.live 4136)
  obtain ⟨m1, e1, e2, e3, e4, e5, e6⟩ := newAllocator_run hE WInv.init.sep hp
  obtain ⟨m2, f1, f2, f3, f4⟩ := alloc_fit (E := E) (fuel := fuel) (size := 24) e5 e3 (by
    show 0 + 24 ≤ 4096
    omega)
  have hs2 : Sep m2.live := by rw [f2]; exact e3
  have hpz : p ≠ 0 := e5.lay.nz
  have hl := f3.shape.chain.last
  have hnz := f3.node_nz hs2 (Own.last_mem _)
  obtain ⟨m3, g1, g2, g3, g4, g5⟩ := wrAN_run (m := m2) (p := ((Own.fresh p).take 24).last.node)
    (n := ⟨p + 40, 4096, 8, 0⟩) hnz (f3.live _ (Own.chunk_mem (Own.last_mem _)))
    ((Own.fresh p).take 24).last.hdr_in
  have hal : alloc E fuel m2 p 4294967280 = .ok (p + 64, m3) := by
    have ha : m2.al p = _ := f3.shape.al
    unfold alloc
    rw [rdAl_some hpz ha]
    simp only [Res.ok_bind]
    rw [rdAN_some hnz hl]
    have hw : w32 (((Own.fresh p).take 24).last.pos + 4294967280) = 8 := by
      have h1 : ((Own.fresh p).take 24).last.pos = 24 := rfl
      rw [h1]; unfold w32; omega
    have hc : ((Own.fresh p).take 24).last.cap = 4096 := rfl
    simp only [Res.ok_bind, hw, hc, if_neg (show ¬ 8 > 4096 by omega), Res.pure_eq]
    rw [rdAN_some hnz hl]
    simp only [Res.ok_bind]
    rw [hw]
    have hd : ((Own.fresh p).take 24).last.data = p + 40 := rfl
    have hq : ((Own.fresh p).take 24).last.pos = 24 := rfl
    rw [hc, hd, hq, g1]
    rfl
  refine ⟨⟨m3, [⟨p, false, [(p + 64, 4294967280), (p + 40, 24)]⟩], []⟩, ?_, p, ?_, rfl⟩
  · simp only [run, step]
    rw [e1]
    simp only [Res.ok_bind, Res.pure_eq, List.getElem?_cons_zero]
    have f1' : alloc E fuel m1 p 24 = .ok (p + 40, m2) := f1
    rw [f1']
    simp only [Res.ok_bind, Res.pure_eq, List.set_cons_zero, List.getElem?_cons_zero]
    rw [hal]
    rfl
  · show m3.live = _
    rw [g2, f2, e2]
    rfl

end

section
variable [Knobs]

/-! ### C40 Memory stays proportional to what was asked for -/

/-- How often the size of a chunk can be doubled within 32 bits: 19 by default. -/
def levels : Nat := (4294967295 / chunk).log2

theorem rung_levels [Sensible] {k : Nat} (h : rung k < 4294967296) : k ≤ levels := by
  have h1 := rung_pow k
  have hc := Sensible.chunk_pos
  have h2 : 2 ^ k ≤ 4294967295 / chunk := (Nat.le_div_iff_mul_le (by omega)).2 (by rw [Nat.mul_comm]; omega)
  have h3 := Nat.pow_pos (n := k) (show 0 < 2 by omega)
  exact (Nat.le_log2 (by omega)).2 h2

/-- The memory an allocator holds when `asked` bytes were asked for, at most. -/
def heldFor (asked : Nat) : Nat := 2 * chunk + 24 * levels + 56 + 2 * (delta * asked)

theorem Lay.held [Sensible] {o : Own} (h : Lay o) : (o.mem.map (·.2)).sum ≤ heldFor o.req := by
  obtain ⟨k, hk, hcap, hlen⟩ := h.cap
  have hlv := rung_levels (k := k) (by omega)
  unfold heldFor
  have hsum := h.sum
  have hsmall := h.small
  have hoff : ∀ c ∈ o.cs, c.off ≤ 16 := by
    intro c hc
    cases hs : o.cs with
    | nil => rw [hs] at hc; cases hc
    | cons x r =>
      obtain ⟨h1, h2, h3⟩ := h.first x r hs
      rw [hs] at hc
      rcases List.mem_cons.1 hc with rfl | hc
      · cases hcpp : o.cpp with
        | true => rw [h2 hcpp]; omega
        | false => rw [(h1 hcpp).2]; omega
      · rw [h3 c hc]; omega
  -- the offset occurs once
  have hrest : ∀ l : List Chunk, (∀ c ∈ l, c.off = 0) →
      ((l.map Chunk.blk).map (·.2)).sum = 24 * l.length + (l.map Chunk.cap).sum := by
    intro l
    induction l with
    | nil => intro _; rfl
    | cons x r ih =>
      intro hl
      have := ih fun c hc => hl c (List.mem_cons_of_mem _ hc)
      have hx := hl x (List.mem_cons_self ..)
      simp only [List.map_cons, List.sum_cons, List.length_cons, Chunk.blk] at this ⊢
      simp only [this, hx]
      omega
  have hcs : ((o.cs.map Chunk.blk).map (·.2)).sum ≤ 16 + 24 * o.cs.length + (o.cs.map Chunk.cap).sum := by
    cases hs : o.cs with
    | nil => simp
    | cons x r =>
      obtain ⟨_, _, h3⟩ := h.first x r hs
      have := hrest r h3
      have hx := hoff x (by rw [hs]; exact List.mem_cons_self ..)
      simp only [List.map_cons, List.sum_cons, List.length_cons, Chunk.blk] at this ⊢
      omega
  have hcap2 : (o.cs.map Chunk.cap).sum ≤ 2 * o.last.cap := by
    simp only [Own.cs, List.map_append, List.sum_append, List.map_cons, List.map_nil,
      List.sum_cons, List.sum_nil]
    omega
  have hlen2 : o.cs.length ≤ levels + 1 := by simp [Own.cs]; omega
  have hhome : (o.mem.map (·.2)).sum ≤ 16 + ((o.cs.map Chunk.blk).map (·.2)).sum := by
    unfold Own.mem
    cases o.cpp <;> simp
  omega

/-- All memory held by the allocators of a program is at most a constant for each plus
`2 * delta` times what was asked for. -/
theorem C40_proportional [Sensible] {E : Env} (hE : Sound E) (hP : Plenty E) {fuel : Nat}
    (hfuel : 33 ≤ fuel) {ops : List Op} (hf : Fine E fuel World.init ops) :
    ∃ w, run E fuel World.init ops = .ok w ∧
      (w.m.live.map (·.2)).sum ≤
        (w.hs.map fun h => heldFor h.asked).sum + (w.user.map (·.2)).sum := by
  obtain ⟨w, os, e, h⟩ := reach_inv hE hP hfuel hf
  refine ⟨w, e, ?_⟩
  have h1 : (w.m.live.map (·.2)).sum = ((os.flatMap Own.mem ++ w.user).map (·.2)).sum :=
    (h.live.map _).sum_nat
  rw [h1, h.hs, List.map_append, List.sum_append]
  have : ((os.flatMap Own.mem).map (·.2)).sum ≤
      ((os.map Own.hand).map fun h => heldFor h.asked).sum := by
    have hg := h.good
    clear h h1 e
    induction os with
    | nil => simp
    | cons o r ih =>
      have hi := ih fun x hx => hg x (List.mem_cons_of_mem _ hx)
      have ho := (hg o (List.mem_cons_self ..)).lay.held
      simp only [List.flatMap_cons, List.map_append, List.sum_append, List.map_cons, List.sum_cons] at hi ⊢
      have : o.hand.asked = o.req := rfl
      rw [this]
      omega
  omega

end

section
attribute [local instance] Knobs.default Knobs.default_sensible

/-- With the default settings: 8704 bytes for each allocator and four times what was asked
for. -/
theorem C40_default (n : Nat) : heldFor n = 8704 + 4 * n := by
  have h1 : (chunk : Nat) = 4096 := rfl
  have h2 : (delta : Nat) = 2 := rfl
  have h3 : levels = 19 := by decide
  rw [heldFor, h1, h2, h3]
  omega

example : ∃ w, run bump 40 World.init demo = .ok w ∧
    (w.m.live.map (·.2)).sum ≤
      (w.hs.map fun h => heldFor h.asked).sum + (w.user.map (·.2)).sum :=
  C40_proportional bump_sound bump_plenty (by decide) (fineB_fine (by decide +kernel))

end

section
variable [Knobs]

/-! ### C45 Running out of memory -/

/-- When `malloc` fails, `zj_NewAllocator` writes through the null pointer. -/
theorem C45_false (fuel : Nat) :
    run (fun _ _ _ => none) fuel World.init [.new] = .ub .nullDeref := rfl

/-- The same for a request that needs a new chunk: any allocator, any moment. -/
theorem C45_false_alloc [Sensible] {E : Env} {m : Mem} {o : Own} {fuel size : Nat} (h : Good m o)
    (hs : Sep m.live) (hfuel : 33 ≤ fuel) (hsv : o.serves size)
    (hfull : o.last.cap < o.last.pos + size) (hE : ∀ n, E m.calls m.live n = none) :
    alloc E fuel m o.a size = .ub .nullDeref := by
  obtain ⟨k, j, h1, h2, h3, h4, h5, h6⟩ := grow_size h hfuel hsv hfull
  have hfill := h.lay.fill _ o.last_mem
  have hsz := hsv.1
  have hw : w32 (o.last.pos + size) = o.last.pos + size := by
    unfold w32; rw [Nat.mod_eq_of_lt]; omega
  have hl := h.shape.chain.last
  have hnz := h.node_nz hs o.last_mem
  unfold alloc
  rw [rdAl_some h.lay.nz h.shape.al]
  simp only [Res.ok_bind]
  rw [rdAN_some hnz hl]
  simp only [Res.ok_bind, hw, if_pos (show o.last.pos + size > o.last.cap by omega), h4]
  have : appendChild E m o.a (rung j) = .ub .nullDeref := by
    unfold appendChild
    rw [zjNew_none (by omega) (hE _)]
    simp [wrAN]
  rw [this]
  rfl

/-! ### C46 Alignment -/

/-- If every size asked for is a multiple of 8, every block starts at a multiple of 8,
as the structs `zj_node` and `zj_Value` need. -/
theorem C46_aligned_partial [Sensible] {E : Env} (hE : Sound E) (hP : Plenty E) {fuel : Nat}
    (hfuel : 33 ≤ fuel) {ops : List Op} (hf : Fine E fuel World.init ops) :
    ∃ w, run E fuel World.init ops = .ok w ∧
      ∀ h ∈ w.hs, (∀ b ∈ h.blocks, b.2 % 8 = 0) → ∀ b ∈ h.blocks, b.1 % 8 = 0 := by
  obtain ⟨w, os, e, h⟩ := reach_inv hE hP hfuel hf
  refine ⟨w, e, ?_⟩
  intro x hx h8
  rw [h.hs] at hx
  obtain ⟨o, ho, rfl⟩ := List.mem_map.1 hx
  have hG := h.good o ho
  exact (hG.lay.al h8 fun c hc => h.sep.al _ (hG.live _ (Own.chunk_mem hc))).2

end

section
attribute [local instance] Knobs.default Knobs.default_sensible

/-- Otherwise not: after a string of 3 bytes the next node is not aligned, whatever
`malloc` does. -/
theorem C46_false {E : Env} (hE : Sound E) (hP : Plenty E) (fuel : Nat) :
    ∃ w, run E fuel World.init [.new, .alloc 0 3, .alloc 0 72] = .ok w ∧
      ∃ h ∈ w.hs, ∃ b ∈ h.blocks, b.2 = 72 ∧ b.1 % 8 = 3 := by
  obtain ⟨p, hp⟩ := Option.isSome_iff_exists.1 (hP World.init.m.calls World.init.m.live 4136)
  obtain ⟨m1, e1, e2, e3, e4, e5, e6⟩ := newAllocator_run hE WInv.init.sep hp
  obtain ⟨m2, f1, f2, f3, f4⟩ := alloc_fit (E := E) (fuel := fuel) (size := 3) e5 e3 (by
    show 0 + 3 ≤ 4096
    omega)
  obtain ⟨m3, g1, g2, g3, g4⟩ := alloc_fit (E := E) (fuel := fuel) (size := 72) f3
    (by rw [f2]; exact e3) (by
      show 0 + 3 + 72 ≤ 4096
      omega)
  have hal : p % 16 = 0 := e3.al (p, 4136) (by rw [e2]; exact List.mem_cons_self ..)
  refine ⟨⟨m3, [⟨p, false, [(p + 43, 72), (p + 40, 3)]⟩], []⟩, ?_, _, List.mem_singleton.2 rfl,
    (p + 43, 72), by simp, rfl, by simp only; omega⟩
  simp only [run, step]
  rw [e1]
  simp only [Res.ok_bind, Res.pure_eq, List.getElem?_cons_zero]
  have f1' : alloc E fuel m1 p 3 = .ok (p + 40, m2) := f1
  rw [f1']
  simp only [Res.ok_bind, Res.pure_eq, List.set_cons_zero, List.getElem?_cons_zero]
  have g1' : alloc E fuel m2 p 72 = .ok (p + 43, m3) := g1
  rw [g1']
  rfl

end

end ZJ.Alloc
