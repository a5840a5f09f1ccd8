import Verif.Emb

/-
Stores that are the same up to names, and what the operations of the abstract machine do to
them.
-/

set_option linter.unusedSimpArgs false

namespace ZJ

/-- Pairs of names: nodes, handles, allocators. -/
structure Names where
  N : Addr → Addr → Prop
  H : Addr → Addr → Prop
  L : Nat → Nat → Prop

structure Names.le (ρ ρ' : Names) : Prop where
  N : ∀ a b, ρ.N a b → ρ'.N a b
  H : ∀ a b, ρ.H a b → ρ'.H a b
  L : ∀ a b, ρ.L a b → ρ'.L a b

theorem Names.le.refl {ρ : Names} : ρ.le ρ := ⟨fun _ _ => id, fun _ _ => id, fun _ _ => id⟩

theorem Names.le.trans {ρ ρ' ρ'' : Names} (h : ρ.le ρ') (h' : ρ'.le ρ'') : ρ.le ρ'' :=
  ⟨fun _ _ h1 => h'.N _ _ (h.N _ _ h1), fun _ _ h1 => h'.H _ _ (h.H _ _ h1), fun _ _ h1 => h'.L _ _ (h.L _ _ h1)⟩

structure LikeH (ρ : Names) (y y' : Val) : Prop where
  n : Opt ρ.N y.n y'.n
  a : ρ.L y.a y'.a

/-- The related names stand for the same things in both stores. -/
structure Emb (ρ : Names) (s s' : Store) : Prop where
  oN : OneOne ρ.N
  oH : OneOne ρ.H
  oL : OneOne ρ.L
  node : GEmb ρ.N s.node s'.node
  hnd : ∀ v w, ρ.H v w → Opt (LikeH ρ) (s.hnd v) (s'.hnd w)
  live : ∀ A B, ρ.L A B → s'.live B = s.live A
  tail : ∀ a b, ρ.N a b → (s.node a).isSome → s'.tail b = s.tail a
  dep : ∀ a b, ρ.N a b → (s.node a).isSome → ∀ R R', ρ.L R R' → s'.dep b R' = s.dep a R
  depL : ∀ a b, ρ.N a b → (s.node a).isSome → ∀ R, s.dep a R = true → ∃ R', ρ.L R R'
  depR : ∀ a b, ρ.N a b → (s.node a).isSome → ∀ R', s'.dep b R' = true → ∃ R, ρ.L R R'
  pad : s'.pad = s.pad

/-- The related names have been given. -/
structure Known (ρ : Names) (s s' : Store) : Prop where
  N : ∀ a b, ρ.N a b → s.seen.node a ∧ s'.seen.node b
  H : ∀ a b, ρ.H a b → s.seen.hnd a ∧ s'.seen.hnd b
  L : ∀ a b, ρ.L a b → s.seen.alloc a ∧ s'.seen.alloc b

/-- Neither the node nor anything below it is related or uses a related allocator. -/
def Foreign (ρ : Names) (s : Store) (b : Addr) : Prop :=
  ∀ c, Reach s.node b c → (∀ a, ¬ ρ.N a c) ∧ ∀ A R, ρ.L A R → s.uses c R = false

/-- Between `s` and `s'` only related things were changed. -/
structure Off (ρ : Names) (s s' : Store) : Prop where
  node : ∀ b, Foreign ρ s b → s'.node b = s.node b
  tail : ∀ b, Foreign ρ s b → s'.tail b = s.tail b
  dep : ∀ b, Foreign ρ s b → s'.dep b = s.dep b
  hnd : ∀ w y, (∀ v, ¬ ρ.H v w) → s.hnd w = some y → (∀ A, ¬ ρ.L A y.a) → (∀ b, y.n = some b → Foreign ρ s b) → s'.hnd w = some y
  hnd0 : ∀ w, (∀ v, ¬ ρ.H v w) → s.hnd w = none → s'.hnd w = none
  live : ∀ B, (∀ A, ¬ ρ.L A B) → s'.live B = s.live B
  pad : s'.pad = s.pad

section
variable {ρ ρ' : Names} {s s' s1 s2 s3 : Store} {v w A B a b x y f f' R R' : Addr} {gn gn' ga ga' gx gx' : GNode}

theorem Foreign.below (h : Foreign ρ s b) {c : Addr} (hr : Reach s.node b c) : Foreign ρ s c := fun d hd => h d (hr.trans hd)

theorem Foreign.here (h : Foreign ρ s b) : ∀ a, ¬ ρ.N a b := (h b .refl).1

theorem Off.refl : Off ρ s s := ⟨fun _ _ => rfl, fun _ _ => rfl, fun _ _ => rfl, fun _ _ _ h _ _ => h, fun _ _ h => h, fun _ _ => rfl, rfl⟩

theorem Off.reach (h : Off ρ s s') {c : Addr} (hr : Reach s'.node b c) : Foreign ρ s b → Reach s.node b c := by
  induction hr with
  | refl => exact fun _ => .refl
  | step ha hk _ ih =>
    intro hf
    rw [h.node _ hf] at ha
    exact .step ha hk (ih (hf.below (.step ha hk .refl)))

theorem Off.foreign (h : Off ρ s s') (hf : Foreign ρ s b) : Foreign ρ s' b := fun c hr => by
  have hr' := h.reach hr hf
  obtain ⟨h1, h2⟩ := hf c hr'
  refine ⟨h1, fun A R hL => ?_⟩
  have := h2 A R hL
  unfold Store.uses at this ⊢
  rw [h.node c (hf.below hr'), h.dep c (hf.below hr')]; exact this

theorem Off.trans (h : Off ρ s1 s2) (h' : Off ρ s2 s3) : Off ρ s1 s3 where
  node b hb := (h'.node b (h.foreign hb)).trans (h.node b hb)
  tail b hb := (h'.tail b (h.foreign hb)).trans (h.tail b hb)
  dep b hb := (h'.dep b (h.foreign hb)).trans (h.dep b hb)
  hnd w y hw hy hA hn := h'.hnd w y hw (h.hnd w y hw hy hA hn) hA fun b hb => h.foreign (hn b hb)
  hnd0 w hw hy := h'.hnd0 w hw (h.hnd0 w hw hy)
  live B hB := (h'.live B hB).trans (h.live B hB)
  pad := h'.pad.trans h.pad

/-! ### The nodes of the stores -/

theorem Emb.flip (E : Emb ρ s s') : Emb ⟨fun b a => ρ.N a b, fun b a => ρ.H a b, fun b a => ρ.L a b⟩ s' s := by
  have hs : ∀ a b, ρ.N a b → (s'.node b).isSome → (s.node a).isSome := fun a b h h' => by rw [← (E.node a b h).isSome]; exact h'
  exact ⟨E.oN.flip, E.oH.flip, E.oL.flip, E.node.flip, fun v w h => (E.hnd w v h).flip.mono fun _ _ h => ⟨h.n.flip, h.a⟩,
    fun A B h => (E.live B A h).symm, fun a b h h' => (E.tail b a h (hs b a h h')).symm,
    fun a b h h' R R' hR => (E.dep b a h (hs b a h h') R' R hR).symm, fun a b h h' => E.depR b a h (hs b a h h'),
    fun a b h h' => E.depL b a h (hs b a h h'), E.pad.symm⟩

theorem Emb.here (E : Emb ρ s s') (h : ρ.N a b) : (s'.node b).isSome = (s.node a).isSome := (E.node a b h).isSome

theorem Emb.uses (E : Emb ρ s s') (h : ρ.N a b) (hR : ρ.L R R') : s'.uses b R' = s.uses a R := by
  unfold Store.uses
  rw [E.here h]
  cases ha : (s.node a).isSome with
  | false => rfl
  | true => rw [E.dep a b h ha R R' hR]

theorem Emb.usesL (E : Emb ρ s s') (h : ρ.N a b) (hR : s.uses a R = true) : ∃ R', ρ.L R R' := by
  unfold Store.uses at hR
  rw [Bool.and_eq_true] at hR
  exact E.depL a b h hR.1 R hR.2

theorem Emb.usesR (E : Emb ρ s s') (h : ρ.N a b) (hR : s'.uses b R' = true) : ∃ R, ρ.L R R' := by
  unfold Store.uses at hR
  rw [Bool.and_eq_true] at hR
  exact E.depR a b h (by rw [← E.here h]; exact hR.1) R' hR.2

theorem Emb.freeR (E : Emb ρ s s') (h : ρ.N a b) (hR : ρ.L R R') (hf : s.free R a) : s'.free R' b := fun d hd => by
  obtain ⟨c, hc, hr⟩ := hd.like E.flip.node h
  rw [E.uses hc hR]
  exact hf c hr

theorem Emb.free (E : Emb ρ s s') (h : ρ.N a b) (hR : ρ.L R R') : s.free R a ↔ s'.free R' b :=
  ⟨E.freeR h hR, fun hf => E.flip.freeR h hR hf⟩

/-! ### New names -/

def Names.addN (ρ : Names) (M : Addr → Addr → Prop) : Names := { ρ with N := fun a b => ρ.N a b ∨ M a b }
def Names.addH (ρ : Names) (v w : Addr) : Names := { ρ with H := fun a b => ρ.H a b ∨ (a = v ∧ b = w) }
def Names.addL (ρ : Names) (A B : Nat) : Names := { ρ with L := fun a b => ρ.L a b ∨ (a = A ∧ b = B) }

theorem Names.le_addN {M : Addr → Addr → Prop} : ρ.le (ρ.addN M) := ⟨fun _ _ => .inl, fun _ _ => id, fun _ _ => id⟩
theorem Names.le_addH : ρ.le (ρ.addH v w) := ⟨fun _ _ => id, fun _ _ => .inl, fun _ _ => id⟩
theorem Names.le_addL : ρ.le (ρ.addL A B) := ⟨fun _ _ => id, fun _ _ => id, fun _ _ => .inl⟩

theorem OneOne.one {v w : Nat} : OneOne fun a b => a = v ∧ b = w :=
  ⟨fun h h' => h.2.trans h'.2.symm, fun h h' => h.1.trans h'.1.symm⟩

theorem Emb.addN {M : Addr → Addr → Prop} (E : Emb ρ s s') (K : Known ρ s s') (hM : OneOne M)
    (h : ∀ a b, M a b → (s.node a = none ∧ ¬ s.seen.node a) ∧ s'.node b = none ∧ ¬ s'.seen.node b) : Emb (ρ.addN M) s s' where
  oN := E.oN.or hM (fun a b b' h1 h2 => (h a b' h2).1.2 (K.N a b h1).1) (fun a a' b h1 h2 => (h a' b h2).2.2 (K.N a b h1).2)
  oH := E.oH
  oL := E.oL
  node := E.node.ext (fun _ _ => .inl) fun a b hab => hab.imp id fun hm => ⟨(h a b hm).1.1, (h a b hm).2.1⟩
  hnd v w hv := (E.hnd v w hv).mono fun _ _ hl => ⟨hl.n.mono fun _ _ => .inl, hl.a⟩
  live := E.live
  tail a b hab hs := by
    rcases hab with hab | hab
    · exact E.tail a b hab hs
    · rw [(h a b hab).1.1] at hs; cases hs
  dep a b hab hs := by
    rcases hab with hab | hab
    · exact E.dep a b hab hs
    · rw [(h a b hab).1.1] at hs; cases hs
  depL a b hab hs := by
    rcases hab with hab | hab
    · exact E.depL a b hab hs
    · rw [(h a b hab).1.1] at hs; cases hs
  depR a b hab hs := by
    rcases hab with hab | hab
    · exact E.depR a b hab hs
    · rw [(h a b hab).1.1] at hs; cases hs
  pad := E.pad

theorem Emb.addH (E : Emb ρ s s') (K : ∀ a b, ρ.H a b → s.seen.hnd a ∧ s'.seen.hnd b) (h1 : s.hnd v = none) (h2 : ¬ s.seen.hnd v) (h3 : s'.hnd w = none) (h4 : ¬ s'.seen.hnd w) :
    Emb (ρ.addH v w) s s' :=
  { E with
    oH := E.oH.or .one (fun a b b' g1 g2 => h2 (g2.1 ▸ (K a b g1).1)) (fun a a' b g1 g2 => h4 (g2.2 ▸ (K a b g1).2))
    hnd := fun a b hab => by
      rcases hab with hab | ⟨rfl, rfl⟩
      · exact (E.hnd a b hab).mono fun _ _ hl => ⟨hl.n, hl.a⟩
      · rw [h1, h3]; exact .none }

theorem Emb.addL (E : Emb ρ s s') (K : Known ρ s s') (h1 : s.live A = false) (h2 : ¬ s.seen.alloc A) (h3 : s'.live B = false) (h4 : ¬ s'.seen.alloc B) :
    Emb (ρ.addL A B) s s' :=
  { E with
    oL := E.oL.or .one (fun a b b' g1 g2 => h2 (g2.1 ▸ (K.L a b g1).1)) (fun a a' b g1 g2 => h4 (g2.2 ▸ (K.L a b g1).2))
    hnd := fun a b hab => (E.hnd a b hab).mono fun _ _ hl => ⟨hl.n, .inl hl.a⟩
    live := fun a b hab => by
      rcases hab with hab | ⟨rfl, rfl⟩
      · exact E.live a b hab
      · rw [h1, h3]
    dep := fun a b hab hs R R' hR => by
      rcases hR with hR | ⟨rfl, rfl⟩
      · exact E.dep a b hab hs R R' hR
      · cases h : s.dep a R with
        | true =>
          obtain ⟨R', h'⟩ := E.depL a b hab hs R h
          exact absurd (K.L _ _ h').1 h2
        | false =>
          cases h : s'.dep b R' with
          | true =>
            obtain ⟨R', h'⟩ := E.depR a b hab hs R' h
            exact absurd (K.L _ _ h').2 h4
          | false => rfl
    depL := fun a b hab hs R hR => by
      obtain ⟨R', h⟩ := E.depL a b hab hs R hR
      exact ⟨R', .inl h⟩
    depR := fun a b hab hs R hR => by
      obtain ⟨R', h⟩ := E.depR a b hab hs R hR
      exact ⟨R', .inl h⟩ }

/-! ### Operations -/

theorem Emb.use (E : Emb ρ s s') (c : Bool) : Emb ρ (s.use c A) (s'.use c B) := by
  cases c with
  | false => exact E
  | true => exact ⟨E.oN, E.oH, E.oL, E.node, E.hnd, E.live, E.tail, E.dep, E.depL, E.depR, E.pad⟩

theorem Off.use (c : Bool) : Off ρ s (s.use c A) := by
  cases c with
  | false => exact .refl
  | true => exact ⟨fun _ _ => rfl, fun _ _ => rfl, fun _ _ => rfl, fun _ _ _ h _ _ => h, fun _ _ h => h, fun _ _ => rfl, rfl⟩

theorem Emb.hnd_upd (E : Emb ρ s s') (hv : ρ.H v w) {y y' : Val} (hy : LikeH ρ y y') :
    ∀ a b, ρ.H a b → Opt (LikeH ρ) (upd s.hnd v (some y) a) (upd s'.hnd w (some y') b) := fun a b hab => by
  by_cases e : a = v
  · rw [e, upd_same, (E.oH.iff hv hab).2 e, upd_same]; exact .some hy
  · rw [upd_ne _ _ e, upd_ne _ _ (fun e' => e ((E.oH.iff hv hab).1 e'))]; exact E.hnd a b hab

theorem Emb.handle (E : Emb ρ s s') (hv : ρ.H v w) {y y' : Val} (hy : LikeH ρ y y') : Emb ρ (s.handle v y) (s'.handle w y') :=
  { E with hnd := E.hnd_upd hv hy }

theorem ne_of {P : Addr → Addr → Prop} (hw : P v w) {u : Addr} (hu : ∀ v, ¬ P v u) : u ≠ w := fun e => hu v (e ▸ hw)

theorem Off.handle {y : Val} (hw : ρ.H v w) : Off ρ s (s.handle w y) where
  node _ _ := rfl
  tail _ _ := rfl
  dep _ _ := rfl
  hnd _ _ hu hz _ _ := (upd_ne _ _ (ne_of hw hu)).trans hz
  hnd0 _ hu hz := (upd_ne _ _ (ne_of hw hu)).trans hz
  live _ _ := rfl
  pad := rfl

theorem Emb.put (E : Emb ρ s s') (hv : ρ.H v w) (hA : ρ.L A B) (hN : ρ.N a b) (hl : Like ρ.N gn gn') {tl tl' : Bool} (ht : tl' = tl) :
    Emb ρ (s.put v A a gn tl) (s'.put w B b gn' tl') where
  oN := E.oN
  oH := E.oH
  oL := E.oL
  node := E.node.set E.oN hN hl
  hnd := E.hnd_upd hv ⟨.some hN, hA⟩
  live := E.live
  tail c d hcd hs := by
    show upd s'.tail b tl' d = upd s.tail a tl c
    by_cases e : c = a
    · rw [e, upd_same, (E.oN.iff hN hcd).2 e, upd_same, ht]
    · rw [upd_ne _ _ e, upd_ne _ _ (fun e' => e ((E.oN.iff hN hcd).1 e'))]
      exact E.tail c d hcd (by simpa [Store.put, Graph.set, e] using hs)
  dep c d hcd hs R R' hR := by
    show (if d = b then s'.uses b R' || decide (R' = B) else s'.dep d R') = if c = a then s.uses a R || decide (R = A) else s.dep c R
    by_cases e : c = a
    · rw [if_pos e, if_pos ((E.oN.iff hN hcd).2 e), E.uses hN hR]
      simp only [E.oL.iff hA hR]
    · rw [if_neg e, if_neg (fun e' => e ((E.oN.iff hN hcd).1 e'))]
      exact E.dep c d hcd (by simpa [Store.put, Graph.set, e] using hs) R R' hR
  depL c d hcd hs R hR := by
    have hR : (if c = a then s.uses a R || decide (R = A) else s.dep c R) = true := hR
    by_cases e : c = a
    · rw [if_pos e, Bool.or_eq_true, decide_eq_true_eq] at hR
      rcases hR with hR | rfl
      · exact E.usesL hN hR
      · exact ⟨_, hA⟩
    · rw [if_neg e] at hR
      exact E.depL c d hcd (by simpa [Store.put, Graph.set, e] using hs) R hR
  depR c d hcd hs R hR := by
    have hR : (if d = b then s'.uses b R || decide (R = B) else s'.dep d R) = true := hR
    by_cases e : c = a
    · rw [if_pos ((E.oN.iff hN hcd).2 e), Bool.or_eq_true, decide_eq_true_eq] at hR
      rcases hR with hR | rfl
      · exact E.usesR hN hR
      · exact ⟨_, hA⟩
    · rw [if_neg (fun e' => e ((E.oN.iff hN hcd).1 e'))] at hR
      exact E.depR c d hcd (by simpa [Store.put, Graph.set, e] using hs) R hR
  pad := E.pad

theorem Off.put (hw : ρ.H v w) (hN : ρ.N a b) {tl : Bool} : Off ρ s (s.put w B b gn tl) where
  node d hd := by
    have : d ≠ b := fun e => hd.here a (e ▸ hN)
    simp [Store.put, Graph.set, this]
  tail d hd := upd_ne _ _ (fun e => hd.here a (e ▸ hN))
  dep d hd := by
    have : d ≠ b := fun e => hd.here a (e ▸ hN)
    simp [Store.put, this]
  hnd _ _ hu hz _ _ := (upd_ne _ _ (ne_of hw hu)).trans hz
  hnd0 _ hu hz := (upd_ne _ _ (ne_of hw hu)).trans hz
  live _ _ := rfl
  pad := rfl

theorem GEmb.here {N : Addr → Addr → Prop} {g g' : Graph} (h : GEmb N g g') {c d : Addr} (hcd : N c d) : (g' d).isSome = (g c).isSome := (h c d hcd).isSome

theorem Emb.plant (E : Emb ρ s s') (hv : ρ.H v w) (hA : ρ.L A B) (hN : ρ.N a b) (hl : Like ρ.N gn gn') {gv gv' : GVal} (hgv : LikeV ρ.N gv gv')
    {g g' : Graph} (hg : GEmb ρ.N g g') : Emb ρ (s.plant v A a gn gv g) (s'.plant w B b gn' gv' g') := by
  have hc : ∀ c, ((s.plant v A a gn gv g).node c).isSome → ¬ (c = a ∨ (g c).isSome) → (s.node c).isSome := by
    intro c hs hn
    have h1 : c ≠ a := fun e => hn (.inl e)
    have h2 : g c = none := by
      cases h : g c with
      | none => rfl
      | some y => exact absurd (.inr (by rw [h]; rfl)) hn
    simpa [Store.plant, Graph.plant, Graph.set, Graph.or, h1, h2] using hs
  have hi : ∀ c d, ρ.N c d → ((d = b ∨ (g' d).isSome) ↔ (c = a ∨ (g c).isSome)) := fun c d hcd => by
    rw [E.oN.iff hN hcd, hg.here hcd]
  exact {
    oN := E.oN
    oH := E.oH
    oL := E.oL
    node := (E.node.or hg).set E.oN hN ⟨hl.key, hgv, hl.par, hl.prev, rfl⟩
    hnd := E.hnd_upd hv ⟨.some hN, hA⟩
    live := E.live
    tail := fun c d hcd hs => by
      show (s'.tail d || decide (d = b) || (g' d).isSome) = (s.tail c || decide (c = a) || (g c).isSome)
      by_cases e : c = a ∨ (g c).isSome
      · have e' := (hi c d hcd).2 e
        have h1 : (decide (c = a) || (g c).isSome) = true := by simpa using e
        have h2 : (decide (d = b) || (g' d).isSome) = true := by simpa using e'
        rw [Bool.or_assoc, Bool.or_assoc, h1, h2, Bool.or_true, Bool.or_true]
      · have e' := fun h => e ((hi c d hcd).1 h)
        have h1 : (decide (c = a) || (g c).isSome) = false := by simpa using e
        have h2 : (decide (d = b) || (g' d).isSome) = false := by simpa using e'
        rw [Bool.or_assoc, Bool.or_assoc, h1, h2, Bool.or_false, Bool.or_false]
        exact E.tail c d hcd (hc c hs e)
    dep := fun c d hcd hs R R' hR => by
      show (if d = b ∨ (g' d).isSome then s'.uses b R' || decide (R' = B) else s'.dep d R') =
        if c = a ∨ (g c).isSome then s.uses a R || decide (R = A) else s.dep c R
      by_cases e : c = a ∨ (g c).isSome
      · rw [if_pos e, if_pos ((hi c d hcd).2 e), E.uses hN hR]
        simp only [E.oL.iff hA hR]
      · rw [if_neg e, if_neg (fun h => e ((hi c d hcd).1 h))]
        exact E.dep c d hcd (hc c hs e) R R' hR
    depL := fun c d hcd hs R hR => by
      have hR : (if c = a ∨ (g c).isSome then s.uses a R || decide (R = A) else s.dep c R) = true := hR
      by_cases e : c = a ∨ (g c).isSome
      · rw [if_pos e, Bool.or_eq_true, decide_eq_true_eq] at hR
        rcases hR with hR | rfl
        · exact E.usesL hN hR
        · exact ⟨_, hA⟩
      · rw [if_neg e] at hR
        exact E.depL c d hcd (hc c hs e) R hR
    depR := fun c d hcd hs R hR => by
      have hR : (if d = b ∨ (g' d).isSome then s'.uses b R || decide (R = B) else s'.dep d R) = true := hR
      by_cases e : c = a ∨ (g c).isSome
      · rw [if_pos ((hi c d hcd).2 e), Bool.or_eq_true, decide_eq_true_eq] at hR
        rcases hR with hR | rfl
        · exact E.usesR hN hR
        · exact ⟨_, hA⟩
      · rw [if_neg (fun h => e ((hi c d hcd).1 h))] at hR
        exact E.depR c d hcd (hc c hs e) R hR
    pad := E.pad }

theorem Off.plant (hw : ρ.H v w) (hN : ρ.N a b) {gv : GVal} {g : Graph} (hg : ∀ d y, g d = some y → ∃ c, ρ.N c d) : Off ρ s (s.plant w B b gn gv g) := by
  have key : ∀ d, Foreign ρ s d → d ≠ b ∧ g d = none := fun d hd => by
    refine ⟨fun e => hd.here a (e ▸ hN), ?_⟩
    cases h : g d with
    | none => rfl
    | some y => obtain ⟨c, hc⟩ := hg d y h; exact absurd hc (hd.here c)
  exact {
    node := fun d hd => by simp [Store.plant, Graph.plant, Graph.set, Graph.or, key d hd]
    tail := fun d hd => by simp [Store.plant, key d hd]
    dep := fun d hd => by simp [Store.plant, key d hd]
    hnd := fun u z hu hz _ _ => (upd_ne _ _ (ne_of hw hu)).trans hz
    hnd0 := fun u hu hz => (upd_ne _ _ (ne_of hw hu)).trans hz
    live := fun _ _ => rfl
    pad := rfl }

theorem Emb.grow (E : Emb ρ s s') (hA : ρ.L A B) {g g' : Graph} (hg : GEmb ρ.N g g') : Emb ρ (s.grow g A) (s'.grow g' B) := by
  have hc : ∀ c, ((s.grow g A).node c).isSome → ¬ (g c).isSome → (s.node c).isSome := by
    intro c hs hn
    cases h : g c with
    | none => simpa [Store.grow, Graph.or, h] using hs
    | some y => rw [h] at hn; exact absurd rfl hn
  exact {
    oN := E.oN
    oH := E.oH
    oL := E.oL
    node := hg.or E.node
    hnd := E.hnd
    live := E.live
    tail := fun c d hcd hs => by
      show (s'.tail d && !(g' d).isSome) = (s.tail c && !(g c).isSome)
      rw [hg.here hcd]
      cases e : (g c).isSome with
      | true => simp
      | false => rw [E.tail c d hcd (hc c hs (by rw [e]; exact Bool.false_ne_true))]
    dep := fun c d hcd hs R R' hR => by
      show (if (g' d).isSome then decide (R' = B) else s'.dep d R') = if (g c).isSome then decide (R = A) else s.dep c R
      rw [hg.here hcd]
      by_cases e : (g c).isSome
      · rw [if_pos e, if_pos e]; simp only [E.oL.iff hA hR]
      · rw [if_neg e, if_neg e]; exact E.dep c d hcd (hc c hs e) R R' hR
    depL := fun c d hcd hs R hR => by
      have hR : (if (g c).isSome then decide (R = A) else s.dep c R) = true := hR
      by_cases e : (g c).isSome
      · rw [if_pos e, decide_eq_true_eq] at hR; subst hR; exact ⟨_, hA⟩
      · rw [if_neg e] at hR; exact E.depL c d hcd (hc c hs e) R hR
    depR := fun c d hcd hs R hR => by
      have hR : (if (g' d).isSome then decide (R = B) else s'.dep d R) = true := hR
      rw [hg.here hcd] at hR
      by_cases e : (g c).isSome
      · rw [if_pos e, decide_eq_true_eq] at hR; subst hR; exact ⟨_, hA⟩
      · rw [if_neg e] at hR; exact E.depR c d hcd (hc c hs e) R hR
    pad := E.pad }

theorem Off.grow {g : Graph} (hg : ∀ d y, g d = some y → ∃ c, ρ.N c d) : Off ρ s (s.grow g B) := by
  have key : ∀ d, Foreign ρ s d → g d = none := fun d hd => by
    cases h : g d with
    | none => rfl
    | some y => obtain ⟨c, hc⟩ := hg d y h; exact absurd hc (hd.here c)
  exact {
    node := fun d hd => by simp [Store.grow, Graph.or, key d hd]
    tail := fun d hd => by simp [Store.grow, key d hd]
    dep := fun d hd => by simp [Store.grow, key d hd]
    hnd := fun u z hu hz _ _ => hz
    hnd0 := fun u hu hz => hz
    live := fun _ _ => rfl
    pad := rfl }

theorem Emb.nodes (E : Emb ρ s s') {G G' : Graph} (hG : GEmb ρ.N G G') (hd : ∀ c, (G c).isSome → (s.node c).isSome) :
    Emb ρ (s.nodes G) (s'.nodes G') :=
  { E with
    node := hG
    tail := fun c d hcd hs => E.tail c d hcd (hd c hs)
    dep := fun c d hcd hs => E.dep c d hcd (hd c hs)
    depL := fun c d hcd hs => E.depL c d hcd (hd c hs)
    depR := fun c d hcd hs => E.depR c d hcd (hd c hs) }

theorem Off.nodes {G : Graph} (h : ∀ d, (∀ c, ¬ ρ.N c d) → G d = s.node d) : Off ρ s (s.nodes G) :=
  ⟨fun b hb => h b hb.here, fun _ _ => rfl, fun _ _ => rfl, fun _ _ _ h _ _ => h, fun _ _ h => h, fun _ _ => rfl, rfl⟩

theorem Emb.graft (E : Emb ρ s s') (ha : ρ.N a b) (hx : ρ.N x y) (hla : Like ρ.N ga ga') (hlx : Like ρ.N gx gx') {e : Bool}
    (hsa : (s.node a).isSome) (hsx : (s.node x).isSome) : Emb ρ (s.graft a x ga gx e) (s'.graft b y ga' gx' e) := by
  have hc : ∀ c, ((s.graft a x ga gx e).node c).isSome → c ≠ a → (s.node c).isSome := by
    intro c hs hn
    simp only [Store.graft, Graph.graft, if_neg hn] at hs
    split at hs
    · cases hs
    · split at hs
      · simpa using hs
      · exact hs
  exact {
    oN := E.oN
    oH := E.oH
    oL := E.oL
    node := E.node.graft E.oN ha hx hla hlx
    hnd := fun v w hvw => by
      show Opt (LikeH ρ) ((s.hnd v).filter fun z => decide (z.n ≠ some x)) ((s'.hnd w).filter fun z => decide (z.n ≠ some y))
      have := E.hnd v w hvw
      generalize s.hnd v = p at this
      generalize s'.hnd w = q at this
      cases this with
      | none => exact .none
      | @some z z' hl =>
        have hi : z'.n = some y ↔ z.n = some x := by
          constructor
          · intro h
            obtain ⟨c, e1, e2⟩ := hl.n.right h
            rw [e1, E.oN.inj e2 hx]
          · intro h
            obtain ⟨c, e1, e2⟩ := hl.n.left h
            rw [e1, E.oN.fn e2 hx]
        by_cases h : z.n = some x
        · simp [Option.filter, h, hi.2 h]; exact .none
        · have h' := fun h' => h (hi.1 h')
          have h' : ¬ z'.n = some y := h'
          simp [Option.filter, h, h']; exact .some hl
    live := E.live
    tail := fun c d hcd hs => by
      show upd s'.tail b (s'.tail y) d = upd s.tail a (s.tail x) c
      by_cases h : c = a
      · rw [h, upd_same, (E.oN.iff ha hcd).2 h, upd_same]; exact E.tail x y hx hsx
      · rw [upd_ne _ _ h, upd_ne _ _ (fun h' => h ((E.oN.iff ha hcd).1 h'))]; exact E.tail c d hcd (hc c hs h)
    dep := fun c d hcd hs R R' hR => by
      show (if d = b then s'.dep b R' || s'.dep y R' else s'.dep d R') = if c = a then s.dep a R || s.dep x R else s.dep c R
      by_cases h : c = a
      · rw [if_pos h, if_pos ((E.oN.iff ha hcd).2 h), E.dep a b ha hsa R R' hR, E.dep x y hx hsx R R' hR]
      · rw [if_neg h, if_neg (fun h' => h ((E.oN.iff ha hcd).1 h'))]; exact E.dep c d hcd (hc c hs h) R R' hR
    depL := fun c d hcd hs R hR => by
      have hR : (if c = a then s.dep a R || s.dep x R else s.dep c R) = true := hR
      by_cases h : c = a
      · rw [if_pos h, Bool.or_eq_true] at hR
        exact hR.elim (E.depL a b ha hsa R) (E.depL x y hx hsx R)
      · rw [if_neg h] at hR; exact E.depL c d hcd (hc c hs h) R hR
    depR := fun c d hcd hs R hR => by
      have hR : (if d = b then s'.dep b R || s'.dep y R else s'.dep d R) = true := hR
      by_cases h : c = a
      · rw [if_pos ((E.oN.iff ha hcd).2 h), Bool.or_eq_true] at hR
        exact hR.elim (E.depR a b ha hsa R) (E.depR x y hx hsx R)
      · rw [if_neg (fun h' => h ((E.oN.iff ha hcd).1 h'))] at hR; exact E.depR c d hcd (hc c hs h) R hR
    pad := E.pad }

theorem Off.graft (ha : ρ.N a b) (hx : ρ.N x y) (hlx : Each ρ.N gx.val.kids gx'.val.kids) {e : Bool} : Off ρ s (s.graft b y ga' gx' e) where
  node d hd := by
    have h1 : d ≠ b := fun e => hd.here a (e ▸ ha)
    have h2 : d ≠ y := fun e => hd.here x (e ▸ hx)
    have h3 : d ∉ gx'.val.kids := fun h => by
      obtain ⟨c, _, hc⟩ := hlx.mem' d h
      exact hd.here c hc
    simp [Store.graft, Graph.graft, h1, h2, h3]
  tail d hd := upd_ne _ _ (fun e => hd.here a (e ▸ ha))
  dep d hd := by
    have h1 : d ≠ b := fun e => hd.here a (e ▸ ha)
    simp [Store.graft, h1]
  hnd u z hu hz _ hn := by
    show (s.hnd u).filter _ = some z
    have : z.n ≠ some y := fun e => (hn y e).here x hx
    simp [hz, Option.filter, this]
  hnd0 u hu hz := by show (s.hnd u).filter _ = none; rw [hz]; rfl
  live _ _ := rfl
  pad := rfl

open Classical in
theorem Emb.drop (E : Emb ρ s s') (hR : ρ.L R R') : Emb ρ (s.drop R) (s'.drop R') := by
  have hc : ∀ c, ((s.drop R).node c).isSome → (s.node c).isSome := by
    intro c hs
    simp only [Store.drop, Graph.only] at hs
    split at hs
    · exact hs
    · cases hs
  exact {
    oN := E.oN
    oH := E.oH
    oL := E.oL
    node := E.node.only fun a b hab => E.free hab hR
    hnd := fun v w hvw => by
      show Opt (LikeH ρ) ((s.hnd v).filter _) ((s'.hnd w).filter _)
      have := E.hnd v w hvw
      generalize s.hnd v = p at this
      generalize s'.hnd w = q at this
      cases this with
      | none => exact .none
      | @some z z' hl =>
        have hi : (z'.a ≠ R' ∧ ∀ a, z'.n = some a → s'.free R' a) ↔ (z.a ≠ R ∧ ∀ a, z.n = some a → s.free R a) := by
          have h1 : z'.a = R' ↔ z.a = R := E.oL.iff hR hl.a
          have h2 : (∀ a, z'.n = some a → s'.free R' a) ↔ ∀ a, z.n = some a → s.free R a := by
            constructor
            · intro h a ha
              obtain ⟨b, e1, e2⟩ := hl.n.left ha
              exact (E.free e2 hR).2 (h b e1)
            · intro h b hb
              obtain ⟨a, e1, e2⟩ := hl.n.right hb
              exact (E.free e2 hR).1 (h a e1)
          rw [h2, ne_eq, ne_eq, h1]
        simp only [Option.filter]
        by_cases h : z.a ≠ R ∧ ∀ a, z.n = some a → s.free R a
        · rw [if_pos (decide_eq_true h), if_pos (decide_eq_true (hi.2 h))]; exact .some hl
        · rw [if_neg (fun e => h (of_decide_eq_true e)), if_neg (fun e => h (hi.1 (of_decide_eq_true e)))]; exact .none
    live := fun A B hAB => by
      show upd s'.live R' false B = upd s.live R false A
      by_cases h : A = R
      · rw [h, upd_same, (E.oL.iff hR hAB).2 h, upd_same]
      · rw [upd_ne _ _ h, upd_ne _ _ (fun h' => h ((E.oL.iff hR hAB).1 h'))]; exact E.live A B hAB
    tail := fun c d hcd hs => E.tail c d hcd (hc c hs)
    dep := fun c d hcd hs => E.dep c d hcd (hc c hs)
    depL := fun c d hcd hs => E.depL c d hcd (hc c hs)
    depR := fun c d hcd hs => E.depR c d hcd (hc c hs)
    pad := E.pad }

theorem Off.drop (hR : ρ.L R R') : Off ρ s (s.drop R') := by
  have hf : ∀ b, Foreign ρ s b → s.free R' b := fun b hb c hc => (hb c hc).2 R R' hR
  exact {
    node := fun b hb => by simp [Store.drop, Graph.only, hf b hb]
    tail := fun _ _ => rfl
    dep := fun _ _ => rfl
    hnd := fun u z hu hz hA hn => by
      show (s.hnd u).filter _ = some z
      have : z.a ≠ R' ∧ ∀ a, z.n = some a → s.free R' a := ⟨fun e => hA R (e ▸ hR), fun a ha => hf a (hn a ha)⟩
      simp only [hz, Option.filter, this, decide_eq_true_eq]
      rw [if_pos]; simpa using this
    hnd0 := fun u hu hz => by show (s.hnd u).filter _ = none; rw [hz]; rfl
    live := fun B hB => upd_ne _ _ (fun e => hB R (e ▸ hR))
    pad := rfl }

/-! ### What belongs to somebody else -/

/-- No name of the second store is on both sides. -/
structure Names.Apart (ρ σ : Names) : Prop where
  N : ∀ a c b, ρ.N a b → ¬ σ.N c b
  H : ∀ a c b, ρ.H a b → ¬ σ.H c b
  L : ∀ a c b, ρ.L a b → ¬ σ.L c b

theorem Names.Apart.flip {ρ σ : Names} (h : ρ.Apart σ) : σ.Apart ρ :=
  ⟨fun a c b h1 h2 => h.N c a b h2 h1, fun a c b h1 h2 => h.H c a b h2 h1, fun a c b h1 h2 => h.L c a b h2 h1⟩

theorem Emb.foreign {σ : Names} {q : Store} (E : Emb σ q s) (hd : ρ.Apart σ) (h : σ.N a b) : Foreign ρ s b := fun c hr => by
  obtain ⟨d, hd1, _⟩ := hr.like E.flip.node h
  refine ⟨fun a' h' => hd.N a' d c h' hd1, fun A R hL => ?_⟩
  cases hu : s.uses c R with
  | false => rfl
  | true =>
    obtain ⟨R0, h0⟩ := E.usesR hd1 hu
    exact absurd h0 (hd.L A R0 R hL)

/-- A store stays related to a store in which only other things were changed. -/
theorem Emb.other {σ : Names} {q : Store} (E : Emb σ q s) (hd : ρ.Apart σ) (ho : Off ρ s s') : Emb σ q s' where
  oN := E.oN
  oH := E.oH
  oL := E.oL
  node a b h := by rw [ho.node b (E.foreign hd h)]; exact E.node a b h
  hnd v w h := by
    have := E.hnd v w h
    have hw : ∀ u, ¬ ρ.H u w := fun u hu => hd.H u v w hu h
    generalize hz : s.hnd w = z at this
    generalize hp : q.hnd v = p at this
    cases this with
    | none => rw [ho.hnd0 w hw hz]; exact .none
    | @some y y' hl =>
      rw [ho.hnd w y' hw hz (fun A hA => hd.L A _ _ hA hl.a) (fun b hb => by
        obtain ⟨a, _, ha⟩ := hl.n.right hb
        exact E.foreign hd ha)]
      exact .some hl
  live A B h := by rw [ho.live B (fun C hC => hd.L C A B hC h)]; exact E.live A B h
  tail a b h := by rw [ho.tail b (E.foreign hd h)]; exact E.tail a b h
  dep a b h := by rw [ho.dep b (E.foreign hd h)]; exact E.dep a b h
  depL a b h := E.depL a b h
  depR a b h := by rw [ho.dep b (E.foreign hd h)]; exact E.depR a b h
  pad := ho.pad.trans E.pad

end

end ZJ
