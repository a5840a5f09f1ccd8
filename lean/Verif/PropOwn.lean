import Verif.PropPlain

/-
C47: releasing an allocator does not touch the values made from other allocators, as long as
no call mixes values of two allocators.
-/

set_option linter.unusedSimpArgs false
set_option linter.unusedVariables false

namespace ZJ

variable {D : Type} {fp : FP D} {s s' : Store} {G : Graph} {a x f : Addr}

/-- The call does not bring values of two allocators together. -/
def Local (s : Store) : Call D → Prop
  | .add _ _ v w | .set _ v w => ∀ x y A B, s.hnd v = some ⟨x, A⟩ → s.hnd w = some ⟨y, B⟩ → A = B
  | _ => True

/-- Whatever the answers are, the client makes only such calls. -/
def Prog.Local (fp : FP D) : Prog D → Store → Prop
  | .done, _ => True
  | .call c k, s => ZJ.Local s c ∧ ∀ r s', AStep fp s c r s' → Wf s' → (k r).Local fp s'

/-- Every node belongs, with all its texts, to the allocator `col` gives it, as its children
and the handles on it do. -/
structure Tint (s : Store) (col : Addr → Nat) : Prop where
  dep : ∀ a R, (s.node a).isSome → s.dep a R = true → R = col a
  kid : ∀ f gf k, s.node f = some gf → k ∈ gf.val.kids → col k = col f
  hnd : ∀ v a A, s.hnd v = some ⟨some a, A⟩ → col a = A

theorem Tint.reach {col : Addr → Nat} (h : Tint s col) {b : Addr} (hr : Reach s.node a b) : col b = col a := by
  induction hr with
  | refl => rfl
  | step ha hk _ ih => rw [ih, h.kid _ _ _ ha hk]

/-- Children are there. -/
theorem Wf.kid (h : Wf s) {gf : GNode} {k : Addr} (hf : s.node f = some gf) (hk : k ∈ gf.val.kids) : ∃ gk, s.node k = some gk := by
  obtain ⟨t, ht⟩ := h.finite f gf hf
  cases ht with
  | mk e hu => rw [hf] at e; cases e; exact Option.isSome_iff_exists.1 (hu.kids_some k hk)

/-- Nodes that are not there may get any colour. -/
theorem Tint.recolour {col : Addr → Nat} (hw : Wf s) (h : Tint s col) (N : Addr → Prop) (A : Nat)
    (hN : ∀ b, N b → (s.node b).isSome → col b = A) : ∃ col', Tint s col' ∧ ∀ b, N b → col' b = A := by
  classical
  have he : ∀ b, (s.node b).isSome → (if N b then A else col b) = col b := fun b hb => by
    split
    · rename_i hn; exact (hN b hn hb).symm
    · rfl
  refine ⟨fun b => if N b then A else col b, ⟨fun b R hb hd => ?_, fun f gf k hf hk => ?_, fun v b B hv => ?_⟩, fun b hb => if_pos hb⟩
  · rw [he b hb]; exact h.dep b R hb hd
  · obtain ⟨gk, hgk⟩ := hw.kid hf hk
    rw [he k (by simp [hgk]), he f (by simp [hf])]; exact h.kid f gf k hf hk
  · rw [he b ((hw.hnd v _ hv).2 b rfl)]; exact h.hnd v b B hv

theorem Tint.target {col : Addr → Nat} (hw : Wf s) (h : Tint s col) {v A : Addr} {gn : GNode} (hT : Target s v A a gn) :
    (s.node a).isSome → col a = A := by
  intro hs
  cases hT with
  | old hv ha => exact h.hnd v a A hv
  | new hv ha => simp [ha] at hs

theorem Tint.used {col : Addr → Nat} (h : Tint s col) {R : Nat} (hu : s.uses a R = true) : R = col a := by
  simp only [Store.uses, Bool.and_eq_true] at hu
  exact h.dep a R hu.1 hu.2

/-- A setter. -/
theorem Tint.put {col : Addr → Nat} (hw : Wf s) (h : Tint s col) {v A : Addr} {gn gn' : GNode} {tl : Bool} (hT : Target s v A a gn)
    (hk : gn'.val.kids = [] ∨ gn'.val = gn.val) : ∃ col', Tint (s.put v A a gn' tl) col' := by
  obtain ⟨col, h, hA⟩ := h.recolour hw (· = a) A (by rintro b rfl; exact h.target hw hT)
  have hA := hA a rfl
  refine ⟨col, fun b R hb hd => ?_, fun f gf k hf hk' => ?_, fun u b B hu => ?_⟩
  · simp only [Store.put] at hb hd
    split at hd
    · rename_i e; subst e
      simp only [Bool.or_eq_true, decide_eq_true_eq] at hd
      exact hd.elim h.used fun e => e.trans hA.symm
    · rename_i e
      rw [Graph.set_apply, if_neg e] at hb
      exact h.dep b R hb hd
  · simp only [Store.put, Graph.set_apply] at hf
    split at hf
    · rename_i e; subst e
      cases hf
      rcases hk with hk | hk
      · rw [hk] at hk'; cases hk'
      · rw [hk] at hk'
        cases hT with
        | old hv ha => exact h.kid _ _ _ ha hk'
        | new hv ha => simp [blank, GVal.kids] at hk'
    · exact h.kid _ _ _ hf hk'
  · simp only [Store.put, upd] at hu
    split at hu
    · cases hu; exact hA
    · exact h.hnd u b B hu

/-- A parser. -/
theorem Tint.plant {col : Addr → Nat} (hw : Wf s) (h : Tint s col) {v A : Addr} {gn : GNode} {gv : GVal} {g : Graph} {t : Json}
    (hT : Target s v A a gn) (hP : PlantOf s.node a gv g t) : ∃ col', Tint (s.plant v A a gn gv g) col' := by
  obtain ⟨col, h, hA⟩ := h.recolour hw (fun b => b = a ∨ (g b).isSome) A (by
    rintro b (rfl | hb) hs
    · exact h.target hw hT hs
    · obtain ⟨y, hy⟩ := Option.isSome_iff_exists.1 hb
      rw [(hP.fresh b y hy).1] at hs; cases hs)
  have hfin : ∀ b, (g b).isSome → ∃ t, Unf g b t := fun b hb => by
    obtain ⟨y, hy⟩ := Option.isSome_iff_exists.1 hb
    obtain ⟨_, _, _, k, hk, hr⟩ := hP.links b y hy
    have : ∃ t, Unf g k t := by
      have := hP.doc
      cases hgv : gv with
      | con o ks =>
        rw [hgv] at this hk
        cases this with
        | scalar h => cases h
        | con hi => obtain ⟨_, t, _, h⟩ := hi.mem hk; exact ⟨t, h⟩
      | _ => rw [hgv] at hk; simp [GVal.kids] at hk
    obtain ⟨t, ht⟩ := this
    obtain ⟨t', h1, _⟩ := Unf.reach_count hr ht
    exact ⟨t', h1⟩
  refine ⟨col, fun b R hb hd => ?_, fun f gf k hf hk' => ?_, fun u b B hu => ?_⟩
  · simp only [Store.plant] at hb hd
    split at hd
    · rename_i e
      rw [hA b e]
      simp only [Bool.or_eq_true, decide_eq_true_eq] at hd
      rcases hd with hd | hd
      · rw [h.used hd, hA a (.inl rfl)]
      · exact hd
    · rename_i e
      obtain ⟨e1, e2⟩ := not_or.1 e
      rw [Graph.plant, Graph.set_apply, if_neg e1, Graph.or_apply, Option.not_isSome_iff_eq_none.1 e2] at hb
      exact h.dep b R hb hd
  · simp only [Store.plant, Graph.plant, Graph.set_apply] at hf
    split at hf
    · rename_i e; subst e
      cases hf
      rw [hA _ (.inl rfl), hA k (.inr (hP.doc.kids_some k hk'))]
    · rename_i e
      rw [Graph.or_apply] at hf
      cases hg : g f with
      | some y =>
        rw [hg] at hf; cases hf
        obtain ⟨t, ht⟩ := hfin f (by simp [hg])
        cases ht with
        | mk e1 hu =>
          rw [hg] at e1; cases e1
          rw [hA k (.inr (hu.kids_some k hk')), hA f (.inr (by simp [hg]))]
      | none =>
        rw [hg] at hf
        exact h.kid f gf k hf hk'
  · simp only [Store.plant, upd] at hu
    split at hu
    · cases hu; exact hA _ (.inl rfl)
    · exact h.hnd u b B hu

/-- A copy. -/
theorem Tint.grow {col : Addr → Nat} (hw : Wf s) (h : Tint s col) {A : Nat} {g : Graph} {n : Addr} {gn : GNode}
    (hc : CopyOf s.node x g n gn) : ∃ col', Tint (s.grow g A) col' ∧ col' n = A ∧ ∀ v a B, s.hnd v = some ⟨some a, B⟩ → col' a = B := by
  obtain ⟨col, h, hA⟩ := h.recolour hw (fun b => (g b).isSome) A (by
    intro b hb hs
    obtain ⟨y, hy⟩ := Option.isSome_iff_exists.1 hb
    rw [hc.fresh b y hy] at hs; cases hs)
  refine ⟨col, ⟨fun b R hb hd => ?_, fun f gf k hf hk' => ?_, h.hnd⟩, hA n (by simp [hc.root]), h.hnd⟩
  · simp only [Store.grow] at hb hd
    split at hd
    · rename_i e; rw [hA b e]; simpa using hd
    · rename_i e
      rw [Graph.or_apply, Option.not_isSome_iff_eq_none.1 e, Option.or_none] at hb
      exact h.dep b R hb hd
  · simp only [Store.grow, Graph.or_apply] at hf
    cases hs : s.node f with
    | some y => rw [hs] at hf; cases hf; exact h.kid f _ k hs hk'
    | none =>
      rw [hs] at hf
      have hf : g f = some gf := hf
      obtain ⟨_, _, _, hr⟩ := hc.links f gf hf
      obtain ⟨t, _, ht⟩ := hc.doc
      obtain ⟨t', ht', _⟩ := Unf.reach_count hr ht
      cases ht' with
      | mk e1 hu => rw [hf] at e1; cases e1; rw [hA k (hu.kids_some k hk'), hA f (by simp [hf])]

theorem Tint.handle {col : Addr → Nat} (h : Tint s col) {v : Addr} {y : Val} (hy : ∀ a, y.n = some a → col a = y.a) : Tint (s.handle v y) col :=
  ⟨h.dep, h.kid, fun u b B hu => by
    simp only [Store.handle, upd] at hu
    split at hu
    · cases hu; exact hy b rfl
    · exact h.hnd u b B hu⟩

/-- Edits that only bring together nodes of one colour. -/
theorem Tint.nodes {col : Addr → Nat} (h : Tint s col) (hs : ∀ b, (G b).isSome → (s.node b).isSome)
    (hk : ∀ f gf k, G f = some gf → k ∈ gf.val.kids → col k = col f) : Tint (s.nodes G) col :=
  ⟨fun b R hb hd => h.dep b R (hs b hb) hd, hk, h.hnd⟩

theorem Tint.attach {col : Addr → Nat} (h : Tint s col) {o : Bool} {ks : List Addr} (hc : ∀ k ∈ ks, col k = col f) (hx : col x = col f)  :
    Tint (s.nodes (s.node.attach f x o ks)) col := by
  refine h.nodes (fun b hb => ?_) fun b gb k hb hk => ?_
  · unfold Graph.attach at hb
    split at hb
    · simpa using hb
    · split at hb
      · simpa using hb
      · exact hb
  · unfold Graph.attach at hb
    split at hb
    · cases h0 : s.node b with
      | none => simp [h0] at hb
      | some g0 => rw [h0] at hb; cases hb; exact h.kid _ _ k h0 hk
    · split at hb
      · rename_i e; subst e
        cases h0 : s.node b with
        | none => simp [h0] at hb
        | some g0 =>
          rw [h0] at hb; cases hb
          simp only [GVal.kids, List.mem_append, List.mem_singleton] at hk
          rcases hk with hk | rfl
          · exact hc k hk
          · exact hx
      · exact h.kid _ _ k hb hk

theorem Tint.item {col : Addr → Nat} (h : Tint s col) {gx : GNode} {o : Bool} (hx : s.node x = some gx) :
    Tint (s.nodes (s.node.set x (gx.asItem o))) col := by
  have hv : (gx.asItem o).val = gx.val := by unfold GNode.asItem; split <;> rfl
  refine h.nodes (fun b hb => ?_) fun b gb k hb hk => ?_
  · rw [Graph.set_apply] at hb
    split at hb
    · rename_i e; subst e; simp [hx]
    · exact hb
  · rw [Graph.set_apply] at hb
    split at hb
    · rename_i e; subst e; cases hb; rw [hv] at hk; exact h.kid _ _ k hx hk
    · exact h.kid _ _ k hb hk

theorem Tint.graft {col : Addr → Nat} (h : Tint s col) {ga gx : GNode} {e : Bool} (ha : s.node a = some ga) (hx : s.node x = some gx)
    (hc : col x = col a) : Tint (s.graft a x ga gx e) col := by
  refine ⟨fun b R hb hd => ?_, fun b gb k hb hk => ?_, fun u b B hu => ?_⟩
  · simp only [Store.graft] at hd hb
    split at hd
    · rename_i e; subst e
      simp only [Bool.or_eq_true] at hd
      rcases hd with hd | hd
      · exact h.dep _ R (by simp [ha]) hd
      · rw [← hc]; exact h.dep _ R (by simp [hx]) hd
    · rename_i e
      refine h.dep b R ?_ hd
      unfold Graph.graft at hb
      rw [if_neg e] at hb
      split at hb
      · cases hb
      · split at hb
        · simpa using hb
        · exact hb
  · simp only [Store.graft, Graph.graft] at hb
    split at hb
    · rename_i e; subst e
      cases hb
      rw [← hc]; exact h.kid _ _ k hx hk
    · split at hb
      · cases hb
      · split at hb
        · cases h0 : s.node b with
          | none => simp [h0] at hb
          | some g0 => rw [h0] at hb; cases hb; exact h.kid _ _ k h0 hk
        · exact h.kid _ _ k hb hk
  · simp only [Store.graft, Option.filter_eq_some_iff] at hu
    exact h.hnd u b B hu.1

theorem Tint.use {col : Addr → Nat} (h : Tint s col) (b : Bool) (A : Nat) : Tint (s.use b A) col := by
  unfold Store.use
  split
  · exact ⟨h.dep, h.kid, h.hnd⟩
  · exact h

theorem Wf.use (h : Wf s) (b : Bool) (A : Nat) : Wf (s.use b A) := by
  unfold Store.use
  split
  · exact ⟨h.forest, h.valid, h.finite, h.hnd⟩
  · exact h

theorem Target.use {v A : Addr} {gn : GNode} (h : Target s v A a gn) (b : Bool) (B : Nat) : Target (s.use b B) v A a gn := by
  unfold Store.use
  split
  · cases h with
    | old h1 h2 => exact .old h1 h2
    | new h1 h2 h3 => exact .new h1 h2 h3
  · exact h

/-- Navigation stays within the allocator. -/
theorem Tint.leads {col : Addr → Nat} (h : Tint s col) {m : NavFn} {k : Addr} (hL : m.Leads s.node (some a) (some k)) : col k = col a := by
  generalize hy : some k = y at hL
  generalize hz : some a = z at hL
  cases hL with
  | empty => cases hz
  | begin ha => cases hz; exact h.kid _ _ _ ha (List.mem_of_head? hy.symm)
  | next hf hgf =>
    cases hz
    have h1 := h.kid _ _ k hf (by rw [hgf]; simp [GVal.kids, List.mem_of_head? hy.symm])
    rw [h1, ← h.kid _ _ a hf (by rw [hgf]; simp [GVal.kids])]
  | nextRoot => cases hy
  | array ha hgv => cases hz; exact h.kid _ _ _ ha (by rw [hgv]; exact List.mem_of_getElem? hy.symm)
  | noArray => cases hy
  | obj _ ha hgv => cases hz; exact h.kid _ _ _ ha (by rw [hgv]; exact find_mem hy.symm)
  | noObj => cases hy

theorem Tint.detach {col : Addr → Nat} (hw : Wf s) (h : Tint s col) {gf : GNode} {o : Bool} {l r : List Addr}
    (hf : s.node f = some gf) (hgf : gf.val = .con o (l ++ x :: r)) : Tint (s.nodes (s.node.detach f x o l r)) col := by
  obtain ⟨gx, hx⟩ := hw.kid hf (k := x) (by rw [hgf]; simp [GVal.kids])
  refine h.nodes (fun b hb => ?_) fun b gb k hb hk => ?_
  · unfold Graph.detach at hb
    repeat' split at hb
    all_goals simpa using hb
  · unfold Graph.detach at hb
    split at hb
    · rename_i e; subst e
      rw [hx] at hb; cases hb; exact h.kid _ _ k hx hk
    · split at hb
      · rename_i e; subst e
        rw [hf] at hb; cases hb
        refine h.kid _ _ k hf ?_
        rw [hgf]
        simp only [GVal.kids, List.mem_append, List.mem_cons] at hk ⊢
        exact hk.imp id .inr
      · split at hb
        · cases h0 : s.node b with
          | none => simp [h0] at hb
          | some g0 => rw [h0] at hb; cases hb; exact h.kid _ _ k h0 hk
        · exact h.kid b gb k hb hk

theorem Tint.moved {col : Addr → Nat} (hw : Wf s) (h : Tint s col) (hm : Moved s.node x G) : Tint (s.nodes G) col := by
  cases hm with
  | root => exact h
  | child hx hf hv => exact h.detach hw hf hv

/-- A call that brings no values of two allocators together keeps them apart. -/
theorem Tint.step {c : Call D} {r : Ans D} {col : Addr → Nat} (hw : Wf s) (h : Tint s col) (hl : Local s c) (hA : AStep fp s c r s') :
    ∃ col', Tint s' col' := by
  cases hA with
  | newAlloc => exact ⟨col, h.dep, h.kid, h.hnd⟩
  | release =>
    refine ⟨col, fun b R hb hd => ?_, fun f gf k hf hk => ?_, fun v a A hv => ?_⟩
    · simp only [Store.drop] at hb
      obtain ⟨y, hy⟩ := Option.isSome_iff_exists.1 hb
      exact h.dep b R (by simp [(Graph.only_some.1 hy).2]) hd
    · exact h.kid f gf k (Graph.only_some.1 hf).2 hk
    · simp only [Store.drop, Option.filter_eq_some_iff] at hv
      exact h.hnd v a A hv.1
  | newValue => exact ⟨col, h.handle fun a ha => (nomatch ha)⟩
  | parse ht hT hP => exact h.plant hw hT hP
  | parseNo => exact ⟨col, h⟩
  | text hk hT => exact (h.use _ _).put (hw.use _ _) (hT.use _ _) (.inl (by cases hk <;> rfl))
  | textNo => exact ⟨col, h.use _ _⟩
  | null hT => exact h.put hw hT (.inl rfl)
  | bool hT => exact h.put hw hT (.inl rfl)
  | array hT => exact h.put hw hT (.inl rfl)
  | object hT => exact h.put hw hT (.inl rfl)
  | int hT => exact h.put hw hT (.inl rfl)
  | double hT => exact h.put hw hT (.inl rfl)
  | key _ hT => exact (h.use _ _).put (hw.use _ _) (hT.use _ _) (.inr rfl)
  | keyNo => exact ⟨col, h.use _ _⟩
  | keyInArray => exact ⟨col, h.use _ _⟩
  | get => exact ⟨col, h⟩
  | @nav m v A x0 k r hv hL hn =>
    refine ⟨col, h.handle fun a ha => ?_⟩
    cases ha
    cases x0 with
    | none => exact (nomatch hL)
    | some x0 => rw [h.leads hL, h.hnd _ _ _ hv]
  | navNo => exact ⟨col, h⟩
  | copy hv hc =>
    obtain ⟨col, h1, h2, _⟩ := h.grow hw hc
    exact ⟨col, h1.handle fun a ha => by cases ha; exact h2⟩
  | copyNo => exact ⟨col, h⟩
  | move hv hm => exact ⟨col, h.moved hw hm⟩
  | moveNo => exact ⟨col, h⟩
  | addFast hc hv hm hx hk hca =>
    obtain ⟨A, gf, hv1, hf, hgf⟩ := hc
    have e := hl _ _ _ _ hv1 hv
    subst e
    have h1 := h.moved hw hm
    obtain ⟨gf', hf', hgf', _⟩ := hca.con
    have hcf := h.hnd _ _ _ hv1
    have hcx := h.hnd _ _ _ hv
    refine ⟨col, Tint.handle (Tint.attach (s := (s.nodes _).nodes _) (h1.item hx) (fun k hk => ?_) (hcx.trans hcf.symm)) fun a ha => (nomatch ha)⟩
    exact h1.kid _ _ k hf' (by rw [hgf']; exact hk)
  | add hc hv hcp =>
    obtain ⟨A, gf, hv1, hf, hgf⟩ := hc
    have e := hl _ _ _ _ hv1 hv
    subst e
    obtain ⟨col, h1, h2, h3⟩ := h.grow (A := A) hw hcp
    refine ⟨col, Tint.attach (s := (s.grow _ _).nodes _) (h1.item hcp.here) (fun k hk => ?_) (h2.trans (h3 _ _ _ hv1).symm)⟩
    exact h1.kid _ _ k (Graph.le_or _ _ hf) (by rw [hgf]; exact hk)
  | addNo => exact ⟨col, h⟩
  | delAt hc =>
    obtain ⟨A, gf, hv1, hf, hgf⟩ := hc
    exact ⟨col, h.detach hw hf hgf⟩
  | delAtNo => exact ⟨col, h⟩
  | delKey hc =>
    obtain ⟨A, gf, hv1, hf, hgf⟩ := hc
    exact ⟨col, h.detach hw hf hgf⟩
  | delKeyNo => exact ⟨col, h⟩
  | setFast hv hw' hm ha hx =>
    have e := hl _ _ _ _ hv hw'
    subst e
    exact ⟨col, Tint.handle ((h.moved hw hm).graft ha hx ((h.hnd _ _ _ hw').trans (h.hnd _ _ _ hv).symm)) fun a ha => (nomatch ha)⟩
  | setFastNew hv hw' hm =>
    have e := hl _ _ _ _ hv hw'
    subst e
    exact ⟨col, Tint.handle (Tint.handle (h.moved hw hm) fun a ha => by cases ha; exact h.hnd _ _ _ hw') fun a ha => (nomatch ha)⟩
  | set hv hw' ha hcp =>
    have e := hl _ _ _ _ hv hw'
    subst e
    obtain ⟨col, h1, h2, h3⟩ := h.grow hw hcp
    exact ⟨col, h1.graft (Graph.le_or _ _ ha) hcp.here (h2.trans (h3 _ _ _ hv).symm)⟩
  | setNew hv hw' hcp =>
    have e := hl _ _ _ _ hv hw'
    subst e
    obtain ⟨col, h1, h2, h3⟩ := h.grow hw hcp
    exact ⟨col, h1.handle fun a ha => by cases ha; exact h2⟩
  | setNo => exact ⟨col, h⟩

/-- What a client does keeps the allocators apart. -/
theorem Tint.gives : ∀ {p : Prog D} {s s' : Store} {rs} {col : Addr → Nat}, p.Gives fp s rs s' → Wf s → Tint s col → p.Local fp s →
    ∃ col', Tint s' col'
  | .done, _, _, _, _, .done, _, h, _ => ⟨_, h⟩
  | .call c k, _, _, _, _, .call hA hw1 hG, hw, h, hl =>
    let ⟨_, h1⟩ := h.step hw hl.1 hA
    Tint.gives hG hw1 h1 (hl.2 _ _ hA hw1)

/-- With the allocators apart, releasing one leaves the handles of the others as they are. -/
theorem Tint.drop {col : Addr → Nat} (h : Tint s col) {v A R : Nat} {y : Option Addr} (hv : s.hnd v = some ⟨y, A⟩) (hR : A ≠ R) :
    (s.drop R).hnd v = some ⟨y, A⟩ ∧ ∀ a t, y = some a → Unf s.node a t → Unf (s.drop R).node a t := by
  have hfree : ∀ a, y = some a → s.free R a := fun a ha b hr => by
    cases hu : s.uses b R with
    | false => rfl
    | true =>
      subst ha
      exact absurd (((h.hnd v a A hv).symm.trans (h.reach hr).symm).trans (h.used hu).symm) hR
  refine ⟨?_, fun a t ha hu => ?_⟩
  · simp only [Store.drop, Option.filter_eq_some_iff, decide_eq_true_eq]
    exact ⟨hv, hR, hfree⟩
  · exact hu.only fun b hr c hbc => hfree a ha c (hr.trans hbc)

/-- C47 for clients that make only allowed calls and never add or set a value of one allocator
to a value of another one: at the end any allocator `R` that is in use can be released, and
every handle of another allocator can be used afterwards and shows the document it showed before.
Missing for the full property: clients that bring values of two allocators together, see
`C47_false`. -/
theorem C47_local_partial {slack : Nat → Nat} {pad : Bool} (hp : pad = true → ∀ b, 3 ≤ slack b) (p : Prog D)
    (hs : p.Safe fp (Store.init pad)) (hl : p.Local fp (Store.init pad)) :
    ∃ c rs st' s', (∀ F, c ≤ F → p.run fp F (St.init slack cfg) = .ok (rs, st')) ∧ p.Gives fp (Store.init pad) rs s' ∧
      ∀ R, s'.live R = true → ∃ st'', releaseAllocator R st' = .ok ((), st'') ∧
        ∀ v y A, s'.hnd v = some ⟨y, A⟩ → A ≠ R → st''.vals v = some ⟨y, A⟩ ∧ (s'.drop R).alive v ∧
          ∀ t, Shows st' v t → Shows st'' v t := by
  obtain ⟨c, rs, st', s', P', e, hG, h⟩ := p.goes (WP.init hp) hs
  obtain ⟨col, hT⟩ := Tint.gives (col := fun _ => 0) hG (WP.init (cfg := {}) (slack := slack) hp).wf
    ⟨fun _ _ h => (nomatch h), fun _ _ _ h => (nomatch h), fun _ _ _ h => (nomatch h)⟩ hl
  refine ⟨c, rs, st', s', e, hG, fun R hR => ?_⟩
  obtain ⟨c', st'', r, s'', P'', e', hA, h'⟩ := step_release (fp := fp) h hR
  generalize hr : r = r' at hA
  cases hA with | release _ => ?_
  refine ⟨st'', ?_, fun v y A hv hne => ?_⟩
  · have hrel := release_run (st := st') (R := R) (by rw [← h.live]; exact hR)
    have := e' c' (Nat.le_refl _)
    have hx : exec fp c' (.release R) st' = .ok (.unit, st'.without R) := by
      simp only [exec]; mstep hrel; rfl
    rw [hx] at this; cases this
    exact hrel
  · obtain ⟨h1, h2⟩ := hT.drop hv hne
    refine ⟨(h'.hnd v _ h1).1, by simp [Store.alive, h1], fun t ht => ?_⟩
    cases y with
    | none => obtain ⟨a, A', e, _⟩ := ht; rw [(h.hnd v _ hv).1] at e; cases e
    | some a =>
      obtain ⟨hv1, hv2⟩ := h.hnd v _ hv
      obtain ⟨gx, hx⟩ := Option.isSome_iff_exists.1 (hv2 a rfl)
      obtain ⟨u, hu⟩ := h.inv.fin a gx hx
      rw [(h.inv.shows hv1 hu).det ht] at hu
      exact h'.inv.shows (h'.hnd v _ h1).1 (h2 a _ rfl hu)

/-- A client with two allocators. It puts a copy of a value of the first one into an array of the
first one. -/
def ownClient : Prog D :=
  .call .newAlloc fun
  | .alloc A => .call .newAlloc fun
    | .alloc B => .call (.newValue A) fun
      | .handle (some v) => .call (.newValue A) fun
        | .handle (some u) => .call (.newValue B) fun
          | .handle (some w) => .call (.array v) fun _ => .call (.bool u true) fun _ => .call (.null w) fun _ =>
            .call (.add false false v u) fun _ => .done
          | _ => .done
        | _ => .done
      | _ => .done
    | _ => .done
  | _ => .done

theorem put_owns {v u A B : Nat} {gn gn' : GNode} {tl : Bool} {y : Option Addr} (hT : Target s v A a gn) (h : s.hnd u = some ⟨y, B⟩) :
    ∃ y', (s.put v A a gn' tl).hnd u = some ⟨y', B⟩ := by
  simp only [Store.put, upd]
  split
  · rename_i e; subst e
    have : A = B := by cases hT with | old e _ => rw [e] at h; cases h; rfl | new e _ => rw [e] at h; cases h; rfl
    exact ⟨_, by rw [this]⟩
  · exact ⟨_, h⟩

theorem owns_step {c : Call D} {r : Ans D} {u B : Nat} {y : Option Addr}
    (hc : (∃ v, c = .array v) ∨ (∃ v b, c = .bool v b) ∨ ∃ v, c = .null v) (hA : AStep fp s c r s') (h : s.hnd u = some ⟨y, B⟩) :
    ∃ y', s'.hnd u = some ⟨y', B⟩ := by
  rcases hc with ⟨v, rfl⟩ | ⟨v, b, rfl⟩ | ⟨v, rfl⟩ <;> cases hA <;> exact put_owns ‹_› h

/-- It meets the hypotheses of `C47_local_partial`. -/
theorem ownClient_local : (ownClient : Prog D).Safe fp (Store.init false) ∧ (ownClient : Prog D).Local fp (Store.init false) := by
  suffices h : (ownClient : Prog D).Plain fp (Store.init false) ∧ (ownClient : Prog D).Local fp (Store.init false) from
    ⟨h.1.safe (WP.init (cfg := {}) (slack := fun _ => 0) (pad := false) nofun).wf fun _ _ h => (nomatch h), h.2⟩
  suffices h : ∀ A B, A ≠ B → ∀ s : Store, s.live A = true → s.live B = true → ∀ v u w yv yu yw, s.hnd v = some ⟨yv, A⟩ →
      s.hnd u = some ⟨yu, A⟩ → s.hnd w = some ⟨yw, B⟩ →
      (Prog.call (.array v) fun _ => .call (.bool u true) fun _ => .call (.null w) fun _ =>
            .call (.add false false v u) fun _ => .done : Prog D).Plain fp s ∧
      (Prog.call (.array v) fun _ => .call (.bool u true) fun _ => .call (.null w) fun _ =>
            .call (.add false false v u) fun _ => .done : Prog D).Local fp s by
    constructor
    all_goals
      refine ⟨trivial, fun r s1 h1 _ => ?_⟩
      cases h1 with | @newAlloc A hA => ?_
      refine ⟨trivial, fun r s2 h2 _ => ?_⟩
      cases h2 with | @newAlloc B hB => ?_
      have hAB : A ≠ B := by rintro rfl; simp [upd] at hB
      refine ⟨by simp [ZJ.Plain, Legit, ZJ.Local, upd, hAB], fun r s3 h3 _ => ?_⟩
      cases h3 with | @newValue _ v hl hn => ?_
      refine ⟨by simp [ZJ.Plain, Legit, ZJ.Local, Store.handle, upd, hAB], fun r s4 h4 _ => ?_⟩
      cases h4 with | @newValue _ u hl1 hn1 => ?_
      refine ⟨by simp [ZJ.Plain, Legit, ZJ.Local, Store.handle, upd, hAB], fun r s5 h5 _ => ?_⟩
      cases h5 with | @newValue _ w hl2 hn2 => ?_
      have e1 : v ≠ u := by rintro rfl; simp [Store.handle, upd] at hn1
      have e2 : v ≠ w := by rintro rfl; simp [Store.handle, upd, e1] at hn2
      have e3 : u ≠ w := by rintro rfl; simp [Store.handle, upd] at hn2
      first
      | refine (h A B hAB _ ?_ ?_ v u w none none none ?_ ?_ ?_).1
      | refine (h A B hAB _ ?_ ?_ v u w none none none ?_ ?_ ?_).2
      · simp [Store.handle, upd, hAB]
      · simp [Store.handle, upd]
      · simp only [Store.handle, upd]; simp [e1, e2]
      · simp only [Store.handle, upd]; simp [e3]
      · simp [Store.handle, upd]
  intro A B hAB s hA hB v u w yv yu yw hv hu hw
  constructor
  all_goals
    refine ⟨by simp [ZJ.Plain, Legit, ZJ.Local, Store.alive, hv], fun r s1 h1 _ => ?_⟩
    obtain ⟨yv, hv⟩ := owns_step (by simp) h1 hv
    obtain ⟨yu, hu⟩ := owns_step (by simp) h1 hu
    obtain ⟨yw, hw⟩ := owns_step (by simp) h1 hw
    refine ⟨by simp [ZJ.Plain, Legit, ZJ.Local, Store.alive, hu], fun r s1 h1 _ => ?_⟩
    obtain ⟨yv, hv⟩ := owns_step (by simp) h1 hv
    obtain ⟨yu, hu⟩ := owns_step (by simp) h1 hu
    obtain ⟨yw, hw⟩ := owns_step (by simp) h1 hw
    refine ⟨by simp [ZJ.Plain, Legit, ZJ.Local, Store.alive, hw], fun r s1 h1 _ => ?_⟩
    obtain ⟨yv, hv⟩ := owns_step (by simp) h1 hv
    obtain ⟨yu, hu⟩ := owns_step (by simp) h1 hu
    refine ⟨?_, fun r s1 h1 _ => trivial⟩
  · simp [ZJ.Plain, Store.alive, hv, hu]
  · intro x y A' B' h1 h2
    rw [hv] at h1; rw [hu] at h2; cases h1; cases h2; rfl

/-- The array of the first allocator after the second one is released, and the value of the
second one after the first one is released. -/
example : ((Prog.seq [.newAlloc, .newAlloc, .newValue 0, .newValue 0, .newValue 1, .array 0, .bool 1 true, .null 2,
    .add false false 0 1, .release 1, .get .print 0]).run (⟨fun _ => [], fun _ => ()⟩ : FP Unit) 99 (St.init fun _ => 0)).out =
    .ok [.alloc 0, .alloc 1, .handle (some 0), .handle (some 1), .handle (some 2), .unit, .unit, .unit, .bool true, .unit,
      .bytes (some b!"[true]")] := by decide +kernel

/-- C47 is false: `zj_ArrayAdd` makes the copy with the allocator of the value that is added.
When that allocator is released, the array, whose own allocator is in use, cannot be printed. -/
theorem C47_false : ((Prog.seq [.newAlloc, .newAlloc, .newValue 0, .newValue 1, .array 0, .null 1,
    .add false false 0 1, .release 1, .get .print 0]).run (⟨fun _ => [], fun _ => ()⟩ : FP Unit) 99 (St.init fun _ => 0)).out =
    .ub .wild := by decide +kernel

end ZJ
