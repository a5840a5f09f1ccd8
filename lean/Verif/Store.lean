import Verif.StringifySim

/-
The abstract store: its operations, what they do to the documents in it, and the
lemma by which changed memory is shown to represent a changed store.
-/

set_option linter.unusedSimpArgs false

namespace ZJ

/-! ### Documents depend only on values and keys below -/

/-- The values of the nodes at and below `a`, and the keys of the nodes below `a`, are
the same in `G'`. -/
structure SameBelow (G G' : Graph) (a : Addr) : Prop where
  val : ∀ c gn, Reach G a c → G c = some gn → ∃ gn', G' c = some gn' ∧ gn'.val = gn.val
  key : ∀ c gn k gk, Reach G a c → G c = some gn → k ∈ gn.val.kids → G k = some gk →
    ∃ gk', G' k = some gk' ∧ gk'.key = gk.key

theorem SameBelow.kid {G G' : Graph} {a gn k} (h : SameBelow G G' a) (ha : G a = some gn)
    (hk : k ∈ gn.val.kids) : SameBelow G G' k :=
  ⟨fun c gc hc => h.val c gc (.step ha hk hc), fun c gc k' gk hc => h.key c gc k' gk (.step ha hk hc)⟩

mutual
theorem Unf.same {G G' : Graph} : ∀ {a t}, Unf G a t → SameBelow G G' a → Unf G' a t
  | _, _, .mk ha hv, h => by
    obtain ⟨gn', h1, h2⟩ := h.val _ _ .refl ha
    refine .mk h1 ?_
    rw [h2]
    exact UnfV.same hv (fun k hk => h.kid ha hk) (fun k gk hk hg => h.key _ _ k gk .refl ha hk hg)
theorem UnfV.same {G G' : Graph} : ∀ {gv t}, UnfV G gv t → (∀ k ∈ gv.kids, SameBelow G G' k) →
    (∀ k gk, k ∈ gv.kids → G k = some gk → ∃ gk', G' k = some gk' ∧ gk'.key = gk.key) →
    UnfV G' gv t
  | _, _, .scalar hs, _, _ => .scalar hs
  | _, _, .con hi, h, h' => .con (UnfI.same hi h h')
theorem UnfI.same {G G' : Graph} : ∀ {o ks xs}, UnfI G o ks xs → (∀ k ∈ ks, SameBelow G G' k) →
    (∀ k gk, k ∈ ks → G k = some gk → ∃ gk', G' k = some gk' ∧ gk'.key = gk.key) →
    UnfI G' o ks xs
  | _, _, _, .nil, _, _ => .nil
  | _, _, _, .cons hk hkey hu hr, h, h' => by
    obtain ⟨gk', h1, h2⟩ := h' _ _ (by simp) hk
    exact .cons h1 (by rw [h2]; exact hkey) (Unf.same hu (h _ (by simp)))
      (UnfI.same hr (fun k hk => h k (by simp [hk])) (fun k gk hk hg => h' k gk (by simp [hk]) hg))
end

theorem UnfI.split {G : Graph} : ∀ {o l r xs}, UnfI G o (l ++ r) xs →
    ∃ ys zs, xs = ys ++ zs ∧ UnfI G o l ys ∧ UnfI G o r zs
  | _, [], _, xs, h => ⟨[], xs, rfl, .nil, h⟩
  | _, k :: l, r, _, .cons hk hkey hu hr => by
    obtain ⟨ys, zs, h1, h2, h3⟩ := UnfI.split hr
    exact ⟨_ :: ys, zs, by rw [h1]; rfl, .cons hk hkey hu h2, h3⟩

theorem UnfI.mem {G : Graph} : ∀ {o ks xs k}, UnfI G o ks xs → k ∈ ks → ∃ gk t, G k = some gk ∧ Unf G k t
  | _, _, _, _, .nil, h => by cases h
  | _, _, _, _, .cons hk _ hu hr, h => by
    rcases List.mem_cons.1 h with rfl | h
    · exact ⟨_, _, hk, hu⟩
    · exact UnfI.mem hr h

theorem Unf.con_inv {G : Graph} {a t gn o kids} (h : Unf G a t) (ha : G a = some gn)
    (hv : gn.val = .con o kids) : ∃ xs, t = mkCon o xs ∧ UnfI G o kids xs := by
  cases h with
  | mk ha' hu =>
    rw [ha] at ha'; cases ha'
    rw [hv] at hu
    cases hu with
    | scalar h => cases h
    | con h => exact ⟨_, rfl, h⟩

/-! ### Single-node changes -/

/-- Only `a` changes and `a` is not below `b`: the document at `b` stays. -/
theorem Unf.set_ne {G : Graph} {a b gn t} (h : Unf G b t) (hr : ¬ Reach G b a) :
    Unf (G.set a gn) b t := by
  refine h.same ⟨fun c gc hc hg => ⟨gc, ?_, rfl⟩, fun c gc k gk hc hg hk hgk => ⟨gk, ?_, rfl⟩⟩
  · rw [Graph.set_ne G gn (show c ≠ a from fun e => hr (e ▸ hc)), hg]
  · rw [Graph.set_ne G gn (show k ≠ a from fun e => hr (e ▸ hc.trans (.step hg hk .refl))), hgk]

/-- A new key or parent of the top node does not matter. -/
theorem Unf.set_top {G : Graph} {a gn gn' t} (h : Unf G a t) (ha : G a = some gn)
    (hv : gn'.val = gn.val) : Unf (G.set a gn') a t := by
  refine h.same ⟨fun c gc hc hg => ?_, fun c gc k gk hc hg hk hgk => ?_⟩
  · by_cases hca : c = a
    · subst hca; rw [ha] at hg; cases hg; exact ⟨gn', by simp, hv⟩
    · exact ⟨gc, by rw [Graph.set_ne _ _ hca, hg], rfl⟩
  · refine ⟨gk, ?_, rfl⟩
    rw [Graph.set_ne _ _ ?_, hgk]
    rintro rfl
    have : Unf G k t := h
    obtain ⟨tc, hc1, _⟩ := Unf.reach_count hc h
    exact hc1.kid_ne hg hk hc rfl

/-! ### Memory of a changed store -/

section
variable {st st' : St} {P P' : Addr → Prop} {G G' : Graph}

/-- Key and value of a node are stored as before. -/
structure SameBody (n n' : Node) (gn gn' : GNode) : Prop where
  key : n'.key = n.key
  keyLen : n'.keyLen = n.keyLen
  type : n'.type = n.type
  value : n'.value = n.value
  len : n'.len = n.len
  end_ : n'.end_ = n.end_
  gkey : gn'.key = gn.key
  gval : gn'.val = gn.val
  gend : gn'.endOK = gn.endOK

theorem SameBody.rfl {n gn} : SameBody n n gn gn :=
  ⟨Eq.refl _, Eq.refl _, Eq.refl _, Eq.refl _, Eq.refl _, Eq.refl _, Eq.refl _, Eq.refl _, Eq.refl _⟩

theorem NodeOK.body {a gn gn' n n'} (h : NodeOK st P G a gn n) (hs : SameBody n n' gn gn')
    (hf : n'.father = some gn'.par) (hr : gn'.par = none → n'.next = some none ∧ n'.prev = some none)
    (hl : ∀ k ∈ gn.val.kids, LinksSame st st' G G' k) (hP : ∀ b, P b → P' b)
    (hb : ∀ b, P b → st'.bufs b = st.bufs b) : NodeOK st' P' G' a gn' n' where
  key := by
    rw [hs.gkey]
    exact (h.key.mono hP hb).fields hs.key hs.keyLen
  father := hf
  root := hr
  val := by
    rw [hs.gval, hs.gend]
    exact (h.val.update hl hP hb).fields hs.type hs.value hs.len hs.end_

/-- How memory of a changed store is checked, node by node. -/
theorem Inv.change (hI : Inv st P G) (hok : StOK st') (hpin : PinOK st' P') (hP : ∀ b, P b → P' b)
    (hb : ∀ b, P b → st'.bufs b = st.bufs b)
    (h : ∀ a gn', G' a = some gn' →
      (∃ gn n n', G a = some gn ∧ st.nodes a = some n ∧ st'.nodes a = some n' ∧
        SameBody n n' gn gn' ∧ n'.father = some gn'.par ∧
        (gn'.par = none → n'.next = some none ∧ n'.prev = some none) ∧
        ∀ k ∈ gn.val.kids, LinksSame st st' G G' k) ∨
      ∃ n', st'.nodes a = some n' ∧ NodeOK st' P' G' a gn' n')
    (hfin : ∀ a gn', G' a = some gn' → ∃ t, Unf G' a t) : Inv st' P' G' where
  ok := hok
  pin := hpin
  rep := by
    intro a gn' ha
    rcases h a gn' ha with ⟨gn, n, n', h1, h2, h3, h4, h5, h6, h7⟩ | h
    · obtain ⟨m, hm, hnok⟩ := hI.rep a gn h1
      rw [h2] at hm; cases hm
      exact ⟨n', h3, hnok.body h4 h5 h6 h7 hP hb⟩
    · exact h
  fin := hfin

/-- A node that did not change. -/
theorem Inv.keep (hI : Inv st P G) {a gn} (ha : G a = some gn)
    (hn : st'.nodes a = st.nodes a) (hl : ∀ k ∈ gn.val.kids, LinksSame st st' G G' k) :
    ∃ gn0 n n', G a = some gn0 ∧ st.nodes a = some n ∧ st'.nodes a = some n' ∧
        SameBody n n' gn0 gn ∧ n'.father = some gn.par ∧
        (gn.par = none → n'.next = some none ∧ n'.prev = some none) ∧
        ∀ k ∈ gn0.val.kids, LinksSame st st' G G' k := by
  obtain ⟨n, h1, h2⟩ := hI.rep a gn ha
  exact ⟨gn, n, n, ha, h1, by rw [hn, h1], .rfl, h2.father, h2.root, hl⟩

/-- A child knows its parent. -/
theorem Inv.kid (hI : Inv st P G) {f gf k} (hf : G f = some gf) (hk : k ∈ gf.val.kids) :
    ∃ gk, G k = some gk ∧ gk.par = some f := by
  obtain ⟨n, _, h2⟩ := hI.rep f gf hf
  have := h2.val
  generalize gf.val = gv at this hk
  cases gv with
  | con o kids =>
    obtain ⟨gk, a1, a2, _⟩ := ConOK.kid this k hk
    exact ⟨gk, a1, a2⟩
  | _ => simp [GVal.kids] at hk

theorem Inv.con (hI : Inv st P G) {f gf o kids} (hf : G f = some gf) (hv : gf.val = .con o kids) :
    ∃ n, st.nodes f = some n ∧ ConOK st G f n o kids gf.endOK ∧ NodeOK st P G f gf n := by
  obtain ⟨n, h1, h2⟩ := hI.rep f gf hf
  have := h2.val
  rw [hv] at this
  exact ⟨n, h1, this, h2⟩

theorem Inv.not_kid (hI : Inv st P G) {a gn} (ha : G a = some gn) (hp : gn.par = none) {f gf}
    (hf : G f = some gf) : a ∉ gf.val.kids := by
  intro h
  obtain ⟨gk, h1, h2⟩ := hI.kid hf h
  rw [ha] at h1; cases h1
  rw [hp] at h2; cases h2

end

/-! ### States -/

section
variable {st : St} {a v A : Addr}

theorem StOK.setN (ho : StOK st) {n n'} (hn : st.nodes a = some n) : StOK (st.setN a n') where
  nodes b hb := by
    have := ho.node_lt hn
    have : b ≠ a := by simp at hb; omega
    simp [this]; exact ho.nodes b hb
  vals := ho.vals
  bufs := ho.bufs
  size := ho.size
  live := ho.live
  cache := ho.cache

theorem StOK.setV (ho : StOK st) {x x'} (hx : st.vals v = some x) (ha : x'.a = x.a) :
    StOK (st.setV v x') where
  nodes := ho.nodes
  vals b hb := by
    have := ho.val_lt hx
    have : b ≠ v := by simp at hb; omega
    simp [this]; exact ho.vals b hb
  bufs := ho.bufs
  size := ho.size
  live w y hw := by
    simp at hw
    split at hw
    · cases hw; rw [ha]; exact ho.live v x hx
    · exact ho.live w y hw
  cache := ho.cache

theorem StOK.addN (ho : StOK st) : StOK (st.addN A) where
  nodes b hb := by
    have : b ≠ st.nn := by simp at hb; omega
    simp [this]; exact ho.nodes b (by simp at hb; omega)
  vals := ho.vals
  bufs := ho.bufs
  size := ho.size
  live := ho.live
  cache := ho.cache

theorem StOK.addV (ho : StOK st) {x} (ha : st.allocs A = true) : StOK (st.addV A x) where
  nodes := ho.nodes
  vals b hb := by
    have : b ≠ st.nv := by simp at hb; omega
    simp [this]; exact ho.vals b (by simp at hb; omega)
  bufs := ho.bufs
  size := ho.size
  live w y hw := by
    simp at hw
    split at hw
    · cases hw; exact ha
    · exact ho.live w y hw
  cache := ho.cache

theorem frame_setN {n : Node} : Frame (· = a) (fun _ => False) (fun _ => False) st (st.setN a n) :=
  ⟨fun b _ h => by simp [h], fun _ _ _ => rfl, fun _ _ _ => rfl, Nat.le_refl _, Nat.le_refl _,
    Nat.le_refl _, rfl, rfl, rfl⟩

theorem frame_setV {x : Val} : Frame (fun _ => False) (· = v) (fun _ => False) st (st.setV v x) :=
  ⟨fun _ _ _ => rfl, fun b _ h => by simp [h], fun _ _ _ => rfl, Nat.le_refl _, Nat.le_refl _,
    Nat.le_refl _, rfl, rfl, rfl⟩

theorem unch_addN : Unchanged st (st.addN A) :=
  ⟨⟨fun b hb _ => by
      have : b ≠ st.nn := by omega
      simp [this], fun _ _ _ => rfl, fun _ _ _ => rfl, by simp, Nat.le_refl _,
    Nat.le_refl _, rfl, rfl, rfl⟩, rfl⟩

theorem unch_addV {x} : Unchanged st (st.addV A x) :=
  ⟨⟨fun _ _ _ => rfl, fun b hb _ => by
      have : b ≠ st.nv := by omega
      simp [this], fun _ _ _ => rfl, Nat.le_refl _, by simp,
    Nat.le_refl _, rfl, rfl, rfl⟩, rfl⟩

theorem Unchanged.refl : Unchanged st st := ⟨Frame.refl _, rfl⟩

end

end ZJ
