import Verif.CopySim

/-
`zj_ObjAdd`, `zj_ArrayAdd` (zzzjson.h:2669-2693, 2720-2741), `zj_SetFast`
(2595-2616) and `zj_Set` (2619-2639).
-/

set_option linter.unusedSimpArgs false

namespace ZJ

/-! ### Adding a copy -/

section
variable {st st' : St} {P P' : Addr → Prop} {G g : Graph} {v vv f x r n A A' : Addr} {gf gx : GNode} {o : Bool}
  {kids : List Addr} {t : Json} {key : Option Bytes}

/-- From a new node only new nodes are reached. -/
theorem Copied.reach (h : Copied A st st' P P' G g r n key t) (hI : Inv st P G) {b c}
    (hr : Reach (G.or g) b c) (hb : (g b).isSome) : st.nn ≤ c := by
  have hfin : ∀ b c, Reach (G.or g) b c → (∃ t, Unf g b t) → (∃ t, Unf g c t) := by
    intro b c hr
    induction hr with
    | refl => exact id
    | @step b gn k c hb hk _ ih =>
      rintro ⟨t, ht⟩
      cases ht with
      | mk hb' hu =>
        rw [Graph.or_old h.new hb' hI] at hb
        cases hb
        refine ih ?_
        cases hgv : gn.val with
        | con o ks =>
          rw [hgv] at hu hk
          cases hu with
          | scalar h => cases h
          | con hi =>
            obtain ⟨_, t, _, h2⟩ := UnfI.mem hi hk
            exact ⟨t, h2⟩
        | _ => rw [hgv] at hk; cases hk
  have hfin0 : ∃ t, Unf g b t := by
    obtain ⟨y, hy⟩ := Option.isSome_iff_exists.1 hb
    exact h.fin b y hy
  obtain ⟨t', ht⟩ := hfin b c hr hfin0
  cases ht with
  | mk hc _ => exact h.new c _ hc

theorem Copied.grow (h : Copied A st st' P P' G g r n key t) (hI : Inv st P G) {b gb} (hb : g b = some gb) :
    (G.or g) b = some gb := Graph.or_old h.new hb hI

theorem Copied.old (h : Copied A st st' P P' G g r n key t) {b} (hb : b < st.nn) : ((G.or g) b) = G b := by
  cases hg : G b with
  | some y => simp [Graph.or, hg]
  | none =>
    cases h' : g b with
    | none => simp [Graph.or, hg, h']
    | some y => have := h.new b y h'; omega

/-- `zj_ObjAdd`: a copy of the value, key included, becomes the last member. -/
theorem objAdd_run (hI : Inv st P G) (hv : st.vals v = some ⟨some f, A⟩)
    (hvv : st.vals vv = some ⟨some x, A'⟩) (hf : G f = some gf) (hgf : gf.val = .con true kids)
    (he : kids = [] ∨ gf.endOK = true) (hx : G x = some gx) (hk : gx.key.isSome) (hu : Unf G x t) :
    ∃ c st1 st' n g P', (∀ F, objAdd (F + c) v vv st = .ok (true, st')) ∧
      Copied A' st st1 P P' G g st.nv n gx.key t ∧
      Did (fun _ => False) (fun _ => False) st st' P P' G ((G.or g).attach f n true kids) ∧
      st'.vals = st1.vals ∧
      (do setFather n (some f); attach f n : M Unit) st1 = .ok ((), st') := by
  obtain ⟨c, st1, n, g, P', hrun, hC⟩ := copy_run hI hvv hx hu
  obtain ⟨gn, hn, hp, hkey, _⟩ := hC.root
  have hflt := hI.lt hf
  have hf1 : (G.or g) f = some gf := by rw [hC.old hflt, hf]
  have hn1 := hC.grow hI hn
  have hr : ¬ Reach (G.or g) n f := fun h => by
    have := hC.reach hI h (by simp [hn]); omega
  have hk1 : gn.key.isSome = true := by rw [hkey]; exact hk
  obtain ⟨st2, e2, hat⟩ := attach_run hC.did.inv hf1 hgf hn1 hp hr he
  have d2 : Did (fun _ => False) (fun _ => False) st1 st2 P' P' _ _ :=
    hat.did hC.did.inv hf1 hgf hn1 hp hr hk1
  obtain ⟨nx, hnx, hnxok⟩ := hI.rep x gx hx
  obtain ⟨k, hk'⟩ := Option.isSome_iff_exists.1 hk
  have hnk := hnxok.key
  rw [hk'] at hnk
  obtain ⟨p, hp', _⟩ := hnk
  refine ⟨c, st1, st2, n, g, P', fun F => ?_, hC, ?_, by rw [hat.rest], e2⟩
  · unfold objAdd
    mstep rdVal_run hv
    simp only
    mstep hI.nType hf
    rw [hgf, if_neg (by simp [GVal.type, conType])]
    mstep rdVal_run hvv
    simp only
    mstep nKey_run hnx hp'
    rw [if_neg (by simp)]
    mstep hrun F
    simp only
    have e0 : valN st.nv st1 = .ok (n, st1) := by
      unfold valN; mstep rdVal_run hC.handle; rfl
    mstep e0
    rw [← M.bind_assoc]
    mstep e2
    rfl
  · exact hC.did.trans d2 (fun b hb h => by rwa [hC.old hb] at h) (fun _ _ h => h) (fun _ _ h => h)

/-- `zj_ArrayAdd`: a copy of the value without its key becomes the last element. -/
theorem arrayAdd_run (hI : Inv st P G) (hv : st.vals v = some ⟨some f, A⟩)
    (hvv : st.vals vv = some ⟨some x, A'⟩) (hf : G f = some gf) (hgf : gf.val = .con false kids)
    (he : kids = [] ∨ gf.endOK = true) (hx : G x = some gx) (hu : Unf G x t) :
    ∃ c st1 st' n g gn P', (∀ F, arrayAdd (F + c) v vv st = .ok (true, st')) ∧
      Copied A' st st1 P P' G g st.nv n gx.key t ∧ g n = some gn ∧
      Did (fun _ => False) (fun _ => False) st st' P P' G
        (((G.or g).set n { gn with key := none }).attach f n false kids) ∧
      st'.vals = st1.vals ∧
      (do setKey n none; setFather n (some f); attach f n : M Unit) st1 = .ok ((), st') := by
  obtain ⟨c, st1, n, g, P', hrun, hC⟩ := copy_run hI hvv hx hu
  obtain ⟨gn, hn, hp, hkey, _⟩ := hC.root
  have hflt := hI.lt hf
  have hf1 : (G.or g) f = some gf := by rw [hC.old hflt, hf]
  have hn1 := hC.grow hI hn
  have hnn := hC.new n gn hn
  have hr : ¬ Reach (G.or g) n f := fun h => by
    have := hC.reach hI h (by simp [hn]); omega
  obtain ⟨st2, e2, d2, hv2, hnn2, hb2⟩ := clearKey_run hC.did.inv hn1 hp
  obtain ⟨⟨gf1, hf2, hgf2, he2⟩, hr2⟩ := CanAdd.clearKey (o := false) (kids := kids) ⟨⟨gf, hf1, hgf, he⟩, hr⟩ hn1
  obtain ⟨st3, e3, hat⟩ := attach_run d2.inv hf2 hgf2 (Graph.set_same _ _ _) hp hr2 he2
  have d3 : Did (fun _ => False) (fun _ => False) st2 st3 P' P' _ _ :=
    hat.did d2.inv hf2 hgf2 (Graph.set_same _ _ _) hp hr2 rfl
  refine ⟨c, st1, st3, n, g, gn, P', fun F => ?_, hC, hn, ?_, by rw [hat.rest]; exact hv2,
    by mstep e2; exact e3⟩
  · unfold arrayAdd
    mstep rdVal_run hv
    simp only
    mstep hI.nType hf
    rw [hgf, if_neg (by simp [GVal.type, conType])]
    mstep hrun F
    simp only
    have e0 : valN st.nv st1 = .ok (n, st1) := by
      unfold valN; mstep rdVal_run hC.handle; rfl
    mstep e0
    mstep e2
    rw [← M.bind_assoc]
    mstep e3
    rfl
  · have h12 := hC.did.trans d2 (fun b hb h => by rwa [hC.old hb] at h) (fun _ _ h => h) (fun _ _ h => h)
    refine h12.trans d3 (fun b hb h => ?_) (fun _ _ h => h) (fun _ _ h => h)
    rwa [Graph.set_ne _ _ (by omega), hC.old hb] at h

/-- Adding an empty handle's value fails. -/
theorem arrayAdd_emptyArg (hI : Inv st P G) (hv : st.vals v = some ⟨some f, A⟩)
    (hvv : st.vals vv = some ⟨none, A'⟩) (hf : G f = some gf) (hgf : gf.val = .con false kids) {F : Nat} :
    arrayAdd F v vv st = .ok (false, st.addV A' none) := by
  unfold arrayAdd
  mstep rdVal_run hv
  simp only
  mstep hI.nType hf
  rw [hgf, if_neg (by simp [GVal.type, conType])]
  mstep copy_empty hI hvv
  rfl
end

/-! ### Grafting -/

/-- `a` takes over the value of `x`, and `x` is dropped. -/
def Graph.graft (G : Graph) (a x : Addr) (ga gx : GNode) (e : Bool) : Graph := fun b =>
  if b = a then some { ga with val := gx.val, endOK := e }
  else if b = x then none
  else if b ∈ gx.val.kids then (G b).map fun gk => { gk with par := some a }
  else G b

/-- The memory after grafting. -/
structure Grafted (st st' : St) (a x : Addr) (kids : List Addr) (e : Bool) : Prop where
  self : ∃ na nx E, st.nodes a = some na ∧ st.nodes x = some nx ∧
    st'.nodes a = some { na with type := nx.type, value := nx.value, len := nx.len, end_ := E } ∧
    (e = true → kids ≠ [] → E = some (lastOr none kids))
  kid : ∀ k ∈ kids, ∃ n, st.nodes k = some n ∧ st'.nodes k = some { n with father := some (some a) }
  other : ∀ c, c ≠ a → c ∉ kids → st'.nodes c = st.nodes c
  rest : st' = { st with nodes := st'.nodes }

section
variable {st st' : St} {P : Addr → Prop} {G : Graph} {a x b : Addr} {ga gx gb : GNode} {e : Bool} {t : Json}

theorem graft_self : G.graft a x ga gx e a = some { ga with val := gx.val, endOK := e } := by
  simp [Graph.graft]

theorem graft_same {c gc} (h1 : c ≠ a) (h2 : c ≠ x) (hc : G c = some gc) :
    ∃ gc', G.graft a x ga gx e c = some gc' ∧ gc'.val = gc.val ∧ gc'.key = gc.key ∧ gc'.prevOK = gc.prevOK ∧
      (c ∉ gx.val.kids → gc' = gc) := by
  by_cases h3 : c ∈ gx.val.kids
  · exact ⟨{ gc with par := some a }, by simp [Graph.graft, h1, h2, h3, hc], rfl, rfl, rfl, fun h => absurd h3 h⟩
  · exact ⟨gc, by simp [Graph.graft, h1, h2, h3, hc], rfl, rfl, rfl, fun _ => rfl⟩

/-- A document without `a` in it, other than `x`, stays. -/
theorem graft_doc_other (hI : Inv st P G) (hx : G x = some gx) (hp : gx.par = none)
    (hb : Unf G b t) (hbx : b ≠ x) (hr : ¬ Reach G b a) : Unf (G.graft a x ga gx e) b t := by
  have hxr : ∀ b c, Reach G b c → b ≠ x → c ≠ x := by
    intro b c h
    induction h with
    | refl => exact id
    | @step b gn k c hb hk _ ih =>
      intro _
      refine ih ?_
      rintro rfl
      exact hI.not_kid hx hp hb hk
  refine hb.same ⟨fun c gc hc hg => ?_, fun c gc k gk hc hg hk hgk => ?_⟩
  · obtain ⟨gc', h1, h2, _⟩ := graft_same (a := a) (x := x) (ga := ga) (gx := gx) (e := e)
      (fun e => hr (e ▸ hc)) (hxr b c hc hbx) hg
    exact ⟨gc', h1, h2⟩
  · have hck := hc.trans (.step hg hk .refl)
    obtain ⟨gc', h1, _, h2, _⟩ := graft_same (a := a) (x := x) (ga := ga) (gx := gx) (e := e)
      (fun e => hr (e ▸ hck)) (hxr b k hck hbx) hgk
    exact ⟨gc', h1, h2⟩

/-- `a` has the document `x` had. -/
theorem graft_doc (hI : Inv st P G) (hx : G x = some gx) (hp : gx.par = none)
    (ht : Unf G x t) (hr : ¬ Reach G x a) : UnfV (G.graft a x ga gx e) gx.val t ∧ Unf (G.graft a x ga gx e) a t := by
  have hV : UnfV (G.graft a x ga gx e) gx.val t := by
    cases ht with
    | mk hx' hu =>
      rw [hx] at hx'; cases hx'
      have hkx : ∀ k ∈ gx.val.kids, k ≠ x := by
        rintro k hk rfl
        exact hI.not_kid hx hp hx hk
      refine UnfV.same hu (fun k hk => ?_) (fun k gk hk hg => ?_)
      · have hka : ∀ c, Reach G k c → c ≠ a := fun c hc e => hr (e ▸ .step hx hk hc)
        have hkx' : ∀ c, Reach G k c → c ≠ x := fun c hc => by
          have hxr : ∀ b c, Reach G b c → b ≠ x → c ≠ x := by
            intro b c h
            induction h with
            | refl => exact id
            | @step b gn k c hb hk _ ih =>
              intro _
              refine ih ?_
              rintro rfl
              exact hI.not_kid hx hp hb hk
          exact hxr k c hc (hkx k hk)
        refine ⟨fun c gc hc hg => ?_, fun c gc k' gk hc hg hk' hgk => ?_⟩
        · obtain ⟨gc', h1, h2, _⟩ := graft_same (a := a) (x := x) (ga := ga) (gx := gx) (e := e) (hka c hc) (hkx' c hc) hg
          exact ⟨gc', h1, h2⟩
        · have hck := hc.trans (.step hg hk' .refl)
          obtain ⟨gc', h1, _, h2, _⟩ := graft_same (a := a) (x := x) (ga := ga) (gx := gx) (e := e) (hka k' hck) (hkx' k' hck) hgk
          exact ⟨gc', h1, h2⟩
      · obtain ⟨gc', h1, _, h2, _⟩ := graft_same (a := a) (x := x) (ga := ga) (gx := gx) (e := e)
          (fun e => hr (e ▸ .step hx hk .refl)) (hkx k hk) hg
        exact ⟨gc', h1, h2⟩
  exact ⟨hV, .mk graft_self hV⟩

theorem Inv.graft (hI : Inv st P G) (ha : G a = some ga) (hx : G x = some gx) (hp : gx.par = none)
    (hr : ¬ Reach G x a) (hd : Grafted st st' a x gx.val.kids e) : Inv st' P (G.graft a x ga gx e) := by
  have hax : a ≠ x := fun e => hr (e ▸ .refl)
  have hak : a ∉ gx.val.kids := fun h => hr (.step hx h .refl)
  have hkx : ∀ k ∈ gx.val.kids, k ≠ x := by
    rintro k hk rfl
    exact hI.not_kid hx hp hx hk
  obtain ⟨na, nx, E, hna, hnx, hna', hE⟩ := hd.self
  obtain ⟨na0, hna0, hnaok⟩ := hI.rep a ga ha
  rw [hna] at hna0; cases hna0
  obtain ⟨nx0, hnx0, hnxok⟩ := hI.rep x gx hx
  rw [hnx] at hnx0; cases hnx0
  have hbufs : st'.bufs = st.bufs := by rw [hd.rest]
  have hcache : st'.cache = st.cache := by rw [hd.rest]
  have hst : StOK st' := by
    rw [hd.rest]
    refine ⟨fun b hb => ?_, hI.ok.vals, hI.ok.bufs, hI.ok.size, hI.ok.live, hI.ok.cache⟩
    have hnone := hI.ok.nodes b hb
    have hb : st.nn ≤ b := hb
    have hba : b ≠ a := by have := hI.lt ha; omega
    rw [← hnone]
    refine hd.other b hba (fun h => ?_)
    obtain ⟨gk, h1, _⟩ := hI.kid hx h
    have := hI.lt h1
    omega
  -- the children of nodes other than `x` keep their links
  have hlk : ∀ b gb, G b = some gb → b ≠ x → ∀ k ∈ gb.val.kids, LinksSame st st' G (G.graft a x ga gx e) k := by
    intro b gb hb hne k hk
    obtain ⟨gk, h1, h2⟩ := hI.kid hb hk
    have hkx' : k ≠ x := by rintro rfl; exact hI.not_kid hx hp hb hk
    have hkk : k ∉ gx.val.kids := by
      intro h
      obtain ⟨gk', h3, h4⟩ := hI.kid hx h
      rw [h1] at h3; cases h3
      rw [h2] at h4; cases h4; exact hne rfl
    by_cases hka : k = a
    · subst hka
      intro n g h3 h4
      rw [hna] at h3; cases h3
      rw [ha] at h4; cases h4
      exact ⟨_, _, hna', graft_self, rfl, rfl, rfl, rfl, rfl⟩
    · exact LinksSame.of_eq (hd.other k hka hkk) (by simp [Graph.graft, hka, hkx', hkk])
  have hold : ∀ b gb, G.graft a x ga gx e b = some gb → b ≠ x ∧ ∃ gb0, G b = some gb0 := by
    intro b gb hb
    by_cases hba : b = a
    · subst hba; exact ⟨hax, ga, ha⟩
    · by_cases hbx : b = x
      · simp [Graph.graft, hbx, Ne.symm hax] at hb
      · refine ⟨hbx, ?_⟩
        cases h : G b with
        | some y => exact ⟨y, rfl⟩
        | none => simp [Graph.graft, hba, hbx, h] at hb
  refine hI.change hst ?_ (fun _ h => h) (fun b _ => by rw [hbufs]) ?_ ?_
  · intro b hb; have := hI.pin b hb; simpa [hbufs, hcache] using this
  · intro b gb hb
    obtain ⟨hbx, gb0, hb0⟩ := hold b gb hb
    by_cases hba : b = a
    · subst hba
      rw [graft_self] at hb; cases hb
      refine .inr ⟨_, hna', ?_, hnaok.father, hnaok.root, ?_⟩
      · exact (hnaok.key.mono (fun _ h => h) (fun _ _ => by rw [hbufs])).fields rfl rfl
      · have hv := hnxok.val
        show ValOK st' P _ b _ gx.val e
        cases hgv : gx.val with
        | con o kids =>
          rw [hgv] at hv hE hkx hak
          have hc : ConOK st G x nx o kids gx.endOK := hv
          have hkid := hd.kid
          rw [hgv] at hkid
          refine ⟨hc.type, hc.value, hc.len, hE, ?_, hc.nodup, ?_⟩
          · refine hc.seg.congr fun k hk n gk h1 h2 => ?_
            obtain ⟨n', e1, e2⟩ := hkid k hk
            rw [h1] at e1; cases e1
            have hkb : k ≠ b := fun e => hak (e ▸ hk)
            obtain ⟨gc', g1, _, _, g2, _⟩ := graft_same (a := b) (x := x) (ga := ga) (gx := gx) (e := e) hkb (hkx k hk) h2
            exact ⟨_, gc', e2, g1, rfl, rfl, g2⟩
          · intro k hk
            obtain ⟨gk, h1, h2, h3⟩ := hc.kid k hk
            have hkb : k ≠ b := fun e => hak (e ▸ hk)
            exact ⟨{ gk with par := some b }, by simp [Graph.graft, hkb, hkx k hk, hgv, GVal.kids, hk, h1], rfl, h3⟩
        | _ =>
          rw [hgv] at hv
          obtain ⟨h0, p, h1, h2, h3⟩ := ScalarOK.mono (show ScalarOK st P nx _ from hv) (fun _ h => h) (fun _ _ => by rw [hbufs])
          exact ⟨h0, p, h1, h2, h3⟩
    · by_cases hbk : b ∈ gx.val.kids
      · obtain ⟨n, hn, hn'⟩ := hd.kid b hbk
        have : gb = { gb0 with par := some a } := by
          have : some { gb0 with par := some a } = some gb := by simpa [Graph.graft, hba, hbx, hbk, hb0] using hb
          cases this; rfl
        subst this
        exact .inl ⟨gb0, n, _, hb0, hn, hn', ⟨rfl, rfl, rfl, rfl, rfl, rfl, rfl, rfl, rfl⟩, rfl, fun h => (by cases h),
          hlk b gb0 hb0 hbx⟩
      · have : gb0 = gb := by simpa [Graph.graft, hba, hbx, hbk, hb0] using hb
        subst this
        exact .inl (hI.keep hb0 (hd.other b hba hbk) (hlk b gb0 hb0 hbx))
  · intro b gb hb
    obtain ⟨hbx, gb0, hb0⟩ := hold b gb hb
    obtain ⟨t, ht⟩ := hI.fin b gb0 hb0
    obtain ⟨tx, htx⟩ := hI.fin x gx hx
    refine ht.keepFin (D := fun b => b ≠ x) (fun c gc k _ hc hk => ?_) ?_ ?_ hbx
    · rintro rfl; exact hI.not_kid hx hp hc hk
    · intro c gc hcx hgc
      by_cases hca : c = a
      · subst hca; exact ⟨_, graft_self, .inr ⟨tx, (graft_doc hI hx hp htx hr).1⟩⟩
      · obtain ⟨gc', g1, g2, _⟩ := graft_same (a := a) (x := x) (ga := ga) (gx := gx) (e := e) hca hcx hgc
        exact ⟨gc', g1, .inl g2⟩
    · intro c gc k gk _ hc hk hgk
      have hkx : k ≠ x := by rintro rfl; exact hI.not_kid hx hp hc hk
      by_cases hka : k = a
      · subst hka; rw [ha] at hgk; cases hgk; exact ⟨_, graft_self, rfl⟩
      · obtain ⟨gc', g1, _, g2, _⟩ := graft_same (a := a) (x := x) (ga := ga) (gx := gx) (e := e) hka hkx hgk
        exact ⟨gc', g1, by rw [g2]⟩
end

/-! ### The code -/

section
variable {st st' : St} {P : Addr → Prop} {G : Graph} {a x b v vv A A' : Addr} {ga gx gb : GNode} {e : Bool} {t : Json}

/-- The new father of the nodes `ks`. -/
def St.adopted (st : St) (a : Addr) (ks : List Addr) : St :=
  { st with nodes := fun c => if c ∈ ks then (st.nodes c).map fun n => { n with father := some (some a) } else st.nodes c }

/-- zzzjson.h:2608-2612: the loop over the children. -/
theorem adopt_run {G : Graph} : ∀ {ks : List Addr} {st : St} {pv : Option Addr} {F : Nat}, Seg st G pv ks none → ks.Nodup →
    adopt a (F + ks.length + 1) (hdOr ks none) st = .ok ((), st.adopted a ks)
  | [], st, pv, F, _, _ => by
    simp only [hdOr_nil]
    unfold adopt
    simp [St.adopted]
  | k :: ks, st, pv, F, ⟨⟨n, gk, hn, hg, hnx, hpv⟩, hs⟩, hnd => by
    have hk : k ∉ ks := (List.nodup_cons.1 hnd).1
    simp only [hdOr_cons]
    rw [show F + (k :: ks).length + 1 = (F + ks.length + 1) + 1 by simp only [List.length_cons]; omega]
    unfold adopt
    mstep modNode_run hn
    mstep nNext_run (n := { n with father := some (some a) }) (by simp) hnx
    have hs' : Seg (st.setN k { n with father := some (some a) }) G (some k) ks none := by
      refine hs.congr fun k' hk' n' gk' h1 h2 => ⟨n', gk', ?_, h2, rfl, rfl, rfl⟩
      have : k' ≠ k := fun e => hk (e ▸ hk')
      simp [this, h1]
    refine (adopt_run hs' (List.nodup_cons.1 hnd).2).trans ?_
    congr 2
    unfold St.adopted
    have : ∀ c, (if c ∈ ks then ((st.setN k { n with father := some (some a) }).nodes c).map fun n => { n with father := some (some a) }
        else (st.setN k { n with father := some (some a) }).nodes c) =
        if c ∈ k :: ks then (st.nodes c).map fun n => { n with father := some (some a) } else st.nodes c := by
      intro c
      by_cases hck : c = k
      · subst hck; simp [hk, hn]
      · simp [hck]
    simp only [this]
    rfl

/-- zzzjson.h:2602-2613 and 2627-2637. -/
theorem graft_run (hI : Inv st P G) (ha : G a = some ga) (hx : G x = some gx) (hr : ¬ Reach G x a)
    {y : Addr} {ny : Node} (hy : st.nodes y = some ny)
    (hE : ∀ ny nx, st.nodes y = some ny → st.nodes x = some nx → e = true → gx.val.kids ≠ [] → ny.end_ = nx.end_ ∧ y ≠ a)
    (hEx : e = true → gx.endOK = true) :
    ∃ st', (∀ F, graft (F + gx.val.kids.length + 1) a x y st = .ok ((), st')) ∧
      Grafted st st' a x gx.val.kids e := by
  have hax : a ≠ x := fun e => hr (e ▸ .refl)
  have hak : a ∉ gx.val.kids := fun h => hr (.step hx h .refl)
  obtain ⟨na, hna, hnaok⟩ := hI.rep a ga ha
  obtain ⟨nx, hnx, hnxok⟩ := hI.rep x gx hx
  have hty : nx.type = some gx.val.type := by
    have := hnxok.val
    cases hgv : gx.val with
    | con o kids => rw [hgv] at this; exact ConOK.type this
    | _ => rw [hgv] at this; exact (show ScalarOK _ _ _ _ from this).1
  have hlen : ∃ l, nx.len = some l := by
    have := hnxok.val
    cases hgv : gx.val with
    | con o kids => rw [hgv] at this; exact ⟨_, ConOK.len this⟩
    | _ => rw [hgv] at this; obtain ⟨_, p, _, h, _⟩ := (show ScalarOK _ _ _ _ from this); exact ⟨_, h⟩
  obtain ⟨l, hl⟩ := hlen
  cases hc : gx.val.isCon with
  | false =>
    have hkids : gx.val.kids = [] := by cases h : gx.val <;> simp_all [GVal.kids, GVal.isCon]
    have hnt : ¬ (gx.val.type = .array ∨ gx.val.type = .object) := by
      cases h : gx.val <;> simp_all [GVal.type, GVal.isCon]
    refine ⟨st.setN a { na with type := nx.type, value := nx.value, len := nx.len }, fun F => ?_, ?_⟩
    · unfold graft
      mstep nType_run hnx hty
      mstep modNode_run hna
      mstep rdNode_run (n := nx) (by simp [Ne.symm hax, hnx])
      mstep modNode_run (n := { na with type := some gx.val.type }) (by simp)
      mstep nLen_run (n := nx) (by simp [Ne.symm hax, hnx]) hl
      mstep modNode_run (n := { na with type := some gx.val.type, value := nx.value }) (by simp)
      mstep nType_run (n := { na with type := some gx.val.type, value := nx.value, len := some l }) (by simp) rfl
      mstep nType_run (n := { na with type := some gx.val.type, value := nx.value, len := some l }) (by simp) rfl
      rw [if_neg hnt]
      simp only [setN_setN, hty, hl]
      rfl
    · rw [hkids]
      exact ⟨⟨na, nx, na.end_, hna, hnx, by simp, fun _ h => absurd rfl h⟩, fun k h => (by cases h),
        fun c h _ => (by simp [h]), rfl⟩
  | true =>
    obtain ⟨o, kids, hgv⟩ : ∃ o kids, gx.val = .con o kids := by
      cases h : gx.val <;> simp_all [GVal.isCon]
    have hC : ConOK st G x nx o kids gx.endOK := by have := hnxok.val; rw [hgv] at this; exact this
    have hyt : gx.val.type = .array ∨ gx.val.type = .object := by
      rw [hgv]; cases o <;> simp [GVal.type, conType]
    have hks : gx.val.kids = kids := by rw [hgv]; rfl
    rw [hks] at hak hE ⊢
    -- End of `y` as read after the other fields of `a` were written
    have hy' : ∀ n', (st.setN a n').nodes y = some (if y = a then n' else ny) := by
      intro n'
      by_cases h : y = a
      · simp [h]
      · simp [h, hy]
    let n1 : Node := { na with type := some gx.val.type, value := nx.value, len := some l }
    let E := (if y = a then n1 else ny).end_
    let n2 : Node := { n1 with end_ := E }
    have hseg : Seg (st.setN a n2) G none kids none := by
      refine hC.seg.congr fun k hk n gk h1 h2 => ⟨n, gk, ?_, h2, rfl, rfl, rfl⟩
      have : k ≠ a := fun e => hak (e ▸ hk)
      simp [this, h1]
    refine ⟨(st.setN a n2).adopted a kids, fun F => ?_, ?_⟩
    · unfold graft
      mstep nType_run hnx hty
      mstep modNode_run hna
      mstep rdNode_run (n := nx) (by simp [Ne.symm hax, hnx])
      mstep modNode_run (n := { na with type := some gx.val.type }) (by simp)
      mstep nLen_run (n := nx) (by simp [Ne.symm hax, hnx]) hl
      mstep modNode_run (n := { na with type := some gx.val.type, value := nx.value }) (by simp)
      mstep nType_run (n := n1) (by simp [n1]) rfl
      mstep nType_run (n := n1) (by simp [n1]) rfl
      rw [if_pos hyt]
      simp only [setN_setN]
      mstep rdNode_run (n := if y = a then n1 else ny) (hy' n1)
      mstep modNode_run (n := n1) (by simp [n1])
      mstep nNode_run (n := n2) (r := hdOr kids none) (by simp [n2, E, n1]) hC.value
      simp only [setN_setN]
      exact adopt_run hseg hC.nodup
    · refine ⟨⟨na, nx, E, hna, hnx, ?_, fun he hk => ?_⟩, fun k hk => ?_, fun c h1 h2 => ?_, rfl⟩
      · simp [St.adopted, hak, n2, n1, hty, hl]
      · obtain ⟨h1, h2⟩ := hE ny nx hy hnx he hk
        simp only [E, h2, if_false, h1]
        exact hC.end_ (hEx he) hk
      · obtain ⟨gk, h1, _⟩ := hC.kid k hk
        obtain ⟨n, hn, _⟩ := hI.rep k gk h1
        have : k ≠ a := fun e => hak (e ▸ hk)
        exact ⟨n, hn, by simp [St.adopted, hk, this, hn]⟩
      · simp [St.adopted, h1, h2]

theorem Grafted.did {V B : Addr → Prop} (hI : Inv st P G) (ha : G a = some ga) (hx : G x = some gx) (hp : gx.par = none)
    (hr : ¬ Reach G x a) (hd : Grafted st st' a x gx.val.kids e) :
    Did V B st st' P P G (G.graft a x ga gx e) where
  inv := hI.graft ha hx hp hr hd
  pin _ h := h
  new _ h := .inl h
  frame := by
    rw [hd.rest]
    refine ⟨fun b _ hb => ?_, fun _ _ _ => rfl, fun _ _ _ => rfl, Nat.le_refl _, Nat.le_refl _, Nat.le_refl _, rfl, rfl, rfl⟩
    refine hd.other b ?_ ?_
    · rintro rfl; exact hb (by simp [ha])
    · intro h
      obtain ⟨gk, h1, _⟩ := hI.kid hx h
      exact hb (by simp [h1])
  cok h := by
    refine h.frame hI.ok (N := fun _ => True) (V := fun _ => False) ?_ (by rw [hd.rest])
    rw [hd.rest]
    exact ⟨fun _ _ h => absurd trivial h, fun _ _ _ => rfl, fun _ _ _ => rfl, Nat.le_refl _, Nat.le_refl _, Nat.le_refl _, rfl, rfl, rfl⟩

theorem graft_dom (ha : G a = some ga) {b} (h : (G.graft a x ga gx e b).isSome) : (G b).isSome := by
  unfold Graph.graft at h
  by_cases h1 : b = a
  · simp [h1, ha]
  · simp only [h1, if_false] at h
    split at h
    · cases h
    · split at h
      · simpa using h
      · exact h

/-- `zj_SetFast` into a value: the value takes over the moved document. -/
theorem setFast_run {G1 : Graph} (hI : Inv st P G) (hv : st.vals v = some ⟨some a, A⟩)
    (hvv : st.vals vv = some ⟨some x, A'⟩) (hm : Moved G x G1) (ha : G1 a = some ga) (hx : G1 x = some gx)
    (hr : ¬ Reach G1 x a) :
    ∃ c st', (∀ F, setFast (F + c) v vv st = .ok (true, st')) ∧
      Did (· = vv) (fun _ => False) st st' P P G (G1.graft a x ga gx gx.endOK) ∧
      st'.vals vv = some ⟨none, A'⟩ ∧ st'.nn = st.nn ∧
      ∃ st1 st2, move vv st = .ok (true, st1) ∧ Grafted st1 st2 a x gx.val.kids gx.endOK ∧
        st' = st2.setV vv ⟨none, A'⟩ := by
  obtain ⟨st1, e1, d1, hv1, hnn1, hb1⟩ := move_run hI hvv hm
  obtain ⟨_, gx', _, hx', hp, _, _, _⟩ := hm.self
  rw [hx] at hx'; cases hx'
  obtain ⟨nx, hnx, _⟩ := d1.inv.rep x gx hx
  have hax : x ≠ a := fun e => hr (e ▸ .refl)
  obtain ⟨st2, e2, hg⟩ := graft_run (e := gx.endOK) d1.inv ha hx hr (y := x) hnx
    (fun ny nx h1 h2 _ _ => by rw [h1] at h2; cases h2; exact ⟨rfl, hax⟩) id
  have d2 : Did (fun _ => False) (fun _ => False) st1 st2 P P _ _ := hg.did d1.inv ha hx hp hr
  have hvv1 : st1.vals vv = some ⟨some x, A'⟩ := by rw [hv1]; exact hvv
  have hvv2 : st2.vals vv = some ⟨some x, A'⟩ := by rw [hg.rest]; exact hvv1
  have d3 := Did.setV d2.inv (y' := ⟨none, A'⟩) hvv2 rfl
  refine ⟨gx.val.kids.length + 1, st2.setV vv ⟨none, A'⟩, fun F => ?_, ?_, by simp, ?_, st1, st2, e1, hg, rfl⟩
  · unfold setFast
    mstep e1
    simp only [Bool.not_true, Bool.false_eq_true, if_false]
    mstep rdVal_run hvv1
    mstep rdVal_run (show st1.vals v = _ by rw [hv1]; exact hv)
    simp only [deref_some]
    mstep M.pure_run _ _
    mstep e2 F
    mstep setValN_run hvv2
    rfl
  · exact ((d1.weaken (fun _ h => h.elim) (fun _ h => h)).trans d2 (fun b _ h => by rw [hm.dom] at h; exact h) (fun _ _ h => h.elim) (fun _ _ h => h)).trans d3
      (fun b _ h => by have := graft_dom ha h; rwa [hm.dom] at this) (fun _ _ h => h) (fun _ _ h => h)
  · rw [setV_nn, hg.rest]; exact hnn1

/-- `zj_SetFast` into an empty handle: the handle takes over the moved node. -/
theorem setFast_empty {G1 : Graph} (hI : Inv st P G) (hv : st.vals v = some ⟨none, A⟩)
    (hvv : st.vals vv = some ⟨some x, A'⟩) (hm : Moved G x G1) :
    ∃ st', (∀ F, setFast F v vv st = .ok (true, st')) ∧
      Did (fun b => b = v ∨ b = vv) (fun _ => False) st st' P P G G1 ∧
      st'.vals v = some ⟨some x, A⟩ ∧ st'.vals vv = some ⟨none, A'⟩ ∧ st'.nn = st.nn := by
  have hne : v ≠ vv := by rintro rfl; rw [hv] at hvv; cases hvv
  obtain ⟨st1, e1, d1, hv1, hnn1, hb1⟩ := move_run hI hvv hm
  have hvv1 : st1.vals vv = some ⟨some x, A'⟩ := by rw [hv1]; exact hvv
  have hv1' : st1.vals v = some ⟨none, A⟩ := by rw [hv1]; exact hv
  have d2 := Did.setV d1.inv (y' := ⟨some x, A⟩) hv1' rfl
  have hvv2 : (st1.setV v ⟨some x, A⟩).vals vv = some ⟨some x, A'⟩ := by simp [Ne.symm hne, hvv1]
  have d3 := Did.setV d2.inv (y' := ⟨none, A'⟩) hvv2 rfl
  refine ⟨(st1.setV v ⟨some x, A⟩).setV vv ⟨none, A'⟩, fun F => ?_, ?_, by simp [hne], by simp, ?_⟩
  · unfold setFast
    mstep e1
    simp only [Bool.not_true, Bool.false_eq_true, if_false]
    mstep rdVal_run hvv1
    mstep rdVal_run hv1'
    simp only
    mstep setValN_run hv1'
    mstep setValN_run hvv2
    rfl
  · refine ((d1.weaken (fun _ h => h.elim) (fun _ h => h)).trans d2 (fun b _ h => by rw [hm.dom] at h; exact h)
      (fun _ _ h => .inl h) (fun _ _ h => h)).trans d3
      (fun b _ h => by rw [hm.dom] at h; exact h) (fun _ _ h => .inr h) (fun _ _ h => h)
  · exact hnn1

/-- `zj_SetFast` from an empty handle is refused. -/
theorem setFast_emptyArg (hvv : st.vals vv = some ⟨none, A'⟩) {F : Nat} : setFast F v vv st = .ok (false, st) := by
  unfold setFast
  mstep move_empty hvv
  rfl

/-- `zj_Set` into a value: the value takes over a copy; where its list of children ends is
not known afterwards (line 2631). -/
theorem set_run (hI : Inv st P G) (hv : st.vals v = some ⟨some a, A⟩)
    (hvv : st.vals vv = some ⟨some x, A'⟩) (ha : G a = some ga) (hx : G x = some gx) (hu : Unf G x t) :
    ∃ c st1 st' n gn g P', (∀ F, set (F + c) v vv st = .ok (true, st')) ∧
      Copied A' st st1 P P' G g st.nv n gx.key t ∧ g n = some gn ∧
      Did (fun _ => False) (fun _ => False) st st' P P' G ((G.or g).graft a n ga gn false) ∧
      st'.vals = st1.vals ∧ Grafted st1 st' a n gn.val.kids false := by
  obtain ⟨c, st1, n, g, P', hrun, hC⟩ := copy_run hI hvv hx hu
  obtain ⟨gn, hn, hp, hkey, _⟩ := hC.root
  have halt := hI.lt ha
  have ha1 : (G.or g) a = some ga := by rw [hC.old halt, ha]
  have hn1 := hC.grow hI hn
  have hr : ¬ Reach (G.or g) n a := fun h => by
    have := hC.reach hI h (by simp [hn]); omega
  have hx1 : (G.or g) x = some gx := by rw [hC.old (hI.lt hx), hx]
  obtain ⟨ny, hny, _⟩ := hC.did.inv.rep x gx hx1
  obtain ⟨st2, e2, hg⟩ := graft_run (e := false) hC.did.inv ha1 hn1 hr (y := x) hny
    (fun _ _ _ _ h => by cases h) (fun h => by cases h)
  have d2 : Did (fun _ => False) (fun _ => False) st1 st2 P' P' _ _ := hg.did hC.did.inv ha1 hn1 hp hr
  have hv1 : st1.vals v = some ⟨some a, A⟩ := by rw [hC.unch.1.vals v (hI.ok.val_lt hv) id, hv]
  have hvv1 : st1.vals vv = some ⟨some x, A'⟩ := by rw [hC.unch.1.vals vv (hI.ok.val_lt hvv) id, hvv]
  refine ⟨c + gn.val.kids.length + 1, st1, st2, n, gn, g, P', fun F => ?_, hC, hn, ?_, by rw [hg.rest], hg⟩
  · unfold set
    have h1 := hrun (F + gn.val.kids.length + 1)
    rw [show F + gn.val.kids.length + 1 + c = F + (c + gn.val.kids.length + 1) by omega] at h1
    mstep h1
    simp only
    mstep rdVal_run hC.handle
    mstep rdVal_run hv1
    simp only [deref_some]
    mstep M.pure_run _ _
    have e0 : valN vv st1 = .ok (x, st1) := by
      unfold valN; mstep rdVal_run hvv1; rfl
    mstep e0
    have h2 := e2 (F + c)
    rw [show F + c + gn.val.kids.length + 1 = F + (c + gn.val.kids.length + 1) by omega] at h2
    mstep h2
    rfl
  · exact hC.did.trans d2 (fun b hb h => by rwa [hC.old hb] at h) (fun _ _ h => h) (fun _ _ h => h)

/-- `zj_Set` into an empty handle: the handle gets the copy. -/
theorem set_empty (hI : Inv st P G) (hv : st.vals v = some ⟨none, A⟩)
    (hvv : st.vals vv = some ⟨some x, A'⟩) (hx : G x = some gx) (hu : Unf G x t) :
    ∃ c st1 n g P', (∀ F, set (F + c) v vv st = .ok (true, st1.setV v ⟨some n, A⟩)) ∧
      Copied A' st st1 P P' G g st.nv n gx.key t ∧
      Did (· = v) (fun _ => False) st (st1.setV v ⟨some n, A⟩) P P' G (G.or g) := by
  obtain ⟨c, st1, n, g, P', hrun, hC⟩ := copy_run hI hvv hx hu
  have hv1 : st1.vals v = some ⟨none, A⟩ := by rw [hC.unch.1.vals v (hI.ok.val_lt hv) id, hv]
  have d2 := Did.setV hC.did.inv (y' := ⟨some n, A⟩) hv1 rfl
  refine ⟨c, st1, n, g, P', fun F => ?_, hC, ?_⟩
  · unfold set
    mstep hrun F
    simp only
    mstep rdVal_run hC.handle
    mstep rdVal_run hv1
    simp only
    mstep setValN_run hv1
    rfl
  · exact (hC.did.weaken (fun _ h => h.elim) (fun _ h => h)).trans d2 (fun b hb h => by rwa [hC.old hb] at h)
      (fun _ _ h => h) (fun _ _ h => h)

/-- `zj_Set` from an empty handle is refused. -/
theorem set_emptyArg (hI : Inv st P G) (hvv : st.vals vv = some ⟨none, A'⟩) {F : Nat} :
    set F v vv st = .ok (false, st.addV A' none) := by
  unfold set
  mstep copy_empty hI hvv
  rfl
end

end ZJ
