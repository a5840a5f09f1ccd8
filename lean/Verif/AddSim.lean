import Verif.MoveSim

/-
`zj_Move`, `zj_ObjAddFast`, `zj_ArrayAddFast`, `zj_ArrayDel`, `zj_ObjDel`
(zzzjson.h:2171-2191, 2642-2666, 2696-2717, 2744-2757) on the abstract store.
-/

set_option linter.unusedSimpArgs false

namespace ZJ

section
variable {st st1 st2 st' : St} {P P' P'' : Addr → Prop} {G G1 G2 G' : Graph} {f a x v vv A A' : Addr}
  {gf ga gx : GNode} {o : Bool} {l r kids : List Addr} {V B V' B' : Addr → Prop}

/-- What an operation did: the memory represents `G'` instead of `G`, documents rely on
`P'` instead of `P`; of the old memory only nodes of the store, the handles of `V` and the
byte blocks of `B` changed. -/
structure Did (V B : Addr → Prop) (st st' : St) (P P' : Addr → Prop) (G G' : Graph) : Prop where
  inv : Inv st' P' G'
  pin : ∀ b, P b → P' b
  new : ∀ b, P' b → P b ∨ st.nb ≤ b
  frame : Frame (fun b => (G b).isSome) V B st st'
  cok : CacheOK st → CacheOK st'

theorem Did.refl (hI : Inv st P G) : Did V B st st P P G G :=
  ⟨hI, fun _ h => h, fun _ h => .inl h, .refl _, id⟩

theorem Did.trans (h1 : Did V B st st1 P P' G G1) (h2 : Did V' B' st1 st' P' P'' G1 G')
    (hG : ∀ b, b < st.nn → (G1 b).isSome → (G b).isSome)
    (hV : ∀ b, b < st.nv → V' b → V b) (hB : ∀ b, b < st.nb → B' b → B b) :
    Did V B st st' P P'' G G' where
  inv := h2.inv
  pin b hb := h2.pin b (h1.pin b hb)
  new b hb := by
    have := h1.frame.nb
    rcases h2.new b hb with h | h
    · exact h1.new b h
    · exact .inr (by omega)
  frame := h1.frame.trans h2.frame hG hV hB
  cok h := h2.cok (h1.cok h)

theorem Did.weaken (h : Did V B st st' P P' G G') (hV : ∀ b, V b → V' b) (hB : ∀ b, B b → B' b) :
    Did V' B' st st' P P' G G' :=
  { h with frame := h.frame.weaken (fun _ h => h) hV hB }

/-- Changing a handle, while the store stays. -/
theorem Did.setV (hI : Inv st P G) {y y'} (hv : st.vals v = some y) (ha : y'.a = y.a) :
    Did (· = v) (fun _ => False) st (st.setV v y') P P G G where
  inv := ⟨hI.ok.setV hv ha, hI.pin, hI.rep.mono (fun _ _ => rfl) (fun _ h => h) (fun _ _ => rfl), hI.fin⟩
  pin _ h := h
  new _ h := .inl h
  frame := frame_setV.weaken (fun _ h => h.elim) (fun _ h => h) (fun _ h => h)
  cok h := h.frame hI.ok frame_setV rfl

/-! ### Move -/

/-- `G1` is the store after the document at `x` was made a root. -/
inductive Moved (G : Graph) (x : Addr) : Graph → Prop where
  | root {gx : GNode} : G x = some gx → gx.par = none → Moved G x G
  | child {gx gf : GNode} {f : Addr} {o : Bool} {l r : List Addr} : G x = some gx → G f = some gf → gf.val = .con o (l ++ x :: r) →
      MoveOK gx l → Moved G x (G.detach f x o l r)

theorem Moved.dom (h : Moved G x G1) (b : Addr) : (G1 b).isSome = (G b).isSome := by
  cases h with
  | root => rfl
  | child =>
    simp only [Graph.detach]
    repeat' split
    all_goals simp

/-- The moved node is a root with the same key and value. -/
theorem Moved.self (h : Moved G x G1) : ∃ gx gx', G x = some gx ∧ G1 x = some gx' ∧ gx'.par = none ∧
    gx'.key = gx.key ∧ gx'.val = gx.val ∧ gx'.endOK = gx.endOK := by
  cases h with
  | root h hp => exact ⟨_, _, h, h, hp, rfl, rfl, rfl⟩
  | child h => exact ⟨_, _, h, detach_self h, rfl, rfl, rfl, rfl⟩

/-- Below the moved node nothing changed. -/
theorem Moved.reach (hI : Inv st P G) (h : Moved G x G1) {c} : Reach G1 x c → Reach G x c := by
  cases h with
  | root => exact id
  | @child gx gf f o l r hx hf hv hok =>
    have hne : ∀ c, Reach G x c → c ≠ f := fun c hr => hI.con_ne hf hv (k := x) (by simp) hr
    have : ∀ b c, Reach (G.detach f x o l r) b c → Reach G x b → Reach G b c := by
      intro b c h
      induction h with
      | refl => intro _; exact .refl
      | @step b gn k c hb hk _ ih =>
        intro hr
        have hbf := hne b hr
        obtain ⟨gb, hgb⟩ : ∃ gb, G b = some gb := by
          unfold Graph.detach at hb
          cases h : G b with
          | some g => exact ⟨g, rfl⟩
          | none => simp [h] at hb
        obtain ⟨gb', h1, h2, _⟩ := detach_same (a := x) (o := o) (l := l) (r := r) hbf hgb
        rw [hb] at h1; cases h1
        rw [h2] at hk
        exact .step hgb hk (ih (hr.trans (.step hgb hk .refl)))
    exact fun h => this x c h .refl

theorem Detached.did (hI : Inv st P G) (hf : G f = some gf) (hv : gf.val = .con o (l ++ a :: r))
    (hd : Detached st st' f a l r) : Did V B st st' P P G (G.detach f a o l r) where
  inv := hI.detach hf hv hd
  pin _ h := h
  new _ h := .inl h
  frame := by
    obtain ⟨_, _, hc, _⟩ := hI.con hf hv
    have hk : ∀ c ∈ l ++ a :: r, (G c).isSome := fun c h => by
      obtain ⟨gk, h1, _⟩ := hc.kid c h; simp [h1]
    rw [hd.rest]
    refine ⟨fun b _ hb => ?_, fun _ _ _ => rfl, fun _ _ _ => rfl, Nat.le_refl _, Nat.le_refl _, Nat.le_refl _, rfl, rfl, rfl⟩
    refine hd.other b ?_ ?_ ?_ ?_
    · rintro rfl; exact hb (hk b (by simp))
    · rintro rfl; exact hb (by simp [hf])
    · intro e; exact hb (hk b (by simp [mem_iff_of_last e]))
    · intro e; exact hb (hk b (by simp [hdOr_mem e]))
  cok h := by
    refine h.frame hI.ok (N := fun _ => True) (V := fun _ => False) ?_ (by rw [hd.rest])
    rw [hd.rest]
    exact ⟨fun _ _ h => absurd trivial h, fun _ _ _ => rfl, fun _ _ _ => rfl, Nat.le_refl _, Nat.le_refl _, Nat.le_refl _, rfl, rfl, rfl⟩

theorem move_run (hI : Inv st P G) (hv : st.vals v = some ⟨some x, A⟩) (hm : Moved G x G1) :
    ∃ st', move v st = .ok (true, st') ∧ Did (fun _ => False) (fun _ => False) st st' P P G G1 ∧
      st'.vals = st.vals ∧ st'.nn = st.nn ∧ st'.bufs = st.bufs := by
  cases hm with
  | root hx hp => exact ⟨st, move_root hI hv hx hp, .refl hI, rfl, rfl, rfl⟩
  | child hx hf hgv hok =>
    obtain ⟨st', e, hd⟩ := move_child hI hv hx hf hgv hok
    exact ⟨st', e, hd.did hI hf hgv, by rw [hd.rest], by rw [hd.rest], by rw [hd.rest]⟩

/-! ### Adding -/

theorem Attached.did (hI : Inv st P G) (hf : G f = some gf) (hv : gf.val = .con o kids)
    (hx : G x = some gx) (hp : gx.par = none) (hr : ¬ Reach G x f) (hk : gx.key.isSome = o)
    (hd : Attached st st' f x kids) : Did V B st st' P P G (G.attach f x o kids) where
  inv := hI.attach hf hv hx hp hr hk hd
  pin _ h := h
  new _ h := .inl h
  frame := by
    obtain ⟨_, _, hc, _⟩ := hI.con hf hv
    have hk : ∀ c ∈ kids, (G c).isSome := fun c h => by
      obtain ⟨gk, h1, _⟩ := hc.kid c h; simp [h1]
    rw [hd.rest]
    refine ⟨fun b _ hb => ?_, fun _ _ _ => rfl, fun _ _ _ => rfl, Nat.le_refl _, Nat.le_refl _, Nat.le_refl _, rfl, rfl, rfl⟩
    refine hd.other b ?_ ?_ ?_
    · rintro rfl; exact hb (by simp [hx])
    · rintro rfl; exact hb (by simp [hf])
    · intro e; exact hb (hk b (mem_iff_of_last e))
  cok h := by
    refine h.frame hI.ok (N := fun _ => True) (V := fun _ => False) ?_ (by rw [hd.rest])
    rw [hd.rest]
    exact ⟨fun _ _ h => absurd trivial h, fun _ _ _ => rfl, fun _ _ _ => rfl, Nat.le_refl _, Nat.le_refl _, Nat.le_refl _, rfl, rfl, rfl⟩

/-- The key of a root is removed. -/
theorem clearKey_run (hI : Inv st P G) (hx : G x = some gx) (hp : gx.par = none) :
    ∃ st', setKey x none st = .ok ((), st') ∧
      Did (fun _ => False) (fun _ => False) st st' P P G (G.set x { gx with key := none }) ∧
      st'.vals = st.vals ∧ st'.nn = st.nn ∧ st'.bufs = st.bufs := by
  obtain ⟨n, hn, _⟩ := hI.rep x gx hx
  refine ⟨_, modNode_run hn, ⟨hI.setKey (nk := none) hx hn rfl rfl ?_, fun _ h => h, fun _ h => .inl h, ?_, ?_⟩, rfl, rfl, rfl⟩
  · intro f gf hf hm
    exact absurd hm (hI.not_kid hx hp hf)
  · exact frame_setN.weaken (fun b h => by subst h; simp [hx]) (fun _ h => h) (fun _ h => h)
  · exact fun h => h.frame hI.ok frame_setN rfl

/-- When a document `x` (already a root) can be appended to the container `f`. -/
structure CanAdd (G : Graph) (f x : Addr) (o : Bool) (kids : List Addr) : Prop where
  con : ∃ gf, G f = some gf ∧ gf.val = .con o kids ∧ (kids = [] ∨ gf.endOK = true)
  acyc : ¬ Reach G x f

theorem attach_dom (b : Addr) : (G.attach f x o kids b).isSome = (G b).isSome := by
  simp only [Graph.attach]
  repeat' split
  all_goals simp

theorem Reach.set_same {G : Graph} {gn gn'} (hx : G x = some gn) (hv : gn'.val = gn.val) {b c}
    (h : Reach (G.set x gn') b c) : Reach G b c := by
  induction h with
  | refl => exact .refl
  | @step b g k c hb hk _ ih =>
    by_cases hbx : b = x
    · subst hbx
      rw [Graph.set_same] at hb; cases hb
      rw [hv] at hk
      exact .step hx hk ih
    · rw [Graph.set_ne _ _ hbx] at hb
      exact .step hb hk ih

theorem CanAdd.clearKey (h : CanAdd G f x o kids) (hx : G x = some gx) :
    CanAdd (G.set x { gx with key := none }) f x o kids := by
  obtain ⟨⟨gf, h1, h2, h3⟩, h4⟩ := h
  have hfx : f ≠ x := fun e => h4 (e ▸ .refl)
  exact ⟨⟨gf, by rw [Graph.set_ne _ _ hfx, h1], h2, h3⟩, fun hr => h4 (Reach.set_same (gn' := { gx with key := none }) hx rfl hr)⟩

theorem objAddFast_run (hI : Inv st P G) (hv : st.vals v = some ⟨some f, A⟩)
    (hvv : st.vals vv = some ⟨some x, A'⟩) (hf : G f = some gf) {ks} (hgf : gf.val = .con true ks)
    (hx : G x = some gx) (hk : gx.key.isSome) (hm : Moved G x G1) (hc : CanAdd G1 f x true kids) :
    ∃ st', objAddFast v vv st = .ok (true, st') ∧
      Did (· = vv) (fun _ => False) st st' P P G (G1.attach f x true kids) ∧
      st'.vals vv = some ⟨none, A'⟩ ∧ st'.nn = st.nn := by
  obtain ⟨st1, e1, d1, hv1, hnn1, hb1⟩ := move_run hI hvv hm
  obtain ⟨gx0, gx', hx0, hx', hp, hkey, _, _⟩ := hm.self
  rw [hx] at hx0; cases hx0
  obtain ⟨⟨gf1, hf1, hgf1, he⟩, hr⟩ := hc
  obtain ⟨st2, e2, hat⟩ := attach_run d1.inv hf1 hgf1 hx' hp hr he
  have d2 : Did (fun _ => False) (fun _ => False) st1 st2 P P G1 _ := hat.did d1.inv hf1 hgf1 hx' hp hr (by rw [hkey, hk])
  have hvv2 : st2.vals vv = some ⟨some x, A'⟩ := by rw [hat.rest]; simp only [hv1]; exact hvv
  have d3 := Did.setV d2.inv (y' := ⟨none, A'⟩) hvv2 rfl
  obtain ⟨nx, hnx, hnxok⟩ := hI.rep x gx hx
  have hnk : ∃ p, nx.key = some (some p) := by
    obtain ⟨k, hk⟩ := Option.isSome_iff_exists.1 hk
    have := hnxok.key
    rw [hk] at this
    obtain ⟨p, h, _⟩ := this
    exact ⟨p, h⟩
  obtain ⟨p, hp⟩ := hnk
  refine ⟨st2.setV vv ⟨none, A'⟩, ?_, ?_, by simp, ?_⟩
  · unfold objAddFast
    mstep rdVal_run hv
    simp only
    mstep hI.nType hf
    rw [hgf, if_neg (by simp [GVal.type, conType])]
    mstep rdVal_run hvv
    simp only
    mstep nKey_run hnx hp
    rw [if_neg (by simp)]
    mstep e1
    simp only [Bool.not_true, Bool.false_eq_true, if_false]
    rw [← M.bind_assoc]
    mstep e2
    mstep setValN_run hvv2
    rfl
  · exact ((d1.weaken (fun _ h => h.elim) (fun _ h => h)).trans d2 (fun b _ h => by rw [hm.dom] at h; exact h) (fun _ _ h => h.elim) (fun _ _ h => h)).trans d3
      (fun b _ h => by rw [attach_dom, hm.dom] at h; exact h) (fun _ _ h => h) (fun _ _ h => h)
  · rw [setV_nn, hat.rest]; exact hnn1

theorem arrayAddFast_run (hI : Inv st P G) (hv : st.vals v = some ⟨some f, A⟩)
    (hvv : st.vals vv = some ⟨some x, A'⟩) (hf : G f = some gf) {ks} (hgf : gf.val = .con false ks)
    (hm : Moved G x G1) (hx : G1 x = some gx) (hc : CanAdd G1 f x false kids) :
    ∃ st', arrayAddFast v vv st = .ok (true, st') ∧
      Did (· = vv) (fun _ => False) st st' P P G ((G1.set x { gx with key := none }).attach f x false kids) ∧
      st'.vals vv = some ⟨none, A'⟩ ∧ st'.nn = st.nn := by
  obtain ⟨st1, e1, d1, hv1, hnn1, hb1⟩ := move_run hI hvv hm
  obtain ⟨_, gx', _, hx', hp, hkey, _, _⟩ := hm.self
  rw [hx] at hx'; cases hx'
  obtain ⟨st2, e2, d2, hv2, hnn2, hb2⟩ := clearKey_run d1.inv hx hp
  obtain ⟨⟨gf1, hf1, hgf1, he⟩, hr⟩ := hc.clearKey hx
  obtain ⟨st3, e3, hat⟩ := attach_run d2.inv hf1 hgf1 (Graph.set_same _ _ _) hp hr he
  have d3 : Did (fun _ => False) (fun _ => False) st2 st3 P P _ _ :=
    hat.did d2.inv hf1 hgf1 (Graph.set_same _ _ _) hp hr rfl
  have hvv1 : st1.vals vv = some ⟨some x, A'⟩ := by rw [hv1]; exact hvv
  have hvv3 : st3.vals vv = some ⟨some x, A'⟩ := by rw [hat.rest]; simp only [hv2, hv1]; exact hvv
  have d4 := Did.setV d3.inv (y' := ⟨none, A'⟩) hvv3 rfl
  have hdom2 : ∀ b, ((G1.set x { gx with key := none }) b).isSome = (G b).isSome := by
    intro b
    rw [← hm.dom b]
    by_cases h : b = x
    · subst h; rw [Graph.set_same, hx]; rfl
    · rw [Graph.set_ne _ _ h]
  refine ⟨st3.setV vv ⟨none, A'⟩, ?_, ?_, by simp, ?_⟩
  · unfold arrayAddFast
    mstep rdVal_run hv
    simp only
    mstep hI.nType hf
    rw [hgf, if_neg (by simp [GVal.type, conType])]
    mstep e1
    simp only [Bool.not_true, Bool.false_eq_true, if_false]
    have e0 : valN vv st1 = .ok (x, st1) := by
      unfold valN; mstep rdVal_run hvv1; rfl
    mstep e0
    mstep e2
    rw [← M.bind_assoc]
    mstep e3
    mstep setValN_run hvv3
    rfl
  · exact (((d1.weaken (fun _ h => h.elim) (fun _ h => h)).trans d2 (fun b _ h => by rw [hm.dom] at h; exact h)
      (fun _ _ h => h.elim) (fun _ _ h => h)).trans d3 (fun b _ h => by rw [hdom2] at h; exact h) (fun _ _ h => h.elim)
      (fun _ _ h => h)).trans d4
      (fun b _ h => by rw [attach_dom, hdom2] at h; exact h) (fun _ _ h => h) (fun _ _ h => h)
  · rw [setV_nn, hat.rest]; exact hnn2.trans hnn1

/-! ### Rejected additions -/

theorem not_array {gn : GNode} (hg : ∀ ks, gn.val ≠ .con false ks) : gn.val.type ≠ .array := by
  intro h
  cases hv : gn.val with
  | con o ks => cases o with
    | false => exact hg ks hv
    | true => rw [hv] at h; cases h
  | _ => rw [hv] at h; cases h

/-- `v` is empty or not a container of the kind `o`. -/
def NotCon (st : St) (G : Graph) (v : Addr) (o : Bool) : Prop :=
  (∃ A, st.vals v = some ⟨none, A⟩) ∨
  ∃ A f gf, st.vals v = some ⟨some f, A⟩ ∧ G f = some gf ∧ ∀ ks, gf.val ≠ .con o ks

theorem objAdd_reject (hI : Inv st P G) (h : NotCon st G v true) {fuel : Nat} :
    objAddFast v vv st = .ok (false, st) ∧ objAdd fuel v vv st = .ok (false, st) := by
  rcases h with ⟨A, hv⟩ | ⟨A, f, gf, hv, hf, hg⟩
  · exact ⟨by unfold objAddFast; mstep rdVal_run hv; rfl, by unfold objAdd; mstep rdVal_run hv; rfl⟩
  · constructor
    · unfold objAddFast; mstep rdVal_run hv; simp only; mstep hI.nType hf
      rw [if_pos (not_object hg)]; rfl
    · unfold objAdd; mstep rdVal_run hv; simp only; mstep hI.nType hf
      rw [if_pos (not_object hg)]; rfl

theorem arrayAdd_reject (hI : Inv st P G) (h : NotCon st G v false) {fuel : Nat} :
    arrayAddFast v vv st = .ok (false, st) ∧ arrayAdd fuel v vv st = .ok (false, st) := by
  rcases h with ⟨A, hv⟩ | ⟨A, f, gf, hv, hf, hg⟩
  · exact ⟨by unfold arrayAddFast; mstep rdVal_run hv; rfl, by unfold arrayAdd; mstep rdVal_run hv; rfl⟩
  · constructor
    · unfold arrayAddFast; mstep rdVal_run hv; simp only; mstep hI.nType hf
      rw [if_pos (not_array hg)]; rfl
    · unfold arrayAdd; mstep rdVal_run hv; simp only; mstep hI.nType hf
      rw [if_pos (not_array hg)]; rfl

/-- A value without a key cannot become a member of an object. -/
theorem objAdd_nokey (hI : Inv st P G) (hv : st.vals v = some ⟨some f, A⟩)
    (hvv : st.vals vv = some ⟨some x, A'⟩) (hf : G f = some gf) {ks} (hgf : gf.val = .con true ks)
    (hx : G x = some gx) (hk : gx.key = none) {fuel : Nat} :
    objAddFast v vv st = .ok (false, st) ∧ objAdd fuel v vv st = .ok (false, st) := by
  obtain ⟨nx, hnx, hnxok⟩ := hI.rep x gx hx
  have hnk : nx.key = some none := by have := hnxok.key; rw [hk] at this; exact this
  constructor
  · unfold objAddFast
    mstep rdVal_run hv
    simp only
    mstep hI.nType hf
    rw [hgf, if_neg (by simp [GVal.type, conType])]
    mstep rdVal_run hvv
    simp only
    mstep nKey_run hnx hnk
    rw [if_pos rfl]
    rfl
  · unfold objAdd
    mstep rdVal_run hv
    simp only
    mstep hI.nType hf
    rw [hgf, if_neg (by simp [GVal.type, conType])]
    mstep rdVal_run hvv
    simp only
    mstep nKey_run hnx hnk
    rw [if_pos rfl]
    rfl

theorem objAdd_emptyArg (hI : Inv st P G) (hv : st.vals v = some ⟨some f, A⟩)
    (hvv : st.vals vv = some ⟨none, A'⟩) (hf : G f = some gf) {ks} (hgf : gf.val = .con true ks) {fuel : Nat} :
    objAddFast v vv st = .ok (false, st) ∧ objAdd fuel v vv st = .ok (false, st) := by
  constructor
  · unfold objAddFast
    mstep rdVal_run hv
    simp only
    mstep hI.nType hf
    rw [hgf, if_neg (by simp [GVal.type, conType])]
    mstep rdVal_run hvv
    rfl
  · unfold objAdd
    mstep rdVal_run hv
    simp only
    mstep hI.nType hf
    rw [hgf, if_neg (by simp [GVal.type, conType])]
    mstep rdVal_run hvv
    rfl

theorem arrayAddFast_emptyArg (hI : Inv st P G) (hv : st.vals v = some ⟨some f, A⟩)
    (hvv : st.vals vv = some ⟨none, A'⟩) (hf : G f = some gf) {ks} (hgf : gf.val = .con false ks) :
    arrayAddFast v vv st = .ok (false, st) := by
  unfold arrayAddFast
  mstep rdVal_run hv
  simp only
  mstep hI.nType hf
  rw [hgf, if_neg (by simp [GVal.type, conType])]
  mstep move_empty hvv
  rfl

/-! ### Deleting -/

theorem Did.addV (hI : Inv st P G) (ha : st.allocs A = true) {y} : Did V B st (st.addV A y) P P G G where
  inv := hI.unchanged unch_addV (hI.ok.addV ha)
  pin _ h := h
  new _ h := .inl h
  frame := unch_addV.1.weaken (fun _ h => h.elim) (fun _ h => h.elim) (fun _ h => h.elim)
  cok h := h.frame hI.ok unch_addV.1 rfl

/-- Deleting the found child: a handle is made for it and the child is moved out. -/
theorem del_run (hI : Inv st P G) (hv : st.vals v = some ⟨some f, A⟩) (hf : G f = some gf)
    (hgf : gf.val = .con o (l ++ x :: r)) (hx : G x = some gx) (hok : MoveOK gx l) :
    ∃ st', move st.nv (st.addV A (some x)) = .ok (true, st') ∧
      Did (fun _ => False) (fun _ => False) st st' P P G (G.detach f x o l r) := by
  have d1 : Did (fun _ => False) (fun _ => False) st (st.addV A (some x)) P P G G := .addV hI (hI.ok.live v _ hv)
  obtain ⟨st', e, d2, _⟩ := move_run (v := st.nv) (A := A) d1.inv (by simp) (.child hx hf hgf hok)
  exact ⟨st', e, d1.trans d2 (fun _ _ h => h) (fun _ _ h => h) (fun _ _ h => h)⟩

theorem arrayDel_run (hI : Inv st P G) (hv : st.vals v = some ⟨some f, A⟩) (hf : G f = some gf)
    (hgf : gf.val = .con false (l ++ x :: r)) (hx : G x = some gx) (hok : MoveOK gx l) {fuel : Nat}
    (hfuel : (l ++ x :: r).length < fuel) :
    ∃ st', arrayDel fuel v l.length st = .ok (true, st') ∧
      Did (fun _ => False) (fun _ => False) st st' P P G (G.detach f x false l r) := by
  obtain ⟨st', e, d⟩ := del_run hI hv hf hgf hx hok
  refine ⟨st', ?_, d⟩
  unfold arrayDel
  have := arrayGet_run hI hv hf hgf (index := l.length) hfuel
  rw [show (l ++ x :: r)[l.length]? = some x by simp] at this
  mstep this
  exact e

theorem arrayDel_missing (hI : Inv st P G) (hv : st.vals v = some ⟨some f, A⟩) (hf : G f = some gf)
    (hgf : gf.val = .con false kids) {i fuel : Nat} (hi : kids.length ≤ i) (hfuel : kids.length < fuel) :
    arrayDel fuel v i st = .ok (false, st) := by
  unfold arrayDel
  have := arrayGet_run hI hv hf hgf (index := i) hfuel
  rw [List.getElem?_eq_none hi] at this
  mstep this
  rfl

theorem objDel_run (hI : Inv st P G) (hv : st.vals v = some ⟨some f, A⟩) (hf : G f = some gf)
    (hgf : gf.val = .con true (l ++ x :: r)) (hx : G x = some gx) (hok : MoveOK gx l) {fuel : Nat} {p s}
    (hfuel : (l ++ x :: r).length < fuel) (hs : CStr st p s)
    (hk : ∀ k ∈ l ++ x :: r, ∀ kk, G.keyOf k = some kk → (0 : Byte) ∉ kk)
    (hl : ∀ k ∈ l, G.keyOf k ≠ some s) (hkx : gx.key = some s) :
    ∃ st', objDel fuel v p st = .ok (true, st') ∧
      Did (fun _ => False) (fun _ => False) st st' P P G (G.detach f x true l r) := by
  obtain ⟨st', e, d⟩ := del_run hI hv hf hgf hx hok
  refine ⟨st', ?_, d⟩
  unfold objDel
  have := objGet_run hI hv hf hgf hs hfuel hk
  have hfk : findKey G s (l ++ x :: r) = some x := by
    unfold findKey
    rw [List.find?_append, List.find?_eq_none.2 (by intro k h; simp [hl k h])]
    simp [Graph.keyOf, hx, hkx]
  rw [hfk] at this
  mstep this
  exact e

theorem objDel_missing (hI : Inv st P G) (hv : st.vals v = some ⟨some f, A⟩) (hf : G f = some gf)
    (hgf : gf.val = .con true kids) {fuel : Nat} {p s} (hfuel : kids.length < fuel) (hs : CStr st p s)
    (hk : ∀ k ∈ kids, ∀ kk, G.keyOf k = some kk → (0 : Byte) ∉ kk)
    (hl : ∀ k ∈ kids, G.keyOf k ≠ some s) : objDel fuel v p st = .ok (false, st) := by
  unfold objDel
  have := objGet_run hI hv hf hgf hs hfuel hk
  have hfk : findKey G s kids = none := List.find?_eq_none.2 (by intro k h; simp [hl k h])
  rw [hfk] at this
  mstep this
  rfl

theorem del_other (hI : Inv st P G) {fuel i : Nat} {p} :
    (NotCon st G v false → arrayDel fuel v i st = .ok (false, st)) ∧
    (NotCon st G v true → objDel fuel v p st = .ok (false, st)) := by
  constructor
  · rintro (⟨A, hv⟩ | ⟨A, f, gf, hv, hf, hg⟩)
    · unfold arrayDel; mstep arrayGet_empty hv; rfl
    · unfold arrayDel; mstep arrayGet_other hI hv hf hg; rfl
  · rintro (⟨A, hv⟩ | ⟨A, f, gf, hv, hf, hg⟩)
    · unfold objDel; mstep (objGet_empty hv (len := 0)).1; rfl
    · unfold objDel; mstep (objGet_other hI hv hf hg (len := 0)).1; rfl

end

end ZJ
