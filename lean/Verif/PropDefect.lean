import Verif.PropTimeFind
import Verif.PropSweep

/-
C30 to C33 are false of the code; PropEdit.lean shows this for arrays or by programs. Here: the same
for objects, and for all documents, not only for the ones of those programs.
-/

set_option linter.unusedSimpArgs false

namespace ZJ

section
variable {st st' st1 st2 : St} {P P' : Addr → Prop} {G G' : Graph} {v vv w u A A' B D a b e f x y n : Addr} {t : Json}
  {gf ga gx gb : GNode} {o : Bool} {l r kids : List Addr} {xs : List Json} {ms : List (Bytes × Json)}

/-! ### Adding to a container with children whose `End` is null -/

/-- The node `f` is a container with a first child and a null `End`. -/
def Severed (st : St) (f : Addr) (o : Bool) : Prop :=
  ∃ nf c, st.nodes f = some nf ∧ nf.type = some (conType o) ∧ nf.value = some (.node (some c)) ∧ nf.end_ = some none

/-- Any `zj_ArrayAdd` to such an array dereferences null. -/
theorem Severed.arrayAdd (h : Severed st f false) (hv : Ready st P G v (some f) A) (hw : Ready st P G w (some b) B) :
    ∃ c, ∀ F, arrayAdd (F + c) v w st = .ub .nullDeref := by
  obtain ⟨nf, c, e2, e5, e3, e4⟩ := h
  obtain ⟨gb, hgb⟩ := Option.isSome_iff_exists.1 (hw.node b rfl)
  obtain ⟨gf, hgf⟩ := Option.isSome_iff_exists.1 (hv.node f rfl)
  obtain ⟨tb, hub⟩ := hv.inv.fin b gb hgb
  obtain ⟨c', st2, n, g, P', hrun, hC⟩ := copy_run hv.inv hw.val hgb hub
  obtain ⟨gn, hn, _⟩ := hC.root
  obtain ⟨nn, hnn, _⟩ := hC.rep n gn hn
  have hflt := hv.inv.lt hgf
  have hfn : f ≠ n := by have := hC.new n gn hn; omega
  refine ⟨c', fun F => ?_⟩
  unfold ZJ.arrayAdd
  mstep rdVal_run hv.val
  simp only
  mstep nType_run e2 e5
  rw [if_neg (by simp [conType])]
  mstep hrun F
  simp only
  have e0 : valN st.nv st2 = .ok (n, st2) := by
    unfold valN; mstep rdVal_run hC.handle; rfl
  mstep e0
  mstep modNode_run hnn
  mstep modNode_run (by simp; rfl)
  refine M.bind_ub (attach_crash (nf := nf) ?_ e3 e4)
  rw [setN_setN]
  simp only [setN_nodes, hfn, if_false]
  rw [hC.unch.1.nodes f hflt id]; exact e2

/-- And any `zj_ObjAdd`, of a value with a key, to such an object. -/
theorem Severed.objAdd (h : Severed st f true) (hv : Ready st P G v (some f) A) (hw : Ready st P G w (some b) B)
    (hk : (G.keyOf b).isSome) : ∃ c, ∀ F, objAdd (F + c) v w st = .ub .nullDeref := by
  obtain ⟨nf, c, e2, e5, e3, e4⟩ := h
  obtain ⟨gb, hgb⟩ := Option.isSome_iff_exists.1 (hw.node b rfl)
  obtain ⟨gf, hgf⟩ := Option.isSome_iff_exists.1 (hv.node f rfl)
  obtain ⟨tb, hub⟩ := hv.inv.fin b gb hgb
  obtain ⟨c', st2, n, g, P', hrun, hC⟩ := copy_run hv.inv hw.val hgb hub
  obtain ⟨gn, hn, _⟩ := hC.root
  obtain ⟨nn, hnn, _⟩ := hC.rep n gn hn
  have hflt := hv.inv.lt hgf
  have hfn : f ≠ n := by have := hC.new n gn hn; omega
  obtain ⟨kb, hkb⟩ : ∃ kb, gb.key = some kb := by
    unfold Graph.keyOf at hk; rw [hgb] at hk; exact Option.isSome_iff_exists.1 hk
  obtain ⟨nb, hnb, hnbok⟩ := hv.inv.rep b gb hgb
  obtain ⟨p, hp⟩ : ∃ p, nb.key = some (some p) := by
    have := hnbok.key
    rw [hkb] at this
    obtain ⟨p, h, _⟩ := this
    exact ⟨p, h⟩
  refine ⟨c', fun F => ?_⟩
  unfold ZJ.objAdd
  mstep rdVal_run hv.val
  simp only
  mstep nType_run e2 e5
  rw [if_neg (by simp [conType])]
  mstep rdVal_run hw.val
  simp only
  mstep nKey_run hnb hp
  rw [if_neg (by simp)]
  mstep hrun F
  simp only
  have e0 : valN st.nv st2 = .ok (n, st2) := by
    unfold valN; mstep rdVal_run hC.handle; rfl
  mstep e0
  mstep modNode_run hnn
  refine M.bind_ub (attach_crash (nf := nf) ?_ e3 e4)
  simp only [setN_nodes, hfn, if_false]
  rw [hC.unch.1.nodes f hflt id]; exact e2

/-- Cutting out the last of several children severs the container; all handles remain usable. -/
theorem severs (hx : Ready st P G vv (some x) A') (hgx : G x = some gx) (hf : G f = some gf)
    (hgf : gf.val = .con o (l ++ [x])) (hl : l ≠ []) (hok : gx.prevOK = true) :
    ∃ st1 G1, move vv st = .ok (true, st1) ∧ Severed st1 f o ∧
      (∀ w y B, Ready st P G w y B → Ready st1 P G1 w y B) ∧ (∀ b, G1.keyOf b = G.keyOf b) := by
  obtain ⟨st1, nf, c, e1, hd, e2, e5, e3, e4⟩ := move_last hx.inv hx.val hgx hf hgf hl hok
  obtain ⟨st1', e1', hD, _⟩ := move_run hx.inv hx.val (.child (r := []) hgx hf hgf (.inr hok))
  rw [e1] at e1'; cases e1'
  refine ⟨st1, _, e1, ⟨nf, c, e2, e5, e3, e4⟩, fun w y B hw => hD.ready hw id fun b hb => ?_, fun b => ?_⟩
  · obtain ⟨gb, h⟩ := Option.isSome_iff_exists.1 (hw.node b hb)
    obtain ⟨g', h', _⟩ := detach_key (f := f) (a := x) (o := o) (l := l) (kids := []) h
    rw [h']; rfl
  · unfold Graph.keyOf
    cases hb : G b with
    | none =>
      have : G.detach f x o l [] b = none := by unfold Graph.detach; rw [hb]; simp
      rw [this]
    | some gb =>
      obtain ⟨g', h', h2⟩ := detach_key (f := f) (a := x) (o := o) (l := l) (kids := []) hb
      rw [h']; exact h2

/-! ### C30 and C31: moving the last of several children -/

/-- C30 is false for objects too: moving the last of several members of an object to the end of the
same object dereferences null. -/
theorem C30_false_obj (hv : Ready st P G v (some f) A) (hx : Ready st P G vv (some x) A')
    (hs : Shows st v (.obj ms)) (hl : LastOfSeveral G x f) (hok : ∀ g, G x = some g → g.prevOK = true) :
    objAddFast v vv st = .ub .nullDeref := by
  obtain ⟨gf, kids, hf, hgf, hi⟩ := hv.obj hs
  obtain ⟨gf', o, l, h1, h2, h3⟩ := hl
  rw [hf] at h1; cases h1
  have h2' := h2
  rw [hgf] at h2'; cases h2'
  obtain ⟨gx, hgx, hpar, hkx⟩ := hv.inv.con_kid hf hgf (k := x) (by simp)
  obtain ⟨st1, nf, c, e1, hd, e2, _, e3, e4⟩ := move_last hv.inv hx.val hgx hf hgf h3 (hok gx hgx)
  obtain ⟨nx, hnx0, hnx⟩ := hd.self
  have hfx : f ≠ x := by
    rintro rfl
    exact (hv.inv.con_ne hf hgf (k := f) (by simp) .refl) rfl
  obtain ⟨nx', hnx', hnxok⟩ := hv.inv.rep x gx hgx
  obtain ⟨p, hp⟩ : ∃ p, nx'.key = some (some p) := by
    obtain ⟨k, hk⟩ := Option.isSome_iff_exists.1 hkx
    have := hnxok.key
    rw [hk] at this
    obtain ⟨p, h, _⟩ := this
    exact ⟨p, h⟩
  unfold objAddFast
  mstep rdVal_run hv.val
  simp only
  mstep hv.inv.nType hf
  rw [hgf, if_neg (by simp [GVal.type, conType])]
  mstep rdVal_run hx.val
  simp only
  mstep nKey_run hnx' hp
  rw [if_neg (by simp)]
  mstep e1
  simp only [Bool.not_true, Bool.false_eq_true, if_false]
  mstep modNode_run hnx
  refine M.bind_ub (attach_crash (nf := nf) ?_ e3 e4)
  simp [hfx, e2]

/-- C31 is false for objects too: after `zj_Move` of the last of several members, `zj_ObjAdd` of any
value with a key to that object dereferences null. -/
theorem C31_false_obj (hv : Ready st P G v (some f) A) (hx : Ready st P G vv (some x) A') (hw : Ready st P G w (some b) B)
    (hs : Shows st v (.obj ms)) (hl : LastOfSeveral G x f) (hok : ∀ g, G x = some g → g.prevOK = true)
    (hk : (G.keyOf b).isSome) :
    ∃ st1 c, move vv st = .ok (true, st1) ∧ ∀ F, objAdd (F + c) v w st1 = .ub .nullDeref := by
  obtain ⟨gf, kids, hf, hgf, hi⟩ := hv.obj hs
  obtain ⟨gf', o, l, h1, h2, h3⟩ := hl
  rw [hf] at h1; cases h1
  have h2' := h2
  rw [hgf] at h2'; cases h2'
  obtain ⟨gx, hgx⟩ := Option.isSome_iff_exists.1 (hx.node x rfl)
  obtain ⟨st1, G1, e1, hS, hR, hK⟩ := severs hx hgx hf hgf h3 (hok gx hgx)
  obtain ⟨c, hc⟩ := hS.objAdd (hR v _ _ hv) (hR w _ _ hw) (by rw [hK]; exact hk)
  exact ⟨st1, c, e1, hc⟩

/-- Both in programs. -/
theorem C30_false_obj_program : ((do
    let (v, _) ← make 0 b!"{\"a\":1,\"b\":2}"
    let some w ← objGet 9 v (.lit { bytes := b!"b" }) | return true
    objAddFast v w : M _) (start fun _ => 0)).out = .ub .nullDeref ∧
  ((do
    let (v, _) ← make 0 b!"{\"a\":1,\"b\":2}"
    let some w ← objGet 9 v (.lit { bytes := b!"b" }) | return true
    let _ ← move w
    objAdd 9 v w : M _) (start fun _ => 0)).out = .ub .nullDeref := by
  constructor <;> decide +kernel

/-! ### C31: moving a middle child and the one behind it -/

/-- `zj_Move` of a child that is not the first one but has a null `Prev`: it is taken for the first one,
so the children before it are dropped from the container, but not from its size. -/
theorem move_severed (hI : Inv st P G) (hv : st.vals v = some ⟨some y, A⟩) (hf : G f = some gf)
    (hgf : gf.val = .con o (l ++ y :: r)) {ny : Node} (hy : st.nodes y = some ny) (hp : ny.prev = some none) :
    ∃ st' nf, move v st = .ok (true, st') ∧ st'.vals = st.vals ∧ st'.allocs = st.allocs ∧ st'.nodes f = some nf ∧
      nf.type = some (conType o) ∧ nf.value = some (.node (hdOr r none)) ∧ nf.len = some (l.length + r.length) := by
  obtain ⟨nf, hnf, hc, hnok⟩ := hI.con hf hgf
  obtain ⟨gy, hgy, hpy, hky⟩ := hc.kid y (by simp)
  obtain ⟨ny', hny, hnyok⟩ := hI.rep y gy hgy
  rw [hy] at hny; cases hny
  have hfy : y ≠ f := hI.con_ne hf hgf (k := y) (by simp) .refl
  obtain ⟨s1, s2⟩ := Seg.append.1 hc.seg
  obtain ⟨⟨ny', gy', h1, h2, hnext, hprev⟩, s3⟩ := s2
  rw [hy] at h1; cases h1
  have hfath : ny.father = some (some f) := by rw [hnyok.father, hpy]
  have hlen : nf.len = some (l.length + r.length + 1) := by rw [hc.len]; simp; omega
  have hdec : dec32 (l.length + r.length + 1) = l.length + r.length := by simp [dec32]
  let nf1 : Node := { nf with value := some (.node (hdOr r none)) }
  have e1 : unlinkPrev f y st = .ok ((), st.setN f nf1) := by
    unfold unlinkPrev
    mstep nPrev_run hy hp
    simp only
    mstep nNext_run hy hnext
    exact modNode_run hnf
  have hy1 : (st.setN f nf1).nodes y = some ny := by simp [hfy, hy]
  have e2 : ∃ st2 nf2 ny2, unlinkNext f y (st.setN f nf1) = .ok ((), st2) ∧ st2.vals = st.vals ∧ st2.allocs = st.allocs ∧
      st2.nodes f = some nf2 ∧ nf2.type = nf.type ∧ nf2.value = nf1.value ∧ nf2.len = nf.len ∧
      st2.nodes y = some ny2 ∧ ny2.father = some (some f) := by
    cases r with
    | nil =>
      refine ⟨(st.setN f nf1).setN f { nf1 with end_ := some none }, { nf1 with end_ := some none }, ny, ?_, rfl, rfl, by simp, rfl, rfl, rfl,
        by simp [hfy, hy], hfath⟩
      unfold unlinkNext
      mstep nNext_run hy1 hnext
      simp only [hdOr_nil]
      mstep nPrev_run hy1 hp
      exact modNode_run (by simp)
    | cons z r =>
      obtain ⟨⟨nz, gz, hz, _⟩, _⟩ := s3
      have hzf : z ≠ f := hI.con_ne hf hgf (k := z) (by simp) .refl
      have hzy : z ≠ y := by
        have := hc.nodup
        rw [List.nodup_append, List.nodup_cons] at this
        rintro rfl
        exact this.2.1.1 (by simp)
      refine ⟨((st.setN f nf1).setN z { nz with prev := some none }).setN y { ny with next := some none }, nf1,
        { ny with next := some none }, ?_, rfl, rfl, by simp [Ne.symm hfy, Ne.symm hzf], rfl, rfl, rfl, by simp, hfath⟩
      unfold unlinkNext
      mstep nNext_run hy1 hnext
      simp only [hdOr_cons]
      mstep nPrev_run hy1 hp
      mstep modNode_run (n := nz) (by simp [hzf, hz])
      exact modNode_run (by simp [Ne.symm hzy, hfy, hy])
  obtain ⟨st2, nf2, ny2, e2, q1, q2, q3, q4, q5, q6, q7, q8⟩ := e2
  refine ⟨(st2.setN f { nf2 with len := some (l.length + r.length) }).setN y { ny2 with father := some none },
    { nf2 with len := some (l.length + r.length) }, ?_, q1, q2, by simp [Ne.symm hfy], ?_, q5, rfl⟩
  · unfold move
    mstep rdVal_run hv
    simp only
    mstep nFather_run hy hfath
    simp only
    mstep e1
    mstep e2
    mstep nFather_run q7 q8
    simp only [deref_some]
    mstep M.pure_run _ _
    mstep nLen_run q3 (q6.trans hlen)
    rw [hdec]
    mstep modNode_run q3
    mstep modNode_run (n := ny2) (by simp [hfy, q7])
    rfl
  · show nf2.type = _
    rw [q4, hc.type]

/-- C31 is false in another way, for every container and every child `x` of it that is neither the
first nor the last: after `zj_Move` of `x` and of the child `y` behind it, the container starts with
the child behind `y` (it is empty for `zj_Begin` if there is none), so all children before `x` are
lost, although the size is that of the rest with them. -/
theorem C31_false_middle_all (hv : Ready st P G v (some f) A) (hx : Ready st P G vv (some x) A') (hy : Ready st P G w (some y) B)
    (hf : G f = some gf) (hgf : gf.val = .con o (l ++ x :: y :: r)) (hl : l ≠ []) (hok : ∀ g, G x = some g → g.prevOK = true) :
    ∃ st1 st2, move vv st = .ok (true, st1) ∧ move w st1 = .ok (true, st2) ∧
      sizeOf v st2 = .ok (l.length + r.length, st2) ∧ r.length < l.length + r.length ∧
      (r = [] → begin_ v st2 = .ok (none, st2)) ∧
      (∀ z r', r = z :: r' → ∃ h st3, begin_ v st2 = .ok (some h, st3) ∧ st3.vals h = some ⟨some z, A⟩) := by
  obtain ⟨gx, hgx⟩ := Option.isSome_iff_exists.1 (hx.node x rfl)
  obtain ⟨st1, e1, hd⟩ := move_child (o := o) (l := l) (r := y :: r) hv.inv hx.val hgx hf hgf (.inr (hok gx hgx))
  have hI1 := hv.inv.detach hf hgf hd
  obtain ⟨ny, _, hny⟩ := hd.head y rfl
  have hfx : f ≠ x := fun e => hv.inv.con_ne hf hgf (k := x) (by simp) .refl e.symm
  have hf1 := detach_fa (l := l) (r := y :: r) (o := o) hf hfx
  have hvals : st1.vals = st.vals := by rw [hd.rest]
  have hal : st1.allocs = st.allocs := by rw [hd.rest]
  obtain ⟨st2, nf, e2, q1, q2, q3, q4, q5, q6⟩ := move_severed (o := o) (l := l) (r := r) hI1 (v := w) (A := B)
    (by rw [hvals]; exact hy.val) hf1 rfl hny rfl
  have hv2 : st2.vals v = some ⟨some f, A⟩ := by rw [q1, hvals]; exact hv.val
  have hA : st2.allocs A = true := by rw [q2, hal]; exact hv.inv.ok.live v _ hv.val
  have hty : ¬ (conType o ≠ JType.object ∧ conType o ≠ JType.array) := by cases o <;> simp [conType]
  refine ⟨st1, st2, e1, e2, ?_, ?_, ?_, ?_⟩
  · unfold sizeOf
    mstep rdVal_run hv2
    simp only
    mstep nType_run q3 q4
    rw [if_neg hty]
    exact nLen_run q3 q6
  · have := List.length_pos_iff.2 hl
    omega
  · rintro rfl
    unfold begin_
    mstep rdVal_run hv2
    simp only
    mstep nType_run q3 q4
    rw [if_neg hty]
    mstep nNode_run q3 q5
    rfl
  · rintro z r' rfl
    have hnew := newVal_run (p := some z) hA
    refine ⟨st2.nv, st2.addV A (some z), ?_, ?_⟩
    · unfold begin_
      mstep rdVal_run hv2
      simp only
      mstep nType_run q3 q4
      rw [if_neg hty]
      mstep nNode_run q3 q5
      simp only [hdOr_cons]
      mstep hnew
      rfl
    · simp [St.addV]

/-! ### C32: deleting the last of several children -/

theorem concat_of_two {l : List α} (h : 2 ≤ l.length) : ∃ l' x, l = l' ++ [x] ∧ l' ≠ [] := by
  rcases List.eq_nil_or_concat l with rfl | ⟨l', x, rfl⟩
  · simp at h
  · refine ⟨l', x, List.concat_eq_append .., ?_⟩
    rintro rfl
    simp at h

/-- C32 is false for every array with at least two elements whose links are right (as after parsing):
after `zj_ArrayDel` of the last one, `zj_ArrayAdd` of any value dereferences null. -/
theorem C32_false_array (hv : Ready st P G v (some f) A) (hs : Shows st v (.arr xs)) (h2 : 2 ≤ xs.length) (hT : Tidy G)
    (hw : Ready st P G w (some b) B) {fuel : Nat} (hfuel : xs.length < fuel) :
    ∃ st1 c, arrayDel fuel v (xs.length - 1) st = .ok (true, st1) ∧ ∀ F, arrayAdd (F + c) v w st1 = .ub .nullDeref := by
  obtain ⟨gf, kids, ms, hf, hgf, hi, hms⟩ := hv.arr hs
  have hlen : kids.length = xs.length := by rw [hi.length, ← hms, List.length_map]
  rcases C26_arrayGet hv hs hfuel (xs.length - 1) with ⟨h1, _⟩ | ⟨t, d, k, st0, h1, h3, h4, _, h5, h6, a', gn, e, h7, h8⟩
  · rw [List.getElem?_eq_none_iff] at h1; omega
  · cases e
    rw [hf] at h7; cases h7
    obtain ⟨l, x, rfl, hl⟩ := concat_of_two (l := kids) (by omega)
    rw [hgf] at h8
    have : x = k := by
      simp only [GVal.kids] at h8
      rw [List.length_append, List.length_singleton] at hlen
      rw [show xs.length - 1 = l.length by omega] at h8
      simpa using h8
    subst this
    obtain ⟨gx, hgx⟩ := Option.isSome_iff_exists.1 (h5.node x rfl)
    obtain ⟨st1, G1, e1, hS, hR, _⟩ := severs h5 hgx hf hgf hl (hT x gx hgx).2
    have hw0 := hw.unchanged h4 h5.inv.ok
    obtain ⟨c, hc⟩ := hS.arrayAdd (hR v _ _ h6) (hR w _ _ hw0)
    refine ⟨st1, c, ?_, hc⟩
    unfold arrayDel
    mstep h3
    exact e1

/-- C32 is false for every object with at least two members whose links are right, if no other member
has the key of the last one: after `zj_ObjDel` of that key, `zj_ObjAdd` of any value with a key
dereferences null. -/
theorem C32_false_object {ys : List (Bytes × Json)} {key : Bytes} {p : SPtr} (hv : Ready st P G v (some f) A)
    (hs : Shows st v (.obj (ys ++ [(key, t)]))) (hne : ys ≠ []) (hfst : ∀ m ∈ ys, m.1 ≠ key)
    (hnul : ∀ m ∈ ys ++ [(key, t)], (0 : Byte) ∉ m.1) (hp : CStr st p key) (hT : Tidy G)
    (hw : Ready st P G w (some b) B) (hk : (G.keyOf b).isSome) {fuel : Nat} (hfuel : (ys ++ [(key, t)]).length < fuel) :
    ∃ st1 c, objDel fuel v p st = .ok (true, st1) ∧ ∀ F, objAdd (F + c) v w st1 = .ub .nullDeref := by
  obtain ⟨gf, kids, hf, hgf, hi⟩ := hv.obj hs
  obtain ⟨d, st0, h3, hF⟩ := C27_objGet hv hs hnul hfuel hp
  rcases hF with ⟨_, _, h1⟩ | ⟨i, u, d', k, rfl, h1, h2, _, h4, h5, h6, a', gn, e, h7, h8⟩
  · exact absurd rfl (h1 (key, t) (by simp))
  · cases e
    rw [hf] at h7; cases h7
    have hi' : i = ys.length := by
      rcases Nat.lt_trichotomy i ys.length with h | h | h
      · rw [List.getElem?_append_left h] at h1
        exact absurd rfl (hfst _ (List.mem_of_getElem? h1))
      · exact h
      · exact absurd rfl (h2 ys.length (key, t) h (by simp))
    subst hi'
    obtain ⟨l, r, rfl, hl, hr⟩ := hi.split_right
    cases hr with
    | @cons _ k' r gk _ _ _ hgk hkey huk hr =>
    cases hr
    rw [hgf] at h8
    have : k' = k := by
      simp only [GVal.kids] at h8
      rw [← hl.length] at h8
      simpa using h8
    subst this
    have hl0 : l ≠ [] := by
      rintro rfl
      exact hne (List.length_eq_zero_iff.1 hl.length.symm)
    obtain ⟨st1, G1, e1, hS, hR, hK⟩ := severs h5 hgk hf hgf hl0 (hT _ gk hgk).2
    have hw0 := hw.unchanged h4 h5.inv.ok
    obtain ⟨c, hc⟩ := hS.objAdd (hR v _ _ h6) (hR w _ _ hw0) (by rw [hK]; exact hk)
    refine ⟨st1, c, ?_, hc⟩
    unfold objDel
    mstep h3
    exact e1

/-! ### C33: Set of a container with children -/

/-- What adopting children does not change in any node. -/
def Node.own (n : Node) := (n.end_, n.value, n.len, n.type)

theorem adopt_own : ∀ {fuel : Nat} {q : Option Addr} {st st' : St}, adopt f fuel q st = .ok ((), st') → Holds Node.own st st'
  | 0, _, _, _, h => nomatch h
  | _ + 1, none, _, _, h => by cases h; exact fun _ n hn => ⟨n, hn, rfl⟩
  | fuel + 1, some n, st, st', h => by
    unfold adopt at h
    obtain ⟨_, s1, h1, h'⟩ := M.bind_inv h
    obtain ⟨q, s2, h2, h''⟩ := M.bind_inv h'
    have e : s2 = s1 := by
      unfold nNext at h2
      obtain ⟨m, s3, h3, h4⟩ := M.bind_inv h2
      obtain ⟨_, rfl⟩ := rdNode_inv' h3
      cases hl : m.next with
      | none => rw [hl] at h4; cases h4
      | some x => rw [hl] at h4; cases h4; rfl
    subst e
    unfold setFather at h1
    exact (modNode_holds h1 fun _ => rfl).trans (adopt_own h'')

/-- `End` after `zj_Set` is the one of the node it is taken from. -/
theorem graft_end {fuel : Nat} {na nx ny : Node} {q : Option Addr} {len : Nat} (h : graft fuel a x y st = .ok ((), st')) (ha : st.nodes a = some na)
    (hx : st.nodes x = some nx) (hy : st.nodes y = some ny) (hxa : x ≠ a) (hya : y ≠ a) (ht : nx.type = some (conType o))
    (hv : nx.value = some (.node q)) (hl : nx.len = some len) :
    ∃ na', st'.nodes a = some na' ∧ na'.end_ = ny.end_ ∧ na'.value = nx.value ∧ na'.len = nx.len ∧ na'.type = nx.type := by
  let n1 : Node := { na with type := nx.type, value := nx.value, len := nx.len }
  let n2 : Node := { n1 with end_ := ny.end_ }
  have e : graft fuel a x y st = adopt a fuel q (st.setN a n2) := by
    unfold graft
    mstep nType_run hx ht
    mstep modNode_run ha
    mstep rdNode_run (n := nx) (by simp [hxa, hx])
    mstep modNode_run (n := { na with type := nx.type }) (by simp [ht])
    mstep nLen_run (n := nx) (by simp [hxa, hx]) hl
    mstep modNode_run (n := { na with type := nx.type, value := nx.value }) (by simp)
    mstep nType_run (n := n1) (by simp [n1, hl]) ht
    mstep nType_run (n := n1) (by simp [n1, hl]) ht
    rw [if_pos (by cases o <;> simp [conType])]
    simp only [setN_setN]
    mstep rdNode_run (n := ny) (by simp [hya, hy])
    mstep modNode_run (n := n1) (by simp [n1, hl])
    mstep nNode_run (n := n2) (r := q) (by simp [n2, n1]) hv
    simp only [setN_setN]
    rfl
  rw [e] at h
  obtain ⟨na', h1, h2⟩ := adopt_own h a n2 (by simp)
  simp only [Node.own, Prod.mk.injEq] at h2
  exact ⟨na', h1, h2.1, h2.2.1, h2.2.2.1, h2.2.2.2⟩

/-- C33 is false for every array `x` with children and every value `v` outside of it: after
`zj_Set(v, x)`, `zj_ArrayAdd(v, w)` of any value `w` makes the size of `v` one more than the number of
its elements (there is no element at the index of the new one), and chains the new element behind
the last element of `x` instead: there `zj_Next`, null before, returns it, beyond the size of `x`. -/
theorem C33_false_all (hv : Ready st P G v (some a) A) (hx : Ready st P G vv (some x) A') (ht : Shows st vv (.arr xs))
    (hr : ¬ Reach G x a) (hend : EndRight G x) (hw : Ready st P G w (some b) B)
    (hgx : G x = some gx) (he : gx.val.kids.getLast? = some e) (hu : Ready st P G u (some e) D) :
    ∃ c1 c2 st1 st2, (∀ F, set (F + c1) v vv st = .ok (true, st1)) ∧ Shows st1 v (.arr xs) ∧ Shows st1 vv (.arr xs) ∧
      (∀ F, arrayAdd (F + c2) v w st1 = .ok (true, st2)) ∧
      sizeOf v st2 = .ok (xs.length + 1, st2) ∧
      (∀ fuel, xs.length < fuel → arrayGet fuel v xs.length st2 = .ok (none, st2)) ∧
      sizeOf vv st2 = .ok (xs.length, st2) ∧
      next_ u st1 = .ok (none, st1) ∧ ∃ h st3, next_ u st2 = .ok (some h, st3) := by
  obtain ⟨ga, ha⟩ := Option.isSome_iff_exists.1 (hv.node a rfl)
  obtain ⟨gx', kx, mx, hgx', hkx, hix, hmx⟩ := hx.arr ht
  rw [hgx] at hgx'; cases hgx'
  obtain ⟨nx, hnx, hcx, _⟩ := hv.inv.con hgx hkx
  rw [hkx] at he
  simp only [GVal.kids] at he
  have hkx0 : kx ≠ [] := by rintro rfl; cases he
  have hekx : e ∈ kx := List.mem_of_getLast? he
  have hlenx : kx.length = xs.length := by rw [hix.length, ← hmx, List.length_map]
  have hxa : x ≠ a := fun h => hr (h ▸ .refl)
  have hea : e ≠ a := fun h => hr (h ▸ .step hgx (by rw [hkx]; exact hekx) .refl)
  have hex : e ≠ x := hv.inv.con_ne hgx hkx hekx .refl
  have hlast : ∀ {ks : List Addr} {pv : Option Addr}, ks.getLast? = some e → lastOr pv ks = some e := by
    intro ks pv h
    obtain ⟨ks', rfl⟩ := List.getLast?_eq_some_iff.1 h
    rw [lastOr_append]; rfl
  have hxend : nx.end_ = some (some e) := by
    rw [hcx.end_ ((hend gx hgx).resolve_left (by rw [hkx]; exact hkx0)) hkx0, hlast he]
  -- the copy
  obtain ⟨c, s1, n, g, P', hcopy, hC⟩ := copy_run hv.inv hx.val hgx (hx.unf ht)
  obtain ⟨gn, hn, hp, hkey, _⟩ := hC.root
  have hn1 := hC.grow hv.inv hn
  have halt := hv.inv.lt ha
  have hnge := hC.new n gn hn
  have ha1 : (G.or g) a = some ga := by rw [hC.old halt, ha]
  have hr1 : ¬ Reach (G.or g) n a := fun h => by
    have := hC.reach hv.inv h (by simp [hn]); omega
  have hx1 : (G.or g) x = some gx := by rw [hC.old (hv.inv.lt hgx), hgx]
  have hnx1 : s1.nodes x = some nx := by rw [hC.unch.1.nodes x (hv.inv.lt hgx) id]; exact hnx
  obtain ⟨s2, e2, hg⟩ := graft_run (e := false) hC.did.inv ha1 hn1 hr1 (y := x) hnx1
    (fun _ _ _ _ h => by cases h) (fun h => by cases h)
  have d2 : Did (fun _ => False) (fun _ => False) s1 s2 P' P' _ _ := hg.did hC.did.inv ha1 hn1 hp hr1
  have hv1 : s1.vals v = some ⟨some a, A⟩ := by rw [hC.unch.1.vals v (hv.inv.ok.val_lt hv.val) id, hv.val]
  have hvv1 : s1.vals vv = some ⟨some x, A'⟩ := by rw [hC.unch.1.vals vv (hv.inv.ok.val_lt hx.val) id, hx.val]
  have hrun : ∀ F, set (F + (c + gn.val.kids.length + 1)) v vv st = .ok (true, s2) := fun F => by
    unfold set
    have h1 := hcopy (F + gn.val.kids.length + 1)
    rw [show F + gn.val.kids.length + 1 + c = F + (c + gn.val.kids.length + 1) by omega] at h1
    mstep h1
    simp only
    mstep rdVal_run hC.handle
    mstep rdVal_run hv1
    simp only [deref_some]
    mstep M.pure_run _ _
    have e0 : valN vv s1 = .ok (x, s1) := by
      unfold valN; mstep rdVal_run hvv1; rfl
    mstep e0
    have h2 := e2 (F + c)
    rw [show F + c + gn.val.kids.length + 1 = F + (c + gn.val.kids.length + 1) by omega] at h2
    mstep h2
    rfl
  -- the node of `v` afterwards
  obtain ⟨kn, hkn, hin⟩ : ∃ kn, gn.val = .con false kn ∧ kn.length = xs.length := by
    obtain ⟨gn', h1, h2⟩ := hC.unf.split
    rw [hn] at h1; cases h1
    obtain ⟨ks, h3, h4⟩ := h2.arr_inv
    exact ⟨ks, h3, by rw [h4.length, List.length_map]⟩
  obtain ⟨nn, hnn, hcn, _⟩ := hC.did.inv.con hn1 hkn
  obtain ⟨na, hna, _⟩ := hC.did.inv.rep a ga ha1
  obtain ⟨na2, hna2, hend2, hval2, hlen2, hty2⟩ := graft_end (e2 0) hna hnn hnx1 (by omega) hxa hcn.type hcn.value hcn.len
  rw [hxend] at hend2
  rw [hcn.value] at hval2
  rw [hcn.len] at hlen2
  rw [hcn.type] at hty2
  -- the handles and documents afterwards
  have hD : Did (fun _ => False) (fun _ => False) st s2 P P' G ((G.or g).graft a n ga gn false) :=
    hC.did.trans d2 (fun b hb h => by rwa [hC.old hb] at h) (fun _ _ h => h) (fun _ _ h => h)
  have hE := hC.did.inv.graft_edit ha1 hn1 hp (hC.unf.mono (fun c y hy => hC.grow hv.inv hy)) hr1 (e := false)
  have hE' : EditAt G ((G.or g).graft a n ga gn false) a (.arr xs) := hE.le (fun b gb hb =>
    Graph.only_some.2 ⟨by have := hv.inv.lt hb; omega, Graph.le_or b gb hb⟩)
  have hdom : ∀ b, (G b).isSome → ((G.or g).graft a n ga gn false b).isSome := by
    intro b hb
    obtain ⟨gb, hb⟩ := Option.isSome_iff_exists.1 hb
    have := hv.inv.lt hb
    by_cases e : b = a
    · subst e; rw [graft_self]; rfl
    · obtain ⟨gc', h1, _⟩ := graft_same (ga := ga) (gx := gn) (e := false) e (show b ≠ n by omega) (Graph.le_or b gb hb)
      rw [h1]; rfl
  have hvr := hD.ready hv id (fun b hb => hdom b (hv.node b hb))
  have hxr := hD.ready hx id (fun b hb => hdom b (hx.node b hb))
  have hwr := hD.ready hw id (fun b hb => hdom b (hw.node b hb))
  have hur := hD.ready hu id (fun b hb => hdom b (hu.node b hb))
  -- nodes of `x` afterwards
  have hkn_ge : ∀ k ∈ kn, st.nn ≤ k := by
    intro k hk
    obtain ⟨gk, h1, _⟩ := hC.did.inv.con_kid hn1 hkn hk
    have : Reach (G.or g) n k := .step hn1 (by rw [hkn]; exact hk) .refl
    exact hC.reach hv.inv this (by simp [hn])
  have hold : ∀ k, k < st.nn → k ≠ a → s2.nodes k = st.nodes k := by
    intro k hk hka
    rw [hg.other k hka (by rw [hkn]; intro h; have := hkn_ge k h; omega), hC.unch.1.nodes k hk id]
  obtain ⟨ge, hge, hpe, _⟩ := hv.inv.con_kid hgx hkx hekx
  have helt := hv.inv.lt hge
  obtain ⟨kx', rfl⟩ := List.getLast?_eq_some_iff.1 he
  obtain ⟨ne, hne, hnext⟩ : ∃ ne, st.nodes e = some ne ∧ ne.next = some none := by
    obtain ⟨_, ⟨ne, _, h1, _, h3, _⟩, _⟩ := Seg.append.1 hcx.seg
    exact ⟨ne, h1, h3⟩
  have hne2 : s2.nodes e = some ne := by rw [hold e helt hea]; exact hne
  have hnx2 : s2.nodes x = some nx := by rw [hold x (hv.inv.lt hgx) hxa]; exact hnx
  -- the second call
  obtain ⟨gb, hgb⟩ := Option.isSome_iff_exists.1 (hwr.node b rfl)
  obtain ⟨tb, hub⟩ := hwr.inv.fin b gb hgb
  obtain ⟨c2, s3, m, g3, P3, hcopy2, hC2⟩ := copy_run hwr.inv hwr.val hgb hub
  obtain ⟨gm, hm, _⟩ := hC2.root
  obtain ⟨nm, hnm, _⟩ := hC2.rep m gm hm
  have hmge := hC2.new m gm hm
  have hnn2 : st.nn ≤ s2.nn := hD.frame.nn
  have hlt2 : ∀ {k nk}, s2.nodes k = some nk → k < s2.nn := fun h => hvr.inv.ok.node_lt h
  have hold3 : ∀ {k nk}, s2.nodes k = some nk → s3.nodes k = some nk := fun h => by
    rw [hC2.unch.1.nodes _ (hlt2 h) id]; exact h
  have ham : a ≠ m := by have := hlt2 hna2; omega
  have hem : e ≠ m := by omega
  have hxm : x ≠ m := by have := hlt2 hnx2; omega
  have hna3 := hold3 hna2
  have hne3 := hold3 hne2
  obtain ⟨k0, kn', rfl⟩ : ∃ k0 kn', kn = k0 :: kn' := by
    cases kn with
    | nil => rw [← hlenx] at hin; simp at hin
    | cons k0 kn' => exact ⟨k0, kn', rfl⟩
  let nm2 : Node := { nm with key := some none, father := some (some a) }
  let ne' : Node := { ne with next := some (some m) }
  let nm3 : Node := { nm2 with prev := some (some e) }
  let na4 : Node := { na2 with end_ := some (some m), len := some (xs.length + 1) }
  let s4 : St := (((s3.setN m nm2).setN e ne').setN m nm3).setN a na4
  have hadd : ∀ F, arrayAdd (F + c2) v w s2 = .ok (true, s4) := fun F => by
    unfold arrayAdd
    mstep rdVal_run hvr.val
    simp only
    mstep nType_run hna2 hty2
    rw [if_neg (by simp [conType])]
    mstep hcopy2 F
    simp only
    have e0 : valN s2.nv s3 = .ok (m, s3) := by
      unfold valN; mstep rdVal_run hC2.handle; rfl
    mstep e0
    mstep modNode_run hnm
    mstep modNode_run (n := { nm with key := some none }) (by simp)
    simp only [setN_setN]
    have hat : attach a m (s3.setN m nm2) = .ok ((), s4) := by
      unfold attach
      mstep nNode_run (n := na2) (r := some k0) (by simp [ham, hna3]) hval2
      simp only
      mstep nEnd_run (n := na2) (r := some e) (by simp [ham, hna3]) hend2
      simp only [deref_some]
      mstep M.pure_run _ _
      mstep modNode_run (n := ne) (by simp [hem, hne3])
      mstep modNode_run (n := nm2) (by simp [Ne.symm hem])
      mstep modNode_run (n := na2) (by simp [ham, Ne.symm hea, hna3])
      mstep nLen_run (n := { na2 with end_ := some (some m) }) (r := xs.length) (by simp) (by rw [← hin]; exact hlen2)
      have := modNode_run (a := a) (n := { na2 with end_ := some (some m) }) (f := fun n => { n with len := some (xs.length + 1) })
        (st := (((s3.setN m nm2).setN e ne').setN m nm3).setN a { na2 with end_ := some (some m) }) (by simp)
      rw [setN_setN] at this
      exact this
    mstep hat
    rfl
  have hvals4 : ∀ {z q}, s2.vals z = some q → s4.vals z = some q := fun {z q} h => by
    show s3.vals z = some q
    rw [hC2.unch.1.vals z (hvr.inv.ok.val_lt h) id]; exact h
  have hna4 : s4.nodes a = some na4 := by simp [s4]
  have hnx4 : s4.nodes x = some nx := by
    have := hold3 hnx2
    simp [s4, hxa, hxm, Ne.symm hex, this]
  have hne4 : s4.nodes e = some ne' := by simp [s4, hea, hem]
  have hseg4 : Seg s4 (G.or g) none (k0 :: kn') none := by
    refine hcn.seg.congr fun k hk nk gk h1 h2 => ?_
    obtain ⟨nk', h3, h4⟩ := hg.kid k (by rw [hkn]; exact hk)
    rw [h1] at h3; cases h3
    have h5 := hkn_ge k hk
    have h6 := hlt2 h4
    have h7 := hold3 h4
    refine ⟨{ nk with father := some (some a) }, gk, ?_, h2, rfl, rfl, rfl⟩
    simp only [s4, setN_nodes]
    rw [if_neg (by omega), if_neg (by omega), if_neg (by omega), if_neg (by omega)]
    exact h7
  refine ⟨_, c2, s2, s4, hrun, hvr.shows hE'.doc, hxr.shows (hE'.other (hx.unf ht) hr), hadd, ?_, fun fuel hf => ?_, ?_, ?_, ?_⟩
  · unfold sizeOf
    mstep rdVal_run (hvals4 hvr.val)
    simp only
    mstep nType_run hna4 hty2
    rw [if_neg (by simp [conType])]
    exact nLen_run hna4 rfl
  · unfold arrayGet
    mstep rdVal_run (hvals4 hvr.val)
    simp only
    mstep nType_run hna4 hty2
    rw [if_neg (by simp [conType])]
    mstep nNode_run hna4 hval2
    mstep arrayGetLoop_run (k0 :: kn') 0 fuel hseg4 (by rw [hin]; exact hf) (by omega)
    rw [List.getElem?_eq_none (by rw [hin]; omega)]
    rfl
  · unfold sizeOf
    mstep rdVal_run (hvals4 hxr.val)
    simp only
    mstep nType_run hnx4 hcx.type
    rw [if_neg (by simp [conType])]
    rw [← hlenx]
    exact nLen_run hnx4 hcx.len
  · unfold next_
    mstep rdVal_run hur.val
    simp only
    mstep nNext_run hne2 hnext
    rfl
  · refine ⟨s4.nv, s4.addV D (some m), ?_⟩
    unfold next_
    mstep rdVal_run (hvals4 hur.val)
    simp only
    mstep nNext_run hne4 (r := some m) rfl
    simp only
    mstep newVal_run (show s4.allocs D = true by
      show s3.allocs D = true
      rw [hC2.unch.1.allocs]; exact hur.inv.ok.live u _ hur.val)
    rfl

/-! ### States that meet the hypotheses -/

/-- Every valid document, parsed: a state with right links. -/
theorem tidy_example (h : t.Valid) (slack : Nat → Nat) : ∃ st P G v a, Ready st P G v (some a) 0 ∧ Tidy G ∧ Shows st v t := by
  obtain ⟨st', P', G', _, h1, h2, h3⟩ := parse_tidy ((start_ready slack).addC (d := t.print ++ [0])) (fun _ _ h => nomatch h)
    (addC_cstr (print_text h).no_nul) (print_text h)
  exact ⟨st', P', G', _, _, h1, h2, h3⟩

/-- For `C32_false_array`, with any array of at least two elements; the value added is the array itself. -/
example (h : (Json.arr xs).Valid) (_h2 : 2 ≤ xs.length) (slack : Nat → Nat) :
    ∃ st P G v f, Ready st P G v (some f) 0 ∧ Shows st v (.arr xs) ∧ Tidy G := by
  obtain ⟨st, P, G, v, a, h1, h2, h3⟩ := tidy_example h slack
  exact ⟨st, P, G, v, a, h1, h3, h2⟩

/-- For `C30_false_obj`, `C31_false_obj` and `C32_false_object`: a member that is the last of several. -/
example (slack : Nat → Nat) : ∃ st P G v f w x p, Ready st P G v (some f) 0 ∧ Ready st P G w (some x) 0 ∧
    Shows st v (.obj ([(b!"a", .null)] ++ [(b!"b", .null)])) ∧ LastOfSeveral G x f ∧ Tidy G ∧ (G.keyOf x).isSome ∧
    CStr st p b!"b" := by
  obtain ⟨st, P, G, v, a, h1, h2, h3⟩ := tidy_example (t := .obj [(b!"a", .null), (b!"b", .null)])
    (by simp [Json.Valid, Json.ValidMembers]
        exact ⟨.plain (by decide) (by decide) (by decide) .nil, .plain (by decide) (by decide) (by decide) .nil⟩) slack
  obtain ⟨gf, kids, hf, hgf, hi⟩ := h1.obj h3
  cases hi with
  | @cons _ k0 _ g0 _ _ _ q1 q2 q3 hi =>
  cases hi with
  | @cons _ k1 _ g1 _ _ _ q4 q5 q6 hi =>
  cases hi
  obtain ⟨r1, r2, r3⟩ := h1.addV q4
  refine ⟨_, P, G, v, a, st.nv, k1, _, r2.addC (d := b!"b" ++ [0]), r1.addC, r2.addC.shows (h1.unf h3),
    ⟨gf, true, [k0], hf, hgf, by simp⟩, h2, ?_, addC_cstr (by decide)⟩
  unfold Graph.keyOf
  rw [q4, show Option.bind (some g1) GNode.key = g1.key from rfl, q5]; rfl

/-- For `C31_false_middle_all`. -/
example (slack : Nat → Nat) : ∃ st P G v f w x u y gf l r, Ready st P G v (some f) 0 ∧ Ready st P G w (some x) 0 ∧
    Ready st P G u (some y) 0 ∧ G f = some gf ∧ gf.val = .con false (l ++ x :: y :: r) ∧ l ≠ [] ∧ Tidy G := by
  obtain ⟨st, P, G, v, a, h1, h2, h3⟩ := tidy_example (t := .arr [.null, .null, .null, .null])
    (by simp [Json.Valid, Json.ValidElems]) slack
  obtain ⟨gf, kids, ms, hf, hgf, hi, hms⟩ := h1.arr h3
  have hl : kids.length = 4 := by rw [hi.length, ← List.length_map (f := (·.2)), hms]; rfl
  match kids, hl with
  | [k0, k1, k2, k3], _ =>
    obtain ⟨g1, q1, _⟩ := h1.inv.con_kid hf hgf (k := k1) (by simp)
    obtain ⟨g2, q2, _⟩ := h1.inv.con_kid hf hgf (k := k2) (by simp)
    obtain ⟨r1, r2, r3⟩ := h1.addV q1
    obtain ⟨s1, s2, s3⟩ := r2.addV q2
    exact ⟨_, P, G, v, a, _, k1, _, k2, gf, [k0], [k3], s2, r1.unchanged s3 s1.inv.ok, s1, hf, hgf, by simp, h2⟩

/-- For `C33_false_all`: two arrays next to each other in one document. -/
example (slack : Nat → Nat) : ∃ st P G v a vv x u e gx, Ready st P G v (some a) 0 ∧ Ready st P G vv (some x) 0 ∧
    Shows st vv (.arr [.null, .null]) ∧ ¬ Reach G x a ∧ EndRight G x ∧ G x = some gx ∧ gx.val.kids.getLast? = some e ∧
    Ready st P G u (some e) 0 := by
  obtain ⟨st, P, G, v, f, h1, h2, h3⟩ := tidy_example (t := .arr [.arr [], .arr [.null, .null]])
    (by simp [Json.Valid, Json.ValidElems]) slack
  obtain ⟨gf, kids, ms, hf, hgf, hi, hms⟩ := h1.arr h3
  match ms, hms with
  | [(_, _), (_, _)], hms =>
  simp only [List.map_cons, List.map_nil, List.cons.injEq, and_true] at hms
  obtain ⟨rfl, rfl⟩ := hms
  cases hi with
  | @cons _ k0 _ g0 _ _ _ q1 q2 q3 hi =>
  cases hi with
  | @cons _ k1 _ g1 _ _ _ q4 q5 q6 hi =>
  cases hi
  obtain ⟨r1, r2, r3⟩ := h1.addV q1
  obtain ⟨s1, s2, s3⟩ := r2.addV q4
  have hs := s1.shows q6
  obtain ⟨gx, kx, mx, e1, e2, e3, e4⟩ := s1.arr hs
  have hl : kx.length = 2 := by rw [e3.length, ← List.length_map (f := (·.2)), e4]; rfl
  match kx, hl with
  | [j0, j1], _ =>
    obtain ⟨ge, p1, _⟩ := h1.inv.con_kid e1 e2 (k := j1) (by simp)
    obtain ⟨u1, u2, u3⟩ := s1.addV p1
    refine ⟨_, P, G, _, k0, _, k1, _, j1, gx, (r1.unchanged s3 s1.inv.ok).unchanged u3 u1.inv.ok, u2, u2.shows q6, ?_, h2.endRight,
      e1, by rw [e2]; rfl, u1⟩
    intro hr
    obtain ⟨g0', p2, p3, _⟩ := h1.inv.con_kid hf hgf (k := k0) (by simp)
    have : k1 ≠ k0 := by
      have := (h1.inv.con hf hgf)
      obtain ⟨_, _, hc, _⟩ := this
      have := hc.nodup
      simp at this
      exact Ne.symm this
    have hend : ∀ {c d}, Reach G c d → d = k0 → c ≠ k0 → Reach G c f := by
      intro c d h
      induction h with
      | refl => intro e h; exact absurd e h
      | @step c gc k d hc hk hkd ih =>
        intro e hne
        by_cases hk0 : k = k0
        · obtain ⟨gk, w1, w2⟩ := h1.inv.kid hc hk
          subst hk0
          rw [p2] at w1; cases w1
          rw [p3] at w2; cases w2
          exact .refl
        · exact .step hc hk (ih e hk0)
    exact h1.inv.con_ne hf hgf (k := k1) (by simp) (hend hr rfl this) rfl

end
end ZJ
