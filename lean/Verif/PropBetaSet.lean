import Verif.PropBetaEdit

/-
C76: in the older header an assignment overwrites the key of the member that is assigned to.
-/

set_option linter.unusedSimpArgs false
set_option linter.unusedVariables false

namespace ZJ.Beta

variable {D : Type} {α β : Type} {st : St} {P : Addr → Prop} {G : Graph} {v vv w a x y f n : Addr} {A A' B : Nat} {ga gx gf gy : GNode}
  {k k' k'' : Bytes} {t : Json} {ms : List (Bytes × Json)}

theorem takeKey_run {na nx ny : Node} {p q : SPtr} {r : Option SPtr} {l : Nat} (ha : st.nodes a = some na) (hka : na.key = some (some p))
    (hy : st.nodes y = some ny) (hky : ny.key = some (some q)) (hx : st.nodes x = some nx) (hkx : nx.key = some r)
    (hlx : nx.keyLen = some l) (hne : x ≠ a) :
    takeKey a x y st = .ok ((), st.setN a { na with key := some r, keyLen := some l }) := by
  unfold takeKey
  mstep ZJ.nKey_run ha hka
  mstep ZJ.nKey_run hy hky
  mstep ZJ.nKey_run hx hkx
  mstep modNode_run (f := fun n => { n with key := some r }) ha
  have hx' : (st.setN a { na with key := some r }).nodes x = some nx := by simp [hne, hx]
  mstep nKeyLen_run hx' hlx
  refine (modNode_run (n := { na with key := some r }) (by simp)).trans ?_
  simp

/-- The assignment with keys is the assignment without keys after the key was set. -/
theorem graft_key {na nx ny : Node} {p q : SPtr} {r : Option SPtr} {l : Nat} (ha : st.nodes a = some na) (hka : na.key = some (some p))
    (hy : st.nodes y = some ny) (hky : ny.key = some (some q)) (hx : st.nodes x = some nx) (hkx : nx.key = some r)
    (hlx : nx.keyLen = some l) {ty : JType} (hty : nx.type = some ty) (hne : x ≠ a) (fuel : Nat) :
    graft fuel a x y st = ZJ.graft fuel a x y (st.setN a { na with key := some r, keyLen := some l }) := by
  have e1 : graft fuel a x y st = _ := M.bind_ok (nType_run hx hty)
  have e2 : ZJ.graft fuel a x y (st.setN a { na with key := some r, keyLen := some l }) = _ :=
    M.bind_ok (nType_run (n := nx) (by simp [hne, hx]) hty)
  rw [e1, e2]
  rw [M.bind_ok (show setType a ty st = _ from modNode_run ha)]
  rw [M.bind_ok (show setType a ty (st.setN a { na with key := some r, keyLen := some l }) = _ from
    modNode_run (n := { na with key := some r, keyLen := some l }) (by simp))]
  have hy' : ∃ ny', (st.setN a { na with type := some ty }).nodes y = some ny' ∧ ny'.key = some (some q) := by
    by_cases h : y = a
    · subst h
      rw [ha] at hy
      cases hy
      exact ⟨{ na with type := some ty }, by simp, hky⟩
    · exact ⟨ny, by simp [h, hy], hky⟩
  obtain ⟨ny', hy1, hy2⟩ := hy'
  rw [M.bind_ok (takeKey_run (na := { na with type := some ty }) (by simp) hka hy1 hy2 (nx := nx) (by simp [hne, hx]) hkx hlx hne)]
  simp

/-- Grafting a root `n` with a key on a member of an object. -/
theorem graft_member (hv : Ready st P G v (some a) A) (hw : Ready st P G w (some f) B) (ha : G a = some ga) (hka : ga.key = some k)
    (hx : G x = some gx) (hp : gx.par = none) (hkx : gx.key = some k') (hr : ¬ Reach G x a) (hy : G y = some gy) (hky : gy.key = some k'')
    (ht : Unf G x t) (hf : G f = some gf) {i : Nat} (hi : gf.val.kids[i]? = some a) (hs : Shows st w (.obj ms))
    {e : Bool} (hE : ∀ ny nx, st.nodes y = some ny → st.nodes x = some nx → e = true → gx.val.kids ≠ [] → ny.end_ = nx.end_ ∧ y ≠ a)
    (hEx : e = true → gx.endOK = true) :
    ∃ st' G', (∀ F, graft (F + gx.val.kids.length + 1) a x y st = .ok ((), st')) ∧ st'.vals = st.vals ∧
      Inv st' P G' ∧ CacheOK st' ∧ (∀ b, b ≠ x → (G b).isSome → (G' b).isSome) ∧
      Unf G' a t ∧ Unf G' f (.obj (ms.modify i fun _ => (k', t))) := by
  have hax : a ≠ x := fun e => hr (e ▸ .refl)
  have hI := hv.inv
  obtain ⟨na, hna, hna2⟩ := hI.rep a ga ha
  obtain ⟨nx, hnx, hnx2⟩ := hI.rep x gx hx
  obtain ⟨ny, hny, hny2⟩ := hI.rep y gy hy
  have ka := hna2.key
  rw [hka] at ka
  obtain ⟨p, ka, _, _⟩ := ka
  have ky := hny2.key
  rw [hky] at ky
  obtain ⟨q, ky, _, _⟩ := ky
  have kx := hnx2.key
  rw [hkx] at kx
  obtain ⟨r, kx, lx, sx⟩ := kx
  have hty : nx.type = some gx.val.type := by
    have := hnx2.val
    cases hgv : gx.val with
    | con o kids => rw [hgv] at this; exact ConOK.type this
    | _ => rw [hgv] at this; exact (show ScalarOK _ _ _ _ from this).1
  have hgk := fun fuel => graft_key hna ka hny ky hnx kx lx hty (Ne.symm hax) fuel
  have hfa : f ≠ a := by
    rintro rfl
    rw [ha] at hf; cases hf
    exact hI.not_self ha (List.mem_of_getElem? hi) rfl
  have hfx : f ≠ x := by
    rintro rfl
    rw [hx] at hf; cases hf
    exact hr (.step hx (List.mem_of_getElem? hi) .refl)
  -- the key
  generalize hst1 : st.setN a { na with key := some (some r), keyLen := some k'.length } = st1 at hgk
  have hI1 : Inv st1 P (G.set a { ga with key := some k' }) := by
    rw [← hst1]
    refine hI.setKey ha hna rfl ⟨r, rfl, rfl, sx⟩ ?_
    intro _ _ _ _
    rw [hka]; rfl
  have hk1 : Keyed st st1 P P G v (some a) A k' := by
    have hb : baseNode G (some a) = ga := by simp [baseNode, ha]
    refine ⟨⟨?_, ?_, ?_, fun b hb => by cases hb; simp [rootOf]⟩, fun _ h => h, ?_⟩
    · simpa [rootOf, hb] using hI1
    · rw [← hst1]
      exact hv.cok.frame hI.ok frame_setN rfl
    · rw [← hst1]; simpa [rootOf] using hv.val
    · rw [← hst1]
      exact frame_setN.weaken (fun _ h => by simpa [rootOf] using h) (fun _ h => h.elim) (fun _ h => h.elim)
  have hwv : w ≠ v := by
    rintro rfl
    have := hw.val.symm.trans hv.val
    simp at this
    exact hfa this.1
  have hm := C43_member hk1 hv hf hi hw hwv .nil hs rfl
  simp only [Json.replace_nil] at hm
  generalize hG1 : G.set a { ga with key := some k' } = G1 at hI1
  have g1 : ∀ b, b ≠ a → G1 b = G b := fun b hb => by rw [← hG1, Graph.set_ne _ _ hb]
  have ha1 : G1 a = some { ga with key := some k' } := by rw [← hG1]; simp
  have hx1 : G1 x = some gx := by rw [g1 _ (Ne.symm hax), hx]
  have hf1 : G1 f = some gf := by rw [g1 _ hfa, hf]
  have reach : ∀ b c, Reach G1 b c → Reach G b c := by
    intro b c h
    induction h with
    | refl => exact .refl
    | @step b gb m c h1 h2 _ ih =>
      by_cases e : b = a
      · subst e
        rw [ha1] at h1; cases h1
        exact .step ha h2 ih
      · rw [g1 _ e] at h1
        exact .step h1 h2 ih
  have hr1 : ¬ Reach G1 x a := fun h => hr (reach _ _ h)
  have hw1 : Ready st1 P G1 w (some f) B := by
    refine ⟨hI1, hk1.ready.cok, ?_, fun b hb => by cases hb; rw [hf1]; rfl⟩
    rw [← hst1]; exact hw.val
  have ht1 : Unf G1 x t := by
    refine ht.same ⟨fun d gd hr' hd => ⟨gd, ?_, rfl⟩, fun d gd m gm hr' hd hm' hgm => ⟨gm, ?_, rfl⟩⟩
    · rw [g1 _ (fun e => hr (e ▸ hr'))]; exact hd
    · rw [g1 _ (fun e => hr (e ▸ hr'.trans (.step hd hm' .refl)))]; exact hgm
  have hny1 : ∃ ny1, st1.nodes y = some ny1 ∧ ny1.end_ = ny.end_ := by
    rw [← hst1]
    by_cases e : y = a
    · subst e; rw [hna] at hny; cases hny; exact ⟨{ na with key := some (some r), keyLen := some k'.length }, by simp, rfl⟩
    · exact ⟨ny, by simp [e, hny], rfl⟩
  obtain ⟨ny1, hny1, hend⟩ := hny1
  obtain ⟨st2, hrun, hG⟩ := graft_run (e := e) hI1 ha1 hx1 hr1 hny1 (by
    intro ny' nx' h1 h2 h3 h4
    rw [hny1] at h1; cases h1
    rw [← hst1] at h2
    simp [Ne.symm hax, hnx] at h2; subst h2
    obtain ⟨q1, q2⟩ := hE _ _ hny hnx h3 h4
    exact ⟨hend.trans q1, q2⟩) hEx
  have hD : Did (fun _ => False) (fun _ => False) st1 st2 P P _ _ := hG.did hI1 ha1 hx1 hp hr1
  have hEd := hI1.graft_edit ha1 hx1 hp ht1 hr1 (e := e)
  have hS : ∀ b, Reach G1 f b → b ≠ x := by
    rintro b hb rfl
    exact hfx (hI1.above_root hx1 hp hb)
  have hIo := hI1.only (S := (· ≠ x)) (fun b gb _ hb m hm => by
    rintro rfl
    exact hI1.not_kid hx1 hp hb hm)
  refine ⟨st2, _, fun F => (hgk _).trans (hrun F), ?_, hD.inv, hD.cok hw1.cok, ?_, hEd.doc, ?_⟩
  · rw [hG.rest, ← hst1]; rfl
  · intro b hb h
    by_cases e1 : b = a
    · subst e1; rw [graft_self]; rfl
    · obtain ⟨gb, hgb⟩ := Option.isSome_iff_exists.1 h
      obtain ⟨gc, h1, _⟩ := graft_same (ga := { ga with key := some k' }) (gx := gx) (e := e) e1 hb ((g1 _ e1).trans hgb)
      rw [h1]; rfl
  · have := hEd.edit hIo (PathTo.only (.cons hf1 hi .nil) hS) ((hw1.unf hm).only hS)
    simpa [Json.replace, Json.edit, List.modify_modify_eq, Function.comp_def] using this

/-- C76 is false of `z_ValueSetFast`: `v` is the member `i`, with key `k`, of the object of `w`; `vv` is a value with a key `k'` that
is not in a container. Afterwards the member has the key `k'`, whatever the two values are. -/
theorem C76_false_setFast {s : BSt D} (hv : Ready s.st P G v (some a) A) (hx : Ready s.st P G vv (some x) A')
    (hw : Ready s.st P G w (some f) B) (ha : G a = some ga) (hka : ga.key = some k) (hgx : G x = some gx) (hp : gx.par = none)
    (hkx : gx.key = some k') (hr : ¬ Reach G x a) (ht : Shows s.st vv t) (hf : G f = some gf) {i : Nat} (hi : gf.val.kids[i]? = some a)
    (hs : Shows s.st w (.obj ms)) :
    ∃ c s', (∀ F, setFast (F + c) v vv s = .ok (true, s')) ∧ Shows s'.st v t ∧ Shows s'.st w (.obj (ms.modify i fun _ => (k', t))) := by
  have hax : a ≠ x := fun e => hr (e ▸ .refl)
  have hfx : f ≠ x := by
    rintro rfl
    rw [hgx] at hf; cases hf
    exact hr (.step hgx (List.mem_of_getElem? hi) .refl)
  obtain ⟨st2, G2, e1, e2, h1, h2, h3, h4, h5⟩ := graft_member hv hw ha hka hgx hp hkx hr hgx hkx (hx.unf ht) hf hi hs (e := false)
    (fun _ _ _ _ h => nomatch h) (fun h => nomatch h)
  have hvv2 : st2.vals vv = some ⟨some x, A'⟩ := by rw [e2]; exact hx.val
  have d3 := Did.setV h1 (y' := ⟨none, A'⟩) hvv2 rfl
  have ne : ∀ {u b C}, s.st.vals u = some ⟨some b, C⟩ → b ≠ x → u ≠ vv := by
    rintro u b C hu hb rfl
    have := hu.symm.trans hx.val
    simp at this
    exact hb this.1
  have hv2 : Ready st2 P G2 v (some a) A := ⟨h1, h2, by rw [e2]; exact hv.val, fun b hb => by cases hb; exact h3 _ hax (hv.node _ rfl)⟩
  have hw2 : Ready st2 P G2 w (some f) B := ⟨h1, h2, by rw [e2]; exact hw.val, fun b hb => by cases hb; exact h3 _ hfx (hw.node _ rfl)⟩
  refine ⟨gx.val.kids.length + 1, ⟨st2.setV vv ⟨none, A'⟩, upd (upd s.mem v {}) vv {}⟩, fun F => ?_,
    (d3.ready hv2 (ne hv.val hax) hv2.node).shows h4, (d3.ready hw2 (ne hw.val hfx) hw2.node).shows h5⟩
  unfold setFast
  rw [bind_ok (show move vv s = .ok (true, ⟨s.st, s.mem⟩) from up_ok (move_root hx.inv hx.val hgx hp))]
  simp only [Bool.not_true, Bool.false_eq_true, if_false]
  rw [bind_ok (show ZJ.Beta.initCache v ⟨s.st, s.mem⟩ = .ok ((), ⟨s.st, upd s.mem v {}⟩) from rfl)]
  rw [bind_ok (show ZJ.Beta.initCache vv ⟨s.st, upd s.mem v {}⟩ = .ok ((), ⟨s.st, upd (upd s.mem v {}) vv {}⟩) from rfl)]
  rw [bind_ok (up_ok (s := ⟨s.st, upd (upd s.mem v {}) vv {}⟩) (rdVal_run hx.val))]
  rw [bind_ok (up_ok (s := ⟨s.st, upd (upd s.mem v {}) vv {}⟩) (rdVal_run hv.val))]
  refine (bind_ok (up_ok (s := ⟨s.st, upd (upd s.mem v {}) vv {}⟩) (a := ()) ?_)).trans rfl
  refine (M.bind_ok (show deref (some x) s.st = .ok (x, s.st) from rfl)).trans ?_
  refine (M.bind_ok (e1 F)).trans ?_
  exact setValN_run hvv2

theorem Ready.log {o : Option Addr} {l : List Ev} (h : Ready st P G v o A) : Ready {st with log := l} P G v o A := by
  refine h.unchanged ⟨⟨fun _ _ _ => rfl, fun _ _ _ => rfl, fun _ _ _ => rfl, Nat.le_refl _, Nat.le_refl _, Nat.le_refl _, rfl, rfl, rfl⟩, rfl⟩ ?_
  exact ⟨h.inv.ok.nodes, h.inv.ok.vals, h.inv.ok.bufs, h.inv.ok.size, h.inv.ok.live, h.inv.ok.cache⟩

/-- C76 is false of `z_ValueSet` in the same way; here `vv` may be anywhere, outside or inside a container. -/
theorem C76_false_set {s : BSt D} (hv : Ready s.st P G v (some a) A) (hx : Ready s.st P G vv (some x) A')
    (hw : Ready s.st P G w (some f) B) (ha : G a = some ga) (hka : ga.key = some k) (hgx : G x = some gx)
    (hkx : gx.key = some k') (ht : Shows s.st vv t) (hf : G f = some gf) {i : Nat} (hi : gf.val.kids[i]? = some a)
    (hs : Shows s.st w (.obj ms)) :
    ∃ c, ∀ F, ∃ s', set (F + c) v vv s = .ok (true, s') ∧ Shows s'.st v t ∧ Shows s'.st w (.obj (ms.modify i fun _ => (k', t))) := by
  have hI := hv.inv
  obtain ⟨c, st1, n, g, P', hrun, hC⟩ := copy_run hI hx.val hgx (hx.unf ht)
  obtain ⟨gn, hn, hp, hkey, _⟩ := hC.root
  have ha1 : (G.or g) a = some ga := by rw [hC.old (hI.lt ha), ha]
  have hn1 := hC.grow hI hn
  have hr : ¬ Reach (G.or g) n a := fun h => by
    have := hC.reach hI h (by simp [hn])
    have := hI.lt ha
    omega
  have hx1 : (G.or g) x = some gx := by rw [hC.old (hI.lt hgx), hgx]
  have hf1 : (G.or g) f = some gf := by rw [hC.old (hI.lt hf), hf]
  have old : ∀ {u b C}, Ready s.st P G u (some b) C → Ready st1 P' (G.or g) u (some b) C := by
    intro u b C hu
    refine hC.did.ready hu id fun b hb => ?_
    cases hb
    obtain ⟨gb, hgb⟩ := Option.isSome_iff_exists.1 (hu.node _ rfl)
    rw [hC.old (hI.lt hgb), hgb]; rfl
  have hnn := hC.new _ _ hn
  have hheld : Held s.st vv := ⟨hI.ok.val_lt hx.val, x, A', hx.val⟩
  refine ⟨c + gn.val.kids.length + 1, fun F => ?_⟩
  -- `z_ValueCopy` ends in the same memory as `zj_Copy`, apart from the log
  have hm := C75_copy (st := s.st) (s := s) ⟨s.st.log, rfl⟩ hheld (F + (c + gn.val.kids.length + 1))
  have h1 := hrun (F + gn.val.kids.length + 1)
  rw [show F + gn.val.kids.length + 1 + c = F + (c + gn.val.kids.length + 1) by omega] at h1
  rw [h1] at hm
  generalize hcp : copy (F + (c + gn.val.kids.length + 1)) vv s = z at hm
  cases hm with
  | @ok _ _ s1 hT =>
  obtain ⟨l, hl⟩ := hT
  have hlog : ∀ {u b C}, Ready st1 P' (G.or g) u (some b) C → Ready s1.st P' (G.or g) u (some b) C := by
    intro u b C hu
    rw [hl]
    exact Ready.log hu
  have hv1 := hlog (old hv)
  have hw1 := hlog (old hw)
  have hx1' := hlog (old hx)
  have hs1 : Shows s1.st w (.obj ms) := hw1.shows ((hw.unf hs).mono fun c y hy => by rw [hC.old (hI.lt hy)]; exact hy)
  obtain ⟨st2, G2, e1, e2, i1, i2, i3, i4, i5⟩ := graft_member hv1 hw1 ha1 hka hn1 hp (hkey.trans hkx) hr hx1 hkx
    (hC.unf.mono fun c y hy => hC.grow hI hy) hf1 hi hs1 (e := false) (fun _ _ _ _ h => nomatch h) (fun h => nomatch h)
  have hv2 : Ready st2 P' G2 v (some a) A := ⟨i1, i2, by rw [e2]; exact hv1.val, fun b hb => by
    cases hb
    refine i3 _ ?_ (hv1.node _ rfl)
    have := hI.lt ha
    omega⟩
  have hw2 : Ready st2 P' G2 w (some f) B := ⟨i1, i2, by rw [e2]; exact hw1.val, fun b hb => by
    cases hb
    refine i3 _ ?_ (hw1.node _ rfl)
    have := hI.lt hf
    omega⟩
  refine ⟨⟨st2, upd s1.mem v {}⟩, ?_, hv2.shows i4, hw2.shows i5⟩
  unfold set
  rw [bind_ok hcp]
  dsimp only
  rw [bind_ok (show ZJ.Beta.initCache v s1 = .ok ((), ⟨s1.st, upd s1.mem v {}⟩) from rfl)]
  have hh : s1.st.vals s.st.nv = some ⟨some n, A'⟩ := by rw [hl]; exact hC.handle
  rw [bind_ok (up_ok (s := ⟨s1.st, upd s1.mem v {}⟩) (rdVal_run hh))]
  rw [bind_ok (up_ok (s := ⟨s1.st, upd s1.mem v {}⟩) (rdVal_run hv1.val))]
  refine (bind_ok (up_ok (s := ⟨s1.st, upd s1.mem v {}⟩) (a := ()) ?_)).trans rfl
  refine (M.bind_ok (show deref (some n) s1.st = .ok (n, s1.st) from rfl)).trans ?_
  have e0 : valN vv s1.st = .ok (x, s1.st) := by
    unfold valN; mstep rdVal_run hx1'.val; rfl
  refine (M.bind_ok e0).trans ?_
  have h2 := e1 (F + c)
  rw [show F + c + gn.val.kids.length + 1 = F + (c + gn.val.kids.length + 1) by omega] at h2
  exact h2


/-- C76 is false: in `{"a":1,"b":2}` the value of `a` is set to the value of `b`, and the member `a` is gone;
it is now called `b` too. The same calls with `zzzjson.h` keep the name. -/
theorem C76_false :
    out ((do
      let p ← up (callerText (b!"{\"a\":1,\"b\":2}" ++ [0]))
      let _ ← parse 0 p
      let ka ← up (callerText (b!"a" ++ [0]))
      let kb ← up (callerText (b!"b" ++ [0]))
      match ← objGet 99 0 ka, ← objGet 99 0 kb with
      | some a, some b =>
        let r ← set 99 a b
        let found ← objGet 99 0 ka
        return (r, found, ← up (readN (← stringify 99 0) 13))
      | _, _ => return (false, none, []) : BM Unit (Bool × Option Addr × Bytes)) (start Unit)) =
      .ok (true, none, b!"{\"b\":2,\"b\":2}") ∧
    Res.out ((do
      let p ← callerText (b!"{\"a\":1,\"b\":2}" ++ [0])
      let _ ← ZJ.parse 0 p
      let ka ← callerText (b!"a" ++ [0])
      let kb ← callerText (b!"b" ++ [0])
      match ← ZJ.objGet 99 0 ka, ← ZJ.objGet 99 0 kb with
      | some a, some b =>
        let r ← ZJ.set 99 a b
        let found ← ZJ.objGet 99 0 ka
        return (r, found.isSome, ← readN (← ZJ.stringify 99 0) 13)
      | _, _ => return (false, false, []) : M (Bool × Bool × Bytes)) (ZJ.start fun _ => 8)) =
      .ok (true, true, b!"{\"a\":2,\"b\":2}") := by
  refine ⟨by decide +kernel, by decide +kernel⟩

/-- C76 is false of `z_ValueSetFast` with a value that was given a name before. -/
theorem C76_false_fast :
    out ((do
      let p ← up (callerText (b!"{\"a\":1,\"b\":2}" ++ [0]))
      let _ ← parse 0 p
      let ka ← up (callerText (b!"a" ++ [0]))
      let kz ← up (callerText (b!"z" ++ [0]))
      let n ← up (callerText (b!"7" ++ [0]))
      let x ← newValue 0
      let _ ← setKey x kz
      let _ ← setNumStr x n
      match ← objGet 99 0 ka with
      | some a =>
        let r ← setFast 99 a x
        return (r, ← up (readN (← stringify 99 0) 13))
      | _ => return (false, []) : BM Unit (Bool × Bytes)) (start Unit)) =
      .ok (true, b!"{\"z\":7,\"b\":2}") := by
  decide +kernel

/-- The hypotheses of both: a document with a member, and a value outside it that has a key. -/
example : ∃ (s : BSt Unit) (P : Addr → Prop) (G : Graph) (v vv w a x f : Addr) (ga gx gf : GNode) (k : Bytes),
    Ready s.st P G v (some a) 0 ∧ Ready s.st P G vv (some x) 0 ∧ Ready s.st P G w (some f) 0 ∧ G a = some ga ∧ ga.key = some k ∧
    G x = some gx ∧ gx.par = none ∧ gx.key = some b!"z" ∧ ¬ Reach G x a ∧ Shows s.st vv .null ∧ G f = some gf ∧ gf.val.kids[0]? = some a ∧
    Shows s.st w (.obj [(b!"a", .bool true), (b!"b", .null)]) := by
  obtain ⟨st, P, G, w, f, he, h0⟩ := exists_example (t := .obj [(b!"a", .bool true), (b!"b", .null)]) (by
    simp [Json.Valid, Json.ValidMembers]
    exact ⟨.plain (by decide) (by decide) (by decide) .nil, .plain (by decide) (by decide) (by decide) .nil⟩) (fun _ => 8)
  have r0 : Ready st P G 0 none 0 := ⟨he.inv, he.cok, h0, fun _ h => nomatch h⟩
  have rw : Ready st P G w (some f) 0 := he.ready
  have r0' := r0.addC (d := b!"z" ++ [0])
  have rw' := rw.addC (d := b!"z" ++ [0])
  rcases C43_setKey r0' (addC_cstr (by decide)) (addC_lent he.inv.ok) (fun _ _ _ h => nomatch h) with ⟨_, ⟨st1, _, hk⟩, _⟩ | ⟨h, _⟩
  · have hne : w ≠ 0 := by rintro rfl; have := he.handle.symm.trans h0; simp at this
    have hnn : rootOf (st.addC (b!"z" ++ [0])) none = st.nn := rfl
    have h1 := hk.ready
    have hm := hk.mem
    rw [hnn] at h1 hm
    generalize hG : G.set st.nn { baseNode G none with key := some b!"z" } = G1 at h1
    have old : ∀ {b gb}, G b = some gb → G1 b = some gb := fun {b gb} hb => by
      rw [← hG, Graph.set_ne _ _ (Nat.ne_of_lt (he.inv.lt hb))]; exact hb
    have new : G1 st.nn = some { baseNode G none with key := some b!"z" } := by rw [← hG]; simp
    obtain ⟨gf, hgf, _, _⟩ := he.root
    have w1 : Ready st1 _ G1 w (some f) 0 := ⟨h1.inv, h1.cok, by
      rw [hm.vals w (rw'.inv.ok.val_lt rw'.val) hne]; exact rw'.val, fun b hb => by cases hb; rw [old hgf]; rfl⟩
    have hu := he.doc
    have hu1 : Unf G1 f (.obj [(b!"a", .bool true), (b!"b", .null)]) := hu.mono fun _ _ h => old h
    obtain ⟨hf', hv'⟩ := hu
    rw [hgf] at hf'; cases hf'
    obtain ⟨ks, e, hi⟩ := hv'.obj_inv
    cases hi with
    | cons b1 b2 b3 b4 =>
    have a1 := old b1
    obtain ⟨q1, q2, q3⟩ := w1.addV a1
    have hx := h1.unchanged q3 q2.inv.ok
    refine ⟨⟨_, fun _ => {}⟩, _, G1, _, 0, w, _, st.nn, f, _, _, _, _, q1, hx, q2, a1, b2, new, rfl, rfl, ?_, hx.shows (.mk new ?_), old hgf,
      by rw [e]; rfl, q2.shows hu1⟩
    · intro hr
      cases hr with
      | refl => exact absurd (he.inv.lt b1) (Nat.lt_irrefl _)
      | step g1 g2 _ =>
        rw [new] at g1; cases g1
        cases g2
    · exact .scalar rfl
  · exact absurd (.plain (by decide) (by decide) (by decide) .nil) h

/-- Where an assignment is the same with both headers, said of documents: one of the two values has no key. -/
theorem noClash_of_ready (hv : Ready st P G v (some a) A) (hx : Ready st P G vv (some x) A') (ha : G a = some ga) (hgx : G x = some gx)
    (h : ga.key = none ∨ gx.key = none) : NoClash st v vv := by
  refine ⟨hv.inv.ok.val_lt hv.val, hv.inv.ok.val_lt hx.val, fun b y B C h1 h2 => ?_⟩
  rw [hv.val] at h1; cases h1
  rw [hx.val] at h2; cases h2
  refine ⟨hv.inv.lt ha, hv.inv.lt hgx, ?_⟩
  have none : ∀ {b gb}, G b = some gb → gb.key = none → ∃ nb, st.nodes b = some nb ∧ nb.key = some none := by
    intro b gb hb hk
    obtain ⟨nb, h1, h2⟩ := hv.inv.rep b gb hb
    have := h2.key
    rw [hk] at this
    exact ⟨nb, h1, this⟩
  cases hk : ga.key with
  | none =>
    obtain ⟨na, h1, h2⟩ := none ha hk
    exact ⟨na, _, h1, h2, .inl rfl⟩
  | some k =>
    obtain ⟨na, p, h1, h2, _⟩ := hv.inv.key ha hk
    exact ⟨na, _, h1, h2, .inr (none hgx (h.resolve_left (by simp [hk])))⟩

/-- The hypotheses of C76: two documents side by side; the values have no keys. -/
example : ∃ st v vv, NoClash st v vv ∧ Held st vv := by
  obtain ⟨st, P, G, v, a, v', a', h1, h2, _⟩ := exists_example2 (t := .arr [.bool true]) (t' := .null)
    (by simp [Json.Valid, Json.ValidElems]) (by simp [Json.Valid]) (fun _ => 0)
  obtain ⟨ga, e1, _, e2⟩ := h1.root
  obtain ⟨gx, e3, _, e4⟩ := h2.root
  exact ⟨st, v, v', noClash_of_ready h1.ready h2.ready e1 e3 (.inl e2), h2.inv.ok.val_lt h2.handle, a', 0, h2.handle⟩

/-- C75: a client that builds a document, adds, copies, deletes and prints it, with both headers. -/
def someClient (p q : SPtr) : Prog Bytes :=
  .call (.newValue 0) fun v => .call (.setArray v) fun _ =>
  .call (.newValue 0) fun w => .call (.setStr w p) fun _ =>
  .call (.newValue 0) fun o => .call (.setObj o) fun _ =>
  .call (.newValue 0) fun m => .call (.setKey m p) fun _ => .call (.setNumStr m q) fun _ =>
  .call (.objAddFast o m) fun _ =>
  .call (.arrayAddFast v w) fun _ => .call (.arrayAddFast v o) fun _ =>
  .call (.arrayGet v 1) fun
    | some e => .call (.type e) fun _ => .call (.size v) fun n =>
      if n = 2 then .call (.arrayDel v 0) fun _ => .call (.stringify v) fun t => .call (.read t 10) fun r => .done r
      else .done []
    | none => .done []

example : ∀ fuel st p q, (someClient p q).Fits fuel st := by
  intro fuel st p q
  simp only [someClient, Prog.Fits, Req.Fits, true_and]
  intros
  split
  · simp only [Prog.Fits, Req.Fits, true_and]
    intros
    split <;> simp [Prog.Fits, Req.Fits]
  · trivial

example : out ((do
      let p ← up (callerText (b!"k" ++ [0]))
      let q ← up (callerText (b!"12" ++ [0]))
      (someClient p q).old 99 : BM Unit Bytes) (start Unit)) = .ok b!"[{\"k\":12}]" ∧
    Res.out ((do
      let p ← callerText (b!"k" ++ [0])
      let q ← callerText (b!"12" ++ [0])
      (someClient p q).new 99 : M Bytes) (ZJ.start fun _ => 8)) = .ok b!"[{\"k\":12}]" := by
  refine ⟨by decide +kernel, by decide +kernel⟩

/-- The first states of both are twins. -/
example : Twin (ZJ.start fun _ => 8) (start Unit) := ⟨_, rfl⟩

end ZJ.Beta
