import Verif.Edit
import Verif.PropSet

/-
Property theorems about editing: C28 (Copy), C29 (Add), C30 (AddFast), C31 (Move),
C32 (Del), C33 (Set, SetFast).
-/

set_option linter.unusedSimpArgs false

namespace ZJ

section
variable {st st' : St} {P P' : Addr → Prop} {G G' : Graph} {v vv w A A' B a b f x : Addr} {t : Json} {xs : List Json}
  {ms : List (Bytes × Json)} {gf gx : GNode} {o : Bool} {kids l r : List Addr} {y z : Option Addr}

theorem Ready.arr (h : Ready st P G v (some f) A) (hs : Shows st v (.arr xs)) :
    ∃ gf kids ms, G f = some gf ∧ gf.val = .con false kids ∧ UnfI G false kids ms ∧ ms.map (·.2) = xs := by
  obtain ⟨a, gn, h1, h2, h3⟩ := h.node_of hs
  cases h1
  refine ⟨gn, ?_⟩
  generalize gn.val = gv at h3
  generalize ht : Json.arr xs = t at h3
  cases h3 with
  | scalar hc => cases gv <;> cases hc <;> cases ht
  | @con o kids ms hi =>
    cases o with
    | true => cases ht
    | false => cases ht; exact ⟨kids, ms, h2, rfl, hi, rfl⟩

theorem Ready.obj (h : Ready st P G v (some f) A) (hs : Shows st v (.obj ms)) :
    ∃ gf kids, G f = some gf ∧ gf.val = .con true kids ∧ UnfI G true kids ms := by
  obtain ⟨a, gn, h1, h2, h3⟩ := h.node_of hs
  cases h1
  refine ⟨gn, ?_⟩
  generalize gn.val = gv at h3
  generalize ht : Json.obj ms = t at h3
  cases h3 with
  | scalar hc => cases gv <;> cases hc <;> cases ht
  | @con o kids ms hi =>
    cases o with
    | true => cases ht; exact ⟨kids, h2, rfl, hi⟩
    | false => cases ht

/-! ### C28: Copy -/

/-- C28. `zj_Copy` of a value that shows `t` makes a new handle with a new root node that
shows `t` and has the key of the original. The store is the old one and the new nodes
(`Unchanged`: no node, block or handle that existed was written).

The copy lies in new memory only: it is there in every state that has the same new nodes
and blocks, whatever happened to the others. And whatever happens to the new memory, the
other handles show what they showed. So no later change to one is seen through the other. -/
theorem C28_copy (hr : Ready st P G v (some a) A) (hs : Shows st v t) :
    ∃ c st' n P' G', (∀ F, copy (F + c) v st = .ok (some st.nv, st')) ∧
      Ready st' P' G' st.nv (some n) A ∧ Shows st' st.nv t ∧ G'.keyOf n = G.keyOf a ∧
      (∃ gn, G' n = some gn ∧ gn.par = none) ∧
      Did (fun _ => False) (fun _ => False) st st' P P' G G' ∧ G.le G' ∧ Unchanged st st' ∧
      (∀ st2 : St, st2.vals st.nv = st'.vals st.nv → (∀ b, st.nn ≤ b → st2.nodes b = st'.nodes b) →
        (∀ b, st.nb ≤ b → st2.bufs b = st'.bufs b) → Shows st2 st.nv t) ∧
      (∀ st2 : St, (∀ b, b < st.nv → st2.vals b = st'.vals b) → (∀ b, b < st.nn → st2.nodes b = st'.nodes b) →
        (∀ b, b < st.nb → st2.bufs b = st'.bufs b) → ∀ w y B T, Ready st P G w y B → Shows st w T → Shows st2 w T) := by
  obtain ⟨gx, hx⟩ := Option.isSome_iff_exists.1 (hr.node a rfl)
  obtain ⟨c, st', n, g, P', hrun, hC⟩ := copy_run hr.inv hr.val hx (hr.unf hs)
  obtain ⟨gn, hn, hpar, hkey, _⟩ := hC.root
  have hn' := hC.grow hr.inv hn
  have hready : Ready st' P' (G.or g) st.nv (some n) A :=
    ⟨hC.did.inv, hC.did.cok hr.cok, hC.handle, fun b hb => by cases hb; simp [hn']⟩
  refine ⟨c, st', n, P', G.or g, hrun, hready, ⟨n, A, hC.handle, hC.rep.mdoc hC.unf⟩, ?_, ⟨gn, hn', hpar⟩, hC.did,
    Graph.le_or, hC.unch, ?_, ?_⟩
  · simp [Graph.keyOf, hn', hx, hkey]
  · intro st2 h1 h2 h3
    refine ⟨n, A, by rw [h1]; exact hC.handle, ?_⟩
    refine (hC.rep.mono (st' := st2) (P' := Fr st.nb st') (fun b hb => h2 b ?_) (fun _ h => h) (fun b hb => h3 b hb.1)).mdoc hC.unf
    obtain ⟨y, hy⟩ := Option.isSome_iff_exists.1 hb
    exact hC.new b y hy
  · intro st2 h1 h2 h3 w y B T hw hT
    obtain ⟨c, gc, rfl, hc, hu⟩ := hw.node_of hT
    refine ⟨c, B, ?_, ?_⟩
    · have := hr.inv.ok.val_lt hw.val
      rw [h1 w this, hC.unch.1.vals w this id]; exact hw.val
    · refine (hr.inv.rep.mono (st' := st2) (P' := P) (fun b hb => ?_) (fun _ h => h) (fun b hb => ?_)).mdoc (.mk hc hu)
      · obtain ⟨y, hy⟩ := Option.isSome_iff_exists.1 hb
        have := hr.inv.lt hy
        rw [h2 b this, hC.unch.1.nodes b this id]
      · obtain ⟨bf, hbf⟩ := Option.isSome_iff_exists.1 (hr.inv.pin b hb).1
        have := hr.inv.ok.buf_lt hbf
        rw [h3 b this, hC.unch.1.bufs b this id]

/-- The copy of an empty handle is 0; nothing else happens (a handle that nobody has is made). -/
theorem C28_empty (hr : Ready st P G v none A) {F : Nat} :
    ∃ st', copy F v st = .ok (none, st') ∧ Unchanged st st' ∧ Ready st' P G v none A := by
  refine ⟨_, copy_empty hr.inv hr.val, unch_addV, hr.unchanged unch_addV (hr.inv.ok.addV hr.alloc)⟩

/-- The hypotheses of `C28_copy` are met by every valid document. -/
example {t : Json} (ht : t.Valid) (slack : Nat → Nat) : ∃ st P G v a, Ready st P G v (some a) 0 ∧ Shows st v t := by
  obtain ⟨st, P, G, v, a, h, _⟩ := exists_example ht slack
  exact ⟨st, P, G, v, a, h.ready, h.ready.shows h.doc⟩

/-! ### C29: Add -/

/-- The `End` pointer of the container `f` can be relied on: it has no children, or the pointer
leads to the last one. It is so after a parse, a copy, an Add, and as long as no `zj_Move`
took the last child away from its siblings (C31) and the value was not made by `zj_Set` (C33). -/
def EndRight (G : Graph) (f : Addr) : Prop := ∀ g, G f = some g → g.val.kids = [] ∨ g.endOK = true

theorem attach_endRight (hne : f ≠ x) (hf : G f = some gf) : EndRight (G.attach f x o kids) f := by
  intro g hg
  rw [attach_fa hf hne] at hg; cases hg
  exact .inr rfl

/-- All links are right: every value can be moved and every container added to. -/
def Tidy (G : Graph) : Prop := ∀ a g, G a = some g → (g.val.kids = [] ∨ g.endOK = true) ∧ g.prevOK = true

theorem attach_tidy (h : Tidy G) : Tidy (G.attach f x o kids) := by
  intro a g hg
  unfold Graph.attach at hg
  split at hg
  · obtain ⟨y, h1, rfl⟩ := Option.map_eq_some_iff.1 hg
    exact ⟨(h a y h1).1, rfl⟩
  · split at hg
    · obtain ⟨y, h1, rfl⟩ := Option.map_eq_some_iff.1 hg
      exact ⟨.inr rfl, (h a y h1).2⟩
    · exact h a g hg

theorem copied_tidy {st1 : St} {key} {r n : Addr} (hI : Inv st P G) (hC : Copied A st st1 P P' G g r n key t) (h : Tidy G) : Tidy (G.or g) := by
  intro a y ha
  cases hg : g a with
  | some z =>
    rw [hC.grow hI hg] at ha; cases ha
    obtain ⟨h1, h2, _⟩ := hC.links a y hg
    exact ⟨.inr h2, h1⟩
  | none =>
    rw [Graph.or_apply, hg] at ha
    exact h a y (by simpa using ha)

theorem arrayAdd_edit (hv : Ready st P G v (some f) A) (hx : Ready st P G vv (some x) A') (hs : Shows st v (.arr xs))
    (ht : Shows st vv t) (he : EndRight G f) :
    ∃ c st' P' G', (∀ F, arrayAdd (F + c) v vv st = .ok (true, st')) ∧
      Did (fun _ => False) (fun _ => False) st st' P P' G G' ∧
      EditAt G G' f (.arr (xs ++ [t])) ∧ EndRight G' f ∧
      Ready st' P' G' v (some f) A ∧ Shows st' v (.arr (xs ++ [t])) ∧
      Ready st' P' G' vv (some x) A' ∧ (¬ Reach G x f → Shows st' vv t) ∧ (Tidy G → Tidy G') := by
  obtain ⟨gf, kids, ms, hf, hgf, hi, hms⟩ := hv.arr hs
  obtain ⟨gx, hgx⟩ := Option.isSome_iff_exists.1 (hx.node x rfl)
  obtain ⟨c, st1, st', n, g, gn, P', hrun, hC, hgn, hD, _⟩ := arrayAdd_run hv.inv hv.val hx.val hf hgf (he gf hf |>.imp
    (by rw [hgf]; exact id) id) hgx (hx.unf ht)
  obtain ⟨gn', hn, hpar, _, _⟩ := hC.root
  rw [hgn] at hn; cases hn
  have hn' := hC.grow hv.inv hgn
  have hlt := hv.inv.lt hf
  have hnn := hC.new _ _ hgn
  have hfn : f ≠ n := by omega
  obtain ⟨st2, _, hD2, _⟩ := clearKey_run hC.did.inv hn' hpar
  have hI2 := hD2.inv
  have hf' : (G.or g) f = some gf := by rw [hC.old hlt]; exact hf
  have hnr : ¬ Reach ((G.or g).set n { gn with key := none }) n f := fun h => by
    have h := Reach.set_same (gn' := { gn with key := none }) hn' rfl h
    have := hC.reach hv.inv h (by simp [hgn])
    omega
  have huf : Unf ((G.or g).set n { gn with key := none }) f (mkCon false ms) := by
    have h1 : Unf (G.or g) f (mkCon false ms) := (Unf.mk hf (by rw [hgf]; exact .con hi)).mono Graph.le_or
    refine h1.set_ne fun h => ?_
    have := hC.did.inv
    -- the copy is not below an old node
    have hold : ∀ {b c}, Reach (G.or g) b c → b < st.nn → c < st.nn := by
      intro b c h
      induction h with
      | refl => exact id
      | @step b gb k c e1 e2 _ ih =>
        intro hb
        rw [hC.old hb] at e1
        obtain ⟨gk, q1, _⟩ := hv.inv.kid e1 e2
        exact ih (hv.inv.lt q1)
    have := hold h hlt
    omega
  have hun : Unf ((G.or g).set n { gn with key := none }) n t :=
    Unf.set_top (hC.unf.mono (fun c y hy => hC.grow hv.inv hy)) hn' rfl
  obtain ⟨hE, hEn⟩ := hI2.attach_edit (f := f) (x := n) (o := false) (kids := kids) (by rw [Graph.set_ne _ _ hfn]; exact hf')
    hgf (Graph.set_same _ _ _) hnr (key := []) ⟨rfl, rfl⟩ huf hun
  have hE' := (hE.rekey hC.did.inv hn' hpar).le Graph.le_or
  have hm : mkCon false (ms ++ [([], t)]) = .arr (xs ++ [t]) := by simp [mkCon, hms]
  rw [hm] at hE'
  have hsome : ∀ b, (G b).isSome → (((G.or g).set n { gn with key := none }).attach f n false kids b).isSome := by
    intro b hb
    rw [attach_dom, Graph.set_apply]
    split
    · rfl
    · obtain ⟨y, hy⟩ := Option.isSome_iff_exists.1 hb
      rw [Graph.le_or b y hy]; rfl
  have hvr := hD.ready hv id (fun b hb => hsome b (hv.node b hb))
  have hxr := hD.ready hx id (fun b hb => hsome b (hx.node b hb))
  refine ⟨c, st', P', _, hrun, hD, hE', attach_endRight hfn (by rw [Graph.set_ne _ _ hfn]; exact hf'), hvr, hvr.shows hE'.doc,
    hxr, fun hn => hxr.shows (hE'.other (hx.unf ht) hn), fun hT => attach_tidy ?_⟩
  intro a y ha
  rw [Graph.set_apply] at ha
  split at ha
  · cases ha
    exact copied_tidy hv.inv hC hT n gn hn'
  · exact copied_tidy hv.inv hC hT a y ha

/-- C29. `zj_ArrayAdd(v, x)` appends a copy of `x` without its key. Nothing else changes:
`EditAt` says that every other document is what it was, with the new array in the place of
`v` if it contains `v`. In particular `x` shows what it showed (unless it contains `v`). -/
theorem C29_arrayAdd (hv : Ready st P G v (some f) A) (hx : Ready st P G vv (some x) A') (hs : Shows st v (.arr xs))
    (ht : Shows st vv t) (he : EndRight G f) :
    ∃ c st' P' G', (∀ F, arrayAdd (F + c) v vv st = .ok (true, st')) ∧
      Did (fun _ => False) (fun _ => False) st st' P P' G G' ∧
      EditAt G G' f (.arr (xs ++ [t])) ∧ EndRight G' f ∧
      Ready st' P' G' v (some f) A ∧ Shows st' v (.arr (xs ++ [t])) ∧
      Ready st' P' G' vv (some x) A' ∧ (¬ Reach G x f → Shows st' vv t) := by
  obtain ⟨c, st', P', G', h1, h2, h3, h4, h5, h6, h7, h8, _⟩ := arrayAdd_edit hv hx hs ht he
  exact ⟨c, st', P', G', h1, h2, h3, h4, h5, h6, h7, h8⟩

theorem objAdd_edit (hv : Ready st P G v (some f) A) (hx : Ready st P G vv (some x) A') (hs : Shows st v (.obj ms))
    (ht : Shows st vv t) {k} (hk : G.keyOf x = some k) (he : EndRight G f) :
    ∃ c st' P' G', (∀ F, objAdd (F + c) v vv st = .ok (true, st')) ∧
      Did (fun _ => False) (fun _ => False) st st' P P' G G' ∧
      EditAt G G' f (.obj (ms ++ [(k, t)])) ∧ EndRight G' f ∧
      Ready st' P' G' v (some f) A ∧ Shows st' v (.obj (ms ++ [(k, t)])) ∧
      Ready st' P' G' vv (some x) A' ∧ (¬ Reach G x f → Shows st' vv t) ∧ (Tidy G → Tidy G') := by
  obtain ⟨gf, kids, hf, hgf, hi⟩ := hv.obj hs
  obtain ⟨gx, hgx⟩ := Option.isSome_iff_exists.1 (hx.node x rfl)
  have hkx : gx.key = some k := by simpa [Graph.keyOf, hgx] using hk
  obtain ⟨c, st1, st', n, g, P', hrun, hC, hD, _⟩ := objAdd_run hv.inv hv.val hx.val hf hgf (he gf hf |>.imp
    (by rw [hgf]; exact id) id) hgx (by simp [hkx]) (hx.unf ht)
  obtain ⟨gn, hgn, hpar, hkn, _⟩ := hC.root
  have hn' := hC.grow hv.inv hgn
  have hlt := hv.inv.lt hf
  have hnn := hC.new _ _ hgn
  have hfn : f ≠ n := by omega
  have hf' : (G.or g) f = some gf := by rw [hC.old hlt]; exact hf
  have hnr : ¬ Reach (G.or g) n f := fun h => by
    have := hC.reach hv.inv h (by simp [hgn])
    omega
  have huf : Unf (G.or g) f (mkCon true ms) := (Unf.mk hf (by rw [hgf]; exact .con hi)).mono Graph.le_or
  have hun : Unf (G.or g) n t := hC.unf.mono (fun c y hy => hC.grow hv.inv hy)
  obtain ⟨hE, hEn⟩ := hC.did.inv.attach_edit (f := f) (x := n) (o := true) (kids := kids) hf'
    hgf hn' hnr (key := k) (by rw [hkn]; exact hkx) huf hun
  have hE' := hE.le Graph.le_or
  have hsome : ∀ b, (G b).isSome → ((G.or g).attach f n true kids b).isSome := by
    intro b hb
    rw [attach_dom]
    obtain ⟨y, hy⟩ := Option.isSome_iff_exists.1 hb
    rw [Graph.le_or b y hy]; rfl
  have hvr := hD.ready hv id (fun b hb => hsome b (hv.node b hb))
  have hxr := hD.ready hx id (fun b hb => hsome b (hx.node b hb))
  exact ⟨c, st', P', _, hrun, hD, hE', attach_endRight hfn hf', hvr, hvr.shows hE'.doc, hxr,
    fun hn => hxr.shows (hE'.other (hx.unf ht) hn), fun hT => attach_tidy (copied_tidy hv.inv hC hT)⟩

/-- C29. `zj_ObjAdd(v, x)` appends a copy of `x` with its key `k`. -/
theorem C29_objAdd (hv : Ready st P G v (some f) A) (hx : Ready st P G vv (some x) A') (hs : Shows st v (.obj ms))
    (ht : Shows st vv t) {k} (hk : G.keyOf x = some k) (he : EndRight G f) :
    ∃ c st' P' G', (∀ F, objAdd (F + c) v vv st = .ok (true, st')) ∧
      Did (fun _ => False) (fun _ => False) st st' P P' G G' ∧
      EditAt G G' f (.obj (ms ++ [(k, t)])) ∧ EndRight G' f ∧
      Ready st' P' G' v (some f) A ∧ Shows st' v (.obj (ms ++ [(k, t)])) ∧
      Ready st' P' G' vv (some x) A' ∧ (¬ Reach G x f → Shows st' vv t) := by
  obtain ⟨c, st', P', G', h1, h2, h3, h4, h5, h6, h7, h8, _⟩ := objAdd_edit hv hx hs ht hk he
  exact ⟨c, st', P', G', h1, h2, h3, h4, h5, h6, h7, h8⟩

theorem Ready.notCon (h : Ready st P G v y A) (hs : ∀ t, Shows st v t → ∀ ms, t ≠ mkCon o ms) : NotCon st G v o := by
  cases y with
  | none => exact .inl ⟨A, h.val⟩
  | some f =>
    obtain ⟨gf, hf⟩ := Option.isSome_iff_exists.1 (h.node f rfl)
    refine .inr ⟨A, f, gf, h.val, hf, fun ks hk => ?_⟩
    obtain ⟨t, hu⟩ := h.inv.fin f gf hf
    obtain ⟨ms, rfl, _⟩ := hu.con_inv hf hk
    exact hs _ (h.shows hu) ms rfl

/-- C29. What Add and AddFast refuse: a `v` that is not an array (object), an empty `x`,
an `x` without a key (ObjAdd). They return false; the state is the same, except that
`zj_ArrayAdd` with an empty `x` makes a handle that nobody gets. -/
theorem C29_refused (hv : Ready st P G v y A) (hx : Ready st P G vv z A') {F : Nat} :
    ((∀ t, Shows st v t → ∀ ts, t ≠ .arr ts) →
      arrayAdd F v vv st = .ok (false, st) ∧ arrayAddFast v vv st = .ok (false, st)) ∧
    ((∀ t, Shows st v t → ∀ ms, t ≠ .obj ms) →
      objAdd F v vv st = .ok (false, st) ∧ objAddFast v vv st = .ok (false, st)) ∧
    (z = none → ∃ st', arrayAdd F v vv st = .ok (false, st') ∧ Unchanged st st' ∧ Ready st' P G v y A) ∧
    (z = none → arrayAddFast v vv st = .ok (false, st) ∧ objAdd F v vv st = .ok (false, st) ∧
      objAddFast v vv st = .ok (false, st)) ∧
    (∀ x, z = some x → G.keyOf x = none → objAdd F v vv st = .ok (false, st) ∧ objAddFast v vv st = .ok (false, st)) := by
  have hA : (∀ t, Shows st v t → ∀ ts, t ≠ .arr ts) →
      arrayAdd F v vv st = .ok (false, st) ∧ arrayAddFast v vv st = .ok (false, st) := fun h =>
    (arrayAdd_reject hv.inv (hv.notCon (fun t ht ms e => h t ht (ms.map (·.2)) (by rw [e]; rfl)))).symm
  have hO : (∀ t, Shows st v t → ∀ ms, t ≠ .obj ms) →
      objAdd F v vv st = .ok (false, st) ∧ objAddFast v vv st = .ok (false, st) := fun h =>
    (objAdd_reject hv.inv (hv.notCon (fun t ht ms e => h t ht ms (by rw [e]; rfl)))).symm
  refine ⟨hA, hO, ?_, ?_, ?_⟩
  · rintro rfl
    by_cases h : ∀ t, Shows st v t → ∀ ts, t ≠ .arr ts
    · exact ⟨st, (hA h).1, ⟨.refl _, rfl⟩, hv⟩
    · simp only [Classical.not_forall, ne_eq, Classical.not_not] at h
      obtain ⟨t, ht, ts, rfl⟩ := h
      obtain ⟨f, _, rfl, _⟩ := hv.node_of ht
      obtain ⟨gf, kids, ms, h1, h2, _⟩ := hv.arr ht
      exact ⟨_, arrayAdd_emptyArg hv.inv hv.val hx.val h1 h2, unch_addV, hv.unchanged unch_addV (hv.inv.ok.addV hx.alloc)⟩
  · rintro rfl
    refine ⟨?_, ?_⟩
    · by_cases h : ∀ t, Shows st v t → ∀ ts, t ≠ .arr ts
      · exact (hA h).2
      · simp only [Classical.not_forall, ne_eq, Classical.not_not] at h
        obtain ⟨t, ht, ts, rfl⟩ := h
        obtain ⟨f, _, rfl, _⟩ := hv.node_of ht
        obtain ⟨gf, kids, ms, h1, h2, _⟩ := hv.arr ht
        exact arrayAddFast_emptyArg hv.inv hv.val hx.val h1 h2
    · by_cases h : ∀ t, Shows st v t → ∀ ms, t ≠ .obj ms
      · exact hO h
      · simp only [Classical.not_forall, ne_eq, Classical.not_not] at h
        obtain ⟨t, ht, ts, rfl⟩ := h
        obtain ⟨f, _, rfl, _⟩ := hv.node_of ht
        obtain ⟨gf, kids, h1, h2, _⟩ := hv.obj ht
        exact (objAdd_emptyArg hv.inv hv.val hx.val h1 h2).symm
  · rintro x rfl hk
    by_cases h : ∀ t, Shows st v t → ∀ ms, t ≠ .obj ms
    · exact hO h
    · simp only [Classical.not_forall, ne_eq, Classical.not_not] at h
      obtain ⟨t, ht, ts, rfl⟩ := h
      obtain ⟨f, _, rfl, _⟩ := hv.node_of ht
      obtain ⟨gf, kids, h1, h2, _⟩ := hv.obj ht
      obtain ⟨gx, hgx⟩ := Option.isSome_iff_exists.1 (hx.node x rfl)
      exact (objAdd_nokey hv.inv hv.val hx.val h1 h2 hgx (by simpa [Graph.keyOf, hgx] using hk)).symm

/-! ### Taking a value out of its place -/

/-- `x` is the root of a document. -/
def AtRoot (G : Graph) (x : Addr) : Prop := ∃ gx, G x = some gx ∧ gx.par = none

/-- `x` is a root, or a child of some node whose back link can be relied on. (The first
child needs no back link. After a parse all links are right; `zj_Move` of a middle child
destroys the back link of the child behind it, C31.) -/
def Movable (G : Graph) (x : Addr) : Prop :=
  AtRoot G x ∨ ∃ p gp gx o l r, G p = some gp ∧ gp.val = .con o (l ++ x :: r) ∧ G x = some gx ∧ (l = [] ∨ gx.prevOK = true)

/-- The store `G1` is `G` with `x` taken out of its place: the same store if `x` is a root. -/
def Cut (G G1 : Graph) (x : Addr) : Prop :=
  (AtRoot G x ∧ G1 = G) ∨ ∃ p o ys m zs, Removed G G1 x p o ys m zs

/-- `x` is the last child of `f` and not the only one. -/
def LastOfSeveral (G : Graph) (x f : Addr) : Prop :=
  ∃ gf o l, G f = some gf ∧ gf.val = .con o (l ++ [x]) ∧ l ≠ []

theorem Removed.ne {G1 p o ys m zs} (h : Removed G G1 x p o ys m zs) : ¬ Reach G x p := by
  obtain ⟨gp, h1, h2⟩ := h.place
  intro hr
  exact h.before.kid_ne h1 (List.mem_of_getElem? h2) hr rfl

/-- Taking `x` out does not change its document. -/
theorem Cut.doc {G1} (h : Cut G G1 x) (hu : Unf G x t) : Unf G1 x t := by
  rcases h with ⟨_, rfl⟩ | ⟨p, o, ys, m, zs, h⟩
  · exact hu
  · exact h.edit.other hu h.ne

/-- Nor any other document that does not contain the parent of `x`. -/
theorem Cut.other {G1} (h : Cut G G1 x) (hu : Unf G b t)
    (hb : ∀ p gp, G p = some gp → x ∈ gp.val.kids → ¬ Reach G b p) : Unf G1 b t := by
  rcases h with ⟨_, rfl⟩ | ⟨p, o, ys, m, zs, h⟩
  · exact hu
  · obtain ⟨gp, h1, h2⟩ := h.place
    exact h.edit.other hu (hb p gp h1 (List.mem_of_getElem? h2))

theorem Movable.moved (hI : Inv st P G) (h : Movable G x) : ∃ G1, Moved G x G1 ∧ Cut G G1 x := by
  rcases h with ⟨gx, h1, h2⟩ | ⟨p, gp, gx, o, l, r, h1, h2, h3, h4⟩
  · exact ⟨G, .root h1 h2, .inl ⟨⟨gx, h1, h2⟩, rfl⟩⟩
  · obtain ⟨ys, m, zs, h5, _⟩ := hI.removed h1 h2
    exact ⟨_, .child h3 h1 h2 h4, .inr ⟨p, o, ys, m, zs, h5⟩⟩

/-- What is left of a container after `x` was taken out of its place. -/
theorem Moved.rest {G1} (h : Moved G x G1) (hf : G f = some gf) (hv : gf.val = .con o kids) (hfx : f ≠ x)
    (he : EndRight G f) (hl : ¬ LastOfSeveral G x f) :
    ∃ gf' kids', G1 f = some gf' ∧ gf'.val = .con o kids' ∧ gf'.key = gf.key ∧ gf'.par = gf.par ∧
      (kids' = [] ∨ gf'.endOK = true) := by
  cases h with
  | root h1 h2 => exact ⟨gf, kids, hf, hv, rfl, rfl, (he gf hf).imp (by rw [hv]; exact id) id⟩
  | @child gx gp p o' l r h1 h2 h3 h4 =>
    by_cases e : f = p
    · subst e
      rw [hf] at h2; cases h2
      rw [hv] at h3; cases h3
      refine ⟨_, l ++ r, detach_fa hf hfx, rfl, rfl, rfl, ?_⟩
      have hE : gf.endOK = true := (he gf hf).resolve_left (by rw [hv]; simp [GVal.kids])
      cases r with
      | nil =>
        by_cases hl' : l = []
        · exact .inl (by simp [hl'])
        · exact absurd ⟨gf, o, l, hf, hv, hl'⟩ hl
      | cons b r => exact .inr (by simp [hE])
    · obtain ⟨g', e1, e2, e3, e4⟩ := detach_same (a := x) (o := o') (l := l) (r := r) e hf
      refine ⟨g', kids, e1, by rw [e2, hv], e3, ?_, ?_⟩
      · unfold Graph.detach at e1
        rw [if_neg hfx, if_neg e] at e1
        split at e1
        · rw [hf] at e1; cases e1; rfl
        · rw [hf] at e1; cases e1; rfl
      · rw [e4]
        exact (he gf hf).imp (by rw [hv]; exact id) id

/-- A root is below no other node. -/
theorem Inv.above_root (hI : Inv st P G) (hx : G x = some gx) (hp : gx.par = none) (h : Reach G b x) : b = x := by
  generalize hc : x = c at h
  induction h with
  | refl => rfl
  | step e1 e2 _ ih =>
    subst hc
    have := ih rfl
    subst this
    obtain ⟨g, q1, q2⟩ := hI.kid e1 e2
    rw [hx] at q1; cases q1
    rw [hp] at q2; cases q2

/-! ### C30: AddFast -/

/-- C30. `zj_ArrayAddFast(v, x)`: `x` is taken out of its place (`Cut`), then the array `f` has
it as its last element, without key (`EditAt`): all other documents are as they were, but
for these two changes. The handle `x` is empty.

Missing for the full claim: `x` is the last of several children of `v` itself, see
`C30_false`; the links of `x` and `v` must be right. -/
theorem C30_arrayAddFast_partial (hv : Ready st P G v (some f) A) (hx : Ready st P G vv (some x) A')
    (hs : Shows st v (.arr xs)) (ht : Shows st vv t) (hm : Movable G x) (he : EndRight G f)
    (hl : ¬ LastOfSeveral G x f) (hn : ¬ Reach G x f) :
    ∃ st' G1 G' xs', arrayAddFast v vv st = .ok (true, st') ∧ Did (· = vv) (fun _ => False) st st' P P G G' ∧
      Cut G G1 x ∧ Unf G1 f (.arr xs') ∧ EditAt G1 G' f (.arr (xs' ++ [t])) ∧
      Ready st' P G' v (some f) A ∧ Shows st' v (.arr (xs' ++ [t])) ∧ Ready st' P G' vv none A' ∧
      EndRight G' f ∧ (∃ gx, G' x = some gx ∧ gx.par = some f ∧ gx.key = none) ∧
      ((∀ p gp, G p = some gp → x ∈ gp.val.kids → ¬ Reach G f p) → xs' = xs) := by
  obtain ⟨gf, kids, ms, hf, hgf, hi, hms⟩ := hv.arr hs
  have hfx : f ≠ x := fun e => hn (e ▸ .refl)
  obtain ⟨G1, hM, hC⟩ := hm.moved hv.inv
  obtain ⟨st1, _, hD1, _⟩ := move_run hv.inv hx.val hM
  obtain ⟨gf1, kids1, hf1, hgf1, _, _, he1⟩ := hM.rest hf hgf hfx he hl
  obtain ⟨gx, gx1, hgx, hgx1, hp1, _⟩ := hM.self
  have hn1 : ¬ Reach G1 x f := fun h => hn (hM.reach hv.inv h)
  obtain ⟨st', hrun, hD, hvv, _⟩ := arrayAddFast_run hv.inv hv.val hx.val hf hgf hM hgx1
    ⟨⟨gf1, hf1, hgf1, he1⟩, hn1⟩
  obtain ⟨tf, huf⟩ := hD1.inv.fin f gf1 hf1
  obtain ⟨ms1, rfl, hi1⟩ := huf.con_inv hf1 hgf1
  have hux := hC.doc (hx.unf ht)
  obtain ⟨st2, _, hD2, _⟩ := clearKey_run hD1.inv hgx1 hp1
  obtain ⟨hE, _⟩ := hD2.inv.attach_edit (f := f) (x := x) (o := false) (kids := kids1)
    (by rw [Graph.set_ne _ _ hfx]; exact hf1) hgf1 (Graph.set_same _ _ _)
    (fun h => hn1 (Reach.set_same (gn' := { gx1 with key := none }) hgx1 rfl h)) (key := []) ⟨rfl, rfl⟩
    (huf.set_ne (fun h => hfx (hD1.inv.above_root hgx1 hp1 h))) (Unf.set_top hux hgx1 rfl)
  have hE' := hE.rekey hD1.inv hgx1 hp1
  have hm' : mkCon false (ms1 ++ [([], t)]) = .arr (ms1.map (·.2) ++ [t]) := by simp [mkCon]
  rw [hm'] at hE'
  have hvne : v ≠ vv := by
    rintro rfl
    have := hv.val.symm.trans hx.val
    cases this; exact hfx rfl
  have hdom : ∀ b, (G b).isSome → (((G1.set x { gx1 with key := none }).attach f x false kids1) b).isSome := by
    intro b hb
    rw [attach_dom, Graph.set_apply]
    split
    · rfl
    · rw [hM.dom]; exact hb
  have hvr := hD.ready hv hvne (fun b hb => hdom b (hv.node b hb))
  refine ⟨st', G1, _, ms1.map (·.2), hrun, hD, hC, (show Unf G1 f (.arr (ms1.map (·.2))) from huf), hE', hvr, hvr.shows hE'.doc,
    ⟨hD.inv, hD.cok hv.cok, hvv, fun _ h => by cases h⟩,
    attach_endRight hfx (by rw [Graph.set_ne _ _ hfx]; exact hf1), ⟨_, attach_self (Graph.set_same _ _ _), rfl, rfl⟩, fun hb => ?_⟩
  have := huf.det (hC.other (hv.unf hs) hb)
  simpa [mkCon] using this

/-- C30 for `zj_ObjAddFast`: as for arrays, `x` keeps its key `k`. -/
theorem C30_objAddFast_partial (hv : Ready st P G v (some f) A) (hx : Ready st P G vv (some x) A')
    (hs : Shows st v (.obj ms)) (ht : Shows st vv t) {k} (hk : G.keyOf x = some k) (hm : Movable G x) (he : EndRight G f)
    (hl : ¬ LastOfSeveral G x f) (hn : ¬ Reach G x f) :
    ∃ st' G1 G' ms', objAddFast v vv st = .ok (true, st') ∧ Did (· = vv) (fun _ => False) st st' P P G G' ∧
      Cut G G1 x ∧ Unf G1 f (.obj ms') ∧ EditAt G1 G' f (.obj (ms' ++ [(k, t)])) ∧
      Ready st' P G' v (some f) A ∧ Shows st' v (.obj (ms' ++ [(k, t)])) ∧ Ready st' P G' vv none A' ∧
      EndRight G' f ∧ (∃ gx, G' x = some gx ∧ gx.par = some f ∧ gx.key = some k) ∧
      ((∀ p gp, G p = some gp → x ∈ gp.val.kids → ¬ Reach G f p) → ms' = ms) := by
  obtain ⟨gf, kids, hf, hgf, hi⟩ := hv.obj hs
  have hfx : f ≠ x := fun e => hn (e ▸ .refl)
  obtain ⟨G1, hM, hC⟩ := hm.moved hv.inv
  obtain ⟨st1, _, hD1, _⟩ := move_run hv.inv hx.val hM
  obtain ⟨gf1, kids1, hf1, hgf1, _, _, he1⟩ := hM.rest hf hgf hfx he hl
  obtain ⟨gx, gx1, hgx, hgx1, hp1, hkx, _⟩ := hM.self
  have hkx' : gx.key = some k := by simpa [Graph.keyOf, hgx] using hk
  have hn1 : ¬ Reach G1 x f := fun h => hn (hM.reach hv.inv h)
  obtain ⟨st', hrun, hD, hvv, _⟩ := objAddFast_run hv.inv hv.val hx.val hf hgf hgx (by simp [hkx']) hM
    ⟨⟨gf1, hf1, hgf1, he1⟩, hn1⟩
  obtain ⟨tf, huf⟩ := hD1.inv.fin f gf1 hf1
  obtain ⟨ms1, rfl, hi1⟩ := huf.con_inv hf1 hgf1
  have hux := hC.doc (hx.unf ht)
  obtain ⟨hE, _⟩ := hD1.inv.attach_edit (f := f) (x := x) (o := true) (kids := kids1) hf1 hgf1 hgx1 hn1 (key := k)
    (by rw [hkx]; exact hkx') huf hux
  have hvne : v ≠ vv := by
    rintro rfl
    have := hv.val.symm.trans hx.val
    cases this; exact hfx rfl
  have hdom : ∀ b, (G b).isSome → ((G1.attach f x true kids1) b).isSome := by
    intro b hb
    rw [attach_dom, hM.dom]; exact hb
  have hvr := hD.ready hv hvne (fun b hb => hdom b (hv.node b hb))
  refine ⟨st', G1, _, ms1, hrun, hD, hC, huf, hE, hvr, hvr.shows hE.doc,
    ⟨hD.inv, hD.cok hv.cok, hvv, fun _ h => by cases h⟩,
    attach_endRight hfx hf1, ⟨_, attach_self hgx1, rfl, by rw [hkx, hkx']⟩, fun hb => ?_⟩
  have := huf.det (hC.other (hv.unf hs) hb)
  simpa [mkCon] using this

theorem attach_crash {nf : Node} (hf : st.nodes f = some nf) {c} (hv : nf.value = some (.node (some c)))
    (he : nf.end_ = some none) : attach f x st = .ub .nullDeref := by
  unfold ZJ.attach
  mstep nNode_run hf hv
  simp only
  mstep nEnd_run hf he
  exact M.bind_ub rfl

/-- After the last of several children is cut out, `End` is null although there are children. -/
theorem move_last {gx : GNode} (hI : Inv st P G) (hv : st.vals vv = some ⟨some x, A'⟩) (hx : G x = some gx) (hf : G f = some gf)
    (hgf : gf.val = .con o (l ++ [x])) (hl : l ≠ []) (hok : gx.prevOK = true) :
    ∃ st1 nf c, move vv st = .ok (true, st1) ∧ Detached st st1 f x l [] ∧ st1.nodes f = some nf ∧
      nf.type = some (conType o) ∧ nf.value = some (.node (some c)) ∧ nf.end_ = some none := by
  obtain ⟨st1, e1, hd⟩ := move_child (o := o) (l := l) (r := []) hI hv hx hf hgf (.inr hok)
  obtain ⟨n, hn, hn'⟩ := hd.fa
  obtain ⟨n', g1, g2, _⟩ := hI.con hf hgf
  rw [hn] at g1; cases g1
  cases l with
  | nil => exact absurd rfl hl
  | cons c l => exact ⟨st1, _, c, e1, hd, hn', g2.type, rfl, by simp⟩

/-- C30 is false: moving the last of several children of an array to the end of the same array
(where it already is) dereferences null, for every such array and child: `zj_Move` sets
`End` to 0 (zzzjson.h:2179 clears `Prev` before line 2182 uses it), and the append writes through it
(zzzjson.h:2709). -/
theorem C30_false (hv : Ready st P G v (some f) A) (hx : Ready st P G vv (some x) A')
    (hs : Shows st v (.arr xs)) (hl : LastOfSeveral G x f) (hok : ∀ g, G x = some g → g.prevOK = true) :
    arrayAddFast v vv st = .ub .nullDeref := by
  obtain ⟨gf, kids, ms, hf, hgf, hi, hms⟩ := hv.arr hs
  obtain ⟨gf', o, l, h1, h2, h3⟩ := hl
  rw [hf] at h1; cases h1
  have h2' := h2
  rw [hgf] at h2'; cases h2'
  obtain ⟨gx, hgx⟩ := Option.isSome_iff_exists.1 (hx.node x rfl)
  obtain ⟨st1, nf, c, e1, hd, e2, _, e3, e4⟩ := move_last hv.inv hx.val hgx hf hgf h3 (hok gx hgx)
  obtain ⟨nx, _, hnx⟩ := hd.self
  have hv1 : st1.vals = st.vals := by rw [hd.rest]
  have hfx : f ≠ x := by
    rintro rfl
    exact (hv.inv.con_ne hf hgf (k := f) (by simp) .refl) rfl
  unfold arrayAddFast
  mstep rdVal_run hv.val
  simp only
  mstep hv.inv.nType hf
  rw [hgf, if_neg (by simp [GVal.type, conType])]
  mstep e1
  simp only [Bool.not_true, Bool.false_eq_true, if_false]
  have e0 : valN vv st1 = .ok (x, st1) := by
    unfold valN; mstep rdVal_run (by rw [hv1]; exact hx.val); rfl
  mstep e0
  mstep modNode_run hnx
  mstep modNode_run (by simp; rfl)
  refine M.bind_ub (attach_crash (nf := nf) ?_ e3 e4)
  simp [hfx, e2]

/-- A program in which this happens. -/
theorem C30_false_program : ((do
    let (v, _) ← make 0 b!"[1,2]"
    let some w ← arrayGet 9 v 1 | return true
    arrayAddFast v w : M _) (start fun _ => 0)).out = .ub .nullDeref := by
  decide +kernel

/-- Moving the first element to the end, and a member of an object to the end of another. -/
example : ((do
    let (v, _) ← make 0 b!"[1,2,3]"
    let some w ← arrayGet 9 v 0 | return none
    let _ ← arrayAddFast v w
    return some (← readN (← stringify 99 v) 7) : M _) (start fun _ => 0)).out = .ok (some b!"[2,3,1]") := by
  decide +kernel

/-! ### C31: Move -/

/-- C31, right after the call. `zj_Move(x)` on a child: the parent has the remaining children in
order, `x` is a root with its key and document; nothing else changes.

Missing for the full claim: the parent may be damaged for later operations unless `x` was
the first child (`C31_first`); see `C31_false`. -/
theorem C31_move_partial {p : Addr} {gp : GNode} (hx : Ready st P G v (some x) A) (ht : Shows st v t) (hp : G p = some gp)
    (hgp : gp.val = .con o (l ++ x :: r)) (hok : l = [] ∨ ∀ g, G x = some g → g.prevOK = true) :
    ∃ st' G1 ys zs m, move v st = .ok (true, st') ∧ Did (fun _ => False) (fun _ => False) st st' P P G G1 ∧
      Removed G G1 x p o ys m zs ∧ ys.length = l.length ∧ zs.length = r.length ∧
      Ready st' P G1 v (some x) A ∧ Shows st' v t ∧
      (∀ w B, Ready st P G w (some p) B → Shows st' w (mkCon o (ys ++ zs)) ∧
        sizeOf w st' = .ok (l.length + r.length, st')) := by
  obtain ⟨gx, hgx⟩ := Option.isSome_iff_exists.1 (hx.node x rfl)
  have hM : Moved G x (G.detach p x o l r) := .child hgx hp hgp (hok.imp id (fun h => h gx hgx))
  obtain ⟨st', hrun, hD, _⟩ := move_run hx.inv hx.val hM
  obtain ⟨ys, m, zs, hR, h1, h2⟩ := hx.inv.removed hp hgp
  have hxr := hD.ready hx id (fun b hb => by rw [hM.dom]; exact hx.node b hb)
  refine ⟨st', _, ys, zs, m, hrun, hD, hR, h1, h2, hxr, hxr.shows (Cut.doc (.inr ⟨p, o, ys, m, zs, hR⟩) (hx.unf ht)), ?_⟩
  intro w B hw
  have hwr := hD.ready hw id (fun b hb => by rw [hM.dom]; exact hw.node b hb)
  have hs := hwr.shows hR.edit.doc
  refine ⟨hs, ?_⟩
  rw [C24_sizeOf hwr hs]
  cases o <;> simp [mkCon, Json.items, h1, h2]

/-- `zj_Move` of a root and of an empty handle change nothing. -/
theorem C31_root (hx : Ready st P G v y A) :
    (∀ x, y = some x → AtRoot G x → move v st = .ok (true, st)) ∧ (y = none → move v st = .ok (false, st)) := by
  refine ⟨?_, ?_⟩
  · rintro x rfl ⟨gx, h1, h2⟩
    exact move_root hx.inv hx.val h1 h2
  · rintro rfl
    exact move_empty hx.val

theorem Tidy.endRight (h : Tidy G) : EndRight G f := fun g hg => (h f g hg).1

theorem Tidy.movable (h : Tidy G) {p gp} (hp : G p = some gp) (hx : x ∈ gp.val.kids) (hg : (G x).isSome) : Movable G x := by
  obtain ⟨gx, hgx⟩ := Option.isSome_iff_exists.1 hg
  cases hv : gp.val with
  | con o kids =>
    rw [hv] at hx
    obtain ⟨l, r, rfl⟩ := List.append_of_mem hx
    exact .inr ⟨p, gp, gx, o, l, r, hp, hv, hgx, .inr (h x gx hgx).2⟩
  | _ => rw [hv] at hx; cases hx

theorem tidy_first {p : Addr} {gp : GNode} (hp : G p = some gp) (hgp : gp.val = .con o (x :: r)) (hT : Tidy G) :
    Tidy (G.detach p x o [] r) := by
  intro b g hg
  unfold Graph.detach at hg
  split at hg
  · obtain ⟨g0, e1, rfl⟩ := Option.map_eq_some_iff.1 hg
    exact ⟨(hT b g0 e1).1, rfl⟩
  · split at hg
    · rename_i e
      subst e
      obtain ⟨g0, e1, rfl⟩ := Option.map_eq_some_iff.1 hg
      rw [hp] at e1; cases e1
      refine ⟨.inr ?_, (hT b gp hp).2⟩
      have := (hT b gp hp).1.resolve_left (by rw [hgp]; simp [GVal.kids])
      simp [this]
    · split at hg
      · obtain ⟨g0, e1, rfl⟩ := Option.map_eq_some_iff.1 hg
        exact ⟨(hT b g0 e1).1, rfl⟩
      · exact hT b g hg

/-- C31 for the first child: afterwards all links are right if they were before, so all later
operations behave accordingly. -/
theorem C31_first {p : Addr} {gp : GNode} (hx : Ready st P G v (some x) A) (ht : Shows st v t) (hp : G p = some gp)
    (hgp : gp.val = .con o (x :: r)) :
    ∃ st' G1 zs m, move v st = .ok (true, st') ∧ Did (fun _ => False) (fun _ => False) st st' P P G G1 ∧
      Removed G G1 x p o [] m zs ∧ Ready st' P G1 v (some x) A ∧ Shows st' v t ∧ (Tidy G → Tidy G1) := by
  obtain ⟨gx, hgx⟩ := Option.isSome_iff_exists.1 (hx.node x rfl)
  have hM : Moved G x (G.detach p x o [] r) := .child hgx hp hgp (.inl rfl)
  obtain ⟨st', hrun, hD, _⟩ := move_run hx.inv hx.val hM
  obtain ⟨ys, m, zs, hR, h1, h2⟩ := hx.inv.removed (l := []) hp hgp
  obtain rfl := List.length_eq_zero_iff.1 h1
  have hxr := hD.ready hx id (fun b hb => by rw [hM.dom]; exact hx.node b hb)
  refine ⟨st', _, zs, m, hrun, hD, hR, hxr, hxr.shows (Cut.doc (.inr ⟨p, o, [], m, zs, hR⟩) (hx.unf ht)), tidy_first hp hgp⟩

/-- C31 is false: after `zj_Move` of the last of several children of an array, `zj_ArrayAdd` of
any value to that array dereferences null. -/
theorem C31_false (hv : Ready st P G v (some f) A) (hx : Ready st P G vv (some x) A') (hw : Ready st P G w (some b) B)
    (hs : Shows st v (.arr xs)) (hl : LastOfSeveral G x f) (hok : ∀ g, G x = some g → g.prevOK = true) :
    ∃ st1 c, move vv st = .ok (true, st1) ∧ ∀ F, arrayAdd (F + c) v w st1 = .ub .nullDeref := by
  obtain ⟨gf, kids, ms, hf, hgf, hi, hms⟩ := hv.arr hs
  obtain ⟨gf', o, l, h1, h2, h3⟩ := hl
  rw [hf] at h1; cases h1
  have h2' := h2
  rw [hgf] at h2'; cases h2'
  obtain ⟨gx, hgx⟩ := Option.isSome_iff_exists.1 (hx.node x rfl)
  obtain ⟨st1, nf, c, e1, hd, e2, e5, e3, e4⟩ := move_last hv.inv hx.val hgx hf hgf h3 (hok gx hgx)
  have hI1 := hv.inv.detach hf hgf hd
  have hv1 : st1.vals = st.vals := by rw [hd.rest]
  obtain ⟨gb, hgb⟩ : ∃ gb, G.detach f x false l [] b = some gb := by
    obtain ⟨g0, h0⟩ := Option.isSome_iff_exists.1 (hw.node b rfl)
    obtain ⟨g', h', _⟩ := detach_key (f := f) (a := x) (o := false) (l := l) (kids := []) h0
    exact ⟨g', h'⟩
  obtain ⟨tb, hub⟩ := hI1.fin b gb hgb
  obtain ⟨c', st2, n, g, P', hrun, hC⟩ := copy_run hI1 (by rw [hv1]; exact hw.val) hgb hub
  obtain ⟨gn, hn, _⟩ := hC.root
  obtain ⟨nn, hnn, _⟩ := hC.rep n gn hn
  have hflt : f < st1.nn := by rw [hd.rest]; exact hv.inv.lt hf
  have hfn : f ≠ n := by have := hC.new n gn hn; omega
  refine ⟨st1, c', e1, fun F => ?_⟩
  unfold arrayAdd
  mstep rdVal_run (by rw [hv1]; exact hv.val)
  simp only
  mstep nType_run e2 e5
  rw [if_neg (by simp [conType])]
  mstep hrun F
  simp only
  have e0 : valN st1.nv st2 = .ok (n, st2) := by
    unfold valN; mstep rdVal_run hC.handle; rfl
  mstep e0
  mstep modNode_run hnn
  mstep modNode_run (by simp; rfl)
  refine M.bind_ub (attach_crash (nf := nf) ?_ e3 e4)
  rw [setN_setN]
  simp only [setN_nodes, hfn, if_false]
  rw [hC.unch.1.nodes f hflt id]; exact e2

/-- The same in a program: parse `[1,2]`, move the `2` out, add it again. -/
theorem C31_false_program : ((do
    let (v, _) ← make 0 b!"[1,2]"
    let some w ← arrayGet 9 v 1 | return true
    let _ ← move w
    arrayAdd 9 v w : M _) (start fun _ => 0)).out = .ub .nullDeref := by
  decide +kernel

/-- C31 is false in another way: after the middle of `[1,2,3]` is moved out, moving the `3` out makes
the array forget the `1`: it prints `[]`, while its size is 1. (zzzjson.h:2179 clears `Prev`, line 2184
then gives the next child a null `Prev`, so it is taken for the first one.) -/
theorem C31_false_middle : ((do
    let (v, _) ← make 0 b!"[1,2,3]"
    let some w ← arrayGet 9 v 1 | return none
    let _ ← move w
    let some w ← arrayGet 9 v 1 | return none
    let _ ← move w
    return some (← sizeOf v, ← readN (← stringify 99 v) 2) : M _) (start fun _ => 0)).out = .ok (some (1, b!"[]")) := by
  decide +kernel

/-- A sequence of moves of first children, and an append afterwards. -/
example : ((do
    let (v, _) ← make 0 b!"[1,2,3]"
    let some w ← arrayGet 9 v 0 | return none
    let _ ← move w
    let some w ← arrayGet 9 v 0 | return none
    let _ ← move w
    let _ ← arrayAdd 9 v w
    return some (← sizeOf v, ← readN (← stringify 99 v) 5) : M _) (start fun _ => 0)).out = .ok (some (2, b!"[3,2]")) := by
  decide +kernel

/-! ### C32: Del -/

theorem eraseIdx_mid {α : Type} {ys zs : List α} {m : α} : (ys ++ m :: zs).eraseIdx ys.length = ys ++ zs := by
  simp [List.eraseIdx_append_of_length_le]

/-- C32, right after the call: `zj_ArrayDel(v, i)` deletes the `i`-th element.

Missing: later operations, as for `zj_Move` (`C32_false`). -/
theorem C32_arrayDel_partial {k : Addr} (hv : Ready st P G v (some f) A) (hs : Shows st v (.arr xs)) {i fuel : Nat} (hi : i < xs.length)
    (hfuel : xs.length < fuel) (hk : ∃ gf, G f = some gf ∧ gf.val.kids[i]? = some k)
    (hok : i = 0 ∨ ∀ g, G k = some g → g.prevOK = true) :
    ∃ st' G1 ys zs m, arrayDel fuel v i st = .ok (true, st') ∧ Did (fun _ => False) (fun _ => False) st st' P P G G1 ∧
      Removed G G1 k f false ys m zs ∧ ys.length = i ∧ Ready st' P G1 v (some f) A ∧ Shows st' v (.arr (xs.eraseIdx i)) ∧
      (i = 0 → Tidy G → Tidy G1) := by
  obtain ⟨gf, kids, ms, hf, hgf, hii, hms⟩ := hv.arr hs
  obtain ⟨gf', h1, h2⟩ := hk
  rw [hf] at h1; cases h1
  rw [hgf] at h2
  simp only [GVal.kids] at h2
  obtain ⟨hlt, h3⟩ := List.getElem?_eq_some_iff.1 h2
  have hsplit : kids = kids.take i ++ k :: kids.drop (i + 1) := by
    conv => lhs; rw [← List.take_append_drop i kids, List.drop_eq_getElem_cons hlt, h3]
  generalize hl : kids.take i = l at hsplit
  generalize hr : kids.drop (i + 1) = r at hsplit
  have hli : l.length = i := by rw [← hl, List.length_take]; omega
  subst hsplit
  obtain ⟨gk, hgk, _⟩ := hv.inv.con_kid hf hgf (k := k) (by simp)
  have hlen : (l ++ k :: r).length < fuel := by
    rw [hii.length, ← List.length_map (f := (·.2)) (as := ms), hms]; exact hfuel
  have hMO : MoveOK gk l := hok.imp (fun h => List.length_eq_zero_iff.1 (hli.trans h)) (fun h => h gk hgk)
  obtain ⟨st', hrun, hD⟩ := arrayDel_run hv.inv hv.val hf hgf hgk hMO hlen
  obtain ⟨ys, m, zs, hR, e1, e2⟩ := hv.inv.removed hf hgf
  have hM : Moved G k (G.detach f k false l r) := .child hgk hf hgf hMO
  have hvr := hD.ready hv id (fun b hb => by rw [hM.dom]; exact hv.node b hb)
  rw [hli] at hrun e1
  refine ⟨st', _, ys, zs, m, hrun, hD, hR, e1, hvr, ?_, ?_⟩
  · have := hvr.shows hR.edit.doc
    have e3 : mkCon false (ys ++ zs) = .arr (xs.eraseIdx i) := by
      have h4 := hR.before.det (hv.unf hs)
      have h5 : xs = ys.map (·.2) ++ m.2 :: zs.map (·.2) := by simpa [mkCon] using h4.symm
      have h6 := eraseIdx_mid (ys := ys.map (·.2)) (zs := zs.map (·.2)) (m := m.2)
      rw [List.length_map, e1, ← h5] at h6
      rw [h6]; simp [mkCon]
    rwa [e3] at this
  · rintro rfl hT
    obtain rfl := List.length_eq_zero_iff.1 hli
    exact tidy_first hf hgf hT

theorem UnfI.keys {ks ms} (h : UnfI G true ks ms) {k} (hk : k ∈ ks) : ∃ m ∈ ms, G.keyOf k = some m.1 := by
  obtain ⟨i, hi⟩ := List.getElem?_of_mem hk
  rcases h.at i with ⟨g1, _⟩ | ⟨k', gk, key', u, g1, g2, g3, g4, _⟩
  · rw [hi] at g1; cases g1
  · rw [hi] at g1; cases g1
    exact ⟨_, List.mem_of_getElem? g2, by unfold Graph.keyOf; rw [g3]; exact g4⟩

theorem UnfI.split_right : ∀ {ys zs : List (Bytes × Json)} {ks o}, UnfI G o ks (ys ++ zs) →
    ∃ l r, ks = l ++ r ∧ UnfI G o l ys ∧ UnfI G o r zs
  | [], zs, ks, o, h => ⟨[], ks, rfl, .nil, h⟩
  | m :: ys, zs, _, o, .cons (k := k) (ks := ks) h1 h2 h3 h4 => by
    obtain ⟨l, r, e1, e2, e3⟩ := UnfI.split_right h4
    exact ⟨k :: l, r, by rw [e1]; rfl, .cons h1 h2 h3 e2, e3⟩

/-- C32, right after the call: `zj_ObjDel(v, key)` deletes the first member with that raw key.
Missing: later operations, as for `zj_Move`. -/
theorem C32_objDel_partial {ys zs : List (Bytes × Json)} {key : Bytes} {u : Json} {p : SPtr} {k : Addr} (hv : Ready st P G v (some f) A)
    (hs : Shows st v (.obj (ys ++ (key, u) :: zs))) (hfst : ∀ m ∈ ys, m.1 ≠ key)
    (hnul : ∀ m ∈ ys ++ (key, u) :: zs, (0 : Byte) ∉ m.1) (hp : CStr st p key) {fuel : Nat}
    (hfuel : (ys ++ (key, u) :: zs).length < fuel) (hk : ∃ gf, G f = some gf ∧ gf.val.kids[ys.length]? = some k)
    (hok : ys = [] ∨ ∀ g, G k = some g → g.prevOK = true) :
    ∃ st' G1, objDel fuel v p st = .ok (true, st') ∧ Did (fun _ => False) (fun _ => False) st st' P P G G1 ∧
      Removed G G1 k f true ys (key, u) zs ∧ Ready st' P G1 v (some f) A ∧ Shows st' v (.obj (ys ++ zs)) ∧
      (ys = [] → Tidy G → Tidy G1) := by
  obtain ⟨gf, kids, hf, hgf, hi⟩ := hv.obj hs
  obtain ⟨gf', h1, h2⟩ := hk
  rw [hf] at h1; cases h1
  rw [hgf] at h2
  simp only [GVal.kids] at h2
  obtain ⟨l, r0, rfl, hl, hr0⟩ := hi.split_right
  cases hr0 with
  | @cons _ k' r gk _ _ _ hgk hkey huk hr =>
  have hll := hl.length
  rw [← hll] at h2
  simp at h2
  subst h2
  have hMO : MoveOK gk l := hok.imp (fun h => by subst h; exact List.length_eq_zero_iff.1 hll) (fun h => h gk hgk)
  obtain ⟨st', hrun, hD⟩ := objDel_run hv.inv hv.val hf hgf hgk hMO (by rw [hi.length]; exact hfuel) hp
    (fun c hc kk hkk => by
      obtain ⟨m, hm, e⟩ := hi.keys hc
      rw [hkk] at e; cases e
      exact hnul m hm)
    (fun c hc hkk => by
      obtain ⟨m, hm, e⟩ := hl.keys hc
      rw [hkk] at e; cases e
      exact hfst m hm rfl) hkey
  obtain ⟨ys', m', zs', hR, e1, e2⟩ := hv.inv.removed hf hgf
  have hM : Moved G k' (G.detach f k' true l r) := .child hgk hf hgf hMO
  have hvr := hD.ready hv id (fun b hb => by rw [hM.dom]; exact hv.node b hb)
  have hsame : ys' ++ m' :: zs' = ys ++ (key, u) :: zs := by
    have := hR.before.det (hv.unf hs)
    simpa [mkCon] using this
  obtain ⟨rfl, h4⟩ := List.append_inj hsame (by rw [e1, hll])
  cases h4
  refine ⟨st', _, hrun, hD, hR, hvr, hvr.shows hR.edit.doc, ?_⟩
  rintro rfl hT
  obtain rfl := List.length_eq_zero_iff.1 hll
  exact tidy_first hf hgf hT

/-- C32: if there is no such element or member, or `v` is no array (object), Del returns false and the
state is the same. -/
theorem C32_missing (hv : Ready st P G v y A) {fuel : Nat} {p : SPtr} :
    (∀ xs i, Shows st v (.arr xs) → xs.length ≤ i → xs.length < fuel → arrayDel fuel v i st = .ok (false, st)) ∧
    (∀ ms key, Shows st v (.obj ms) → CStr st p key → (∀ m ∈ ms, (0 : Byte) ∉ m.1) → (∀ m ∈ ms, m.1 ≠ key) → ms.length < fuel →
      objDel fuel v p st = .ok (false, st)) ∧
    ((∀ t, Shows st v t → ∀ ts, t ≠ .arr ts) → ∀ i, arrayDel fuel v i st = .ok (false, st)) ∧
    ((∀ t, Shows st v t → ∀ ms, t ≠ .obj ms) → objDel fuel v p st = .ok (false, st)) := by
  refine ⟨?_, ?_, ?_, ?_⟩
  · intro xs i hs hle hf'
    obtain ⟨f, _, rfl, _⟩ := hv.node_of hs
    obtain ⟨gf, kids, ms, hf, hgf, hi, hms⟩ := hv.arr hs
    have : kids.length = xs.length := by rw [hi.length, ← hms, List.length_map]
    exact arrayDel_missing hv.inv hv.val hf hgf (by omega) (by omega)
  · intro ms key hs hp hnul hno hf'
    obtain ⟨f, _, rfl, _⟩ := hv.node_of hs
    obtain ⟨gf, kids, hf, hgf, hi⟩ := hv.obj hs
    refine objDel_missing hv.inv hv.val hf hgf (by rw [hi.length]; exact hf') hp (fun c hc kk hkk => ?_) (fun c hc hkk => ?_)
    · obtain ⟨m, hm, e⟩ := hi.keys hc
      rw [hkk] at e; cases e
      exact hnul m hm
    · obtain ⟨m, hm, e⟩ := hi.keys hc
      rw [hkk] at e; cases e
      exact hno m hm rfl
  · intro h i
    exact (del_other (p := p) hv.inv).1 (hv.notCon (fun t ht ms e => h t ht (ms.map (·.2)) (by rw [e]; rfl)))
  · intro h
    exact (del_other (i := 0) hv.inv).2 (hv.notCon (fun t ht ms e => h t ht ms (by rw [e]; rfl)))

/-- C32 is false for later operations: delete the last element, then add one. -/
theorem C32_false : ((do
    let (v, _) ← make 0 b!"[1,2]"
    let (w, _) ← make 0 b!"7"
    let _ ← arrayDel 9 v 1
    arrayAdd 9 v w : M _) (start fun _ => 0)).out = .ub .nullDeref := by
  decide +kernel

/-- Deleting the elements 1 and 1 of `[1,2,3]` loses the element 0 as well. -/
theorem C32_false_middle : ((do
    let (v, _) ← make 0 b!"[1,2,3]"
    let _ ← arrayDel 9 v 1
    let _ ← arrayDel 9 v 1
    return (← sizeOf v, ← readN (← stringify 99 v) 2) : M _) (start fun _ => 0)).out = .ok (1, b!"[]") := by
  decide +kernel

/-- Two deletions that work. -/
example : ((do
    let (v, _) ← make 0 b!"{\"a\":1,\"b\":2,\"a\":3}"
    let r ← objDel 9 v (.lit { bytes := b!"a" })
    let r' ← objDel 9 v (.lit { bytes := b!"c" })
    return (r, r', ← readN (← stringify 99 v) 13) : M _) (start fun _ => 0)).out = .ok (true, false, b!"{\"b\":2,\"a\":3}") := by
  decide +kernel

/-! ### C33: Set and SetFast -/

/-- C33. `zj_SetFast(v, x)`: `x` is taken out of its place (`Cut`), then `v` shows the document of `x`,
with its old key and its old place (`EditAt`), and the handle `x` is empty. (The node of `x` is no
longer part of the store.) If all links were right they still are, except for what `zj_Move` does. -/
theorem C33_setFast (hv : Ready st P G v (some a) A) (hx : Ready st P G vv (some x) A') (ht : Shows st vv t)
    (hm : Movable G x) (hn : ¬ Reach G x a) :
    ∃ c st' G1 G', (∀ F, setFast (F + c) v vv st = .ok (true, st')) ∧ Did (· = vv) (fun _ => False) st st' P P G G' ∧
      Cut G G1 x ∧ EditAt (G1.only (· ≠ x)) G' a t ∧
      Ready st' P G' v (some a) A ∧ Shows st' v t ∧ Ready st' P G' vv none A' ∧
      (∃ ga ga', G a = some ga ∧ G' a = some ga' ∧ ga'.key = ga.key ∧ ga'.par = ga.par) ∧
      (EndRight G x → EndRight G' a) := by
  have hax : a ≠ x := fun e => hn (e ▸ .refl)
  obtain ⟨ga, ha⟩ := Option.isSome_iff_exists.1 (hv.node a rfl)
  obtain ⟨G1, hM, hC⟩ := hm.moved hv.inv
  obtain ⟨st1, _, hD1, _⟩ := move_run hv.inv hx.val hM
  obtain ⟨gx, gx1, hgx, hgx1, hp1, _, hxv, hxe⟩ := hM.self
  have hn1 : ¬ Reach G1 x a := fun h => hn (hM.reach hv.inv h)
  obtain ⟨ga1, ha1, hk1, hpar1⟩ : ∃ ga1, G1 a = some ga1 ∧ ga1.key = ga.key ∧ ga1.par = ga.par := by
    cases hM with
    | root => exact ⟨ga, ha, rfl, rfl⟩
    | @child _ gp p o l r h1 h2 h3 h4 =>
      unfold Graph.detach
      rw [if_neg hax]
      split
      · rw [ha]; exact ⟨_, rfl, rfl, rfl⟩
      · split
        · rw [ha]; exact ⟨_, rfl, rfl, rfl⟩
        · exact ⟨ga, ha, rfl, rfl⟩
  obtain ⟨c, st', hrun, hD, hvv, _⟩ := setFast_run hv.inv hv.val hx.val hM ha1 hgx1 hn1
  have hE := hD1.inv.graft_edit ha1 hgx1 hp1 (hC.doc (hx.unf ht)) hn1 (e := gx1.endOK)
  have hvne : v ≠ vv := by
    rintro rfl
    have := hv.val.symm.trans hx.val
    cases this; exact hax rfl
  have hvr := hD.ready hv hvne (fun b hb => by cases hb; rw [graft_self]; rfl)
  refine ⟨c, st', G1, _, hrun, hD, hC, hE, hvr, hvr.shows hE.doc, ⟨hD.inv, hD.cok hv.cok, hvv, fun _ h => by cases h⟩,
    ⟨ga, _, ha, graft_self, hk1, hpar1⟩, fun h g hg => ?_⟩
  rw [graft_self] at hg; cases hg
  show gx1.val.kids = [] ∨ gx1.endOK = true
  rw [hxv, hxe]
  exact h gx hgx

/-- C33 for an empty `v`: it becomes a handle of the node of `x`. -/
theorem C33_setFast_empty (hv : Ready st P G v none A) (hx : Ready st P G vv (some x) A') (ht : Shows st vv t)
    (hm : Movable G x) :
    ∃ st' G1, (∀ F, setFast F v vv st = .ok (true, st')) ∧ Did (fun b => b = v ∨ b = vv) (fun _ => False) st st' P P G G1 ∧
      Cut G G1 x ∧ Ready st' P G1 v (some x) A ∧ Shows st' v t ∧ Ready st' P G1 vv none A' := by
  obtain ⟨G1, hM, hC⟩ := hm.moved hv.inv
  obtain ⟨st', hrun, hD, h1, h2, _⟩ := setFast_empty hv.inv hv.val hx.val hM
  have hr : Ready st' P G1 v (some x) A := ⟨hD.inv, hD.cok hv.cok, h1, fun b hb => by
    cases hb; rw [hM.dom]; exact hx.node x rfl⟩
  exact ⟨st', G1, hrun, hD, hC, hr, hr.shows (hC.doc (hx.unf ht)), ⟨hD.inv, hD.cok hv.cok, h2, fun _ h => by cases h⟩⟩

/-- C33, right after the call. `zj_Set(v, x)` makes `v` show the document of `x` with its own key and
in its own place; all else is unchanged, so `x` shows what it showed (unless it contains `v`).

Missing: what happens later. The `End` pointer of `v` is that of `x` (`C33_false`). -/
theorem C33_set_partial (hv : Ready st P G v (some a) A) (hx : Ready st P G vv (some x) A') (ht : Shows st vv t) :
    ∃ c st' P' G', (∀ F, set (F + c) v vv st = .ok (true, st')) ∧
      Did (fun _ => False) (fun _ => False) st st' P P' G G' ∧ EditAt G G' a t ∧
      Ready st' P' G' v (some a) A ∧ Shows st' v t ∧ Ready st' P' G' vv (some x) A' ∧ (¬ Reach G x a → Shows st' vv t) ∧
      (∃ ga ga', G a = some ga ∧ G' a = some ga' ∧ ga'.key = ga.key ∧ ga'.par = ga.par) := by
  obtain ⟨ga, ha⟩ := Option.isSome_iff_exists.1 (hv.node a rfl)
  obtain ⟨gx, hgx⟩ := Option.isSome_iff_exists.1 (hx.node x rfl)
  obtain ⟨c, st1, st', n, gn, g, P', hrun, hC, hgn, hD, _⟩ := set_run hv.inv hv.val hx.val ha hgx (hx.unf ht)
  obtain ⟨gn', hn, hpar, _, _⟩ := hC.root
  rw [hgn] at hn; cases hn
  have hn' := hC.grow hv.inv hgn
  have hnn := hC.new _ _ hgn
  have hlt := hv.inv.lt ha
  have hna : ¬ Reach (G.or g) n a := fun h => by
    have := hC.reach hv.inv h (by simp [hgn])
    omega
  have ha' : (G.or g) a = some ga := by rw [hC.old hlt]; exact ha
  have hE := hC.did.inv.graft_edit ha' hn' hpar (hC.unf.mono (fun c y hy => hC.grow hv.inv hy)) hna (e := false)
  have hE' : EditAt G ((G.or g).graft a n ga gn false) a t := hE.le (fun b gb hb =>
    Graph.only_some.2 ⟨by have := hv.inv.lt hb; omega, Graph.le_or b gb hb⟩)
  have hdom : ∀ b, (G b).isSome → ((G.or g).graft a n ga gn false b).isSome := by
    intro b hb
    obtain ⟨gb, hb⟩ := Option.isSome_iff_exists.1 hb
    have := hv.inv.lt hb
    by_cases e : b = a
    · subst e; rw [graft_self]; rfl
    · obtain ⟨gc', h1, _⟩ := graft_same (ga := ga) (gx := gn) (e := false) e (show b ≠ n by omega) (Graph.le_or b gb hb)
      rw [h1]; rfl
  have hvr := hD.ready hv id (fun b hb => hdom b (hv.node b hb))
  have hxr := hD.ready hx id (fun b hb => hdom b (hx.node b hb))
  exact ⟨c, st', P', _, hrun, hD, hE', hvr, hvr.shows hE'.doc, hxr, fun h => hxr.shows (hE'.other (hx.unf ht) h),
    ⟨ga, _, ha, graft_self, rfl, rfl⟩⟩

/-- C33 for an empty `v`: it gets the copy, which has the key of `x`. -/
theorem C33_set_empty (hv : Ready st P G v none A) (hx : Ready st P G vv (some x) A') (ht : Shows st vv t) :
    ∃ c st' n P' G', (∀ F, set (F + c) v vv st = .ok (true, st')) ∧ Did (· = v) (fun _ => False) st st' P P' G G' ∧ G.le G' ∧
      Ready st' P' G' v (some n) A ∧ Shows st' v t ∧ G'.keyOf n = G.keyOf x ∧ AtRoot G' n ∧ Ready st' P' G' vv (some x) A' ∧
      Shows st' vv t := by
  obtain ⟨gx, hgx⟩ := Option.isSome_iff_exists.1 (hx.node x rfl)
  obtain ⟨c, st1, n, g, P', hrun, hC, hD⟩ := set_empty hv.inv hv.val hx.val hgx (hx.unf ht)
  obtain ⟨gn, hn, hpar, hkey, _⟩ := hC.root
  have hn' := hC.grow hv.inv hn
  have hvne : vv ≠ v := by
    rintro rfl
    have := hv.val.symm.trans hx.val
    cases this
  have hxr := hD.ready hx hvne (fun b hb => by
    obtain ⟨gb, h⟩ := Option.isSome_iff_exists.1 (hx.node b hb)
    rw [Graph.le_or b gb h]; rfl)
  have hvr : Ready (st1.setV v ⟨some n, A⟩) P' (G.or g) v (some n) A :=
    ⟨hD.inv, hD.cok hv.cok, by simp, fun b hb => by cases hb; simp [hn']⟩
  exact ⟨c, _, n, P', _, hrun, hD, Graph.le_or, hvr, hvr.shows (hC.unf.mono (fun c y hy => hC.grow hv.inv hy)),
    by simp [Graph.keyOf, hn', hgx, hkey], ⟨gn, hn', hpar⟩, hxr, hxr.shows ((hx.unf ht).mono Graph.le_or)⟩

/-- C33: with an empty `x` both return false and nothing changes (`zj_Set` makes a handle nobody gets). -/
theorem C33_refused (hx : Ready st P G vv none A') {F : Nat} :
    setFast F v vv st = .ok (false, st) ∧ ∃ st', set F v vv st = .ok (false, st') ∧ Unchanged st st' :=
  ⟨setFast_emptyArg hx.val, _, set_emptyArg hx.inv hx.val, unch_addV⟩

/-- C33 is false: after `zj_Set(v, x)` with `x = [2,3]`, adding 7 to `v` does not add it to `v`, which
still prints `[2,3]` although its size is 3 (zzzjson.h:2631 copies `End` from `x`, so the 7 is chained
behind the last element of `x`). -/
theorem C33_false : ((do
    let (v, _) ← make 0 b!"[1]"
    let (x, _) ← make 0 b!"[2,3]"
    let (y, _) ← make 0 b!"7"
    let _ ← set 99 v x
    let _ ← arrayAdd 99 v y
    return (← sizeOf v, ← readN (← stringify 99 v) 5) : M _) (start fun _ => 0)).out = .ok (3, b!"[2,3]") := by
  decide +kernel

/-- And this later edit of `v` destroys `x`: printing `x` dereferences null. -/
theorem C33_false_source : ((do
    let (v, _) ← make 0 b!"[1]"
    let (x, _) ← make 0 b!"[2,3]"
    let (y, _) ← make 0 b!"7"
    let _ ← set 99 v x
    let _ ← arrayAdd 99 v y
    stringify 99 x : M _) (start fun _ => 0)).out = .ub .nullDeref := by
  decide +kernel

/-- SetFast of a member's value by the contents of another document, and an append afterwards. -/
example : ((do
    let (v, _) ← make 0 b!"{\"a\":1}"
    let (x, _) ← make 0 b!"[2,3]"
    let (y, _) ← make 0 b!"7"
    let some w ← objGet 9 v (.lit { bytes := b!"a" }) | return []
    let _ ← setFast 99 w x
    let _ ← arrayAdd 99 w y
    readN (← stringify 99 v) 13 : M _) (start fun _ => 0)).out = .ok b!"{\"a\":[2,3,7]}" := by
  decide +kernel

/-- The hypotheses about links are met by every two valid documents. -/
example {ts : List Json} {t : Json} (h : (Json.arr ts).Valid) (ht : t.Valid) (slack : Nat → Nat) :
    ∃ st P G v f vv x, Ready st P G v (some f) 0 ∧ Ready st P G vv (some x) 0 ∧ Shows st v (.arr ts) ∧ Shows st vv t ∧
      Movable G x ∧ ¬ LastOfSeveral G x f ∧ ¬ Reach G x f := by
  obtain ⟨st, P, G, v, a, v', a', h1, h2, h3, h4, h5, _⟩ := exists_example2 h ht slack
  obtain ⟨gx, e1, e2, _⟩ := h2.root
  refine ⟨st, P, G, v, a, v', a', h1.ready, h2.ready, h1.ready.shows h1.doc, h2.ready.shows h2.doc, .inl ⟨gx, e1, e2⟩, ?_, h5⟩
  rintro ⟨gf, o, l, q1, q2, _⟩
  exact h4 (.step q1 (by rw [q2]; simp [GVal.kids]) .refl)

end
end ZJ
