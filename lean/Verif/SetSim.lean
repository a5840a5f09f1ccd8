import Verif.Store
import Verif.CheckLemmas
import Verif.EscLemmas
import Verif.NumLemmas

/-
The setters (zzzjson.h:2194-2592) on the abstract store.
-/

set_option linter.unusedSimpArgs false

namespace ZJ

section
variable {st st1 : St} {P : Addr → Prop} {G : Graph} {v A : Addr} {x : Option Addr}

/-- What is known after `v->N` was made sure to exist. -/
structure Ensured (st st1 : St) (P : Addr → Prop) (G : Graph) (v : Addr) (x : Option Addr) (A : Nat)
    (n1 : Node) : Prop where
  node : st1.nodes (rootOf st x) = some n1
  key : KeyOK st P n1 (baseNode G x).key
  father : n1.father = some (baseNode G x).par
  root : (baseNode G x).par = none → n1.next = some none ∧ n1.prev = some none
  ok : StOK st1
  bufs : st1.bufs = st.bufs
  nb : st1.nb = st.nb
  cache : st1.cache = st.cache
  vals : st1.vals v = some ⟨some (rootOf st x), A⟩
  same : ∀ a, x = some a → st1 = st
  frame : Frame (· = rootOf st x) (· = v) (fun _ => False) st st1

theorem ensureNode_run (hI : Inv st P G) (hv : st.vals v = some ⟨x, A⟩)
    (hx : ∀ a, x = some a → (G a).isSome) :
    ∃ st1 n1, ensureNode v st = .ok (rootOf st x, st1) ∧ Ensured st st1 P G v x A n1 := by
  have ha : st.allocs A = true := hI.ok.live v _ hv
  cases x with
  | some a =>
    obtain ⟨gn, hg⟩ := Option.isSome_iff_exists.1 (hx a rfl)
    obtain ⟨n, hn, hok⟩ := hI.rep a gn hg
    have hb : baseNode G (some a) = gn := by simp [baseNode, hg]
    refine ⟨st, n, ?_, hn, by rw [hb]; exact hok.key, by rw [hb]; exact hok.father,
      by rw [hb]; exact hok.root, hI.ok, rfl, rfl, rfl, hv, fun _ _ => rfl, Frame.refl _⟩
    unfold ensureNode
    mstep rdVal_run hv
    rfl
  | none =>
    have hlt := hI.ok.val_lt hv
    let n1 : Node := { owner := A, key := some none, prev := some none, father := some none,
                       next := some none }
    have hs1 : StOK ((st.addN A).setV v ⟨some st.nn, A⟩) := (hI.ok.addN (A := A)).setV hv rfl
    have hnn : ((st.addN A).setV v ⟨some st.nn, A⟩).nodes st.nn = some { owner := A } := by simp
    refine ⟨((st.addN A).setV v ⟨some st.nn, A⟩).setN st.nn n1, n1, ?_, by simp [rootOf], rfl, rfl,
      fun _ => ⟨rfl, rfl⟩, hs1.setN hnn, rfl, rfl, rfl, by simp [rootOf], nofun, ?_⟩
    · unfold ensureNode
      mstep rdVal_run hv
      simp only
      mstep newNode_run ha
      mstep setValN_run (st := st.addN A) hv
      mstep modNode_run hnn
      mstep modNode_run (n := { owner := A, key := some none }) (by simp)
      simp only [setN_setN]
      mstep modNode_run (n := { owner := A, key := some none, prev := some none }) (by simp)
      simp only [setN_setN]
      mstep modNode_run (n := { owner := A, key := some none, prev := some none, father := some none }) (by simp)
      simp only [setN_setN]
      rfl
    · refine ⟨fun b hb _ => ?_, fun b hb hne => by simp [hne], fun _ _ _ => rfl, by simp, Nat.le_refl _,
        Nat.le_refl _, rfl, rfl, rfl⟩
      have : b ≠ st.nn := by omega
      simp [this]

/-- Storing a new value without children in the node. -/
theorem Ensured.put {n1 n2 : Node} {gv : GVal} {t : Json}
    (hE : Ensured st st1 P G v x A n1) (hI : Inv st P G)
    (hl : n2.father = n1.father ∧ n2.next = n1.next ∧ n2.prev = n1.prev ∧ n2.key = n1.key ∧
      n2.keyLen = n1.keyLen)
    (hval : ∀ st2 G', st2.bufs = st.bufs → ValOK st2 P G' (rootOf st x) n2 gv true)
    (hu : ∀ G', UnfV G' gv t) :
    Inv (st1.setN (rootOf st x) n2) P (G.set (rootOf st x) ((baseNode G x).put gv)) ∧
    Unf (G.set (rootOf st x) ((baseNode G x).put gv)) (rootOf st x) t := by
  have hU : Unf (G.set (rootOf st x) ((baseNode G x).put gv)) (rootOf st x) t :=
    .mk (Graph.set_same _ _ _) (hu _)
  refine ⟨hI.change (hE.ok.setN hE.node) ?_ (fun _ h => h) (fun b _ => by simp [hE.bufs]) ?_ ?_, hU⟩
  · intro b hb
    have := hI.pin b hb
    simpa [hE.bufs, hE.cache] using this
  · intro a gn' ha
    by_cases hr : a = rootOf st x
    · subst hr
      rw [Graph.set_same] at ha; cases ha
      refine .inr ⟨n2, by simp, ?_, ?_, ?_, ?_⟩
      · exact (hE.key.mono (fun _ h => h) (fun _ _ => by simp [hE.bufs])).fields hl.2.2.2.1 hl.2.2.2.2
      · rw [hl.1]; exact hE.father
      · intro h; rw [hl.2.1, hl.2.2.1]; exact hE.root h
      · exact hval _ _ (by simp [hE.bufs])
    · rw [Graph.set_ne _ _ hr] at ha
      have hlt := hI.lt ha
      refine .inl (hI.keep ha (by simp [hr]; exact hE.frame.nodes a hlt hr) ?_)
      intro k hk n gk hn hg
      by_cases hkr : k = rootOf st x
      · cases x with
        | none => have := hI.lt hg; simp [rootOf] at hkr; omega
        | some c =>
          have hs := hE.same c rfl
          have hc : c = k := hkr.symm
          subst hc
          subst hs
          have := hE.node
          simp only [rootOf, Option.getD_some] at this
          rw [hn] at this; cases this
          have hbn : baseNode G (some c) = gk := by simp [baseNode, hg]
          rw [hbn]
          exact ⟨n2, _, by simp [rootOf], Graph.set_same _ _ _, hl.2.1, hl.2.2.1, rfl, rfl, rfl⟩
      · exact ⟨n, gk, by simp [hkr]; rw [hE.frame.nodes k (hI.lt hg) hkr, hn],
          by rw [Graph.set_ne _ _ hkr, hg], rfl, rfl, rfl, rfl, rfl⟩
  · intro a gn' ha
    by_cases hr : a = rootOf st x
    · subst hr; exact ⟨t, hU⟩
    · rw [Graph.set_ne _ _ hr] at ha
      obtain ⟨t0, h0⟩ := hI.fin a gn' ha
      refine h0.replace fun b gb hb => ?_
      by_cases hbr : b = rootOf st x
      · subst hbr
        refine ⟨_, Graph.set_same _ _ _, ?_, .inr ⟨t, hu _⟩⟩
        cases x with
        | none => have := hI.lt hb; simp [rootOf] at this
        | some c => simp only [rootOf, Option.getD_some] at hb; simp [baseNode, hb, GNode.put]
      · exact ⟨gb, by rw [Graph.set_ne _ _ hbr, hb], rfl, .inl rfl⟩

/-- What a successful setter did: the node of the handle has the value `gv` (document
`t`); nothing else changed. `st` and `P` are those right before the node is written. -/
structure Stored (st st' : St) (P : Addr → Prop) (G : Graph) (v : Addr) (x : Option Addr) (A : Nat)
    (gv : GVal) (t : Json) : Prop where
  inv : Inv st' P (G.set (rootOf st x) ((baseNode G x).put gv))
  doc : Unf (G.set (rootOf st x) ((baseNode G x).put gv)) (rootOf st x) t
  vals : st'.vals v = some ⟨some (rootOf st x), A⟩
  bufs : st'.bufs = st.bufs
  nb : st'.nb = st.nb
  cache : st'.cache = st.cache
  frame : Frame (· = rootOf st x) (· = v) (fun _ => False) st st'

theorem Ensured.stored {n1 n2 : Node} {gv : GVal} {t : Json}
    (hE : Ensured st st1 P G v x A n1) (hI : Inv st P G)
    (hl : n2.father = n1.father ∧ n2.next = n1.next ∧ n2.prev = n1.prev ∧ n2.key = n1.key ∧
      n2.keyLen = n1.keyLen)
    (hval : ∀ st2 G', st2.bufs = st.bufs → ValOK st2 P G' (rootOf st x) n2 gv true)
    (hu : ∀ G', UnfV G' gv t) : Stored st (st1.setN (rootOf st x) n2) P G v x A gv t := by
  obtain ⟨h1, h2⟩ := hE.put hI hl hval hu
  exact ⟨h1, h2, hE.vals, hE.bufs, hE.nb, hE.cache,
    hE.frame.trans frame_setN (fun _ _ h => h) (fun _ _ h => h.elim) (fun _ _ h => h)⟩

theorem setScalar_run (hI : Inv st P G) (hv : st.vals v = some ⟨x, A⟩)
    (hx : ∀ a, x = some a → (G a).isSome) {gv : GVal} {p : SPtr} (hs : gv.isCon = false)
    (ht : TextAt st P p gv) :
    ∃ st', setScalar v gv.type p gv.text.length st = .ok ((), st') ∧
      Stored st st' P G v x A gv gv.doc := by
  obtain ⟨st1, n1, e1, hE⟩ := ensureNode_run hI hv hx
  refine ⟨st1.setN (rootOf st x) (n1.putS gv p), ?_, hE.stored hI ⟨rfl, rfl, rfl, rfl, rfl⟩ ?_
    (fun _ => .scalar hs)⟩
  · unfold setScalar
    mstep e1
    mstep modNode_run hE.node
    mstep modNode_run (n := { n1 with type := some gv.type }) (by simp)
    rw [setN_setN]
    refine (modNode_run (n := { n1 with type := some gv.type, value := some (.str p) }) (by simp)).trans ?_
    rw [setN_setN]
    rfl
  · intro st2 G' hb
    refine (ValOK.scalar hs).2 ⟨rfl, p, rfl, rfl, ht.1.mono (fun _ h => h) (fun _ _ => by rw [hb]), ht.2⟩

theorem setNull_run (hI : Inv st P G) (hv : st.vals v = some ⟨x, A⟩)
    (hx : ∀ a, x = some a → (G a).isSome) :
    ∃ st', setNull v st = .ok ((), st') ∧ Stored st st' P G v x A .null .null :=
  setScalar_run (gv := .null) hI hv hx rfl ⟨⟨[0], rfl⟩, fun _ => ⟨_, rfl⟩⟩

theorem setBool_run (hI : Inv st P G) (hv : st.vals v = some ⟨x, A⟩)
    (hx : ∀ a, x = some a → (G a).isSome) (b : Bool) :
    ∃ st', setBool v b st = .ok ((), st') ∧ Stored st st' P G v x A (.bool b) (.bool b) := by
  cases b
  · exact setScalar_run (gv := .bool false) hI hv hx rfl ⟨⟨[0], rfl⟩, fun _ => ⟨_, rfl⟩⟩
  · exact setScalar_run (gv := .bool true) hI hv hx rfl ⟨⟨[0], rfl⟩, fun _ => ⟨_, rfl⟩⟩

theorem setCon_run (hI : Inv st P G) (hv : st.vals v = some ⟨x, A⟩)
    (hx : ∀ a, x = some a → (G a).isSome) (o : Bool) :
    ∃ st', (do
        let a ← ensureNode v
        setType a (conType o)
        setNodeP a none
        setLen a 0 : M Unit) st = .ok ((), st') ∧
      Stored st st' P G v x A (.con o []) (mkCon o []) := by
  obtain ⟨st1, n1, e1, hE⟩ := ensureNode_run hI hv hx
  refine ⟨st1.setN (rootOf st x) { n1 with type := some (conType o), value := some (.node none), len := some 0 },
    ?_, hE.stored hI ⟨rfl, rfl, rfl, rfl, rfl⟩ ?_ (fun _ => .con .nil)⟩
  · mstep e1
    mstep modNode_run hE.node
    mstep modNode_run (n := { n1 with type := some (conType o) }) (by simp)
    rw [setN_setN]
    refine (modNode_run (n := { n1 with type := some (conType o), value := some (.node none) }) (by simp)).trans ?_
    rw [setN_setN]
  · intro st2 G' hb
    exact ⟨rfl, rfl, rfl, fun _ h => absurd rfl h, trivial, .nil, fun _ h => by cases h⟩

theorem setArray_run (hI : Inv st P G) (hv : st.vals v = some ⟨x, A⟩)
    (hx : ∀ a, x = some a → (G a).isSome) :
    ∃ st', setArray v st = .ok ((), st') ∧ Stored st st' P G v x A (.con false []) (.arr []) :=
  setCon_run hI hv hx false

theorem setObj_run (hI : Inv st P G) (hv : st.vals v = some ⟨x, A⟩)
    (hx : ∀ a, x = some a → (G a).isSome) :
    ∃ st', setObj v st = .ok ((), st') ∧ Stored st st' P G v x A (.con true []) (.obj []) :=
  setCon_run hI hv hx true

end

end ZJ
