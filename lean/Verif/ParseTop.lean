import Verif.ParseSim
import Verif.Update

/-
zj_ParseFast, zj_ParseLen and zj_Parse as a whole.
-/

set_option linter.unusedSimpArgs false

namespace ZJ

section
variable {v A : Nat} {p : SPtr} {s : Bytes} {lim : Nat} {src : Option Addr} {P : Addr → Prop}
  {root : Addr} {st st1 : St} {nd : Node}

theorem loop_top {j F : Nat} {b : Bool} {j1 : Nat} (h : Ctx v A p s lim P root st)
    (hj : peekAndConsume 0 s j = .ok (b, j1)) :
    parseLoop v A p s lim src (F + 1) .head root j st =
      if b then .ok (true, st) else restore v src st := by
  unfold parseLoop
  mstep rdVal_run h.vals
  simp only [if_true, hj]
  mstep lift_ok _
  cases b <;> rfl

theorem Tails.top {g : Graph} {nd : Node} {gv : GVal} {j : Nat} {w r : Bytes} {x : Byte}
    (h : Tails p s st g) (hE : EndsAt p s nd gv j) (hd : s.drop j = w ++ x :: r) (hw : IsWs w)
    (hx : isNumeralChar x = false) (hn : st.nodes root = some nd) :
    Tails p s st (g.set root ⟨none, gv, none, true, true⟩) := by
  intro a gn raw ha e
  by_cases hak : a = root
  · subst hak
    have : gn = ⟨none, gv, none, true, true⟩ := by simpa [Graph.set] using ha.symm
    subst this
    obtain ⟨k, c, r, q1, q2⟩ := hE.tail hd hw hx e
    exact ⟨nd, k, c, r, hn, q1, q2⟩
  · exact h a gn raw (by simpa [Graph.set, hak] using ha) e

theorem parse_core (hc : Ctx v A p s lim P root st1) (hn : st1.nodes root = some nd)
    (h0 : (0 : Byte) ∈ s) :
    match pText s lim (3 * s.length + 1) with
    | .ok none => ∃ st', Chg A (· = root) st1 st' ∧
        (switchValue A p s lim root 0 >>= afterSwitch v A p s lim src
          (fun F i => parseLoop v A p s lim src F .head root i) (parseFuel s.length)) st1 =
        restore v src st'
    | .ok (some t) => ∃ st' nd' gv g, Built A P st1 st' root nd nd' gv g t ∧
        Tails p s st' (g.set root ⟨none, gv, none, true, true⟩) ∧
        (switchValue A p s lim root 0 >>= afterSwitch v A p s lim src
          (fun F i => parseLoop v A p s lim src F .head root i) (parseFuel s.length)) st1 =
        .ok (true, st')
    | .ub u => (switchValue A p s lim root 0 >>= afterSwitch v A p s lim src
          (fun F i => parseLoop v A p s lim src F .head root i) (parseFuel s.length)) st1 = .ub u
    | .timeout => False := by
  have hat : At s 0 := ⟨by simpa [HasNul] using h0, by simp⟩
  have hout := pVal_out s lim (3 * s.length + 1) 0 hat (by omega)
  have hV := simVal (v := v) (A := A) (p := p) (s := s) (lim := lim) (src := src) (P := P)
    (root := root) (3 * s.length + 1) (i := 0) (n := root) (nd := nd)
    (fin := fun F i => parseLoop v A p s lim src F .head root i) (e := 1)
    hc hat (by omega) hn hc.root (fun F j st' h => close_root h)
  unfold pText
  cases hp : pVal s lim (3 * s.length + 1) 0 with
  | timeout => rw [hp] at hout; exact hout.elim
  | ub u =>
    rw [hp] at hV
    obtain ⟨c, hcb, hV⟩ := hV
    simp only [Res.ub_bind]
    have := hV (parseFuel s.length - c)
    rwa [show parseFuel s.length - c + c = parseFuel s.length by unfold parseFuel; omega] at this
  | ok x =>
    rw [hp] at hV hout
    simp only [Res.ok_bind]
    cases x with
    | none =>
      obtain ⟨c, st', hcb, hch, hV⟩ := hV
      simp only [Res.pure_eq]
      refine ⟨st', hch, ?_⟩
      have := hV (parseFuel s.length - c)
      rwa [show parseFuel s.length - c + c = parseFuel s.length by unfold parseFuel; omega] at this
    | some x =>
      obtain ⟨t, j⟩ := x
      obtain ⟨c, st', nd', gv, g, hcb, hB, hE, hTs, hV⟩ := hV
      obtain ⟨_, _, _, _, _, _, haj⟩ := hout
      simp only at haj
      have hlj := haj.1.lt
      have hV := hV (parseFuel s.length - c - 1 + 1)
      rw [show parseFuel s.length - c - 1 + 1 + c = parseFuel s.length by unfold parseFuel; omega]
        at hV
      obtain ⟨w', ch, r, hd', hw', hch, _, _⟩ := haj.1.ws
      have e := peekAndConsume_ws (x := 0) hw' hch hd'
      have hc' := hc.chg hB.chg
      by_cases hc0 : ch = 0
      · simp only [hc0, if_true] at e
        simp only [e, Res.ok_bind, if_true, Res.pure_eq]
        refine ⟨st', nd', gv, g, hB, hTs.top hE hd' hw' (by rw [hc0]; decide) hB.node, hV.trans ?_⟩
        exact (loop_top hc' e).trans (by simp)
      · simp only [hc0, if_false] at e
        simp only [e, Res.ok_bind, Bool.false_eq_true, if_false, Res.pure_eq]
        refine ⟨st', hB.chg, hV.trans ?_⟩
        exact (loop_top hc' e).trans (by simp)

/-- The text of the scalar at node `a` is followed in memory by a byte that does not
continue a numeral (which `zj_GetLong`, `zj_GetLongLong`, `zj_GetDouble` rely on). -/
def Tail (st : St) (a : Addr) (raw : Bytes) : Prop :=
  ∃ nd p c r lim, st.nodes a = some nd ∧ nd.value = some (.str p) ∧
    view p st = .ok ((raw ++ c :: r, lim), st) ∧ isNumeralChar c = false

/-- Every number of the document at `a` is followed by a byte that is not part of a numeral. -/
def Terminated (st : St) (G : Graph) (a : Addr) : Prop :=
  ∀ c gn raw, Reach G a c → G c = some gn → gn.val = .num raw → Tail st c raw

theorem view_add {st : St} {p : SPtr} {s : Bytes} {lim k : Nat}
    (h : view p st = .ok ((s, lim), st)) (hk : k < s.length) :
    ∃ lim', view (p.add k) st = .ok ((s.drop k, lim'), st) := by
  cases p with
  | lit b =>
    simp [view] at h
    obtain ⟨h1, h2⟩ := h
    subst h1
    refine ⟨(b.bytes.drop k).length + 1, ?_⟩
    have : k ≤ b.bytes.length := by simp at hk; omega
    simp [view, SPtr.add, List.drop_append_of_le_length this]
  | buf b off =>
    cases hb : st.bufs b with
    | none => simp [view, hb] at h
    | some bf =>
      simp [view, hb] at h
      refine ⟨bf.size + bf.slack - (off + k), ?_⟩
      simp [view, hb, SPtr.add, ← h.1]

/-- The state in which parsing into an empty handle starts. -/
def startNone (st : St) (v A : Nat) : St :=
  ((st.addN A).setV v ⟨some st.nn, A⟩).setN st.nn
    { owner := A, prev := some none, next := some none, father := some none, key := some none }

/-- The state in which parsing into a handle with a node starts: the node was saved. -/
def startSome (st : St) (A : Nat) (x : Node) : St :=
  (st.addN A).setN st.nn { x with owner := A }

theorem parseFast_none (hv : st.vals v = some ⟨none, A⟩) (ha : st.allocs A = true)
    (hT : Text st P p s lim) :
    parseFast v p st = (switchValue A p s lim st.nn 0 >>= afterSwitch v A p s lim none
      (fun F i => parseLoop v A p s lim none F .head st.nn i) (parseFuel s.length))
      (startNone st v A) := by
  have hT' : Text (startNone st v A) P p s lim := hT.mono rfl
  unfold parseFast
  mstep rdVal_run hv
  simp only
  have run : (do
      let n ← newNode A
      setValN v (some n)
      setPrev n none
      setNext n none
      setFather n none
      setKey n none
      pure none : M (Option Addr)) st = .ok (none, startNone st v A) := by
    mstep newNode_run ha
    mstep setValN_run (x := ⟨none, A⟩) (by simpa using hv)
    mstep modNode_run (n := { owner := A }) (by simp)
    mstep modNode_run (n := { owner := A, prev := some none }) (by simp)
    mstep modNode_run (n := { owner := A, prev := some none, next := some none }) (by simp)
    mstep modNode_run (n := { owner := A, prev := some none, next := some none, father := some none })
      (by simp)
    simp [startNone]
  mstep run
  mstep hT'.view
  simp only
  mstep rdVal_run (x := ⟨some st.nn, A⟩) (by simp [startNone])
  mstep M.pure_run _ _
  refine congrFun (congrArg (switchValue A p s lim st.nn 0 >>= ·) ?_) _
  funext x
  cases x <;> rfl

theorem parseFast_some {a : Addr} {x : Node} (hv : st.vals v = some ⟨some a, A⟩)
    (ha : st.allocs A = true) (hx : st.nodes a = some x) (han : a < st.nn)
    (hT : Text st P p s lim) :
    parseFast v p st = (switchValue A p s lim a 0 >>= afterSwitch v A p s lim (some st.nn)
      (fun F i => parseLoop v A p s lim (some st.nn) F .head a i) (parseFuel s.length))
      (startSome st A x) := by
  have hT' : Text (startSome st A x) P p s lim := hT.mono rfl
  have h1 : a ≠ st.nn := by omega
  unfold parseFast
  mstep rdVal_run hv
  simp only
  have run : (do
      let sn ← newNode A
      let x ← rdNode a
      modNode sn fun n => { x with owner := n.owner }
      pure (some sn) : M (Option Addr)) st = .ok (some st.nn, startSome st A x) := by
    mstep newNode_run ha
    mstep rdNode_run (n := x) (by simp [h1, hx])
    mstep modNode_run (n := { owner := A }) (by simp)
    simp [startSome]
  mstep run
  mstep hT'.view
  simp only
  mstep rdVal_run (x := ⟨some a, A⟩) (by simp [startSome, hv])
  mstep M.pure_run _ _
  refine congrFun (congrArg (switchValue A p s lim a 0 >>= ·) ?_) _
  funext x
  cases x <;> rfl

end

/-! ### The store after a successful parse -/

/-- A node that got a new value. -/
def GNode.put (gn : GNode) (gv : GVal) : GNode := { gn with val := gv, endOK := true }

/-- The store in which the value of `a` was replaced by the new nodes `g`. -/
def Graph.plant (G : Graph) (a : Addr) (gn : GNode) (gv : GVal) (g : Graph) : Graph :=
  (g.or G).set a (gn.put gv)

section
variable {st st1 st' : St} {P : Addr → Prop} {G g : Graph} {A a : Addr} {gn : GNode}
  {nd nd' : Node} {gv : GVal} {t : Json}

theorem Inv.plant (hI : Inv st P G) (hB : Built A P st1 st' a nd nd' gv g t)
    (hn1 : st.nn ≤ st1.nn) (ha : a < st1.nn)
    (hsame : ∀ b, b < st.nn → b ≠ a → st1.nodes b = st.nodes b) (hbufs : st1.bufs = st.bufs)
    (hkey : KeyOK st P nd gn.key) (hfa : nd.father = some gn.par)
    (hroot : gn.par = none → nd.next = some none ∧ nd.prev = some none)
    (hold : ∀ go, G a = some go → st.nodes a = some nd ∧ gn = { go with val := gn.val, endOK := gn.endOK }) :
    RepOn st' P (G.plant a gn gv g) ∧ (∀ b gb, G.plant a gn gv g b = some gb →
      ∃ t, Unf (G.plant a gn gv g) b t) ∧ Unf (G.plant a gn gv g) a t ∧
    (∀ b, b < st.nn → b ≠ a → st'.nodes b = st.nodes b) := by
  have hga : G.plant a gn gv g a = some (gn.put gv) := by simp [Graph.plant]
  have le1 : g.le (G.plant a gn gv g) := by
    intro b x hb
    have := hB.dom b x hb
    have : b ≠ a := by omega
    simp [Graph.plant, Graph.set, Graph.or, this, hb]
  have old : ∀ b gb, G b = some gb → b ≠ a → G.plant a gn gv g b = some gb := by
    intro b gb hb hne
    have hlt := hI.lt hb
    have : g b = none := by
      cases h : g b with
      | none => rfl
      | some y => have := hB.dom b y h; omega
    simp [Graph.plant, Graph.set, Graph.or, this, hb, hne]
  have nodes' : ∀ b, b < st.nn → b ≠ a → st'.nodes b = st.nodes b := by
    intro b hb hne
    rw [hB.chg.nodes b hne (.inl (by omega)), hsame b hb hne]
  have bufs' : st'.bufs = st.bufs := by rw [hB.chg.bufs, hbufs]
  have ua : Unf (G.plant a gn gv g) a t := .mk hga (hB.unf.mono le1)
  refine ⟨?_, ?_, ua, nodes'⟩
  · intro b gb hb
    by_cases hba : b = a
    · subst hba
      rw [hga] at hb; cases hb
      refine ⟨nd', hB.node, ?_, ?_, ?_, ?_⟩
      · exact (hkey.fields hB.links.key hB.links.keyLen).mono (fun _ h => h) (fun _ _ => by rw [bufs'])
      · exact hB.links.father.trans hfa
      · intro h
        rw [hB.links.next, hB.links.prev]
        exact hroot h
      · exact hB.val.mono le1 (fun _ _ => rfl) (fun _ h => h) (fun _ _ => rfl)
    · cases h1 : g b with
      | some y =>
        have : y = gb := by
          have := le1 _ _ h1
          rw [hb] at this; cases this; rfl
        subst this
        exact hB.rep.lift le1 (fun _ _ => rfl) rfl h1
      | none =>
        have h2 : G b = some gb := by simpa [Graph.plant, Graph.set, Graph.or, hba, h1] using hb
        obtain ⟨n, hn, hok⟩ := hI.rep b gb h2
        refine ⟨n, by rw [nodes' b (hI.lt h2) hba, hn], ?_⟩
        refine hok.update (fun k hk => ?_) (fun _ h => h) (fun _ _ => by rw [bufs'])
        by_cases hka : k = a
        · subst hka
          intro m gk hm hgk
          obtain ⟨e1, e2⟩ := hold gk hgk
          rw [e1] at hm; cases hm
          refine ⟨nd', _, hB.node, hga, hB.links.next, hB.links.prev, ?_, ?_, ?_⟩ <;>
            (rw [e2]; rfl)
        · intro m gk hm hgk
          exact ⟨m, gk, by rw [nodes' k (hI.lt hgk) hka, hm], old k gk hgk hka, rfl, rfl, rfl, rfl, rfl⟩
  · have rep : ∀ b gb, G b = some gb → ∃ gn', G.plant a gn gv g b = some gn' ∧
        gn'.key.isSome = gb.key.isSome ∧ (gn'.val = gb.val ∨ ∃ t, UnfV (G.plant a gn gv g) gn'.val t) := by
      intro b gb hb
      by_cases hba : b = a
      · subst hba
        refine ⟨_, hga, ?_, .inr ⟨t, hB.unf.mono le1⟩⟩
        rw [(hold gb hb).2]; rfl
      · exact ⟨gb, old b gb hb hba, rfl, .inl rfl⟩
    intro b gb hb
    by_cases hba : b = a
    · subst hba; exact ⟨t, ua⟩
    · cases h1 : g b with
      | some y =>
        obtain ⟨t', ht⟩ := hB.fin b y h1
        exact ⟨t', ht.mono le1⟩
      | none =>
        have h2 : G b = some gb := by simpa [Graph.plant, Graph.set, Graph.or, hba, h1] using hb
        obtain ⟨t', ht⟩ := hI.fin b gb h2
        exact ht.replace rep

end

/-! ### zj_ParseFast -/

theorem Chg.stok {A S} {st st' : St} (h : Chg A S st st') (ho : StOK st)
    (hS : ∀ b, S b → b < st.nn) : StOK st' where
  nodes a ha := by
    have := h.nn
    rw [h.nodes a (fun hs => by have := hS a hs; omega) (.inr ha)]
    exact ho.nodes a (by omega)
  vals a ha := by rw [h.vals]; exact ho.vals a (by rw [← h.nv]; exact ha)
  bufs a ha := by rw [h.bufs]; exact ho.bufs a (by rw [← h.nb]; exact ha)
  size := by rw [h.bufs]; exact ho.size
  live := by rw [h.vals, h.allocs]; exact ho.live
  cache := by rw [h.cache, h.nb]; exact ho.cache

theorem Chg.frame {A S} {st st' : St} (h : Chg A S st st') :
    Frame S (fun _ => False) (fun _ => False) st st' where
  nodes b hb hs := h.nodes b hs (.inl hb)
  vals b _ _ := by rw [h.vals]
  bufs b _ _ := by rw [h.bufs]
  nn := h.nn
  nv := by rw [h.nv]; exact Nat.le_refl _
  nb := by rw [h.nb]; exact Nat.le_refl _
  allocs := h.allocs
  na := h.na
  slack := h.slack

section
variable {v A : Nat} {p : SPtr} {s : Bytes} {lim : Nat} {P : Addr → Prop} {st : St} {x : Option Addr}
  {t : Json} {G : Graph}

theorem startNone_ok (ho : StOK st) (hv : st.vals v = some ⟨none, A⟩) : StOK (startNone st v A) where
  nodes a ha := by
    simp [startNone] at ha ⊢
    have : a ≠ st.nn := by omega
    simp [this]; exact ho.nodes a (by omega)
  vals a ha := by
    simp [startNone] at ha ⊢
    have := ho.val_lt hv
    have : a ≠ v := by omega
    simp [this]; exact ho.vals a ha
  bufs := ho.bufs
  size := ho.size
  live w y hw := by
    simp [startNone] at hw ⊢
    split at hw
    · cases hw; exact ho.live v ⟨none, A⟩ hv
    · exact ho.live w y hw
  cache := ho.cache

theorem startSome_ok (ho : StOK st) (n : Node) : StOK (startSome st A n) where
  nodes a ha := by
    simp [startSome] at ha ⊢
    have : a ≠ st.nn := by omega
    simp [this]; exact ho.nodes a (by omega)
  vals := ho.vals
  bufs := ho.bufs
  size := ho.size
  live := ho.live
  cache := ho.cache

theorem startNone_ctx (hv : st.vals v = some ⟨none, A⟩) (ha : st.allocs A = true)
    (hT : Text st P p s lim) : Ctx v A p s lim P st.nn (startNone st v A) where
  vals := by simp [startNone]
  alloc := ha
  text := hT.mono rfl
  root := by simp [startNone]

theorem startSome_ctx {a : Addr} {n : Node} (hv : st.vals v = some ⟨some a, A⟩) (ha : st.allocs A = true)
    (hlt : a < st.nn) (hT : Text st P p s lim) : Ctx v A p s lim P a (startSome st A n) where
  vals := hv
  alloc := ha
  text := hT.mono rfl
  root := by simp [startSome]; omega

/-- The node of the handle `v`: its own, or the fresh one. -/
def rootOf (st : St) (x : Option Addr) : Addr := x.getD st.nn

/-- The abstract node a parse starts from. -/
def baseNode (G : Graph) (x : Option Addr) : GNode :=
  match x with
  | none => ⟨none, .null, none, true, true⟩
  | some a => (G a).getD ⟨none, .null, none, true, true⟩

/-- A successful `zj_ParseFast`. -/
theorem UnfI.kids_some {g : Graph} {o ks xs} (h : UnfI g o ks xs) : ∀ k ∈ ks, (g k).isSome := by
  intro k hk
  induction ks generalizing xs with
  | nil => cases hk
  | cons a ks ih =>
    cases h with
    | cons h1 _ _ h2 =>
      rcases List.mem_cons.1 hk with rfl | hk
      · simp [h1]
      · exact ih h2 hk

theorem UnfV.kids_some {g : Graph} {gv t} (h : UnfV g gv t) : ∀ k ∈ gv.kids, (g k).isSome := by
  cases h with
  | scalar h => intro k hk; cases gv <;> first | (cases h; done) | cases hk
  | con h => exact h.kids_some

theorem Tails.new {G g : Graph} {gn : GNode} {gv : GVal} {t : Json}
    (h : Tails p s st (g.set root ⟨none, gv, none, true, true⟩))
    (hv : view p st = .ok ((s, lim), st)) (hu : UnfV g gv t)
    (hf : ∀ a x, g a = some x → ∃ t, Unf g a t) (hr : g root = none) :
    Terminated st (G.plant root gn gv g) root := by
  have hroot : G.plant root gn gv g root = some (gn.put gv) := by simp [Graph.plant]
  have hin : ∀ c y, g c = some y → c ≠ root ∧ G.plant root gn gv g c = some y := by
    intro c y hc
    have : c ≠ root := by rintro rfl; rw [hr] at hc; cases hc
    exact ⟨this, by simp [Graph.plant, Graph.set, Graph.or, this, hc]⟩
  have key : ∀ a c, Reach (G.plant root gn gv g) a c → (a = root ∨ (g a).isSome) →
      c = root ∨ (g c).isSome := by
    intro a c hR
    induction hR with
    | refl => exact id
    | step h1 h2 _ ih =>
      intro ha
      refine ih (.inr ?_)
      rcases ha with rfl | ha
      · rw [hroot] at h1; cases h1
        exact hu.kids_some _ h2
      · obtain ⟨y, hy⟩ := Option.isSome_iff_exists.1 ha
        rw [(hin _ _ hy).2] at h1; cases h1
        obtain ⟨t, ht⟩ := hf _ _ hy
        cases ht with
        | mk e hv => rw [hy] at e; cases e; exact hv.kids_some _ h2
  intro c gc raw hR hc e
  have : ∃ gn, g.set root ⟨none, gv, none, true, true⟩ c = some gn ∧ gn.val = .num raw := by
    rcases key _ _ hR (.inl rfl) with rfl | hs
    · rw [hroot] at hc; cases hc
      exact ⟨⟨none, gv, none, true, true⟩, by simp, e⟩
    · obtain ⟨y, hy⟩ := Option.isSome_iff_exists.1 hs
      obtain ⟨q1, q2⟩ := hin _ _ hy
      rw [q2] at hc; cases hc
      exact ⟨_, by rw [Graph.set_ne _ _ q1]; exact hy, e⟩
  obtain ⟨gn', ha, e'⟩ := this
  obtain ⟨nd, k, c', r, h1, h2, h3, h4, h5⟩ := h c gn' raw ha e'
  obtain ⟨lim', hl⟩ := view_add hv h3
  exact ⟨nd, _, c', r, lim', h1, h2, by rw [hl, h4], h5⟩

theorem parseFast_ok (hI : Inv st P G) (hv : st.vals v = some ⟨x, A⟩)
    (hx : ∀ a, x = some a → (G a).isSome) (hT : Text st P p s lim) (h0 : (0 : Byte) ∈ s)
    (hp : pText s lim (3 * s.length + 1) = .ok (some t)) :
    ∃ st' gv g, parseFast v p st = .ok (true, st') ∧
      Inv st' P (G.plant (rootOf st x) (baseNode G x) gv g) ∧
      Unf (G.plant (rootOf st x) (baseNode G x) gv g) (rootOf st x) t ∧
      st'.vals v = some ⟨some (rootOf st x), A⟩ ∧ st'.cache = st.cache ∧
      (∀ b y, g b = some y → st.nn ≤ b ∧ b ≠ rootOf st x) ∧
      Frame (· = rootOf st x) (· = v) (fun _ => False) st st' ∧
      Terminated st' (G.plant (rootOf st x) (baseNode G x) gv g) (rootOf st x) ∧
      Sprout g gv.kids ∧ UnfV g gv t := by
  have ha : st.allocs A = true := hI.ok.live v _ hv
  cases x with
  | none =>
    have hc := startNone_ctx hv ha hT
    have hso := startNone_ok hI.ok hv
    have hcore := parse_core (src := none) (nd := { owner := A, prev := some none, next := some none, father := some none, key := some none }) hc (by simp [startNone]) h0
    rw [hp, ← parseFast_none hv ha hT] at hcore
    obtain ⟨st', nd', gv, g, hB, hTs, hrun⟩ := hcore
    have hGn : G st.nn = none := by
      cases h : G st.nn with
      | none => rfl
      | some y => have := hI.lt h; omega
    obtain ⟨h1, h2, h3, h4⟩ := hI.plant (gn := ⟨none, .null, none, true, true⟩) hB
      (by simp [startNone]) hc.root (by intro b hb hne; simp [startNone, hne]) rfl rfl rfl
      (fun _ => ⟨rfl, rfl⟩) (by rw [hGn]; intro go h; cases h)
    have hc' := hc.chg hB.chg
    refine ⟨st', gv, g, hrun, ⟨?_, ?_, h1, h2⟩, h3, hc'.vals, ?_, ?_, ?_, hTs.new hc'.text.view hB.unf hB.fin (by
      have hroot := hc.root
      apply Option.eq_none_iff_forall_not_mem.2
      intro y hy
      have := hB.dom _ y hy
      omega), hB.new, hB.unf⟩
    · exact hB.chg.stok hso (by rintro b rfl; exact hc.root)
    · intro b hb
      rw [hB.chg.bufs, hB.chg.cache]
      exact hI.pin b hb
    · rw [hB.chg.cache]; rfl
    · intro b y hb
      have := hB.dom b y hb
      simp [startNone] at this
      exact ⟨by omega, by simp [rootOf]; omega⟩
    · refine Frame.trans (st1 := startNone st v A) (N := (· = rootOf st none)) (V := (· = v))
        (B := fun _ => False) ⟨?_, ?_, fun _ _ _ => rfl, by simp [startNone], Nat.le_refl _,
        Nat.le_refl _, rfl, rfl, rfl⟩ hB.chg.frame (fun b _ h => h) (fun b _ h => h.elim)
        (fun b _ h => h)
      · intro b hb hne
        have : b ≠ st.nn := by omega
        simp [startNone, this]
      · intro b hb hne
        simp [startNone, hne]
  | some a =>
    obtain ⟨go, hgo⟩ := Option.isSome_iff_exists.1 (hx a rfl)
    obtain ⟨n, hn, hnok⟩ := hI.rep a go hgo
    have hlt := hI.lt hgo
    have hne : a ≠ st.nn := by omega
    have hc := startSome_ctx (n := n) hv ha hlt hT
    have hso := startSome_ok (A := A) hI.ok n
    have hcore := parse_core (src := some st.nn) (nd := n) hc (by simp [startSome, hne, hn]) h0
    rw [hp, ← parseFast_some hv ha hn hlt hT] at hcore
    obtain ⟨st', nd', gv, g, hB, hTs, hrun⟩ := hcore
    have hbase : baseNode G (some a) = go := by simp [baseNode, hgo]
    have hroot : rootOf st (some a) = a := rfl
    rw [hbase, hroot]
    obtain ⟨h1, h2, h3, h4⟩ := hI.plant (gn := go) hB
      (by simp [startSome]) hc.root (by
        intro b hb hne
        have : b ≠ st.nn := by omega
        simp [startSome, this]) rfl hnok.key hnok.father
      hnok.root (by rw [hgo]; intro go h; cases h; exact ⟨hn, rfl⟩)
    have hc' := hc.chg hB.chg
    refine ⟨st', gv, g, hrun, ⟨?_, ?_, h1, h2⟩, h3, hc'.vals, ?_, ?_, ?_, hTs.new hc'.text.view hB.unf hB.fin (by
      have hroot := hc.root
      apply Option.eq_none_iff_forall_not_mem.2
      intro y hy
      have := hB.dom _ y hy
      omega), hB.new, hB.unf⟩
    · exact hB.chg.stok hso (by rintro b rfl; exact hc.root)
    · intro b hb
      rw [hB.chg.bufs, hB.chg.cache]
      exact hI.pin b hb
    · rw [hB.chg.cache]; rfl
    · intro b y hb
      have := hB.dom b y hb
      simp [startSome] at this
      exact ⟨by omega, by omega⟩
    · refine Frame.trans (st1 := startSome st A n) (N := (· = a)) (V := (· = v))
        (B := fun _ => False) ⟨?_, fun _ _ _ => rfl, fun _ _ _ => rfl, by simp [startSome],
        Nat.le_refl _,
        Nat.le_refl _, rfl, rfl, rfl⟩ hB.chg.frame (fun b _ h => h) (fun b _ h => h.elim)
        (fun b _ h => h)
      intro b hb hne
      have : b ≠ st.nn := by omega
      simp [startSome, this]

/-- A rejecting `zj_ParseFast`: nothing changed. -/
theorem parseFast_fail (hI : Inv st P G) (hv : st.vals v = some ⟨x, A⟩)
    (hx : ∀ a, x = some a → (G a).isSome) (hT : Text st P p s lim) (h0 : (0 : Byte) ∈ s)
    (hp : pText s lim (3 * s.length + 1) = .ok none) :
    ∃ st', parseFast v p st = .ok (false, st') ∧ Unchanged st st' ∧ StOK st' := by
  have ha : st.allocs A = true := hI.ok.live v _ hv
  cases x with
  | none =>
    have hc := startNone_ctx hv ha hT
    have hso := startNone_ok hI.ok hv
    have hcore := parse_core (src := none) (nd := { owner := A, prev := some none, next := some none, father := some none, key := some none }) hc (by simp [startNone]) h0
    rw [hp, ← parseFast_none hv ha hT] at hcore
    obtain ⟨st1, hch, hrun⟩ := hcore
    have hc' := hc.chg hch
    have hso' := hch.stok hso (by rintro b rfl; exact hc.root)
    refine ⟨st1.setV v ⟨none, A⟩, ?_, ⟨⟨?_, ?_, ?_, ?_, ?_, ?_, ?_, ?_, ?_⟩, ?_⟩, ?_⟩
    · rw [hrun]
      unfold restore
      mstep setValN_run hc'.vals
      rfl
    · intro b hb _
      have : b ≠ st.nn := by omega
      simp [hch.nodes b this (.inl (by simp [startNone]; omega)), startNone, this]
    · intro b hb _
      simp [hch.vals, startNone]
      split
      · rename_i h; rw [h, hv]
      · rfl
    · intro b hb _; simp [hch.bufs, startNone]
    · have := hch.nn; simp [startNone] at this ⊢; omega
    · simp [hch.nv, startNone]
    · simp [hch.nb, startNone]
    · simp [hch.allocs, startNone]
    · simp [hch.na, startNone]
    · simp [hch.slack, startNone]
    · simp [hch.cache, startNone]
    · refine ⟨hso'.nodes, ?_, hso'.bufs, hso'.size, ?_, hso'.cache⟩
      · intro b hb
        simp at hb ⊢
        have h1 := hch.nv
        simp [startNone] at h1
        have := hI.ok.val_lt hv
        have : b ≠ v := by omega
        simp [this]; exact hso'.vals b hb
      · intro w y hw
        simp at hw ⊢
        split at hw
        · cases hw; rw [hch.allocs]; exact ha
        · exact hso'.live w y hw
  | some a =>
    obtain ⟨go, hgo⟩ := Option.isSome_iff_exists.1 (hx a rfl)
    obtain ⟨n, hn, hnok⟩ := hI.rep a go hgo
    have hlt := hI.lt hgo
    have hne : a ≠ st.nn := by omega
    have hc := startSome_ctx (n := n) hv ha hlt hT
    have hso := startSome_ok (A := A) hI.ok n
    have hcore := parse_core (src := some st.nn) (nd := n) hc (by simp [startSome, hne, hn]) h0
    rw [hp, ← parseFast_some hv ha hn hlt hT] at hcore
    obtain ⟨st1, hch, hrun⟩ := hcore
    have hc' := hc.chg hch
    have hso' := hch.stok hso (by rintro b rfl; exact hc.root)
    have hsrc : st1.nodes st.nn = some { n with owner := A } := by
      rw [hch.nodes _ (Ne.symm hne) (.inl (by simp [startSome]))]
      simp [startSome]
    obtain ⟨n1, hn1, how⟩ : ∃ n1, st1.nodes a = some n1 ∧ n1.owner = n.owner := by
      have := hch.own a (by simp [startSome]; omega)
      simp [startSome, hne, hn] at this
      exact this
    refine ⟨st1.setN a n, ?_, ⟨⟨?_, ?_, ?_, ?_, ?_, ?_, ?_, ?_, ?_⟩, ?_⟩, ?_⟩
    · rw [hrun]
      unfold restore
      simp only
      mstep rdNode_run hsrc
      mstep rdVal_run hc'.vals
      mstep M.pure_run _ _
      mstep modNode_run hn1
      simp [how]
    · intro b hb _
      have h2 : b ≠ st.nn := by omega
      by_cases hba : b = a
      · simp [hba, hn]
      · simp [hba, hch.nodes b hba (.inl (by simp [startSome]; omega)), startSome, h2]
    · intro b hb _
      simp [hch.vals, startSome]
    · intro b hb _; simp [hch.bufs, startSome]
    · have := hch.nn; simp [startSome] at this ⊢; omega
    · simp [hch.nv, startSome]
    · simp [hch.nb, startSome]
    · simp [hch.allocs, startSome]
    · simp [hch.na, startSome]
    · simp [hch.slack, startSome]
    · simp [hch.cache, startSome]
    · refine ⟨?_, hso'.vals, hso'.bufs, hso'.size, hso'.live, hso'.cache⟩
      intro b hb
      simp at hb ⊢
      have h1 := hch.nn
      simp [startSome] at h1
      have : b ≠ a := by omega
      simp [this]; exact hso'.nodes b hb

/-- `zj_ParseFast` reads outside the memory only if the four-byte loads do. -/
theorem parseFast_ub (hI : Inv st P G) (hv : st.vals v = some ⟨x, A⟩)
    (hx : ∀ a, x = some a → (G a).isSome) (hT : Text st P p s lim) (h0 : (0 : Byte) ∈ s) {u}
    (hp : pText s lim (3 * s.length + 1) = .ub u) : parseFast v p st = .ub u := by
  have ha : st.allocs A = true := hI.ok.live v _ hv
  cases x with
  | none =>
    have hc := startNone_ctx hv ha hT
    have hcore := parse_core (src := none) (nd := { owner := A, prev := some none, next := some none, father := some none, key := some none }) hc (by simp [startNone]) h0
    rw [hp, ← parseFast_none hv ha hT] at hcore
    exact hcore
  | some a =>
    obtain ⟨go, hgo⟩ := Option.isSome_iff_exists.1 (hx a rfl)
    obtain ⟨n, hn, hnok⟩ := hI.rep a go hgo
    have hlt := hI.lt hgo
    have hne : a ≠ st.nn := by omega
    have hc := startSome_ctx (n := n) hv ha hlt hT
    have hcore := parse_core (src := some st.nn) (nd := n) hc (by simp [startSome, hne, hn]) h0
    rw [hp, ← parseFast_some hv ha hn hlt hT] at hcore
    exact hcore

end

/-! ### zj_ParseLen and zj_Parse -/

section
variable {A : Nat} {P : Addr → Prop} {st : St} {G : Graph}

theorem addB_ok (ho : StOK st) {sz : Nat} {d : Bytes} (hd : d.length ≤ sz) :
    StOK (st.addB A sz d) where
  nodes := ho.nodes
  vals := ho.vals
  bufs b hb := by
    simp at hb ⊢
    have : b ≠ st.nb := by omega
    simp [this]; exact ho.bufs b (by omega)
  size b bf hb := by
    simp at hb
    split at hb
    · cases hb; exact hd
    · exact ho.size b bf hb
  live := ho.live
  cache z hz := by have := ho.cache z hz; simp; omega

theorem addB_frame {sz : Nat} {d : Bytes} : Unchanged st (st.addB A sz d) := by
  refine ⟨⟨fun _ _ _ => rfl, fun _ _ _ => rfl, ?_, Nat.le_refl _, Nat.le_refl _, by simp, rfl, rfl,
    rfl⟩, rfl⟩
  intro b hb _
  have : b ≠ st.nb := by omega
  simp [this]

/-- A filled block may be used by documents. -/
theorem Inv.addB (hI : Inv st P G) {sz : Nat} {d : Bytes} (hd : d.length ≤ sz) :
    Inv (st.addB A sz d) (fun b => P b ∨ b = st.nb) G := by
  refine (hI.unchanged addB_frame (addB_ok hI.ok hd)).mono_pin (fun _ h => .inl h) ?_
  rintro b (hb | rfl)
  · obtain ⟨h1, h2⟩ := hI.pin b hb
    obtain ⟨bf, hbf⟩ := Option.isSome_iff_exists.1 h1
    have := hI.ok.buf_lt hbf
    have : b ≠ st.nb := by omega
    refine ⟨by simp [this, h1], h2⟩
  · refine ⟨by simp, fun z hz => ?_⟩
    have := hI.ok.cache z hz
    omega
end

/-- The `len` bytes at `p` are `b`. -/
def Reads (st : St) (p : SPtr) (b : Bytes) : Prop := readN p b.length st = .ok (b, st)

/-- The C string at `p` is `b`. -/
def CStr (st : St) (p : SPtr) (b : Bytes) : Prop :=
  (0 : Byte) ∉ b ∧ ∃ r lim, view p st = .ok ((b ++ 0 :: r, lim), st)

theorem parseLen_eq {v A : Nat} {p : SPtr} {b : Bytes} {st : St} {x : Option Addr} (hv : st.vals v = some ⟨x, A⟩)
    (ha : st.allocs A = true) (hr : Reads st p b) :
    parseLen v p b.length st = parseFast v (.buf st.nb 0) (st.addB A (b.length + 1) (b ++ [0])) := by
  unfold parseLen
  mstep rdVal_run hv
  mstep hr
  mstep newBuf_run ha (by simp)
  rfl

theorem strLenLoop_eq {b r : Bytes} (h0 : (0 : Byte) ∉ b) : ∀ n,
    strLenLoop (b ++ 0 :: r) n = .ok (n + b.length) := by
  induction b with
  | nil => intro n; simp [strLenLoop]
  | cons c b ih =>
    intro n
    have hc : c ≠ 0 := by intro h; simp [h] at h0
    have hb : (0 : Byte) ∉ b := by intro h; simp [h] at h0
    simp [strLenLoop, hc, ih hb]; omega

theorem CStr.strLen {st p b} (h : CStr st p b) :
    ∃ r lim, view p st = .ok ((b ++ 0 :: r, lim), st) ∧ strLen (b ++ 0 :: r) = .ok b.length := by
  obtain ⟨h0, r, lim, hv⟩ := h
  exact ⟨r, lim, hv, by simp [ZJ.strLen, strLenLoop_eq h0]⟩

/-- A block of memory whose bytes can be read. -/
theorem CStr.strAt {st p b} (h : CStr st p b) : StrAt st (fun _ => True) p b := by
  obtain ⟨h0, r, lim, hv⟩ := h
  cases p with
  | lit s =>
    simp [view] at hv
    exact ⟨0 :: r, hv.1⟩
  | buf a off =>
    simp only [view] at hv
    cases hb : st.bufs a with
    | none => rw [hb] at hv; cases hv
    | some bf =>
      rw [hb] at hv; simp at hv
      exact ⟨trivial, bf, 0 :: r, hb, hv.1⟩

theorem CStr.reads {st p b} (h : CStr st p b) (ho : StOK st) : Reads st p b :=
  h.strAt.readN ho.size

theorem parse_eq {v : Nat} {p : SPtr} {b : Bytes} {st : St} (hs : CStr st p b) :
    parse v p st = parseLen v p b.length st := by
  obtain ⟨r, lim, h1, h2⟩ := hs.strLen
  unfold parse
  mstep h1
  simp only [h2]
  mstep lift_ok _
  rfl

/-- Every block of memory is a text. -/
theorem text_ofView {st : St} {P : Addr → Prop} {p s lim} (h : view p st = .ok ((s, lim), st))
    (hP : ∀ b off, p = .buf b off → P b) : Text st P p s lim where
  view := h
  sub := by
    intro k raw r hk hd
    cases p with
    | lit t =>
      simp [ZJ.view] at h
      obtain ⟨rfl, rfl⟩ := h
      exact (Text.lit (st := st) (P := P) t).sub k raw r hk hd
    | buf a off =>
      simp only [ZJ.view] at h
      cases hb : st.bufs a with
      | none => rw [hb] at h; cases h
      | some bf =>
        rw [hb] at h; simp at h
        obtain ⟨rfl, rfl⟩ := h
        exact (Text.buf hb (hP a off rfl)).sub k raw r hk hd

theorem JText_dec (b : Bytes) (s : Bytes) (junk : Bytes) (lim : Nat) (h0 : (0 : Byte) ∉ b)
    (hs : s = b ++ 0 :: junk) (hl : s.length ≤ lim) :
    (∃ t, JText t b ∧ pText s lim (3 * s.length + 1) = .ok (some t)) ∨
    ((¬ ∃ t, JText t b) ∧ (pText s lim (3 * s.length + 1) = .ok none ∨
      pText s lim (3 * s.length + 1) = .ub .oob ∧ lim < b.length + 4)) := by
  have hz : (0 : Byte) ∈ s := by rw [hs]; simp
  by_cases h : ∃ t, JText t b
  · obtain ⟨t, ht⟩ := h
    exact .inl ⟨t, ht, pText_complete ht hs hl (by rw [hs]; simp; omega)⟩
  · refine .inr ⟨h, ?_⟩
    have hout := pText_out (lim := lim) (fuel := 3 * s.length + 1) hz (Nat.le_refl _)
    cases hp : pText s lim (3 * s.length + 1) with
    | timeout => rw [hp] at hout; exact hout.elim
    | ub u =>
      rw [hp] at hout
      obtain ⟨rfl, hr⟩ := hout
      refine .inr ⟨rfl, ?_⟩
      apply Decidable.byContradiction
      intro hlim
      apply hr
      intro i hi
      have : i ≤ b.length := by
        apply Decidable.byContradiction
        intro hgt
        apply hi.2
        rw [hs, List.take_append]
        have : i - b.length = (i - b.length - 1) + 1 := by omega
        rw [this]
        simp
      omega
    | ok x =>
      cases x with
      | none => exact .inl rfl
      | some t =>
        rw [hp] at hout
        obtain ⟨b', junk', he, ht⟩ := hout
        exfalso
        apply h
        refine ⟨t, ?_⟩
        have : b' = b := by
          have hb' := ht.no_nul
          rw [hs] at he
          clear hp ht h hz hl hs
          induction b generalizing b' with
          | nil =>
            cases b' with
            | nil => rfl
            | cons c b' => simp at he; exact absurd (by simp [he.1]) hb'
          | cons c b ih =>
            cases b' with
            | nil => simp at he; exact absurd (by simp [he.1]) h0
            | cons c' b' =>
              simp at he h0 hb'
              rw [he.1, ih h0.2 b' he.2 hb'.2]
        rwa [this] at ht

theorem view_len {st : St} (ho : StOK st) {p s lim} (h : view p st = .ok ((s, lim), st)) :
    s.length ≤ lim := by
  cases p with
  | lit t => simp [view] at h; rw [← h.1, ← h.2]; simp
  | buf a off =>
    simp only [view] at h
    cases hb : st.bufs a with
    | none => rw [hb] at h; cases h
    | some bf =>
      rw [hb] at h; simp at h
      have := ho.size a bf hb
      rw [← h.1, ← h.2]; simp; omega

section
variable {v A : Nat} {p : SPtr} {b : Bytes} {P : Addr → Prop} {st : St} {x : Option Addr}
  {t : Json} {G : Graph}

/-- Accepting `zj_ParseFast` on a C string. -/
theorem parseFast_accept (hI : Inv st P G) (hv : st.vals v = some ⟨x, A⟩)
    (hx : ∀ a, x = some a → (G a).isSome) (hs : CStr st p b)
    (hP : ∀ c off, p = .buf c off → P c) (ht : JText t b) :
    ∃ st' gv g, parseFast v p st = .ok (true, st') ∧
      Inv st' P (G.plant (rootOf st x) (baseNode G x) gv g) ∧
      Unf (G.plant (rootOf st x) (baseNode G x) gv g) (rootOf st x) t ∧
      st'.vals v = some ⟨some (rootOf st x), A⟩ ∧ st'.cache = st.cache ∧
      (∀ b y, g b = some y → st.nn ≤ b ∧ b ≠ rootOf st x) ∧
      Frame (· = rootOf st x) (· = v) (fun _ => False) st st' ∧
      Terminated st' (G.plant (rootOf st x) (baseNode G x) gv g) (rootOf st x) ∧
      Sprout g gv.kids ∧ UnfV g gv t := by
  obtain ⟨h0, r, lim, hview⟩ := hs
  have hl := view_len hI.ok hview
  exact parseFast_ok hI hv hx (text_ofView hview hP) (by simp)
    (pText_complete ht rfl hl (by simp; omega))

/-- `zj_ParseFast` on a C string that is not JSON: rejected, nothing changed, or (only
if fewer than three bytes behind the text are readable) an over-read. -/
theorem parseFast_reject (hI : Inv st P G) (hv : st.vals v = some ⟨x, A⟩)
    (hx : ∀ a, x = some a → (G a).isSome) (h0 : (0 : Byte) ∉ b) {r lim}
    (hview : view p st = .ok ((b ++ 0 :: r, lim), st))
    (hP : ∀ c off, p = .buf c off → P c) (ht : ¬ ∃ t, JText t b) :
    (∃ st', parseFast v p st = .ok (false, st') ∧ Unchanged st st' ∧ StOK st') ∨
    (parseFast v p st = .ub .oob ∧ lim < b.length + 4) := by
  have hl := view_len hI.ok hview
  rcases JText_dec b _ r lim h0 rfl hl with ⟨t, h, _⟩ | ⟨_, h | ⟨h, hlim⟩⟩
  · exact absurd ⟨t, h⟩ ht
  · exact .inl (parseFast_fail hI hv hx (text_ofView hview hP) (by simp) h)
  · exact .inr ⟨parseFast_ub hI hv hx (text_ofView hview hP) (by simp) h, hlim⟩

theorem addB_view {sz : Nat} {d : Bytes} :
    view (.buf st.nb 0) (st.addB A sz d) =
      .ok ((d, sz + st.slack st.nb), st.addB A sz d) := by
  simp [view]

theorem rootOf_addB {sz : Nat} {d : Bytes} : rootOf (st.addB A sz d) x = rootOf st x := rfl

/-- Accepting `zj_ParseLen`: the bytes up to the first NUL, if there is one, are JSON. -/
theorem parseLen_accept (hI : Inv st P G) (hv : st.vals v = some ⟨x, A⟩)
    (hx : ∀ a, x = some a → (G a).isSome) (hs : Reads st p b) {c r : Bytes}
    (hc : b ++ [0] = c ++ 0 :: r) (ht : JText t c) :
    ∃ st' gv g, parseLen v p b.length st = .ok (true, st') ∧
      Inv st' (fun c => P c ∨ c = st.nb) (G.plant (rootOf st x) (baseNode G x) gv g) ∧
      Unf (G.plant (rootOf st x) (baseNode G x) gv g) (rootOf st x) t ∧
      st'.vals v = some ⟨some (rootOf st x), A⟩ ∧ st'.cache = st.cache ∧
      (∀ b y, g b = some y → st.nn ≤ b ∧ b ≠ rootOf st x) ∧
      Frame (· = rootOf st x) (· = v) (fun _ => False) st st' ∧
      Terminated st' (G.plant (rootOf st x) (baseNode G x) gv g) (rootOf st x) ∧
      Sprout g gv.kids ∧ UnfV g gv t := by
  have ha : st.allocs A = true := hI.ok.live v _ hv
  have hI' := hI.addB (A := A) (sz := b.length + 1) (d := b ++ [0]) (by simp)
  have hC : CStr (st.addB A (b.length + 1) (b ++ [0])) (.buf st.nb 0) c :=
    ⟨ht.no_nul, r, b.length + 1 + st.slack st.nb, by rw [addB_view, hc]⟩
  obtain ⟨st', gv, g, h1, h2, h3, h4, h5, h6, h7⟩ := parseFast_accept (v := v) (A := A) (x := x) hI' hv hx hC
    (by intro c off h; cases h; exact .inr rfl) ht
  exact ⟨st', gv, g, by rw [parseLen_eq hv ha hs, h1], h2, h3, h4, h5, h6, addB_frame.frame h7.1, h7.2⟩

theorem parseLen_reject (hI : Inv st P G) (hv : st.vals v = some ⟨x, A⟩)
    (hx : ∀ a, x = some a → (G a).isSome) (hs : Reads st p b) {c r : Bytes}
    (hc : b ++ [0] = c ++ 0 :: r) (h0 : (0 : Byte) ∉ c) (ht : ¬ ∃ t, JText t c) :
    (∃ st', parseLen v p b.length st = .ok (false, st') ∧ Unchanged st st' ∧ StOK st') ∨
    (parseLen v p b.length st = .ub .oob ∧ b.length + 1 + st.slack st.nb < c.length + 4) := by
  have ha : st.allocs A = true := hI.ok.live v _ hv
  have hI' := hI.addB (A := A) (sz := b.length + 1) (d := b ++ [0]) (by simp)
  rw [parseLen_eq hv ha hs]
  rcases parseFast_reject (p := .buf st.nb 0) (v := v) (A := A) (x := x) hI' hv hx h0
    (by rw [addB_view, hc]) (by intro c off h; cases h; exact .inr rfl) ht with ⟨st', h1, h2, h3⟩ | h
  · exact .inl ⟨st', h1, addB_frame.trans h2, h3⟩
  · exact .inr h

theorem parse_accept (hI : Inv st P G) (hv : st.vals v = some ⟨x, A⟩)
    (hx : ∀ a, x = some a → (G a).isSome) (hs : CStr st p b) (ht : JText t b) :
    ∃ st' gv g, parse v p st = .ok (true, st') ∧
      Inv st' (fun c => P c ∨ c = st.nb) (G.plant (rootOf st x) (baseNode G x) gv g) ∧
      Unf (G.plant (rootOf st x) (baseNode G x) gv g) (rootOf st x) t ∧
      st'.vals v = some ⟨some (rootOf st x), A⟩ ∧ st'.cache = st.cache ∧
      (∀ b y, g b = some y → st.nn ≤ b ∧ b ≠ rootOf st x) ∧
      Frame (· = rootOf st x) (· = v) (fun _ => False) st st' ∧
      Terminated st' (G.plant (rootOf st x) (baseNode G x) gv g) (rootOf st x) ∧
      Sprout g gv.kids ∧ UnfV g gv t := by
  rw [parse_eq hs]
  exact parseLen_accept hI hv hx (hs.reads hI.ok) rfl ht

theorem parse_reject (hI : Inv st P G) (hv : st.vals v = some ⟨x, A⟩)
    (hx : ∀ a, x = some a → (G a).isSome) (hs : CStr st p b) (ht : ¬ ∃ t, JText t b) :
    (∃ st', parse v p st = .ok (false, st') ∧ Unchanged st st' ∧ StOK st') ∨
    (parse v p st = .ub .oob ∧ st.slack st.nb < 3) := by
  rw [parse_eq hs]
  rcases parseLen_reject (r := []) hI hv hx (hs.reads hI.ok) rfl hs.1 ht with h | ⟨h, hl⟩
  · exact .inl h
  · exact .inr ⟨h, by omega⟩

end

end ZJ
