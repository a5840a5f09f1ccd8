import Verif.PropBuild
import Verif.PropReadme
import Verif.Sample

/-!
C81: the C++ sample program copies documents.
-/

set_option linter.unusedSimpArgs false
set_option linter.unusedVariables false

namespace ZJ

section
variable {st st' st1 st2 : St} {P P' P1 P2 : Addr → Prop} {G G' G1 G2 : Graph} {v w A n k f src a : Addr} {x : Option Addr} {t u : Json} {b : Bytes}
  {p : SPtr} {o : Bool}

/-- A value nothing was put into yet, but perhaps a key. -/
structure Slot (st st1 : St) (G : Graph) (P1 : Addr → Prop) (G1 : Graph) (A v : Addr) (x : Option Addr) : Prop where
  ready : Ready st1 P1 G1 v x A
  tidy : Tidy G1
  root : ∀ n, x = some n → st.nn ≤ n ∧ ∃ gn, G1 n = some gn ∧ gn.par = none ∧ gn.val = .null
  nv : st.nv ≤ v
  low : ∀ c, c < st.nn → G1 c = G c
  closed : ∀ c gc k, st.nn ≤ c → G1 c = some gc → k ∈ gc.val.kids → st.nn ≤ k
  vals : ∀ h, h < st.nv → st1.vals h = st.vals h
  upn : st.nn ≤ st1.nn
  upv : st.nv ≤ st1.nv

/-- The key of the slot. -/
def slotKey (G : Graph) (x : Option Addr) : Option Bytes := (baseNode G x).key

/-- A setter fills the slot. -/
theorem Slot.put {gv : GVal} {B : Addr → Prop} (h : Slot st st1 G P1 G1 A v x) (hk : gv.kids = [])
    (hs : SetTo B st1 st' P1 P' G1 v x A gv t) :
    ∃ G' n, BuiltNew st st' G P' G' A v n t ∧ G'.keyOf n = slotKey G1 x ∧ ∀ i, i < st1.nv → i ≠ v → st'.vals i = st1.vals i := by
  obtain ⟨h1, h2, h3, _, _, h4, h5⟩ := hs
  have hR : Ready st' P' (G1.set (rootOf st1 x) ((baseNode G1 x).put gv)) v (some (rootOf st1 x)) A :=
    ⟨h1, h5 h.ready.cok, h3, fun a ha => by cases ha; simp⟩
  have hge : st.nn ≤ rootOf st1 x := by
    cases x with
    | none => exact h.upn
    | some n => exact (h.root n rfl).1
  have hpar : (baseNode G1 x).par = none ∧ (baseNode G1 x).prevOK = true := by
    cases x with
    | none => exact ⟨rfl, rfl⟩
    | some n =>
      obtain ⟨_, gn, e1, e2, _⟩ := h.root n rfl
      have : baseNode G1 (some n) = gn := by simp [baseNode, e1]
      rw [this]
      exact ⟨e2, (h.tidy n gn e1).2⟩
  have u1 := h4.nn
  have u2 := h4.nv
  have u3 := h.upn
  have u4 := h.upv
  have u5 := h.nv
  refine ⟨_, _, ⟨hR, hR.shows h2, ?_, ⟨_, Graph.set_same _ _ _, hpar.1⟩, h.nv, hge, fun c hc => ?_, ?_, ?_, by omega, by omega⟩,
    by simp [Graph.keyOf, slotKey, GNode.put], fun i hi hn => h4.vals i hi hn⟩
  · intro a y ha
    rw [Graph.set_apply] at ha
    split at ha
    · cases ha; exact ⟨.inr rfl, hpar.2⟩
    · exact h.tidy a y ha
  · rw [Graph.set_ne _ _ (by omega)]; exact h.low c hc
  · intro c gc k hc hg hm
    rw [Graph.set_apply] at hg
    split at hg
    · cases hg
      rw [show ((baseNode G1 x).put gv).val.kids = [] from hk] at hm
      cases hm
    · exact h.closed c gc k hc hg hm
  · intro i hi
    rw [h4.vals i (by omega) (by omega)]; exact h.vals i hi

/-- A new value. -/
theorem Site.slot (h : Site st P G A) : Slot st (st.addV A none) G P G A st.nv none where
  ready := ⟨h.inv.unchanged unch_addV (h.inv.ok.addV h.alloc), h.cok.frame h.inv.ok unch_addV.1 rfl, by simp [St.addV, upd], fun _ h => by cases h⟩
  tidy := h.tidy
  root := fun _ h => by cases h
  nv := Nat.le_refl _
  low := fun _ _ => rfl
  closed := fun c gc k hc hg _ => by have := h.inv.lt hg; omega
  vals := fun i hi => unch_addV.1.vals i hi id
  upn := Nat.le_refl _
  upv := Nat.le_succ _

/-- Another handle. -/
theorem BuiltNew.handle {B : Nat} {y : Option Addr} (h : BuiltNew st st1 G P1 G1 A v n t) (hB : st1.allocs B = true) (hy : ∀ a, y = some a → (G1 a).isSome) :
    BuiltNew st (st1.addV B y) G P1 G1 A v n t := by
  have hi := h.ready.inv
  have hv := hi.ok.val_lt h.ready.val
  have hR : Ready (st1.addV B y) P1 G1 v (some n) A :=
    ⟨hi.unchanged unch_addV (hi.ok.addV hB), h.ready.cok.frame hi.ok unch_addV.1 rfl, by rw [unch_addV.1.vals v hv id]; exact h.ready.val, h.ready.node⟩
  have u := h.upv
  exact ⟨hR, hR.shows (h.ready.unf h.shows), h.tidy, h.root, h.nv, h.nn, h.low, h.closed,
    fun i hi => by rw [unch_addV.1.vals i (by omega) id]; exact h.vals i hi, h.upn, Nat.le_trans h.upv (Nat.le_succ _)⟩

/-- A text of the document. -/
theorem StrAt.inP (h : StrAt st P p b) : InP P p := fun c off e => by subst e; exact h.1

theorem InP.notCache (hI : Inv st P G) (h : InP P p) : NotCache st p := fun c off z e hz => ((hI.pin c (h c off e)).2 z hz).2

/-- The slot gets a key. -/
theorem Slot.named {key : Bytes} (h : Slot st st1 G P1 G1 A v none) (hb : IsSetBody key) (hs : StrAt st1 P1 p key) :
    ∃ st2 G2 n, setKeyLenFast v p key.length st1 = .ok (true, st2) ∧ Slot st st2 G P1 G2 A v (some n) ∧ slotKey G2 (some n) = some key := by
  obtain ⟨st2, e1, hk⟩ := (setKeyLenFast_run h.ready.inv h.ready.cok h.ready.val h.ready.node (hs.reads h.ready.inv.ok) hs.inP).1 hb
    (fun _ _ _ e => by cases e)
  obtain ⟨h1, h2, _, _, h3, h4, _⟩ := hk
  have hR : Ready st2 P1 (G1.set st1.nn { baseNode G1 none with key := some key }) v (some st1.nn) A :=
    ⟨h1, h4 h.ready.cok, h2, fun a ha => by cases ha; simp⟩
  have u1 := h3.nn
  have u2 := h3.nv
  have u3 := h.upn
  have u4 := h.upv
  have u5 := h.nv
  refine ⟨st2, _, st1.nn, e1, ⟨hR, ?_, ?_, h.nv, fun c hc => ?_, ?_, ?_, by omega, by omega⟩, by simp [slotKey, baseNode]⟩
  · intro a y ha
    rw [Graph.set_apply] at ha
    split at ha
    · cases ha; exact ⟨.inr rfl, rfl⟩
    · exact h.tidy a y ha
  · intro n e
    cases e
    exact ⟨h.upn, _, Graph.set_same _ _ _, rfl, rfl⟩
  · rw [Graph.set_ne _ _ (by omega)]; exact h.low c hc
  · intro c gc k hc hg hm
    rw [Graph.set_apply] at hg
    split at hg
    · cases hg; cases hm
    · exact h.closed c gc k hc hg hm
  · intro i hi
    rw [h3.vals i (by omega) (by omega)]; exact h.vals i hi

/-- A setter refused. -/
theorem Slot.kept {B : Addr → Prop} (h : Slot st st1 G P1 G1 A v x) (hK : Kept B st1 st2 P1 G1) : Slot st st2 G P1 G1 A v x := by
  have hv := h.ready.inv.ok.val_lt h.ready.val
  have u1 := hK.frame.nn
  have u2 := hK.frame.nv
  have u3 := h.upn
  have u4 := h.upv
  exact ⟨⟨hK.inv, hK.cok h.ready.cok, by rw [hK.frame.vals v hv id]; exact h.ready.val, h.ready.node⟩, h.tidy, h.root, h.nv, h.low, h.closed,
    fun i hi => by rw [hK.frame.vals i (by omega) id]; exact h.vals i hi, by omega, by omega⟩

/-- A value that has only a key is `null`. -/
theorem Slot.null (h : Slot st st1 G P1 G1 A v (some n)) : BuiltNew st st1 G P1 G1 A v n .null := by
  obtain ⟨e1, gn, e2, e3, e4⟩ := h.root n rfl
  have hu : Unf G1 n .null := .mk e2 (by rw [e4]; exact .scalar (gv := .null) rfl)
  exact ⟨h.ready, h.ready.shows hu, h.tidy, ⟨gn, e2, e3⟩, h.nv, e1, h.low, h.closed, h.vals, h.upn, h.upv⟩

/-- The container as it is after another value was made. -/
theorem BuiltNew.stillSlot (h : BuiltNew st st1 G P1 G1 A v n t) (h2 : Slot st1 st2 G1 P2 G2 A w x) :
    BuiltNew st st2 G P2 G2 A v n t := by
  obtain ⟨gn, hn, hp⟩ := h.root
  have hlt : ∀ {c gc}, G1 c = some gc → G2 c = some gc := fun {c gc} hc => by
    rw [h2.low c (h.ready.inv.lt hc)]; exact hc
  have hv := h.ready.inv.ok.val_lt h.ready.val
  have hR : Ready st2 P2 G2 v (some n) A :=
    ⟨h2.ready.inv, h2.ready.cok, by rw [h2.vals v hv]; exact h.ready.val, fun a ha => by cases ha; rw [hlt hn]; rfl⟩
  have u1 := h.upn
  have u2 := h.upv
  have u3 := h2.upn
  have u4 := h2.upv
  refine ⟨hR, hR.shows ((h.ready.unf h.shows).mono fun c gc hc => hlt hc), h2.tidy, ⟨gn, hlt hn, hp⟩, h.nv, h.nn, ?_, ?_, ?_, by omega, by omega⟩
  · intro c hc
    rw [h2.low c (by omega)]
    exact h.low c hc
  · intro c gc k hc hg hm
    by_cases e : c < st1.nn
    · rw [h2.low c e] at hg
      exact h.closed c gc k hc hg hm
    · have := h2.closed c gc k (by omega) hg hm
      omega
  · intro i hi
    rw [h2.vals i (by omega)]
    exact h.vals i hi

/-- `GetAndSet` copies what `cut` says (the specification of C56) of the document `t`, wherever it is, into any slot. -/
def CopiesInto (t : Json) : Prop :=
  ∀ {st st1 : St} {G : Graph} {P1 : Addr → Prop} {G1 : Graph} {A v : Addr} {x : Option Addr} {src a B : Addr},
    (∀ c gc, G c = some gc → c < st.nn) → Slot st st1 G P1 G1 A v x → src < st.nv → st1.vals src = some ⟨some a, B⟩ → Unf G a t →
    ∃ c st' P', (∀ F, c ≤ F → sampleSet A F src v st1 = .ok ((), st')) ∧
      ((∃ u G' n, t.cut = some u ∧ BuiltNew st st' G P' G' A v n u ∧ G'.keyOf n = slotKey G1 x) ∨ (t.cut = none ∧ Slot st st' G P' G1 A v x))

/-- The value for a child: it is ready to be added, or cannot be added. -/
theorem sample_item {key : Bytes} {r B : Addr} {gk : GNode} (hC : CopiesInto t) (h : Site st P G A) (hr : st.vals r = some ⟨some k, B⟩)
    (hk : G k = some gk) (hkey : KeyIs o gk.key key) (hb : o = true → IsStrBody key) (hu : Unf G k t) :
    ∃ c st' P', (∀ F, c ≤ F → (do
        let y ← sampleKey o r st.nv
        if !y then return false
        sampleSet A F r st.nv
        return true : M Bool) (st.addV A none) = .ok (true, st')) ∧
      ((∃ u G' n, cutItem o (key, t) = some (key, u) ∧ BuiltNew st st' G P' G' A st.nv n u ∧ (o = true → G'.keyOf n = some key)) ∨
       (cutItem o (key, t) = none ∧ ((∃ G', Slot st st' G P' G' A st.nv none) ∨
        (o = true ∧ ∃ u G' n, BuiltNew st st' G P' G' A st.nv n u ∧ G'.keyOf n = none)))) := by
  have hS := h.slot
  have hlt := h.inv.ok.val_lt hr
  have hr1 : (st.addV A none).vals r = some ⟨some k, B⟩ := by rw [unch_addV.1.vals r hlt id]; exact hr
  cases o with
  | false =>
    obtain ⟨c, st', P', e1, ⟨u, G', n, e2, e3, _⟩ | ⟨e2, e3⟩⟩ := hC (fun c gc hc => h.inv.lt hc) hS hlt hr1 hu
    · exact ⟨c, st', P', fun F hF => (M.bind_ok (e1 F hF)).trans rfl, .inl ⟨u, G', n, by simp [cutItem, e2], e3, fun h => by cases h⟩⟩
    · exact ⟨c, st', P', fun F hF => (M.bind_ok (e1 F hF)).trans rfl, .inr ⟨by simp [cutItem, e2], .inl ⟨_, e3⟩⟩⟩
  | true =>
    have hkey : gk.key = some key := hkey
    obtain ⟨p, f1, f2⟩ := (getKey_run hS.ready.inv hr1 hk hkey).2
    by_cases hset : IsSetBody key
    · have hlow := (lowEscapes_iff (hb rfl)).2 hset
      obtain ⟨st2, G2, y, g1, g2, g3⟩ := hS.named hset f2
      have q : sampleKey true r st.nv (st.addV A none) = .ok (true, st2) := (M.bind_ok f1).trans ((M.bind_ok g1).trans rfl)
      obtain ⟨c, st', P', e1, hR⟩ := hC (fun c gc hc => h.inv.lt hc) g2 hlt (by rw [g2.vals r hlt]; exact hr) hu
      refine ⟨c, st', P', fun F hF => ?_, .inl ?_⟩
      · mstep q
        exact (M.bind_ok (e1 F hF)).trans rfl
      · rcases hR with ⟨u, G', n, e2, e3, e4⟩ | ⟨e2, e3⟩
        · exact ⟨u, G', n, by simp [cutItem, hlow, e2], e3, fun _ => by rw [e4, g3]⟩
        · refine ⟨.null, G2, y, by simp [cutItem, hlow, e2], e3.null, fun _ => ?_⟩
          obtain ⟨_, gn, q1, _⟩ := e3.root y rfl
          rw [← g3]
          simp [Graph.keyOf, slotKey, baseNode, q1]
    · have hlow : ¬ lowEscapes key = true := fun h => hset ((lowEscapes_iff (hb rfl)).1 h)
      have hcut : cutItem true (key, t) = none := by simp [cutItem, hlow]
      obtain ⟨st2, g1, hK⟩ := (setKeyLenFast_run hS.ready.inv hS.ready.cok hS.ready.val hS.ready.node (f2.reads hS.ready.inv.ok) f2.inP).2 (.inl hset)
      have g2 := hS.kept hK
      have q : sampleKey true r st.nv (st.addV A none) = .ok (true, st2) := (M.bind_ok f1).trans ((M.bind_ok g1).trans rfl)
      obtain ⟨c, st', P', e1, hR⟩ := hC (fun c gc hc => h.inv.lt hc) g2 hlt (by rw [g2.vals r hlt]; exact hr) hu
      refine ⟨c, st', P', fun F hF => ?_, .inr ⟨hcut, ?_⟩⟩
      · mstep q
        exact (M.bind_ok (e1 F hF)).trans rfl
      · rcases hR with ⟨u, G', n, e2, e3, e4⟩ | ⟨e2, e3⟩
        · exact .inr ⟨rfl, u, G', n, e3, by rw [e4]; rfl⟩
        · exact .inl ⟨_, e3⟩

/-- The value is added. -/
theorem sample_add {ys : List (Bytes × Json)} {key : Bytes} (h : BuiltNew st st1 G P1 G1 A v n (mkCon o ys)) (h2 : BuiltNew st1 st2 G1 P2 G2 A w k u)
    (hk : o = true → G2.keyOf k = some key) :
    ∃ st' G', readmeAdd o v w st2 = .ok (true, st') ∧ BuiltNew st st' G P2 G' A v n (mkCon o (ys ++ [(key, u)])) ∧
      G'.keyOf n = G1.keyOf n ∧ ∀ i, i < st1.nv → st'.vals i = st1.vals i := by
  cases o with
  | false =>
    obtain ⟨st', G', e1, e2, e3⟩ := BuiltNew.add (xs := ys.map (·.2)) h h2
    exact ⟨st', G', e1, by simpa [mkCon] using e2, e3⟩
  | true =>
    obtain ⟨st', G', e1, e2, e3⟩ := BuiltNew.put (ms := ys) h h2 (hk rfl)
    exact ⟨st', G', e1, e2, e3⟩

/-- A value without a node, or without a key, is not added. -/
theorem sample_refuse {ys : List (Bytes × Json)} (h : BuiltNew st st1 G P1 G1 A v n (mkCon o ys))
    (h2 : (∃ G2, Slot st1 st2 G1 P2 G2 A w none) ∨ (o = true ∧ ∃ u G2 k, BuiltNew st1 st2 G1 P2 G2 A w k u ∧ G2.keyOf k = none)) :
    ∃ G2, readmeAdd o v w st2 = .ok (false, st2) ∧ BuiltNew st st2 G P2 G2 A v n (mkCon o ys) ∧ G2.keyOf n = G1.keyOf n := by
  have same : ∀ {G2 : Graph}, (∀ c, c < st1.nn → G2 c = G1 c) → G2.keyOf n = G1.keyOf n := fun {G2} hl => by
    obtain ⟨gn, hn, _⟩ := h.root
    unfold Graph.keyOf
    rw [hl n (h.ready.inv.lt hn)]
  rcases h2 with ⟨G2, h2⟩ | ⟨rfl, u, G2, k, h2, hk⟩
  · have hs := h.stillSlot h2
    refine ⟨G2, ?_, hs, same h2.low⟩
    cases o with
    | false =>
      obtain ⟨gf, kids, ms, hf, hgf, _⟩ := hs.ready.arr (show Shows st2 v (.arr (ys.map (·.2))) from hs.shows)
      exact arrayAddFast_emptyArg hs.ready.inv hs.ready.val h2.ready.val hf hgf
    | true =>
      obtain ⟨gf, kids, hf, hgf, _⟩ := hs.ready.obj (ms := ys) hs.shows
      exact (objAdd_emptyArg hs.ready.inv hs.ready.val h2.ready.val hf hgf (fuel := 0)).1
  · have hs := h.still h2
    refine ⟨G2, ?_, hs, same h2.low⟩
    obtain ⟨gf, kids, hf, hgf, _⟩ := hs.ready.obj (ms := ys) hs.shows
    obtain ⟨gk, hgk, _⟩ := h2.root
    have hk : gk.key = none := by simpa [Graph.keyOf, hgk] using hk
    exact (objAdd_nokey hs.ready.inv hs.ready.val h2.ready.val hf hgf hgk hk (fuel := 0)).1

/-- The loop over the children `rest` of the node `a`. -/
theorem sample_kids {ga : GNode} (hlt : ∀ c gc, G c = some gc → c < st.nn) (ha : G a = some ga) :
    ∀ {rest : List Addr} {xs ys : List (Bytes × Json)} {l : List Addr} {st1 : St} {P1 : Addr → Prop} {G1 : Graph} {nxt : Option Addr} {B : Addr},
    BuiltNew st st1 G P1 G1 A v n (mkCon o ys) → ga.val = .con o (l ++ rest) → UnfI G o rest xs →
    (∀ m ∈ xs, CopiesInto m.2 ∧ (o = true → IsStrBody m.1)) →
    (∀ k, rest.head? = some k → ∃ r, nxt = some r ∧ st1.vals r = some ⟨some k, B⟩) → (rest = [] → nxt = none) →
    ∃ c st' P' G', (∀ F F', c ≤ F → c ≤ F' → sampleKids o (sampleSet A F) A v F' nxt st1 = .ok ((), st')) ∧
      BuiltNew st st' G P' G' A v n (mkCon o (ys ++ cutItems o xs)) ∧ G'.keyOf n = G1.keyOf n
  | [], xs, ys, l, st1, P1, G1, nxt, B, h, hg, hI, hC, hn, hn0 => by
    cases hI
    obtain rfl := hn0 rfl
    refine ⟨1, st1, P1, G1, fun F F' _ hF => ?_, by simpa [cutItems] using h, rfl⟩
    obtain ⟨F', rfl⟩ : ∃ k, F' = k + 1 := ⟨F' - 1, by omega⟩
    rfl
  | k :: ks, xs0, ys, l, st1, P1, G1, nxt, B, h, hg, hI, hC, hn, _ => by
    obtain ⟨gk, key, t, xs, rfl, hk, hkey, hu, hr⟩ := hI.cons_inv
    obtain ⟨r, rfl, hnr⟩ := hn k rfl
    have hle : G.le G1 := fun c gc hc => by rw [h.low c (hlt c gc hc)]; exact hc
    have hrl := h.ready.inv.ok.val_lt hnr
    obtain ⟨hc1, hc2⟩ := hC (key, t) (by simp)
    obtain ⟨c1, st2, P2, e1, hcase⟩ := sample_item hc1 h.site hnr (hle _ _ hk) hkey hc2 (hu.mono hle)
    have erun : ∀ F F', c1 ≤ F → sampleKids o (sampleSet A F) A v (F' + 1) (some r) st1 = (do
        if !(← readmeAdd o v st1.nv) then return ()
        sampleKids o (sampleSet A F) A v F' (← next_ r) : M Unit) st2 := fun F F' hF => by
      have e1 := e1 F hF
      simp only [sampleKids]
      refine (M.bind_ok (show newValue A st1 = _ from newVal_run h.ready.alloc)).trans ?_
      obtain ⟨y, sty, q1, q2⟩ := M.bind_inv' e1
      refine (M.bind_ok q1).trans ?_
      cases y with
      | false => cases q2
      | true =>
        obtain ⟨_, st2', q3, q4⟩ := M.bind_inv' q2
        cases q4
        exact M.bind_ok q3
    rcases hcase with ⟨u, G2, k2, hcut, e2, e3⟩ | ⟨hcut, hno⟩
    case inr =>
      obtain ⟨G2, f1, f2, f3⟩ := sample_refuse h hno
      refine ⟨c1 + 1, st2, P2, G2, fun F F' hF hF' => ?_, by rw [cutItems, hcut]; simpa using f2, f3⟩
      obtain ⟨F', rfl⟩ : ∃ k, F' = k + 1 := ⟨F' - 1, by omega⟩
      rw [erun F F' (by omega)]
      exact (M.bind_ok f1).trans rfl
    obtain ⟨st3, G3, f1, f2, f3, f4⟩ := sample_add h e2 e3
    have hnr3 : st3.vals r = some ⟨some k, B⟩ := by rw [f4 r hrl]; exact hnr
    have ha3 : G3 a = some ga := by rw [f2.low a (hlt a ga ha)]; exact ha
    have enext := next_run f2.ready.inv hnr3 ha3 hg
    have tail : ∃ nxt5 st5, next_ r st3 = .ok (nxt5, st5) ∧ BuiltNew st st5 G P2 G3 A v n (mkCon o (ys ++ [(key, u)])) ∧
        (∀ k, ks.head? = some k → ∃ r, nxt5 = some r ∧ st5.vals r = some ⟨some k, B⟩) ∧ (ks = [] → nxt5 = none) := by
      cases ks with
      | nil => exact ⟨none, st3, enext, f2, fun _ h => (nomatch h), fun _ => rfl⟩
      | cons k' ks' =>
        obtain ⟨gk', _, _, _, _, hgk', _⟩ := hr.cons_inv
        have hgk3 : G3 k' = some gk' := by rw [f2.low k' (hlt _ _ hgk')]; exact hgk'
        refine ⟨some st3.nv, _, enext, f2.handle (f2.ready.inv.ok.live _ _ hnr3) (fun b e => by cases e; rw [hgk3]; rfl), fun k e => ?_, fun h => (nomatch h)⟩
        cases e; exact ⟨_, rfl, by simp [St.addV, upd]⟩
    obtain ⟨nxt5, st5, e5, h5, hnx, hnx0⟩ := tail
    obtain ⟨c6, st6, P6, G6, e6, h6, hkey6⟩ := sample_kids hlt ha (l := l ++ [k]) (xs := xs) h5 (by rw [hg]; simp) hr
      (fun m hm => hC m (List.mem_cons_of_mem _ hm)) hnx hnx0
    refine ⟨max c1 c6 + 1, st6, P6, G6, fun F F' hF hF' => ?_, by rw [cutItems, hcut]; simpa using h6, by rw [hkey6, f3]⟩
    obtain ⟨F', rfl⟩ : ∃ k, F' = k + 1 := ⟨F' - 1, by omega⟩
    rw [erun F F' (by omega)]
    refine (M.bind_ok f1).trans ?_
    exact (M.bind_ok e5).trans (e6 F F' (by omega) (by omega))

/-! ### The documents -/

/-- The type of the source, before and after. -/
theorem Slot.source {B : Addr} (h : Slot st st1 G P1 G1 A v x) (hlt : ∀ c gc, G c = some gc → c < st.nn) {ga : GNode} (ha : G a = some ga) :
    G1 a = some ga := by rw [h.low a (hlt a ga ha)]; exact ha

/-- A value without children. -/
theorem copies_scalar (hcut : t.cut = some t) (hm : ∀ {st st1 : St} {G : Graph} {P1 : Addr → Prop} {G1 : Graph} {A v : Addr} {x : Option Addr} {src a B : Addr} {ga : GNode},
      Slot st st1 G P1 G1 A v x → st1.vals src = some ⟨some a, B⟩ → G1 a = some ga → UnfV G ga.val t →
      ∃ st' P' gv, (∀ F, sampleSet A (F + 1) src v st1 = .ok ((), st')) ∧ gv.kids = [] ∧ SetTo (CacheB st1) st1 st' P1 P' G1 v x A gv t) : CopiesInto t := by
  intro st st1 G P1 G1 A v x src a B hlt h hs hv hu
  obtain ⟨ha, hva⟩ := hu
  obtain ⟨st', P', gv, e1, e2, e3⟩ := hm h hv (h.source (B := 0) hlt ha) hva
  obtain ⟨G', n, f1, f2, _⟩ := h.put e2 e3
  refine ⟨1, st', P', fun F hF => ?_, .inl ⟨t, G', n, hcut, f1, f2⟩⟩
  obtain ⟨F, rfl⟩ : ∃ k, F = k + 1 := ⟨F - 1, by omega⟩
  exact e1 F

theorem SetTo.weaken {B B' : Addr → Prop} {gv : GVal} (h : SetTo B st st' P P' G v x A gv t) (hB : ∀ b, B b → B' b) : SetTo B' st st' P P' G v x A gv t := by
  obtain ⟨h1, h2, h3, h4, h5, h6, h7⟩ := h
  exact ⟨h1, h2, h3, h4, h5, h6.weaken (fun _ h => h) (fun _ h => h) hB, h7⟩

theorem into_null : CopiesInto .null := by
  refine copies_scalar rfl fun h hs ha hv => ?_
  obtain ⟨st', e, hS⟩ := setNull_run h.ready.inv h.ready.val h.ready.node
  have hn := hv.eq_null.2 rfl
  have hty := getType_run h.ready.inv hs ha
  have hin := isNull_run h.ready.inv hs ha
  rw [hn] at hty hin
  refine ⟨st', _, .null, fun F => ?_, rfl, (hS.setTo h.ready.inv.ok).weaken fun _ h => h.elim⟩
  simp only [sampleSet]
  refine (M.bind_ok hty).trans ?_
  refine (M.bind_ok hin).trans ?_
  exact e

theorem into_bool {b : Bool} : CopiesInto (.bool b) := by
  refine copies_scalar rfl fun h hs ha hv => ?_
  obtain ⟨st', e, hS⟩ := setBool_run h.ready.inv h.ready.val h.ready.node b
  have hn := hv.bool_inv.2 b rfl
  have hty := getType_run h.ready.inv hs ha
  have hin := getBool_run h.ready.inv hs ha
  rw [hn] at hty hin
  refine ⟨st', _, .bool b, fun F => ?_, rfl, (hS.setTo h.ready.inv.ok).weaken fun _ h => h.elim⟩
  simp only [sampleSet]
  refine (M.bind_ok hty).trans ?_
  refine (M.bind_ok hin).trans ?_
  exact e

theorem into_str {s : Bytes} (hb : IsStrBody s) : CopiesInto (.str s) := by
  intro st st1 G P1 G1 A v x src a B hlt h _ hs hu
  obtain ⟨ha, hv⟩ := hu
  have ha := h.source (B := 0) hlt ha
  have hn := hv.str_inv
  have hty := getType_run h.ready.inv hs ha
  obtain ⟨p, hin, hp⟩ := getStrFast_run h.ready.inv hs ha hn
  rw [hn] at hty
  have hrun : ∀ {y : Bool} {st' : St}, setStrLenFast v p s.length st1 = .ok (y, st') → ∀ F, 1 ≤ F → sampleSet A F src v st1 = .ok ((), st') := fun e F hF => by
    obtain ⟨F, rfl⟩ : ∃ k, F = k + 1 := ⟨F - 1, by omega⟩
    simp only [sampleSet]
    refine (M.bind_ok hty).trans ?_
    refine (M.bind_ok hin).trans ?_
    exact (M.bind_ok e).trans rfl
  rcases setStrLenFast_run h.ready.inv h.ready.cok h.ready.val h.ready.node (hp.reads h.ready.inv.ok) hp.inP with ⟨hset, st', e, hS⟩ | ⟨hno, st', e, hK⟩
  · obtain ⟨G', n, f1, f2, _⟩ := h.put rfl hS
    exact ⟨1, st', _, hrun e, .inl ⟨_, G', n, by rw [Json.cut, if_pos ((lowEscapes_iff hb).2 hset)], f1, f2⟩⟩
  · exact ⟨1, st', _, hrun e, .inr ⟨by rw [Json.cut, if_neg fun h => hno ((lowEscapes_iff hb).1 h)], h.kept hK⟩⟩

theorem into_num {s : Bytes} (hb : IsNum s) : CopiesInto (.num s) := by
  refine copies_scalar rfl fun h hs ha hv => ?_
  have hn := hv.num_inv
  have hty := getType_run h.ready.inv hs ha
  obtain ⟨p, hin, hp⟩ := getNumFast_run h.ready.inv hs ha hn
  rw [hn] at hty
  rcases setNumStrLen_run h.ready.inv h.ready.cok h.ready.val h.ready.node (hp.reads h.ready.inv.ok) (hp.inP.notCache h.ready.inv) with ⟨_, st', P', e, hS⟩ | ⟨hno, _⟩
  · refine ⟨st', P', .num s, fun F => ?_, rfl, hS⟩
    simp only [sampleSet]
    refine (M.bind_ok hty).trans ?_
    refine (M.bind_ok hin).trans ?_
    exact (M.bind_ok e).trans rfl
  · exact absurd hb hno

/-- Arrays and objects. -/
theorem into_con {xs : List (Bytes × Json)} (hC : ∀ m ∈ xs, CopiesInto m.2 ∧ (o = true → IsStrBody m.1))
    {st st1 : St} {G : Graph} {P1 : Addr → Prop} {G1 : Graph} {A v : Addr} {x : Option Addr} {src a B : Addr} {ga : GNode} {kids : List Addr}
    (hlt : ∀ c gc, G c = some gc → c < st.nn) (h : Slot st st1 G P1 G1 A v x) (hsrc : src < st.nv) (hv : st1.vals src = some ⟨some a, B⟩)
    (ha : G a = some ga) (hga : ga.val = .con o kids) (hI : UnfI G o kids xs) :
    ∃ c st' P', (∀ F, c ≤ F → sampleSet A F src v st1 = .ok ((), st')) ∧
      ((∃ u G' n, (mkCon o xs).cut = some u ∧ BuiltNew st st' G P' G' A v n u ∧ G'.keyOf n = slotKey G1 x) ∨ ((mkCon o xs).cut = none ∧ Slot st st' G P' G1 A v x)) := by
  have ha1 := h.source (B := 0) hlt ha
  have hty := getType_run h.ready.inv hv ha1
  rw [hga] at hty
  have hset : ∃ st2 P2 G2 n, (if o then setObj v else setArray v) st1 = .ok ((), st2) ∧ BuiltNew st st2 G P2 G2 A v n (mkCon o []) ∧
      G2.keyOf n = slotKey G1 x := by
    cases o with
    | false =>
      obtain ⟨st2, e, hS⟩ := setArray_run h.ready.inv h.ready.val h.ready.node
      obtain ⟨G', n, f1, f2, _⟩ := h.put rfl (hS.setTo h.ready.inv.ok)
      exact ⟨st2, _, G', n, e, f1, f2⟩
    | true =>
      obtain ⟨st2, e, hS⟩ := setObj_run h.ready.inv h.ready.val h.ready.node
      obtain ⟨G', n, f1, f2, _⟩ := h.put rfl (hS.setTo h.ready.inv.ok)
      exact ⟨st2, _, G', n, e, f1, f2⟩
  obtain ⟨st2, P2, G2, n, e2, h2, hkey2⟩ := hset
  have hv2 : st2.vals src = some ⟨some a, B⟩ := by rw [h2.vals src hsrc, ← h.vals src hsrc]; exact hv
  have ha2 : G2 a = some ga := by rw [h2.low a (hlt a ga ha)]; exact ha
  have eb := begin_run h2.ready.inv hv2 ha2
  rw [hga] at eb
  have first : ∃ nxt st3, begin_ src st2 = .ok (nxt, st3) ∧ BuiltNew st st3 G P2 G2 A v n (mkCon o []) ∧
      (∀ k, kids.head? = some k → ∃ r, nxt = some r ∧ st3.vals r = some ⟨some k, B⟩) ∧ (kids = [] → nxt = none) := by
    cases kids with
    | nil => exact ⟨none, st2, eb, h2, fun _ h => (nomatch h), fun _ => rfl⟩
    | cons k ks =>
      obtain ⟨gk, _, _, _, _, hgk, _⟩ := hI.cons_inv
      have hgk2 : G2 k = some gk := by rw [h2.low k (hlt _ _ hgk)]; exact hgk
      refine ⟨some st2.nv, _, eb, h2.handle (h2.ready.inv.ok.live _ _ hv2) (fun b e => by cases e; rw [hgk2]; rfl), fun k e => ?_, fun h => (nomatch h)⟩
      cases e; exact ⟨_, rfl, by simp [St.addV, upd]⟩
  obtain ⟨nxt, st3, e3, h3, hnx, hnx0⟩ := first
  obtain ⟨c, st', P', G', e4, h4, hkey4⟩ := sample_kids hlt ha (l := []) (ys := []) h3 hga hI hC hnx hnx0
  refine ⟨c + 1, st', P', fun F hF => ?_, .inl ⟨_, G', n, cut_con xs, by simpa using h4, by rw [hkey4, hkey2]⟩⟩
  obtain ⟨F, rfl⟩ : ∃ k, F = k + 1 := ⟨F - 1, by omega⟩
  have e4 := e4 F F (by omega) (by omega)
  simp only [sampleSet]
  refine (M.bind_ok hty).trans ?_
  cases o with
  | false => exact (M.bind_ok e2).trans ((M.bind_ok e3).trans e4)
  | true => exact (M.bind_ok e2).trans ((M.bind_ok e3).trans e4)

theorem mem_elems : ∀ {ts : List Json} {t : Json}, t ∈ ts → Json.ValidElems ts → t.Valid
  | u :: us, t, h, h1 => by
    rcases List.mem_cons.1 h with rfl | h
    · exact h1.1
    · exact mem_elems h h1.2

theorem mem_members : ∀ {ms : List (Bytes × Json)} {m : Bytes × Json}, m ∈ ms → Json.ValidMembers ms → IsStrBody m.1 ∧ m.2.Valid
  | (k, u) :: us, t, h, h1 => by
    rcases List.mem_cons.1 h with rfl | h
    · exact ⟨h1.1, h1.2.1⟩
    · exact mem_members h h1.2.2

/-- Every document. -/
theorem into : ∀ (n : Nat) (t : Json), t.held < n → t.Valid → CopiesInto t
  | 0, _, h, _ => by omega
  | n + 1, .null, _, _ => into_null
  | n + 1, .bool _, _, _ => into_bool
  | n + 1, .num _, _, h => into_num h
  | n + 1, .str _, _, h => into_str h
  | n + 1, .arr ts, hn, h => by
    intro hlt hS hs hv hu
    obtain ⟨ha, hva⟩ := hu
    obtain ⟨ks, hga, hI⟩ := hva.arr_inv
    have he : mkCon false (ts.map fun x => ([], x)) = .arr ts := by simp [mkCon, Function.comp_def]
    have hh := hI.held
    rw [he] at hh
    rw [← he]
    refine into_con (fun m hm => ?_) hlt hS hs hv ha hga hI
    have hl := held_mem hm
    obtain ⟨t, ht, rfl⟩ := List.mem_map.1 hm
    exact ⟨into n t (by simp only at hl; omega) (mem_elems ht h), fun h => (nomatch h)⟩
  | n + 1, .obj ms, hn, h => by
    intro hlt hS hs hv hu
    obtain ⟨ha, hva⟩ := hu
    obtain ⟨ks, hga, hI⟩ := hva.obj_inv
    have hh := hI.held
    have he : mkCon true ms = .obj ms := rfl
    rw [← he]
    refine into_con (fun m hm => ?_) hlt hS hs hv ha hga hI
    have hl := held_mem hm
    obtain ⟨q0, q1⟩ := mem_members hm h
    rw [he] at hh
    exact ⟨into n m.2 (by omega) q1, fun _ => q0⟩

/-- Parsing in place leaves all links right. -/
theorem parseFast_tidy (h : Ready st P G v x A) (hT : Tidy G) (hs : CStr st p b) (hP : InP P p) (ht : JText t b) :
    ∃ st' G', parseFast v p st = .ok (true, st') ∧ Ready st' P G' v (some (rootOf st x)) A ∧ Tidy G' ∧ Unf G' (rootOf st x) t ∧
      Frame (· = rootOf st x) (· = v) (fun _ => False) st st' := by
  obtain ⟨st', gv, g, h1, h2, h3, h4, h5, h6, h7, _, h8, _⟩ := parseFast_accept h.inv h.val h.node hs hP ht
  have hR : Ready st' _ _ v (some (rootOf st x)) A := ⟨h2, h.cok.frame h.inv.ok h7 h5, h4, fun a ha => by cases ha; simp [Graph.plant]⟩
  refine ⟨st', _, h1, hR, ?_, h3, h7⟩
  intro a y ha
  unfold Graph.plant at ha
  by_cases e : a = rootOf st x
  · subst e
    simp only [Graph.set_same, Option.some.injEq] at ha; subst ha
    refine ⟨.inr rfl, ?_⟩
    show (baseNode G x).prevOK = true
    cases x with
    | none => rfl
    | some a =>
      show ((G a).getD _).prevOK = true
      cases hg : G a with
      | none => rfl
      | some g => exact (hT a g hg).2
  · rw [Graph.set_ne _ _ e, Graph.or_apply] at ha
    cases hgc : g a with
    | none => rw [hgc] at ha; exact hT a y (by simpa using ha)
    | some z =>
      rw [hgc] at ha
      obtain rfl : z = y := by simpa using ha
      obtain ⟨q1, q2, _⟩ := h8 a z hgc
      exact ⟨.inr q2, q1⟩

/-! ### C81 -/

/-- C81, the copying: `GetAndSet` puts the document of `src`, which may be a part of a larger document and
may be of another allocator, into a new value of the allocator `A`, as far as `cut` says; where it says nothing, the new
value stays empty. `src` has its document as before, and so has every other handle. -/
theorem C81_copy {B : Addr} (h : Site st P G A) (hr : Ready st P G src (some a) B) (hs : Shows st src t) (ht : t.Valid) :
    ∃ c st' P' G' x, (∀ F, c ≤ F → (do
        let des ← newValue A
        sampleSet A F src des
        return des : M Addr) st = .ok (st.nv, st')) ∧
      Ready st' P' G' st.nv x A ∧ (∀ u, t.cut = some u → Shows st' st.nv u) ∧ (t.cut = none → x = none) ∧
      ∀ w k u B, Ready st P G w (some k) B → Shows st w u → Shows st' w u ∧ Ready st' P' G' w (some k) B := by
  have hlt := h.inv.ok.val_lt hr.val
  obtain ⟨c, st', P', e1, hR⟩ := into (t.held + 1) t (by omega) ht (fun c gc hc => h.inv.lt hc) h.slot hlt
    (by rw [unch_addV.1.vals src hlt id]; exact hr.val) (hr.unf hs)
  have erun : ∀ F, c ≤ F → (do
        let des ← newValue A
        sampleSet A F src des
        return des : M Addr) st = .ok (st.nv, st') := fun F hF => by
    mstep (show newValue A st = _ from newVal_run h.alloc)
    mstep e1 F hF
    rfl
  have others : ∀ {G' : Graph}, (∀ c, c < st.nn → G' c = G c) → Inv st' P' G' → CacheOK st' → (∀ i, i < st.nv → st'.vals i = st.vals i) →
      ∀ w k u B, Ready st P G w (some k) B → Shows st w u → Shows st' w u ∧ Ready st' P' G' w (some k) B := fun {G'} hlow hI hc hvals w k u B hw hs => by
    have hle : G.le G' := fun c gc hc => by rw [hlow c (hw.inv.lt hc)]; exact hc
    obtain ⟨gk, hk⟩ := Option.isSome_iff_exists.1 (hw.node k rfl)
    have hR : Ready st' P' G' w (some k) B :=
      ⟨hI, hc, by rw [hvals w (hw.inv.ok.val_lt hw.val)]; exact hw.val, fun a ha => by cases ha; rw [hle _ _ hk]; rfl⟩
    exact ⟨hR.shows ((hw.unf hs).mono hle), hR⟩
  rcases hR with ⟨u, G', n, hcut, e2, _⟩ | ⟨hcut, e2⟩
  · exact ⟨c, st', P', G', some n, erun, e2.ready, fun u' h => (by rw [hcut] at h; cases h; exact e2.shows), fun h => (by rw [hcut] at h; cases h),
      others e2.low e2.ready.inv e2.ready.cok e2.vals⟩
  · exact ⟨c, st', P', _, none, erun, e2.ready, fun u' h => (by rw [hcut] at h; cases h), fun _ => rfl,
      others e2.low e2.ready.inv e2.ready.cok e2.vals⟩

/-- The two values of `main` and the text. -/
def sampleStart (slack : Nat → Nat) (cfg : Cfg) (b : Bytes) : St := (((opened slack cfg).addV 0 none).addV 0 none).addC (b ++ [0])

theorem sampleStart_ready (slack : Nat → Nat) (cfg : Cfg) (b : Bytes) :
    Ready (sampleStart slack cfg b) (pinned (fun _ => False) (.buf 0 0)) (fun _ => none) 0 none 0 ∧ Lent (sampleStart slack cfg b) (.buf 0 0) ∧
      Ready (sampleStart slack cfg b) (fun _ => False) (fun _ => none) 0 none 0 := by
  have h := opened_site slack cfg
  have o1 := h.inv.ok.addV (x := none) h.alloc
  have i1 := h.inv.unchanged unch_addV o1
  have o2 := o1.addV (A := 0) (x := none) rfl
  have i2 := i1.unchanged unch_addV o2
  have i3 : Inv (sampleStart slack cfg b) (fun _ => False) (fun _ => none) := i2.addC
  have hl : Lent (sampleStart slack cfg b) (.buf 0 0) := addC_lent o2
  have hr : Ready (sampleStart slack cfg b) (fun _ => False) (fun _ => none) 0 none 0 :=
    ⟨i3, fun _ h => (nomatch h), rfl, fun _ h => (nomatch h)⟩
  exact ⟨hr.lend hl, hl, hr⟩

/-- `main` after a successful parse. -/
theorem sampleMain_parsed {slack : Nat → Nat} {cfg : Cfg} {st4 : St} (e4 : parseFast 0 (.buf 0 0) (sampleStart slack cfg b) = .ok (true, st4)) (F : Nat) :
    sampleMain F b (St.init slack cfg) = (do
      sampleSet 0 F 0 1
      let out ← readC (some (← stringify F 1))
      releaseAllocator 0
      return out : M (Option Bytes)) st4 := by
  have e : withText (b ++ [0]) true (parseFast 0) (((opened slack cfg).addV 0 none).addV 0 none) = .ok (true, st4) :=
    (M.bind_ok (callerText_run _ _)).trans ((M.bind_ok e4).trans rfl)
  unfold sampleMain
  refine (M.bind_ok (show newAllocator (St.init slack cfg) = .ok (0, opened slack cfg) from rfl)).trans ?_
  refine (M.bind_ok (show newValue 0 (opened slack cfg) = .ok (0, (opened slack cfg).addV 0 none) from rfl)).trans ?_
  refine (M.bind_ok (show newValue 0 ((opened slack cfg).addV 0 none) = .ok (1, ((opened slack cfg).addV 0 none).addV 0 none) from rfl)).trans ?_
  exact (M.bind_ok e).trans rfl

/-- C81 as the program is: for every JSON text it prints the document `cut` says. -/
theorem C81_prints (slack : Nat → Nat) {cfg : Cfg} (ht : JText t b) :
    ∃ c, ∀ F, c ≤ F → (sampleMain F b (St.init slack cfg)).out = .ok (some ((t.cut.map Json.print).getD [])) := by
  obtain ⟨h, _, _⟩ := sampleStart_ready slack cfg b
  obtain ⟨st4, G4, e4, h4, hT, hu, hF⟩ := parseFast_tidy h (fun _ _ h => (nomatch h)) (show CStr (sampleStart slack cfg b) (.buf 0 0) b from addC_cstr ht.no_nul)
    inP_pinned ht
  have hv1 : st4.vals 1 = some ⟨none, 0⟩ := hF.vals 1 (show 1 < 2 by decide) (by decide)
  have hnv : 2 ≤ st4.nv := hF.nv
  have hS : Slot { st4 with nv := 1 } st4 G4 (pinned (fun _ => False) (.buf 0 0)) G4 0 1 none :=
    { ready := ⟨h4.inv, h4.cok, hv1, fun _ h => (nomatch h)⟩
      tidy := hT
      root := fun _ h => (nomatch h)
      nv := Nat.le_refl _
      low := fun _ _ => rfl
      closed := fun c gc k hc hg _ => absurd (h4.inv.lt hg) (Nat.not_lt.2 hc)
      vals := fun _ _ => rfl
      upn := Nat.le_refl _
      upv := by show 1 ≤ st4.nv; omega }
  obtain ⟨c5, st5, P5, e5, hR⟩ := into (t.held + 1) t (by omega) ht.valid (st := { st4 with nv := 1 }) (fun c gc hc => h4.inv.lt hc) hS (show 0 < 1 by decide) h4.val hu
  rcases hR with ⟨u, G5, n, hcut, h5, _⟩ | ⟨hcut, h5⟩
  · obtain ⟨c6, p, st6, e6, hp, _, _, h6⟩ := C09_stringify h5.ready h5.shows
    refine ⟨max c5 c6, fun F hF => ?_⟩
    have hprint : u.print.takeWhile (· ≠ 0) = u.print := takeWhile_self (print_text (Json.cut_valid ht.valid hcut)).no_nul
    have e7 := readC_holds hp
    rw [hprint] at e7
    have hrun : sampleMain F b (St.init slack cfg) = .ok (some u.print, st6.without 0) := by
      rw [sampleMain_parsed e4]
      mstep e5 F (by omega)
      mstep e6 F (by omega)
      mstep e7
      mstep release_run h6.alloc
      rfl
    rw [hrun, hcut]
    rfl
  · refine ⟨c5, fun F hF => ?_⟩
    have hrun : sampleMain F b (St.init slack cfg) = .ok (some [], st5.without 0) := by
      rw [sampleMain_parsed e4]
      mstep e5 F (by omega)
      mstep (show stringify F 1 st5 = .ok (.lit { bytes := [] }, st5) from (M.bind_ok (rdVal_run h5.ready.val)).trans rfl)
      mstep (show readC (some (.lit { bytes := [] })) st5 = .ok (some [], st5) from rfl)
      mstep release_run h5.ready.alloc
      rfl
    rw [hrun, hcut]
    rfl

/-- C81, what holds: the sample program prints the document of its text, for every text in which no string or key has
an escape of E000 or more. -/
theorem C81_partial (slack : Nat → Nat) {cfg : Cfg} (ht : JText t b) (hh : t.Texts (lowEscapes · = true)) :
    ∃ c, ∀ F, c ≤ F → (sampleMain F b (St.init slack cfg)).out = .ok (some t.print) := by
  have := C81_prints slack (cfg := cfg) ht
  rw [Json.cut_eq hh] at this
  exact this

/-- C81: for no other text. -/
theorem C81_iff (slack : Nat → Nat) {cfg : Cfg} (ht : JText t b) :
    (∃ c, ∀ F, c ≤ F → (sampleMain F b (St.init slack cfg)).out = .ok (some t.print)) ↔ t.Texts (lowEscapes · = true) := by
  refine ⟨fun ⟨c, h⟩ => ?_, fun h => C81_partial slack ht h⟩
  obtain ⟨c', h'⟩ := C81_prints slack (cfg := cfg) ht
  have e := (h (max c c') (by omega)).symm.trans (h' (max c c') (by omega))
  injection e with e
  injection e with e
  cases hc : t.cut with
  | none =>
    rw [hc] at e
    have e : t.print = [] := e
    exact absurd e (print_ne_nil ht.valid)
  | some u =>
    rw [hc] at e
    have e : t.print = u.print := e
    have := print_text (Json.cut_valid ht.valid hc)
    rw [← e] at this
    rw [JText_unique this (print_text ht.valid)] at hc
    exact Json.cut_only hc

/-- C81 is false as stated. -/
theorem C81_false : ¬ ∀ (t : Json) (b : Bytes) (slack : Nat → Nat) (cfg : Cfg), JText t b →
    ∃ c, ∀ F, c ≤ F → (sampleMain F b (St.init slack cfg)).out = .ok (some t.print) := by
  intro h
  have hv : (Json.arr [.str b!"a", .str b!"\\uE000", .str b!"b"]).Valid := by
    refine ⟨.plain (by decide) (by decide) (by decide) .nil, ?_, .plain (by decide) (by decide) (by decide) .nil, trivial⟩
    exact .uni (n := 0xE000) ⟨14, 0, 0, 0, by decide, by decide, by decide, by decide, by decide⟩ (by unfold IsHighSurrogate; omega)
      (by unfold IsLowSurrogate; omega) .nil
  have := (C81_iff (fun _ => 0) (print_text hv)).1 (h _ _ _ {} (print_text hv))
  exact absurd (show lowEscapes b!"\\uE000" = true from this.2.1) (by show ¬ lowEscapes _ = true; decide)

/-- A text that is not JSON: the program says so, or it reads behind the end of its text (C05). -/
theorem C81_rejects (slack : Nat → Nat) {cfg : Cfg} (hb : ¬ ∃ t, JText t b) (h0 : (0 : Byte) ∉ b) (F : Nat) :
    (sampleMain F b (St.init slack cfg)).out = .ok none ∨ (sampleMain F b (St.init slack cfg)).out = .ub .oob := by
  obtain ⟨_, hl, h⟩ := sampleStart_ready slack cfg b
  rcases parseFast_cases h (show CStr (sampleStart slack cfg b) (.buf 0 0) b from addC_cstr h0) hl with ⟨t, ht, _⟩ | ⟨_, h1 | h1⟩
  · exact absurd ⟨t, ht⟩ hb
  · obtain ⟨st4, e4, hU, hI⟩ := h1
    have hv : st4.vals 0 = some ⟨none, 0⟩ := hU.1.vals 0 (show 0 < 2 by decide) id
    have hrun : sampleMain F b (St.init slack cfg) = .ok (none, st4.without 0) := by
      have e : withText (b ++ [0]) true (parseFast 0) (((opened slack cfg).addV 0 none).addV 0 none) = .ok (false, st4) :=
        (M.bind_ok (callerText_run _ _)).trans ((M.bind_ok e4).trans rfl)
      unfold sampleMain
      refine (M.bind_ok (show newAllocator (St.init slack cfg) = .ok (0, opened slack cfg) from rfl)).trans ?_
      refine (M.bind_ok (show newValue 0 (opened slack cfg) = .ok (0, (opened slack cfg).addV 0 none) from rfl)).trans ?_
      refine (M.bind_ok (show newValue 0 ((opened slack cfg).addV 0 none) = .ok (1, ((opened slack cfg).addV 0 none).addV 0 none) from rfl)).trans ?_
      mstep e
      mstep release_run (hI.ok.live 0 _ hv)
      rfl
    rw [hrun]
    exact .inl rfl
  · right
    have e : withText (b ++ [0]) true (parseFast 0) (((opened slack cfg).addV 0 none).addV 0 none) = .ub .oob := by
      unfold withText
      refine (M.bind_ok (callerText_run _ _)).trans ?_
      exact M.bind_ub h1.1
    have hrun : sampleMain F b (St.init slack cfg) = .ub .oob := by
      unfold sampleMain
      refine (M.bind_ok (show newAllocator (St.init slack cfg) = .ok (0, opened slack cfg) from rfl)).trans ?_
      refine (M.bind_ok (show newValue 0 (opened slack cfg) = .ok (0, (opened slack cfg).addV 0 none) from rfl)).trans ?_
      refine (M.bind_ok (show newValue 0 ((opened slack cfg).addV 0 none) = .ok (1, ((opened slack cfg).addV 0 none).addV 0 none) from rfl)).trans ?_
      exact M.bind_ub e
    rw [hrun]
    rfl

end

/-! ### Concrete cases -/

/-- The program as it is. -/
example : (sampleMain 99 b!"[{\"key\":true},false,{\"key1\":true},[null,false,[],true],[\"\",123,\"str\"],null]" (St.init fun _ => 0)).out =
    .ok (some b!"[{\"key\":true},false,{\"key1\":true},[null,false,[],true],[\"\",123,\"str\"],null]") := by decide +kernel

/-- The elements from the first string with a high escape on are lost. -/
example : (sampleMain 99 b!"[\"a\",\"\\uE000\",\"b\"]" (St.init fun _ => 0)).out = .ok (some b!"[\"a\"]") := by decide +kernel

/-- In an object such a string becomes `null`, -/
example : (sampleMain 99 b!"{\"a\":1,\"k\":\"\\uE000\",\"b\":3}" (St.init fun _ => 0)).out = .ok (some b!"{\"a\":1,\"k\":null,\"b\":3}") := by decide +kernel

/-- and the members from the first such key on are lost. -/
example : (sampleMain 99 b!"{\"a\":1,\"\\uE000\":2,\"b\":3}" (St.init fun _ => 0)).out = .ok (some b!"{\"a\":1}") := by decide +kernel

/-- Texts that are not JSON: one is rejected, behind the other the program reads on. -/
example : (sampleMain 99 b!"[1,]" (St.init fun _ => 0)).out = .ok none := by decide +kernel
example : (sampleMain 99 b!"[t" (St.init fun _ => 0)).out = .ub .oob := by decide +kernel

/-- A state that meets the hypotheses of `C81_copy`: a text was parsed. -/
example : ∃ st P G src a t, Site st P G 0 ∧ Ready st P G src (some a) 0 ∧ Shows st src t ∧ t.Valid ∧ t = .arr [.str b!"x", .null] := by
  have hv : (Json.arr [.str b!"x", .null]).Valid := ⟨.plain (by decide) (by decide) (by decide) .nil, trivial, trivial⟩
  have ht := print_text hv
  obtain ⟨h, _, _⟩ := sampleStart_ready (fun _ => 0) {} (Json.arr [.str b!"x", .null]).print
  obtain ⟨st4, G4, _, h4, hT, hu, _⟩ := parseFast_tidy h (fun _ _ h => (nomatch h))
    (show CStr (sampleStart (fun _ => 0) {} (Json.arr [.str b!"x", .null]).print) (.buf 0 0) (Json.arr [.str b!"x", .null]).print from addC_cstr ht.no_nul) inP_pinned ht
  exact ⟨st4, _, G4, 0, _, _, ⟨h4.inv, h4.cok, h4.alloc, hT⟩, h4, h4.shows hu, hv, rfl⟩

/-- A document that meets the hypotheses of `C81_partial`. -/
example : ∃ t, JText t b!"{\"k\":[1,\"x\"]}" ∧ t.Texts (lowEscapes · = true) := by
  refine ⟨.obj [(b!"k", .arr [.num b!"1", .str b!"x"])], print_text ?_, ?_⟩
  · refine ⟨.plain (by decide) (by decide) (by decide) .nil, ⟨?_, .plain (by decide) (by decide) (by decide) .nil, trivial⟩, trivial⟩
    exact ⟨[], b!"1", [], [], by decide, .inl rfl, .inr ⟨0x31, [], rfl, by decide, by decide, by simp⟩, .inl rfl, .inl rfl⟩
  · exact ⟨by decide, ⟨trivial, (by decide : lowEscapes _ = true), trivial⟩, trivial⟩

end ZJ
