import Verif.AddSim

/-
`zj_Copy` (zzzjson.h:2087-2168): the copy is made of fresh nodes and fresh byte blocks
and represents the same document.
-/

set_option linter.unusedSimpArgs false

namespace ZJ

/-- Change of the state while a copy is made by allocator `A`: nodes outside `S` and all
byte blocks keep their contents. -/
structure CChg (A : Nat) (S : Addr → Prop) (st st' : St) : Prop where
  vals : st'.vals = st.vals
  nv : st'.nv = st.nv
  allocs : st'.allocs = st.allocs
  na : st'.na = st.na
  cache : st'.cache = st.cache
  slack : st'.slack = st.slack
  nn : st.nn ≤ st'.nn
  nb : st.nb ≤ st'.nb
  nodes : ∀ b, b < st.nn → ¬ S b → st'.nodes b = st.nodes b
  bufs : ∀ b, b < st.nb → st'.bufs b = st.bufs b
  ok : StOK st'
  own : ∀ b, b < st.nn → (st'.nodes b).map Node.owner = (st.nodes b).map Node.owner
  newN : ∀ b n, st.nn ≤ b → st'.nodes b = some n → n.owner = A
  newB : ∀ b bf, st.nb ≤ b → st'.bufs b = some bf → bf.owner = some A
  exB : ∀ b, st.nb ≤ b → b < st'.nb → (st'.bufs b).isSome

section
variable {A : Nat} {S S2 : Addr → Prop} {st st1 st2 st' : St}

theorem CChg.refl (ho : StOK st) : CChg A S st st :=
  ⟨rfl, rfl, rfl, rfl, rfl, rfl, Nat.le_refl _, Nat.le_refl _, fun _ _ _ => rfl, fun _ _ => rfl, ho,
    fun _ _ => rfl, fun b n h h' => (by rw [ho.nodes b h] at h'; cases h'),
    fun b n h h' => (by rw [ho.bufs b h] at h'; cases h'), fun b h1 h2 => (by omega)⟩

theorem CChg.setN (ho : StOK st) {a : Addr} {n nd : Node} (hn : st.nodes a = some nd)
    (how : n.owner = nd.owner) (h : S a) : CChg A S st (st.setN a n) where
  vals := rfl
  nv := rfl
  allocs := rfl
  na := rfl
  cache := rfl
  slack := rfl
  nn := Nat.le_refl _
  nb := Nat.le_refl _
  nodes b _ hb := by
    have : b ≠ a := fun e => hb (e ▸ h)
    simp [this]
  bufs _ _ := rfl
  ok := ho.setN hn
  own b _ := by
    by_cases hb : b = a
    · simp [hb, hn, how]
    · simp [hb]
  newN b m hb hm := by
    have := ho.node_lt hn
    have : b ≠ a := by omega
    simp [this] at hm
    rw [ho.nodes b hb] at hm; cases hm
  newB b bf hb hm := by
    simp at hm
    rw [ho.bufs b hb] at hm; cases hm
  exB b h1 h2 := absurd h2 (Nat.not_lt.2 h1)

theorem CChg.addN (ho : StOK st) : CChg A S st (st.addN A) where
  vals := rfl
  nv := rfl
  allocs := rfl
  na := rfl
  cache := rfl
  slack := rfl
  nn := by simp
  nb := Nat.le_refl _
  nodes b hb _ := by
    have : b ≠ st.nn := by omega
    simp [this]
  bufs _ _ := rfl
  ok := ho.addN
  own b hb := by
    have : b ≠ st.nn := by omega
    simp [this]
  newN b m hb hm := by
    simp at hm
    split at hm
    · cases hm; rfl
    · rw [ho.nodes b hb] at hm; cases hm
  newB b bf hb hm := by
    simp at hm
    rw [ho.bufs b hb] at hm; cases hm
  exB b h1 h2 := absurd h2 (Nat.not_lt.2 h1)

theorem CChg.addB (ho : StOK st) {sz : Nat} {d : Bytes} (hd : d.length ≤ sz) :
    CChg A S st (st.addB A sz d) where
  vals := rfl
  nv := rfl
  allocs := rfl
  na := rfl
  cache := rfl
  slack := rfl
  nn := Nat.le_refl _
  nb := by simp
  nodes b hb _ := rfl
  bufs b hb := by
    have : b ≠ st.nb := by omega
    simp [this]
  ok := addB_ok ho hd
  own b hb := rfl
  newN b m hb hm := by
    simp at hm
    rw [ho.nodes b hb] at hm; cases hm
  newB b bf hb hm := by
    simp at hm
    split at hm
    · cases hm; rfl
    · rw [ho.bufs b hb] at hm; cases hm
  exB b h1 h2 := by
    have : b = st.nb := by simp at h2; omega
    simp [this]

theorem CChg.trans (h1 : CChg A S st st1) (h2 : CChg A S2 st1 st2)
    (hS : ∀ b, S2 b → S b ∨ st.nn ≤ b) : CChg A S st st2 where
  vals := by rw [h2.vals, h1.vals]
  nv := by rw [h2.nv, h1.nv]
  allocs := by rw [h2.allocs, h1.allocs]
  na := by rw [h2.na, h1.na]
  cache := by rw [h2.cache, h1.cache]
  slack := by rw [h2.slack, h1.slack]
  nn := Nat.le_trans h1.nn h2.nn
  nb := Nat.le_trans h1.nb h2.nb
  nodes b hb hs := by
    have := h1.nn
    rw [h2.nodes b (by omega) (fun h => ?_), h1.nodes b hb hs]
    rcases hS b h with h | h
    · exact hs h
    · omega
  bufs b hb := by
    have := h1.nb
    rw [h2.bufs b (by omega), h1.bufs b hb]
  ok := h2.ok
  own b hb := by
    have := h1.nn
    rw [h2.own b (by omega), h1.own b hb]
  newN b n hb hn := by
    by_cases hl : b < st1.nn
    · have := h2.own b hl
      rw [hn] at this
      cases h : st1.nodes b with
      | none => rw [h] at this; cases this
      | some m =>
        rw [h] at this
        have e := h1.newN b m hb h
        simp at this
        rw [this, e]
    · exact h2.newN b n (by omega) hn
  newB b bf hb hn := by
    by_cases hl : b < st1.nb
    · rw [h2.bufs b hl] at hn
      exact h1.newB b bf hb hn
    · exact h2.newB b bf (by omega) hn
  exB b hb hl := by
    by_cases hl : b < st1.nb
    · rw [h2.bufs b hl]; exact h1.exB b hb hl
    · exact h2.exB b (by omega) (by assumption)

theorem CChg.weaken (h : CChg A S st st') (hS : ∀ b, S b → S2 b) : CChg A S2 st st' :=
  { h with nodes := fun b hb hs => h.nodes b hb (fun hb' => hs (hS b hb')) }
end

/-- What is known during a copy: the source store `G` is represented, its nodes are below
`N0`; blocks from `B0` on are free to use. -/
structure CCtx (N0 B0 : Nat) (A vv root A' : Nat) (P : Addr → Prop) (G : Graph) (st : St) : Prop where
  inv : Inv st P G
  lt : ∀ a gn, G a = some gn → a < N0
  vv : st.vals vv = some ⟨some root, A'⟩
  alloc : st.allocs A = true
  nn : N0 ≤ st.nn
  nb : B0 ≤ st.nb

section
variable {N0 B0 A vv root A' : Nat} {P : Addr → Prop} {G : Graph} {st st' : St}

theorem CCtx.chg {S : Addr → Prop} (h : CCtx N0 B0 A vv root A' P G st) (hc : CChg A S st st')
    (hS : ∀ b, S b → N0 ≤ b) : CCtx N0 B0 A vv root A' P G st' where
  inv := by
    have hb : ∀ b, P b → st'.bufs b = st.bufs b := by
      intro b hb
      obtain ⟨bf, hbf⟩ := Option.isSome_iff_exists.1 (h.inv.pin b hb).1
      exact hc.bufs b (h.inv.ok.buf_lt hbf)
    refine ⟨hc.ok, ?_, ?_, h.inv.fin⟩
    · intro b hP
      have := h.inv.pin b hP
      rw [hb b hP, hc.cache]; exact this
    · refine h.inv.rep.mono ?_ (fun _ h => h) hb
      intro b hs
      obtain ⟨gn, hg⟩ := Option.isSome_iff_exists.1 hs
      have := h.lt b gn hg
      exact hc.nodes b (h.inv.lt hg) (fun hs => by have := hS b hs; omega)
  lt := h.lt
  vv := by rw [hc.vals, h.vv]
  alloc := by rw [hc.allocs, h.alloc]
  nn := Nat.le_trans h.nn hc.nn
  nb := Nat.le_trans h.nb hc.nb
end

/-- The byte blocks allocated since `B0`. -/
def Fr (B0 : Nat) (st : St) (b : Addr) : Prop := B0 ≤ b ∧ b < st.nb

theorem Fr.mono {B0 A : Nat} {S : Addr → Prop} {st st' : St} (h : CChg A S st st') (b : Addr) :
    Fr B0 st b → Fr B0 st' b := fun ⟨h1, h2⟩ => ⟨h1, Nat.lt_of_lt_of_le h2 h.nb⟩

theorem Fr.bufs {B0 A : Nat} {S : Addr → Prop} {st st' : St} (h : CChg A S st st') (b : Addr) :
    Fr B0 st b → st'.bufs b = st.bufs b := fun ⟨_, h2⟩ => h.bufs b h2

/-- Bytes of a key. -/
def keyBytes : Option Bytes → Nat
  | some k => k.length
  | none => 0

theorem KeyIs.bytes {o : Bool} {ko : Option Bytes} {key : Bytes} (h : KeyIs o ko key) : keyBytes ko = key.length := by
  cases o
  · obtain ⟨rfl, rfl⟩ := (show ko = none ∧ key = [] from h); rfl
  · obtain rfl := (show ko = some key from h); rfl

theorem UnfI.heldElems {G : Graph} : ∀ {ks xs}, UnfI G false ks xs → Json.heldElems (xs.map (·.2)) = Json.heldMembers xs
  | _, _, .nil => rfl
  | _, _, .cons _ hkey _ hr => by
    obtain ⟨_, rfl⟩ := (show _ = none ∧ _ = [] from hkey)
    simp only [List.map_cons, Json.heldElems, Json.heldMembers, hr.heldElems, List.length_nil, Nat.add_zero]

theorem UnfI.held {G : Graph} {o ks xs} (h : UnfI G o ks xs) : (mkCon o xs).held = Json.heldMembers xs := by
  cases o
  · exact h.heldElems
  · rfl

/-- A copy was made at node `d`. -/
structure CBuilt (A B0 : Nat) (st st' : St) (d : Addr) (nd nd' : Node)
    (ko : Option Bytes) (gv : GVal) (g : Graph) (t : Json) : Prop where
  node : st'.nodes d = some nd'
  next : nd'.next = nd.next
  prev : nd'.prev = nd.prev
  father : nd'.father = nd.father
  key : KeyOK st' (Fr B0 st') nd' ko
  val : ValOK st' (Fr B0 st') g d nd' gv true
  unf : UnfV g gv t
  rep : RepOn st' (Fr B0 st') g
  dom : ∀ a x, g a = some x → st.nn ≤ a ∧ a < st'.nn
  fin : ∀ a x, g a = some x → ∃ t, Unf g a t
  chg : CChg A (· = d) st st'
  new : Sprout g gv.kids
  paid : total st'.log = total st.log + keyBytes ko + t.held

/-- The copies `d :: ds` of the children were made below `df`. -/
structure CBuiltI (A B0 : Nat) (st st' : St) (o : Bool) (df : Addr) (fd : Node)
    (pv : Option Addr) (d : Addr) (ds : List Addr) (g : Graph) (xs : List (Bytes × Json)) : Prop where
  node : st'.nodes df = some { fd with end_ := some (lastOr (some d) ds) }
  seg : Seg st' g pv (d :: ds) none
  fresh : ∀ x ∈ ds, st.nn ≤ x
  nodup : ds.Nodup
  kid : ∀ x ∈ d :: ds, ∃ gk, g x = some gk ∧ gk.par = some df ∧ gk.key.isSome = o
  unf : UnfI g o (d :: ds) xs
  rep : RepOn st' (Fr B0 st') g
  dom : ∀ a x, g a = some x → a = d ∨ (st.nn ≤ a ∧ a < st'.nn)
  fin : ∀ a x, g a = some x → ∃ t, Unf g a t
  chg : CChg A (fun b => b = d ∨ b = df) st st'
  new : Sprout g (d :: ds)
  paid : total st'.log + 72 = total st.log + Json.heldMembers xs

section
variable {A B0 : Nat} {P : Addr → Prop} {st1 st2 st4 : St} {k f : Addr} {kd1 kd2 : Node}
  {gv : GVal} {g1 g2 : Graph} {t : Json} {ks : List Addr} {xs : List (Bytes × Json)}
  {ko : Option Bytes} {key : Bytes} {o : Bool} {pv : Option Addr} {S : Addr → Prop}

theorem cglue_ok (hB : CBuilt A B0 st1 st2 k kd1 kd2 ko gv g1 t) (hk : k < st1.nn)
    (hko : KeyIs o ko key) (hfa : kd1.father = some (some f))
    (hpv : kd1.prev = some pv) (hnk : st4.nodes k = some { kd2 with next := some (hdOr ks none) })
    (hn4 : ∀ b, st1.nn ≤ b → b < st2.nn → st4.nodes b = st2.nodes b) (hb4 : CChg A S st2 st4)
    (hrep : RepOn st4 (Fr B0 st4) g2) (hdom : ∀ a x, g2 a = some x → st2.nn ≤ a)
    (hfin : ∀ a x, g2 a = some x → ∃ t, Unf g2 a t)
    (hseg : Seg st4 g2 (some k) ks none) (hunf : UnfI g2 o ks xs)
    (hkid : ∀ x ∈ ks, ∃ gk, g2 x = some gk ∧ gk.par = some f ∧ gk.key.isSome = o) :
    Seg st4 (glue k ⟨ko, gv, some f, true, true⟩ g1 g2) pv (k :: ks) none ∧
    (∀ x ∈ k :: ks, ∃ gk, glue k ⟨ko, gv, some f, true, true⟩ g1 g2 x = some gk ∧
      gk.par = some f ∧ gk.key.isSome = o) ∧
    UnfI (glue k ⟨ko, gv, some f, true, true⟩ g1 g2) o (k :: ks) ((key, t) :: xs) ∧
    RepOn st4 (Fr B0 st4) (glue k ⟨ko, gv, some f, true, true⟩ g1 g2) ∧
    (∀ a x, glue k ⟨ko, gv, some f, true, true⟩ g1 g2 a = some x →
      ∃ t, Unf (glue k ⟨ko, gv, some f, true, true⟩ g1 g2) a t) := by
  have hnn := hB.chg.nn
  have e0 : glue k ⟨ko, gv, some f, true, true⟩ g1 g2 k = some ⟨ko, gv, some f, true, true⟩ := by
    simp [glue]
  have le1 : g1.le (glue k ⟨ko, gv, some f, true, true⟩ g1 g2) := by
    intro a x ha
    have := hB.dom a x ha
    have : a ≠ k := by omega
    simp [glue, this, ha]
  have le2 : g2.le (glue k ⟨ko, gv, some f, true, true⟩ g1 g2) := by
    intro a x ha
    have h1 := hdom a x ha
    have : a ≠ k := by omega
    have h3 : g1 a = none := by
      cases h : g1 a with
      | none => rfl
      | some y => have := hB.dom a y h; omega
    simp [glue, this, ha, h3]
  have same1 : ∀ b, (g1 b).isSome → st4.nodes b = st2.nodes b := by
    intro b hb
    obtain ⟨x, hx⟩ := Option.isSome_iff_exists.1 hb
    have := hB.dom b x hx
    exact hn4 b (by omega) (by omega)
  have hkos : ko.isSome = o := by
    cases o with
    | true => rw [show ko = some key from hko]; rfl
    | false => rw [show ko = none from hko.1]; rfl
  refine ⟨⟨⟨_, _, hnk, e0, rfl, ?_⟩, hseg.mono le2 fun _ _ => rfl⟩, ?_, ?_, ?_, ?_⟩
  · simp only [if_true]; rw [hB.prev, hpv]
  · intro x hx
    rcases List.mem_cons.1 hx with rfl | hx
    · exact ⟨_, e0, rfl, hkos⟩
    · obtain ⟨gk, a, b⟩ := hkid x hx
      exact ⟨gk, le2 _ _ a, b⟩
  · exact .cons e0 hko (.mk e0 (hB.unf.mono le1)) (hunf.mono le2)
  · intro a gn ha
    by_cases hak : a = k
    · subst hak
      rw [e0] at ha; cases ha
      refine ⟨_, hnk, ?_, ?_, ?_, ?_⟩
      · exact KeyOK.fields (n := kd2) (hB.key.mono (Fr.mono hb4) (Fr.bufs hb4)) rfl rfl
      · exact (hB.father.trans hfa)
      · intro h; cases h
      · refine ValOK.fields (n := kd2) ?_ rfl rfl rfl rfl
        exact hB.val.mono le1 same1 (Fr.mono hb4) (Fr.bufs hb4)
    · cases h1 : g1 a with
      | some y =>
        have : y = gn := by simpa [glue, hak, h1] using ha
        subst this
        obtain ⟨n, h3, h4⟩ := hB.rep a y h1
        exact ⟨n, by rw [same1 a (by simp [h1]), h3], h4.mono le1 same1 (Fr.mono hb4) (Fr.bufs hb4)⟩
      | none =>
        have h2 : g2 a = some gn := by simpa [glue, hak, h1] using ha
        exact hrep.lift le2 (fun _ _ => rfl) rfl h2
  · intro a gn ha
    by_cases hak : a = k
    · subst hak
      exact ⟨t, .mk e0 (hB.unf.mono le1)⟩
    · cases h1 : g1 a with
      | some y =>
        obtain ⟨t', ht⟩ := hB.fin a y h1
        exact ⟨t', ht.mono le1⟩
      | none =>
        have h2 : g2 a = some gn := by simpa [glue, hak, h1] using ha
        obtain ⟨t', ht⟩ := hfin a gn h2
        exact ⟨t', ht.mono le2⟩
end

/-! ### One node -/

section
variable {N0 B0 A vv root A' : Nat} {P : Addr → Prop} {G : Graph} {st : St} {x d : Addr} {gx : GNode} {nx nd : Node}

theorem copyKey_run (h : CCtx N0 B0 A vv root A' P G st) (hx : st.nodes x = some nx)
    (hk : KeyOK st P nx gx.key) (hd : st.nodes d = some nd) :
    ∃ st' nd', copyKey A x d st = .ok ((), st') ∧ st'.nodes d = some nd' ∧
      (∃ k l, nd' = { nd with key := k, keyLen := l }) ∧ KeyOK st' (Fr B0 st') nd' gx.key ∧
      CChg A (· = d) st st' ∧ total st'.log = total st.log + keyBytes gx.key := by
  cases hgk : gx.key with
  | none =>
    rw [hgk] at hk
    refine ⟨st.setN d { nd with key := some none }, { nd with key := some none }, ?_, by simp, ⟨_, _, rfl⟩, rfl,
      .setN h.inv.ok hd rfl rfl, rfl⟩
    unfold copyKey
    mstep nKey_run hx hk
    exact modNode_run hd
  | some kk =>
    rw [hgk] at hk
    obtain ⟨p, h1, h2, h3⟩ := hk
    have hB : (kk : Bytes).length ≤ kk.length := Nat.le_refl _
    have c1 : CChg A (· = d) st (st.addB A kk.length kk) := .addB h.inv.ok hB
    have c2 : CChg A (· = d) (st.addB A kk.length kk) ((st.addB A kk.length kk).setN d
      { nd with key := some (some (.buf st.nb 0)), keyLen := some kk.length }) := .setN c1.ok (nd := nd) hd rfl rfl
    refine ⟨((st.addB A kk.length kk).setN d { nd with key := some (some (.buf st.nb 0)), keyLen := some kk.length }),
      { nd with key := some (some (.buf st.nb 0)), keyLen := some kk.length }, ?_, by simp, ⟨_, _, rfl⟩, ?_,
      c1.trans c2 (fun _ h => .inl h), Nat.add_comm _ _⟩
    · unfold copyKey
      mstep nKey_run hx h1
      simp only
      mstep nKeyLen_run hx h2
      mstep h3.readN h.inv.ok.size
      mstep newBuf_run h.alloc hB
      mstep modNode_run (st := st.addB A kk.length kk) (n := nd) hd
      refine (modNode_run (n := { nd with key := some (some (.buf st.nb 0)) }) (by simp)).trans ?_
      simp
    · exact ⟨.buf st.nb 0, rfl, rfl, ⟨h.nb, by simp⟩, ⟨some A, kk.length, st.slack st.nb, kk⟩, [], by simp, by simp⟩

theorem copyBody_scalar (h : CCtx N0 B0 A vv root A' P G st) (hx : st.nodes x = some nx) {gv : GVal}
    (hs : gv.isCon = false) (hv : ScalarOK st P nx gv) (hd : st.nodes d = some nd) (hxd : x ≠ d)
    (ht : nd.type = some gv.type) :
    ∃ st' nd', copyBody A x d gv.type st = .ok (none, st') ∧ st'.nodes d = some nd' ∧
      (∃ y l, nd' = { nd with value := y, len := l }) ∧ ScalarOK st' (Fr B0 st') nd' gv ∧
      CChg A (· = d) st st' ∧ total st'.log = total st.log + gv.doc.held := by
  obtain ⟨_, p, h1, h2, h3, h4⟩ := hv
  by_cases hl : gv.isLit = true
  · obtain ⟨s, rfl⟩ := h4 hl
    have hx1 : (st.setN d { nd with value := some (.str (.lit s)) }).nodes x = some nx := by simp [hxd, hx]
    refine ⟨st.setN d { nd with value := some (.str (.lit s)), len := some gv.text.length },
      { nd with value := some (.str (.lit s)), len := some gv.text.length }, ?_, by simp, ⟨_, _, rfl⟩,
      ⟨ht, .lit s, rfl, rfl, h3, fun _ => ⟨s, rfl⟩⟩, .setN h.inv.ok hd rfl rfl, by
        cases gv <;> first | rfl | cases hl⟩
    have run : (do
        setStrP d (← nStr x)
        setLen d (← nLen x)
        return none : M (Option (Addr × Addr))) st = .ok (none,
          st.setN d { nd with value := some (.str (.lit s)), len := some gv.text.length }) := by
      mstep nStr_run hx h1
      mstep modNode_run hd
      mstep nLen_run hx1 h2
      mstep modNode_run (n := { nd with value := some (.str (.lit s)) }) (by simp)
      simp
    cases gv <;> first | exact run | cases hl
  · have hB : gv.text.length ≤ gv.text.length := Nat.le_refl _
    have c1 : CChg A (· = d) st (st.addB A gv.text.length gv.text) := .addB h.inv.ok hB
    have c2 : CChg A (· = d) (st.addB A gv.text.length gv.text) ((st.addB A gv.text.length gv.text).setN d
      { nd with value := some (.str (.buf st.nb 0)), len := some gv.text.length }) := .setN c1.ok (nd := nd) hd rfl rfl
    refine ⟨((st.addB A gv.text.length gv.text).setN d
      { nd with value := some (.str (.buf st.nb 0)), len := some gv.text.length }),
      { nd with value := some (.str (.buf st.nb 0)), len := some gv.text.length }, ?_, by simp, ⟨_, _, rfl⟩,
      ⟨ht, .buf st.nb 0, rfl, rfl, ?_, fun h => absurd h hl⟩, c1.trans c2 (fun _ h => .inl h), by
        cases gv <;> first | exact Nat.add_comm _ _ | exact absurd rfl hl | cases hs⟩
    · have run : (do
          let len ← nLen x
          let t ← readN (← nStr x) len
          let b ← newBuf A len t
          setStrP d (.buf b 0)
          setLen d len
          return none : M (Option (Addr × Addr))) st = .ok (none, (st.addB A gv.text.length gv.text).setN d
            { nd with value := some (.str (.buf st.nb 0)), len := some gv.text.length }) := by
        mstep nLen_run hx h2
        mstep nStr_run hx h1
        mstep h3.readN h.inv.ok.size
        mstep newBuf_run h.alloc hB
        mstep modNode_run (st := st.addB A gv.text.length gv.text) (n := nd) hd
        mstep modNode_run (n := { nd with value := some (.str (.buf st.nb 0)) }) (by simp)
        simp
      cases gv <;> first | exact run | (exact absurd rfl hl) | cases hs
    · exact ⟨⟨h.nb, by simp⟩, ⟨some A, gv.text.length, st.slack st.nb, gv.text⟩, [], by simp, by simp⟩

theorem copyBody_empty (hx : st.nodes x = some nx) {o : Bool}
    (hv : ConOK st G x nx o [] e) (hd : st.nodes d = some nd) (hxd : x ≠ d) :
    copyBody A x d (conType o) st = .ok (none, st.setN d { nd with
      len := some 0, value := some (.node none), end_ := some none }) := by
  have hx1 : (st.setN d { nd with len := some 0 }).nodes x = some nx := by simp [hxd, hx]
  have run : (do
      setLen d (← nLen x)
      match ← nNode x with
      | some c =>
        let n ← newNode A
        setFather n (some d)
        setPrev n none
        setNodeP d (some n)
        setEnd d (some n)
        return some (c, n)
      | none =>
        setNodeP d none
        setEnd d none
        return none : M (Option (Addr × Addr))) st = .ok (none, st.setN d { nd with
      len := some 0, value := some (.node none), end_ := some none }) := by
    mstep nLen_run hx hv.len
    mstep modNode_run hd
    mstep nNode_run hx1 hv.value
    mstep modNode_run (n := { nd with len := some 0 }) (by simp)
    mstep modNode_run (n := { nd with len := some 0, value := some (.node none) }) (by simp)
    simp
  cases o <;> exact run

theorem copyBody_kids (ha : st.allocs A = true) (hx : st.nodes x = some nx) {o : Bool} {k ks}
    (hv : ConOK st G x nx o (k :: ks) e) (hd : st.nodes d = some nd) (hxd : x ≠ d) (hdn : d < st.nn) :
    copyBody A x d (conType o) st = .ok (some (k, st.nn),
      ((st.addN A).setN st.nn { owner := A, father := some (some d), prev := some none }).setN d { nd with
      len := some (ks.length + 1), value := some (.node (some st.nn)), end_ := some (some st.nn) }) := by
  have d1 : d ≠ st.nn := by omega
  have d2 : st.nn ≠ d := by omega
  have hx1 : (st.setN d { nd with len := some (ks.length + 1) }).nodes x = some nx := by simp [hxd, hx]
  have run : (do
      setLen d (← nLen x)
      match ← nNode x with
      | some c =>
        let n ← newNode A
        setFather n (some d)
        setPrev n none
        setNodeP d (some n)
        setEnd d (some n)
        return some (c, n)
      | none =>
        setNodeP d none
        setEnd d none
        return none : M (Option (Addr × Addr))) st = .ok (some (k, st.nn),
      ((st.addN A).setN st.nn { owner := A, father := some (some d), prev := some none }).setN d { nd with
      len := some (ks.length + 1), value := some (.node (some st.nn)), end_ := some (some st.nn) }) := by
    mstep nLen_run hx hv.len
    mstep modNode_run hd
    mstep nNode_run hx1 hv.value
    simp only [hdOr_cons]
    mstep newNode_run (st := st.setN d { nd with len := some (ks.length + 1) }) ha
    mstep modNode_run (n := { owner := A }) (by simp)
    mstep modNode_run (n := { owner := A, father := some (some d) }) (by simp)
    mstep modNode_run (n := { nd with len := some (ks.length + 1) }) (by simp [d1])
    mstep modNode_run (n := { nd with len := some (ks.length + 1), value := some (.node (some st.nn)) }) (by simp)
    simp only [setN_setN, setN_nn, List.length_cons]
    refine congrArg (fun s => Res.ok (some (k, st.nn), s)) ?_
    simp only [St.setN, St.addN]
    congr 1
    funext c
    simp only [upd]
    repeat' split
    all_goals first | rfl | omega
  cases o <;> exact run

end

/-! ### The loop -/

section
variable {N0 B0 A vv root A' : Nat} {P : Addr → Prop} {G : Graph} {st : St} {x y d df f F : Addr} {gx : GNode}
  {nx nd fd : Node}

theorem copy_test (h : CCtx N0 B0 A vv root A' P G st) (hx : x ≠ root) :
    copyLoop A vv (F + 1) .test x d st = copyLoop A vv F .body x d st := by
  conv => lhs; unfold copyLoop
  mstep rdVal_run h.vv
  have : ¬ (some x = some root) := by simpa using hx
  rw [if_neg this]

theorem copy_next (h : CCtx N0 B0 A vv root A' P G st) (hx : x ≠ root) (hnx : st.nodes x = some nx)
    (hn : nx.next = some (some y)) (hd : st.nodes d = some nd) (hfa : nd.father = some (some df))
    (hf : st.nodes df = some fd) (hne : d ≠ df) (hdn : d < st.nn) (hfn : df < st.nn) :
    copyLoop A vv (F + 1) .inner x d st = copyLoop A vv F .test y st.nn
      ((((st.addN A).setN st.nn { owner := A, father := some (some df), prev := some (some d) }).setN df
        { fd with end_ := some (some st.nn) }).setN d { nd with next := some (some st.nn) }) := by
  have d1 : d ≠ st.nn := by omega
  have f1 : df ≠ st.nn := by omega
  have f2 : df ≠ d := Ne.symm hne
  conv => lhs; unfold copyLoop
  mstep rdVal_run h.vv
  have : ¬ (some x = some root) := by simpa using hx
  rw [if_neg this]
  mstep nNext_run hnx hn
  simp only
  mstep newNode_run h.alloc
  mstep nFather_run (n := nd) (by simp [d1, hd]) hfa
  mstep modNode_run (n := { owner := A }) (by simp)
  mstep modNode_run (n := { owner := A, father := some (some df) }) (by simp)
  simp only [deref_some]
  mstep M.pure_run _ _
  mstep modNode_run (n := fd) (by simp [f1, hf])
  mstep modNode_run (n := nd) (by simp [d1, hne, hd])
  simp only [setN_setN]

theorem copy_up (h : CCtx N0 B0 A vv root A' P G st) (hx : x ≠ root) (hnx : st.nodes x = some nx)
    (hn : nx.next = some none) (hxf : nx.father = some (some f)) (hd : st.nodes d = some nd)
    (hfa : nd.father = some (some df)) :
    copyLoop A vv (F + 1) .inner x d st = copyLoop A vv F .inner f df (st.setN d { nd with next := some none }) := by
  conv => lhs; unfold copyLoop
  mstep rdVal_run h.vv
  have : ¬ (some x = some root) := by simpa using hx
  rw [if_neg this]
  mstep nNext_run hnx hn
  simp only
  mstep nFather_run hnx hxf
  simp only [deref_some]
  mstep M.pure_run _ _
  mstep modNode_run hd
  mstep nFather_run (n := { nd with next := some none }) (by simp) hfa
  simp only [deref_some]
  mstep M.pure_run _ _
  rfl

/-- The common beginning of the body: type and key. -/
theorem copy_start (h : CCtx N0 B0 A vv root A' P G st) (hx : G x = some gx) (hd : st.nodes d = some nd)
    (hN : N0 ≤ d) : ∃ st1 nd1, st1.nodes d = some nd1 ∧
      (∃ k l, nd1 = { nd with type := some gx.val.type, key := k, keyLen := l }) ∧
      KeyOK st1 (Fr B0 st1) nd1 gx.key ∧ CChg A (· = d) st st1 ∧ total st1.log = total st.log + keyBytes gx.key ∧
      copyNode A x d st = copyBody A x d gx.val.type st1 := by
  obtain ⟨nx, hnx, hok⟩ := h.inv.rep x gx hx
  have hlt := h.lt x gx hx
  have hxd : x ≠ d := by omega
  have c0 : CChg A (· = d) st (st.setN d { nd with type := some gx.val.type }) := .setN h.inv.ok hd rfl rfl
  have h0 := h.chg c0 (by rintro b rfl; exact hN)
  obtain ⟨nx', hnx', hok'⟩ := h0.inv.rep x gx hx
  obtain ⟨st1, nd1, e1, hd1, ⟨k, l, hnd1⟩, hk1, c1, hp1⟩ := copyKey_run h0 hnx' hok'.key (d := d) (nd := { nd with type := some gx.val.type }) (by simp)
  refine ⟨st1, nd1, hd1, ⟨k, l, hnd1⟩, hk1, c0.trans c1 (fun _ h => .inl h), hp1, ?_⟩
  unfold copyNode
  mstep h.inv.nType hx
  mstep modNode_run hd
  mstep e1
  rfl

mutual
theorem copyNodeSim : ∀ {x t}, Unf G x t → ∀ {gx st d nd}, G x = some gx → CCtx N0 B0 A vv root A' P G st →
    st.nodes d = some nd → N0 ≤ d → (∀ k ∈ gx.val.kids, ∀ c, Reach G k c → c ≠ root) →
    ∃ c st' nd' gv g, CBuilt A B0 st st' d nd nd' gx.key gv g t ∧
      ∀ F, copyLoop A vv (F + c) .body x d st = copyLoop A vv F .inner x d st'
  | x, t, .mk (gn := gn') ha' hu => by
    rename_i gx st d nd
    intro ha h hd hN hr
    have e : gn' = gx := Option.some.inj (ha'.symm.trans ha)
    subst e
    exact copyValSim hu ha' rfl h hd hN hr
theorem copyValSim : ∀ {gv t}, UnfV G gv t → ∀ {x gx st d nd}, G x = some gx → gx.val = gv →
    CCtx N0 B0 A vv root A' P G st → st.nodes d = some nd → N0 ≤ d →
    (∀ k ∈ gx.val.kids, ∀ c, Reach G k c → c ≠ root) →
    ∃ c st' nd' gv g, CBuilt A B0 st st' d nd nd' gx.key gv g t ∧
      ∀ F, copyLoop A vv (F + c) .body x d st = copyLoop A vv F .inner x d st'
  | gv, _, .scalar hs => by
    rename_i x gx st d nd
    intro hx hgv h hd hN hr
    have hlt := h.lt x gx hx
    have hxd : x ≠ d := by omega
    obtain ⟨st1, nd1, hd1, ⟨k, l, hnd1⟩, hk1, c1, hp1, e1⟩ := copy_start h hx hd hN
    have h1 := h.chg c1 (by rintro b rfl; exact hN)
    obtain ⟨nx, hnx, hok⟩ := h1.inv.rep x gx hx
    have hval := hok.val
    rw [hgv] at hval e1
    rw [ValOK.scalar hs] at hval
    obtain ⟨st2, nd2, e2, hd2, ⟨y, l2, hnd2⟩, hv2, c2, hp2⟩ := copyBody_scalar h1 hnx hs hval hd1 hxd
      (by rw [hnd1, hgv])
    refine ⟨1, st2, nd2, gv, fun _ => none, ⟨hd2, by rw [hnd2, hnd1], by rw [hnd2, hnd1], by rw [hnd2, hnd1],
      ?_, (ValOK.scalar hs).2 hv2, .scalar hs, (by intro a gn h; cases h), (by intro a gn h; cases h),
      (by intro a gn h; cases h), c1.trans c2 (fun _ h => .inl h), nofun, by rw [hp2, hp1]⟩, fun F => ?_⟩
    · exact KeyOK.fields (hk1.mono (Fr.mono c2) (Fr.bufs c2)) (by rw [hnd2]) (by rw [hnd2])
    · conv => lhs; unfold copyLoop
      mstep e1.trans e2
      rfl
  | _, _, .con (o := o) (kids := kids) (xs := xs) hi => by
    rename_i x gx st d nd
    intro hx hgv h hd hN hr
    have hlt := h.lt x gx hx
    have hxd : x ≠ d := by omega
    have hdn := h.inv.ok.node_lt hd
    obtain ⟨st1, nd1, hd1, ⟨k, l, hnd1⟩, hk1, c1, hp1, e1⟩ := copy_start h hx hd hN
    have h1 := h.chg c1 (by rintro b rfl; exact hN)
    obtain ⟨nx, hnx, hok⟩ := h1.inv.rep x gx hx
    have hval := hok.val
    rw [hgv] at hval e1
    have hval : ConOK st1 G x nx o kids gx.endOK := hval
    have hnn1 := c1.nn
    have IH := fun f st d df kd fd pv pv' => copyItemsSim hi (f := f) (st := st) (d := d) (df := df) (kd := kd)
      (fd := fd) (pv := pv) (pv' := pv')
    cases hkids : kids with
    | nil =>
      subst hkids
      have hxs : xs = [] := List.length_eq_zero_iff.1 hi.length.symm
      subst hxs
      have e2 := copyBody_empty (A := A) hnx hval hd1 hxd
      have c2 : CChg A (· = d) st1 (st1.setN d { nd1 with
          len := some 0, value := some (.node none), end_ := some none }) := .setN h1.inv.ok hd1 rfl rfl
      refine ⟨1, _, { nd1 with len := some 0, value := some (.node none), end_ := some none }, .con o [],
        fun _ => none, ⟨by simp, by rw [hnd1], by rw [hnd1], by rw [hnd1],
        ?_, ?_, .con .nil, (by intro a gn h; cases h), (by intro a gn h; cases h),
        (by intro a gn h; cases h), c1.trans c2 (fun _ h => .inl h), nofun, hp1.trans (by cases o <;> rfl)⟩, fun F => ?_⟩
      · exact KeyOK.fields (hk1.mono (Fr.mono c2) (Fr.bufs c2)) rfl rfl
      · exact ⟨by rw [hnd1, hgv]; rfl, rfl, rfl, by simp, trivial, by simp, by simp⟩
      · conv => lhs; unfold copyLoop
        mstep e1.trans e2
        rfl
    | cons k0 ks0 =>
      subst hkids
      have e2 := copyBody_kids h1.alloc hnx hval hd1 hxd (by omega)
      have d1 : d ≠ st1.nn := by omega
      generalize hst2 : ((st1.addN A).setN st1.nn { owner := A, father := some (some d), prev := some none }).setN d { nd1 with
        len := some (ks0.length + 1), value := some (.node (some st1.nn)), end_ := some (some st1.nn) } = st2 at e2
      have c2 : CChg A (· = d) st1 st2 := by
        rw [← hst2]
        have g1 : CChg A (· = d) st1 (st1.addN A) := .addN h1.inv.ok
        have g2 : CChg A (· = d) st1 ((st1.addN A).setN st1.nn { owner := A, father := some (some d), prev := some none }) :=
          g1.trans (.setN (S := (· = st1.nn)) g1.ok (nd := { owner := A }) (by simp) rfl rfl)
            (by rintro b rfl; exact .inr (Nat.le_refl _))
        exact g2.trans (.setN (S := (· = d)) g2.ok (nd := nd1) (by simp [d1, hd1]) rfl rfl) (fun _ h => .inl h)
      have h2 := h1.chg c2 (by rintro b rfl; exact hN)
      have hk2 : st2.nodes st1.nn = some { owner := A, father := some (some d), prev := some none } := by
        rw [← hst2]; simp [Ne.symm d1]
      have hd2 : st2.nodes d = some { nd1 with
        len := some (ks0.length + 1), value := some (.node (some st1.nn)), end_ := some (some st1.nn) } := by
        rw [← hst2]; simp
      have hnn2 : st2.nn = st1.nn + 1 := by rw [← hst2]; simp
      have hp2 : total st2.log = 72 + total st1.log := by rw [← hst2]; rfl
      have hN1 := h1.nn
      obtain ⟨c, st3, ds, g, hBI, hrun⟩ := IH x _ st1.nn d _ _ none none (by simp) h2
        (by obtain ⟨nx2, hnx2, hok2⟩ := h2.inv.rep x gx hx
            have := hok2.val; rw [hgv] at this; exact ConOK.seg this)
        (fun k hk => by obtain ⟨gk, a, b, _⟩ := hval.kid k hk; exact ⟨gk, a, b⟩)
        (by rw [hgv] at hr; exact hr) hk2 rfl rfl hd2 rfl hN1 hN (Ne.symm d1)
      have hnn3 := hBI.chg.nn
      have hS3 : ∀ b, (b = st1.nn ∨ b = d) → b = d ∨ st1.nn ≤ b := by rintro b (rfl | rfl) <;> simp
      refine ⟨c + 1, st3, _, .con o (st1.nn :: ds), g, ⟨hBI.node, by rw [hnd1], by rw [hnd1], by rw [hnd1],
        ?_, ?_, .con hBI.unf, hBI.rep, ?_, hBI.fin, c1.trans (c2.trans hBI.chg hS3) ?_, hBI.new, by
          have := hBI.paid; rw [hi.held]; omega⟩, fun F => ?_⟩
      · exact KeyOK.fields ((hk1.mono (Fr.mono c2) (Fr.bufs c2)).mono (Fr.mono hBI.chg) (Fr.bufs hBI.chg)) rfl rfl
      · refine ⟨by rw [hnd1, hgv]; rfl, rfl, ?_, fun _ _ => rfl, hBI.seg, ?_, hBI.kid⟩
        · have h1 := hBI.unf.length
          have h2 := hi.length
          simp only [List.length_cons] at h1 h2 ⊢
          congr 1; omega
        · refine List.nodup_cons.2 ⟨fun h => ?_, hBI.nodup⟩
          have := hBI.fresh _ h
          omega
      · intro a y hay
        have := hBI.dom a y hay
        omega
      · intro b hb
        exact .inl hb
      · rw [show F + (c + 1) = (F + c) + 1 by omega]
        conv => lhs; unfold copyLoop
        mstep e1.trans e2
        exact hrun F
theorem copyItemsSim : ∀ {o ks xs}, UnfI G o ks xs → ∀ {f st d df kd fd pv pv'}, ks ≠ [] →
    CCtx N0 B0 A vv root A' P G st → Seg st G pv ks none →
    (∀ k ∈ ks, ∃ gk, G k = some gk ∧ gk.par = some f) →
    (∀ k ∈ ks, ∀ c, Reach G k c → c ≠ root) → st.nodes d = some kd → kd.father = some (some df) →
    kd.prev = some pv' → st.nodes df = some fd → fd.end_ = some (some d) → N0 ≤ d → N0 ≤ df → d ≠ df →
    ∃ c st' ds g, CBuiltI A B0 st st' o df fd pv' d ds g xs ∧
      ∀ F, copyLoop A vv (F + c) .test (ks.headD 0) d st = copyLoop A vv F .inner f df st'
  | _, _, _, .nil => by intro h; exact absurd rfl h
  | o, _, _, .cons (k := k) (ks := ks) (xs := xs) (key := key) (t := t) hk hkey hu hr => by
    rename_i f st d df kd fd pv pv' gk0
    intro _ h hseg hpar hne hd hfa hpv hf hend hNd hNf hddf
    have hkr := hne k (by simp) k .refl
    have hdn := h.inv.ok.node_lt hd
    have hfn := h.inv.ok.node_lt hf
    obtain ⟨c1, st1, kd1, gv, g1, hB, e1⟩ := copyNodeSim hu hk h hd hNd
      (fun k' hk' c hc => hne k (by simp) c (.step hk hk' hc))
    have hS1 : ∀ b, b = d → N0 ≤ b := by rintro b rfl; exact hNd
    have h1 := h.chg hB.chg hS1
    have hnn1 := hB.chg.nn
    have hf1 : st1.nodes df = some fd := by rw [hB.chg.nodes df hfn (Ne.symm hddf), hf]
    obtain ⟨⟨n, gk, hn, hgk, hnx, _⟩, hseg'⟩ := hseg
    obtain ⟨gk', hgk', hpar'⟩ := hpar k (by simp)
    rw [hgk] at hgk'; cases hgk'
    rw [hk] at hgk; cases hgk
    have hklt := h.lt k gk0 hk
    have hkd : k ≠ d := by omega
    have hn1 : st1.nodes k = some n := by
      rw [hB.chg.nodes k (by have := h.nn; omega) hkd, hn]
    obtain ⟨n', hn', hok⟩ := h1.inv.rep k gk0 hk
    rw [hn1] at hn'; cases hn'
    have hxf : n.father = some (some f) := by rw [hok.father, hpar']
    have c1' : CChg A (fun b => b = d ∨ b = df) st st1 := hB.chg.weaken (fun _ h => .inl h)
    have head : ∀ F, copyLoop A vv (F + c1 + 1) .test k d st = copyLoop A vv F .inner k d st1 := by
      intro F
      rw [copy_test h hkr]
      exact e1 F
    have IH := fun f st d df kd fd pv pv' => copyItemsSim hr (f := f) (st := st) (d := d) (df := df) (kd := kd)
      (fd := fd) (pv := pv) (pv' := pv')
    cases hks : ks with
    | nil =>
      subst hks
      have hxs : xs = [] := List.length_eq_zero_iff.1 hr.length.symm
      subst hxs
      have step := fun F => copy_up (F := F) h1 hkr hn1 hnx hxf hB.node (hB.father.trans hfa)
      have c2 : CChg A (fun b => b = d ∨ b = df) st1 (st1.setN d { kd1 with next := some none }) :=
        .setN h1.inv.ok hB.node rfl (.inl rfl)
      obtain ⟨g1', g2', g3', g4', g5'⟩ := cglue_ok (st4 := st1.setN d { kd1 with next := some none }) (ks := [])
        (g2 := fun _ => none) (xs := []) (o := o) (key := key) (f := df) (pv := pv') hB hdn hkey hfa hpv (by simp)
        (by intro b hb1 hb2
            have : b ≠ d := by omega
            simp [this]) c2 (by intro a gn h; cases h) (by intro a gn h; cases h) (by intro a gn h; cases h)
        trivial .nil (by simp)
      refine ⟨1 + c1 + 1, _, [], _, ⟨?_, g1', by simp, by simp, g2', g3', g4', ?_, g5', c1'.trans c2 (fun _ h => .inl h),
        sprout_glue (ks := []) hB.new nofun hB.dom nofun hdn (by omega), by
          have := hB.paid; have := hkey.bytes; simp only [setN_log, Json.heldMembers]; omega⟩,
        fun F => ?_⟩
      · simp only [setN_nodes, Ne.symm hddf, if_false, lastOr_nil, hf1]
        rw [← hend]
      · intro a y hay
        simp only [glue] at hay
        split at hay
        · exact .inl ‹_›
        · right
          cases h1 : g1 a with
          | some y => have := hB.dom a y h1; simpa using this
          | none => rw [h1] at hay; cases hay
      · rw [show F + (1 + c1 + 1) = (F + 1) + c1 + 1 by omega]
        exact (head (F + 1)).trans (step F)
    | cons k2 ks2 =>
      subst hks
      have step := fun F => copy_next (F := F) h1 hkr hn1 hnx hB.node (hB.father.trans hfa) hf1 hddf (by omega) (by omega)
      have d1 : d ≠ st1.nn := by omega
      have f1 : df ≠ st1.nn := by omega
      generalize hst2 : (((st1.addN A).setN st1.nn { owner := A, father := some (some df), prev := some (some d) }).setN df
        { fd with end_ := some (some st1.nn) }).setN d { kd1 with next := some (some st1.nn) } = st2 at step
      have c2 : CChg A (fun b => b = d ∨ b = df) st1 st2 := by
        rw [← hst2]
        have g1 : CChg A (fun b => b = d ∨ b = df) st1 (st1.addN A) := .addN h1.inv.ok
        have g2 := g1.trans (.setN (S := (· = st1.nn)) (n := { owner := A, father := some (some df), prev := some (some d) })
          g1.ok (nd := { owner := A }) (by simp) rfl rfl)
            (by rintro b rfl; exact .inr (Nat.le_refl _))
        have g3 := g2.trans (.setN (S := (· = df)) (n := { fd with end_ := some (some st1.nn) })
          g2.ok (nd := fd) (by simp [f1, hf1]) rfl rfl) (by rintro b rfl; exact .inl (.inr rfl))
        exact g3.trans (.setN (S := (· = d)) g3.ok (nd := kd1) (by simp [d1, hddf, hB.node]) rfl rfl)
          (by rintro b rfl; exact .inl (.inl rfl))
      have hSd : ∀ b, (b = d ∨ b = df) → N0 ≤ b := by rintro b (rfl | rfl) <;> assumption
      have h2 := h1.chg c2 hSd
      have hk2 : st2.nodes st1.nn = some { owner := A, father := some (some df), prev := some (some d) } := by
        rw [← hst2]; simp [Ne.symm d1, Ne.symm f1]
      have hf2 : st2.nodes df = some { fd with end_ := some (some st1.nn) } := by
        rw [← hst2]; simp [Ne.symm hddf]
      have hd2 : st2.nodes d = some { kd1 with next := some (some st1.nn) } := by
        rw [← hst2]; simp
      have hnn2 : st2.nn = st1.nn + 1 := by rw [← hst2]; simp
      have hp2 : total st2.log = 72 + total st1.log := by rw [← hst2]; rfl
      have hN1 := h1.nn
      have hseg2 : Seg st2 G (some k) (k2 :: ks2) none := by
        refine hseg'.mono (fun _ _ h => h) ?_
        intro b hb
        obtain ⟨gb, hgb⟩ := Option.isSome_iff_exists.1 hb
        have := h.lt b gb hgb
        have h0 := h.nn
        rw [c2.nodes b (by omega) (by omega), hB.chg.nodes b (by omega) (by omega)]
      obtain ⟨c3, st3, ds, g2, hBI, e3⟩ := IH f _ st1.nn df _ _ (some k) (some d)
        (by simp) h2 hseg2 (fun k' h' => hpar k' (List.mem_cons_of_mem _ h'))
        (fun k' h' => hne k' (List.mem_cons_of_mem _ h')) hk2 rfl rfl hf2 rfl hN1 hNf (Ne.symm f1)
      have hnn3 := hBI.chg.nn
      have c23 : CChg A (fun b => b = d ∨ b = df) st1 st3 := c2.trans hBI.chg (by
        rintro b (rfl | rfl)
        · exact .inr (Nat.le_refl _)
        · exact .inl (.inr rfl))
      obtain ⟨g1', g2', g3', g4', g5'⟩ := cglue_ok (st4 := st3) (ks := st1.nn :: ds)
        (g2 := g2) (xs := xs) (o := o) (key := key) (f := df) (pv := pv') hB hdn hkey hfa hpv
        (by rw [hBI.chg.nodes d (by omega) (by omega), hd2]; rfl)
        (by intro b hb1 hb2
            rw [hBI.chg.nodes b (by omega) (by omega), c2.nodes b (by omega) (by omega)]) c23
        hBI.rep (by intro a y hay; have := hBI.dom a y hay; omega) hBI.fin hBI.seg hBI.unf hBI.kid
      refine ⟨c3 + 1 + c1 + 1, st3, st1.nn :: ds, _, ⟨?_, g1', ?_, ?_, g2', g3', g4', ?_, g5',
        c1'.trans c23 (fun _ h => .inl h), sprout_glue hB.new hBI.new hB.dom
          (by intro a y hay; have := hBI.dom a y hay; omega) hdn (by omega), by
          have := hB.paid; have := hkey.bytes; have := hBI.paid; simp only [Json.heldMembers]; omega⟩, fun F => ?_⟩
      · rw [hBI.node]; rfl
      · intro b hb
        rcases List.mem_cons.1 hb with rfl | hb
        · exact hnn1
        · have := hBI.fresh b hb; omega
      · refine List.nodup_cons.2 ⟨fun h => ?_, hBI.nodup⟩
        have := hBI.fresh _ h
        omega
      · intro a y hay
        simp only [glue] at hay
        split at hay
        · exact .inl ‹_›
        · right
          cases h1 : g1 a with
          | some y => have := hB.dom a y h1; omega
          | none =>
            rw [h1] at hay
            have := hBI.dom a y (by simpa using hay)
            omega
      · rw [show F + (c3 + 1 + c1 + 1) = (F + c3 + 1) + c1 + 1 by omega]
        refine (head (F + c3 + 1)).trans ?_
        rw [step]
        exact e3 F
end
end

/-! ### zj_Copy -/

/-- What `zj_Copy` made: a handle `r` for a fresh root `n`, whose nodes `g` and blocks are all
new and come from allocator `A`; nothing that existed before changed. -/
structure Copied (A : Nat) (st st' : St) (P P' : Addr → Prop) (G g : Graph) (r n : Addr) (key : Option Bytes)
    (t : Json) : Prop where
  did : Did (fun _ => False) (fun _ => False) st st' P P' G (G.or g)
  unch : Unchanged st st'
  handle : st'.vals r = some ⟨some n, A⟩
  hnew : r = st.nv
  root : ∃ gn, g n = some gn ∧ gn.par = none ∧ gn.key = key ∧ gn.endOK = true
  unf : Unf g n t
  new : ∀ a y, g a = some y → st.nn ≤ a
  fin : ∀ a y, g a = some y → ∃ t, Unf g a t
  rep : RepOn st' (Fr st.nb st') g
  pnew : ∀ b, P' b ↔ P b ∨ (st.nb ≤ b ∧ b < st'.nb)
  ownN : ∀ b m, st.nn ≤ b → st'.nodes b = some m → m.owner = A
  ownB : ∀ b m, st.nb ≤ b → st'.bufs b = some m → m.owner = some A
  links : ∀ a y, g a = some y → y.prevOK = true ∧ y.endOK = true ∧ (a ≠ n → y.par.isSome = true) ∧ Reach g n a
  paid : total st'.log = total st.log + 88 + keyBytes key + t.held

section
variable {A vv x : Nat} {P : Addr → Prop} {G g : Graph} {st st' : St} {gx : GNode} {t : Json}

theorem Graph.or_old (hn : ∀ a y, g a = some y → st.nn ≤ a) {b gb} (hb : g b = some gb) (hI : Inv st P G) :
    (G.or g) b = some gb := by
  have : G b = none := by
    cases h : G b with
    | none => rfl
    | some y => have := hI.lt h; have := hn b gb hb; omega
  simp [Graph.or, this, hb]

theorem Graph.le_or {G g : Graph} : G.le (G.or g) := by
  intro a y h
  simp [Graph.or, h]

/-- A store next to nodes that are all new. -/
theorem Inv.or (hI : Inv st P G) (hu : Unchanged st st') (ho : StOK st') (hr : RepOn st' (Fr st.nb st') g)
    (hn : ∀ a y, g a = some y → st.nn ≤ a) (hf : ∀ a y, g a = some y → ∃ t, Unf g a t)
    (hb : ∀ b, Fr st.nb st' b → (st'.bufs b).isSome) :
    Inv st' (fun b => P b ∨ Fr st.nb st' b) (G.or g) := by
  have hI' := hI.unchanged hu ho
  have le2 : g.le (G.or g) := fun b gb h => Graph.or_old hn h hI
  refine ⟨ho, ?_, ?_, ?_⟩
  · intro b h
    rcases h with h | h
    · exact hI'.pin b h
    · refine ⟨hb b h, fun z hz => ?_⟩
      rw [hu.2] at hz
      have := hI.ok.cache z hz
      have := h.1
      omega
  · intro a gn ha
    cases h : G a with
    | some y =>
      have : y = gn := by simpa [Graph.or, h] using ha
      subst this
      obtain ⟨n, h1, h2⟩ := hI'.rep a y h
      exact ⟨n, h1, h2.mono Graph.le_or (fun _ _ => rfl) (fun _ h => .inl h) (fun _ _ => rfl)⟩
    | none =>
      have h' : g a = some gn := by simpa [Graph.or, h] using ha
      obtain ⟨n, h1, h2⟩ := hr a gn h'
      exact ⟨n, h1, h2.mono le2 (fun _ _ => rfl) (fun _ h => .inr h) (fun _ _ => rfl)⟩
  · intro a gn ha
    cases h : G a with
    | some y =>
      obtain ⟨t, ht⟩ := hI.fin a y h
      exact ⟨t, ht.mono Graph.le_or⟩
    | none =>
      have h' : g a = some gn := by simpa [Graph.or, h] using ha
      obtain ⟨t, ht⟩ := hf a gn h'
      exact ⟨t, ht.mono le2⟩

/-- `zj_Copy` of a document: it ends, succeeds, and makes a fresh copy. -/
theorem copy_run (hI : Inv st P G) (hv : st.vals vv = some ⟨some x, A⟩) (hx : G x = some gx) (hu : Unf G x t) :
    ∃ c st' n g P', (∀ F, copy (F + c) vv st = .ok (some st.nv, st')) ∧
      Copied A st st' P P' G g st.nv n gx.key t := by
  have ha : st.allocs A = true := hI.ok.live _ _ hv
  have hvlt := hI.ok.val_lt hv
  have hvne : vv ≠ st.nv := by omega
  generalize hst1 : (((st.addV A none).addN A).setV st.nv ⟨some st.nn, A⟩).setN st.nn
    { owner := A, prev := some none, next := some none, father := some none } = st1
  have hok1 : StOK st1 := by
    rw [← hst1]
    refine StOK.setN (a := st.nn) (n := { owner := A }) (StOK.setV (v := st.nv) (x := ⟨none, A⟩) (x' := ⟨some st.nn, A⟩)
      (StOK.addN (A := A) (StOK.addV (x := none) hI.ok ha)) (by simp) rfl) (by simp)
  have hu1 : Unchanged st st1 := by
    rw [← hst1]
    refine ⟨⟨fun b hb _ => ?_, fun b hb _ => ?_, fun _ _ _ => rfl, by simp, by simp, by simp, rfl, rfl, rfl⟩, rfl⟩
    · have : b ≠ st.nn := by omega
      simp [this]
    · have : b ≠ st.nv := by omega
      simp [this]
  have hv1 : st1.vals vv = some ⟨some x, A⟩ := by rw [hu1.1.vals vv hvlt id, hv]
  have hr1 : st1.vals st.nv = some ⟨some st.nn, A⟩ := by rw [← hst1]; simp
  have hd1 : st1.nodes st.nn = some { owner := A, prev := some none, next := some none, father := some none } := by
    rw [← hst1]; simp
  have hnn1 : st1.nn = st.nn + 1 := by rw [← hst1]; simp
  have hnb1 : st1.nb = st.nb := by rw [← hst1]; rfl
  have hC : CCtx st.nn st.nb A vv x A P G st1 :=
    ⟨hI.unchanged hu1 hok1, fun a gn h => hI.lt h, hv1, by rw [hu1.1.allocs, ha], by omega, by omega⟩
  obtain ⟨c, st2, nd', gv, g, hB, hrun⟩ := copyNodeSim hu hx hC hd1 (Nat.le_refl _) (by
    intro k hk c hr
    cases hgv : gx.val with
    | con o kids => rw [hgv] at hk; exact hI.con_ne hx hgv hk hr
    | _ => rw [hgv] at hk; cases hk)
  have hchg : ∀ b, b < st.nn → st2.nodes b = st1.nodes b := fun b hb => hB.chg.nodes b (by omega) (by omega)
  have hu2 : Unchanged st st2 := by
    refine ⟨⟨fun b hb _ => ?_, fun b hb _ => ?_, fun b hb _ => ?_, ?_, ?_, ?_, ?_, ?_, ?_⟩, ?_⟩
    · rw [hchg b hb, hu1.1.nodes b hb id]
    · rw [hB.chg.vals, hu1.1.vals b hb id]
    · rw [hB.chg.bufs b (by omega), hu1.1.bufs b hb id]
    · have := hB.chg.nn; omega
    · rw [hB.chg.nv]; exact hu1.1.nv
    · have := hB.chg.nb; omega
    · rw [hB.chg.allocs, hu1.1.allocs]
    · rw [hB.chg.na, hu1.1.na]
    · rw [hB.chg.slack, hu1.1.slack]
    · rw [hB.chg.cache, hu1.2]
  -- the copy with its root
  generalize hg' : g.set st.nn ⟨gx.key, gv, none, true, true⟩ = g'
  have e0 : g' st.nn = some ⟨gx.key, gv, none, true, true⟩ := by rw [← hg']; simp
  have le : g.le g' := by
    intro a y h
    have := hB.dom a y h
    rw [← hg', Graph.set_ne _ _ (by omega), h]
  have hdom : ∀ a y, g' a = some y → st.nn ≤ a := by
    intro a y h
    by_cases ha : a = st.nn
    · omega
    · rw [← hg', Graph.set_ne _ _ ha] at h
      have := hB.dom a y h
      omega
  have hun : Unf g' st.nn t := .mk e0 (hB.unf.mono le)
  have hrep : RepOn st2 (Fr st.nb st2) g' := by
    intro a gn h
    by_cases ha : a = st.nn
    · subst ha
      rw [e0] at h; cases h
      refine ⟨nd', hB.node, hB.key, hB.father, fun _ => ⟨hB.next, hB.prev⟩, ?_⟩
      exact hB.val.mono le (fun _ _ => rfl) (fun _ h => h) (fun _ _ => rfl)
    · rw [← hg', Graph.set_ne _ _ ha] at h
      obtain ⟨n, h1, h2⟩ := hB.rep a gn h
      exact ⟨n, h1, h2.mono le (fun _ _ => rfl) (fun _ h => h) (fun _ _ => rfl)⟩
  have hfin : ∀ a y, g' a = some y → ∃ t, Unf g' a t := by
    intro a y h
    by_cases ha : a = st.nn
    · subst ha; exact ⟨t, hun⟩
    · rw [← hg', Graph.set_ne _ _ ha] at h
      obtain ⟨t, ht⟩ := hB.fin a y h
      exact ⟨t, ht.mono le⟩
  have hI2 := hI.or hu2 hB.chg.ok hrep hdom hfin (fun b h => hB.chg.exB b (by have := h.1; omega) h.2)
  have hv2 : st2.vals vv = some ⟨some x, A⟩ := by rw [hB.chg.vals, hv1]
  refine ⟨c + 2, st2, st.nn, g', fun b => P b ∨ Fr st.nb st2 b, fun F => ?_, ?_⟩
  · have hloop : copyLoop A vv (F + (c + 2)) .body x st.nn st1 = .ok ((), st2) := by
      rw [show F + (c + 2) = F + 2 + c by omega, hrun]
      conv => lhs; unfold copyLoop
      mstep rdVal_run hv2
      rw [if_pos rfl]
      unfold copyLoop
      mstep rdVal_run hv2
      rw [if_pos rfl]
      rfl
    have hfrom : valueCopyFrom (F + (c + 2)) st.nv vv (st.addV A none) = .ok (true, st2) := by
      unfold valueCopyFrom
      mstep rdVal_run (st := st.addV A none) (v := vv) (x := ⟨some x, A⟩) (by simp [hvne, hv])
      simp only
      mstep rdVal_run (st := st.addV A none) (v := st.nv) (x := ⟨none, A⟩) (by simp)
      mstep newNode_run (st := st.addV A none) (A := A) ha
      mstep setValN_run (st := (st.addV A none).addN A) (v := st.nv) (x := ⟨none, A⟩) (by simp)
      mstep modNode_run (n := { owner := A }) (by simp)
      mstep modNode_run (n := { owner := A, prev := some none }) (by simp)
      mstep modNode_run (n := { owner := A, prev := some none, next := some none }) (by simp)
      simp only [setN_setN]
      have e : (((st.addV A none).addN A).setV st.nv ⟨some st.nn, A⟩).setN st.nn
        { owner := A, prev := some none, next := some none, father := some none } = st1 := hst1
      refine (M.bind_ok (a := ()) (st' := st2) (by rw [← hloop, ← e]; rfl)).trans ?_
      rfl
    unfold copy
    mstep rdVal_run hv
    mstep (show newValue A st = _ from newVal_run ha)
    mstep hfrom
    rfl
  · refine ⟨⟨hI2, fun _ h => .inl h, fun b h => ?_, ?_, ?_⟩, hu2, ?_, rfl, ⟨_, e0, rfl, rfl, rfl⟩, hun, hdom, hfin, hrep, fun b => ?_, ?_, ?_, ?_, by
      have h0 : total st1.log = 88 + total st.log := by rw [← hst1]; simp only [total, setN_log, setV_log, addN_log, addV_log]; omega
      have := hB.paid; omega⟩
    · rcases h with h | h
      · exact .inl h
      · exact .inr h.1
    · exact hu2.1.weaken (fun _ h => h.elim) (fun _ h => h) (fun _ h => h)
    · exact fun h => h.frame hI.ok hu2.1 hu2.2
    · rw [hB.chg.vals, hr1]
    · exact Iff.rfl
    · intro b m hb hm
      by_cases hbn : b = st.nn
      · have := hB.chg.own st.nn (by omega)
        rw [← hbn, hm, hbn, hd1] at this
        simpa using this
      · exact hB.chg.newN b m (by omega) hm
    · intro b m hb hm
      exact hB.chg.newB b m (by omega) hm
    · intro a y hay
      by_cases ha : a = st.nn
      · subst ha
        rw [e0] at hay; cases hay
        exact ⟨rfl, rfl, fun h => absurd rfl h, .refl⟩
      · rw [← hg', Graph.set_ne _ _ ha] at hay
        obtain ⟨q1, q2, q3, k, hk, hr⟩ := hB.new a y hay
        exact ⟨q1, q2, fun _ => q3, .step e0 hk (hr.mono le)⟩

/-- `zj_Copy` of an empty handle fails (only a handle is allocated). -/
theorem copy_empty (hI : Inv st P G) (hv : st.vals vv = some ⟨none, A⟩) {F : Nat} :
    copy F vv st = .ok (none, st.addV A none) := by
  have ha : st.allocs A = true := hI.ok.live _ _ hv
  have hvne : vv ≠ st.nv := by have := hI.ok.val_lt hv; omega
  unfold copy
  mstep rdVal_run hv
  mstep (show newValue A st = _ from newVal_run ha)
  have : valueCopyFrom F st.nv vv (st.addV A none) = .ok (false, st.addV A none) := by
    unfold valueCopyFrom
    mstep rdVal_run (st := st.addV A none) (v := vv) (x := ⟨none, A⟩) (by simp [hvne, hv])
    rfl
  mstep this
  rfl
end

end ZJ
