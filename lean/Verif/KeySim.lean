import Verif.GetSim

/-
Keys: the setters of keys (zzzjson.h:2459-2562) on the abstract store.
-/

set_option linter.unusedSimpArgs false

namespace ZJ

/-! ### Documents stay finite -/

mutual
/-- Documents of the nodes in `D` (closed under children) stay finite if every changed
node has a finite document and no child loses or gains a key. -/
theorem Unf.keepFin {G G' : Graph} {D : Addr → Prop}
    (hD : ∀ b gn k, D b → G b = some gn → k ∈ gn.val.kids → D k)
    (hv : ∀ b gn, D b → G b = some gn → ∃ gn', G' b = some gn' ∧
      (gn'.val = gn.val ∨ ∃ t, UnfV G' gn'.val t))
    (hk : ∀ b gn k gk, D b → G b = some gn → k ∈ gn.val.kids → G k = some gk → ∃ gk', G' k = some gk' ∧
      gk'.key.isSome = gk.key.isSome) :
    ∀ {a t}, D a → Unf G a t → ∃ t', Unf G' a t'
  | _, _, hd, .mk ha hu => by
    obtain ⟨gn', h1, h3⟩ := hv _ _ hd ha
    rcases h3 with h3 | ⟨t, h3⟩
    · obtain ⟨t', ht⟩ := UnfV.keepFin hD hv hk (fun k hk => hD _ _ k hd ha hk)
        (fun k gk hk' hg => hk _ _ k gk hd ha hk' hg) hu
      exact ⟨t', .mk h1 (by rw [h3]; exact ht)⟩
    · exact ⟨t, .mk h1 h3⟩
theorem UnfV.keepFin {G G' : Graph} {D : Addr → Prop}
    (hD : ∀ b gn k, D b → G b = some gn → k ∈ gn.val.kids → D k)
    (hv : ∀ b gn, D b → G b = some gn → ∃ gn', G' b = some gn' ∧
      (gn'.val = gn.val ∨ ∃ t, UnfV G' gn'.val t))
    (hk : ∀ b gn k gk, D b → G b = some gn → k ∈ gn.val.kids → G k = some gk → ∃ gk', G' k = some gk' ∧
      gk'.key.isSome = gk.key.isSome) :
    ∀ {gv t}, (∀ k ∈ gv.kids, D k) → (∀ k gk, k ∈ gv.kids → G k = some gk → ∃ gk', G' k = some gk' ∧
      gk'.key.isSome = gk.key.isSome) → UnfV G gv t → ∃ t', UnfV G' gv t'
  | _, _, _, _, .scalar hs => ⟨_, .scalar hs⟩
  | _, _, hd, hk', .con hi => by
    obtain ⟨xs, hx⟩ := UnfI.keepFin hD hv hk hd hk' hi
    exact ⟨_, .con hx⟩
theorem UnfI.keepFin {G G' : Graph} {D : Addr → Prop}
    (hD : ∀ b gn k, D b → G b = some gn → k ∈ gn.val.kids → D k)
    (hv : ∀ b gn, D b → G b = some gn → ∃ gn', G' b = some gn' ∧
      (gn'.val = gn.val ∨ ∃ t, UnfV G' gn'.val t))
    (hk : ∀ b gn k gk, D b → G b = some gn → k ∈ gn.val.kids → G k = some gk → ∃ gk', G' k = some gk' ∧
      gk'.key.isSome = gk.key.isSome) :
    ∀ {o ks xs}, (∀ k ∈ ks, D k) → (∀ k gk, k ∈ ks → G k = some gk → ∃ gk', G' k = some gk' ∧
      gk'.key.isSome = gk.key.isSome) → UnfI G o ks xs → ∃ xs', UnfI G' o ks xs'
  | _, _, _, _, _, .nil => ⟨[], .nil⟩
  | o, _, _, hd, hk', .cons (key := key) hg hkey hu hr => by
    obtain ⟨gn', h1, h2⟩ := hk' _ _ (by simp) hg
    obtain ⟨t', ht⟩ := Unf.keepFin hD hv hk (hd _ (by simp)) hu
    obtain ⟨xs', hx⟩ := UnfI.keepFin hD hv hk (fun k hk => hd k (by simp [hk]))
      (fun k gk hk hg => hk' k gk (by simp [hk]) hg) hr
    have : ∃ key', KeyIs o gn'.key key' := by
      cases o with
      | true =>
        rw [show _ = some key from hkey] at h2
        obtain ⟨key', hk'⟩ := Option.isSome_iff_exists.1 (h2.trans rfl)
        exact ⟨key', hk'⟩
      | false =>
        rw [show _ = none from hkey.1] at h2
        exact ⟨[], by simpa using h2, rfl⟩
    obtain ⟨key', hk'⟩ := this
    exact ⟨(key', t') :: xs', .cons h1 hk' ht hx⟩
end

section
variable {st st1 st' : St} {P P' : Addr → Prop} {G : Graph} {v A a : Addr} {x : Option Addr} {gn : GNode}
  {k : Bytes} {p : SPtr} {nk : Option Bytes}

theorem Inv.not_self (hI : Inv st P G) {a gn k} (ha : G a = some gn) (hk : k ∈ gn.val.kids) : k ≠ a := by
  obtain ⟨t, ht⟩ := hI.fin a gn ha
  exact ht.kid_ne ha hk .refl

/-- A new key in a node, in memory and in the store. -/
theorem Inv.setKey (hI : Inv st P G) (ha : G a = some gn) {n n' : Node} (hn : st.nodes a = some n)
    (hn' : n' = { n with key := n'.key, keyLen := n'.keyLen }) (hk : KeyOK st P n' nk)
    (hm : ∀ f gf, G f = some gf → a ∈ gf.val.kids → nk.isSome = gn.key.isSome) :
    Inv (st.setN a n') P (G.set a { gn with key := nk }) := by
  obtain ⟨nd, h1, h2⟩ := hI.rep a gn ha
  rw [hn] at h1; cases h1
  have hl : ∀ b gb k, G b = some gb → k ∈ gb.val.kids →
      LinksSame st (st.setN a n') G (G.set a { gn with key := nk }) k := by
    intro b gb k hb hk
    by_cases hka : k = a
    · subst hka
      intro m gk hm' hg
      rw [hn] at hm'; cases hm'
      rw [ha] at hg; cases hg
      refine ⟨n', _, by simp, Graph.set_same _ _ _, by rw [hn'], by rw [hn'], rfl, rfl, ?_⟩
      exact hm b gb hb hk
    · exact LinksSame.of_eq (by simp [hka]) (Graph.set_ne _ _ hka)
  refine hI.change (hI.ok.setN hn) hI.pin (fun _ h => h) (fun _ _ => rfl) ?_ ?_
  · intro b gb hb
    by_cases hba : b = a
    · subst hba
      rw [Graph.set_same] at hb; cases hb
      refine .inr ⟨n', by simp, hk, ?_, ?_, ?_⟩
      · rw [hn']; exact h2.father
      · rw [hn']; exact h2.root
      · exact (h2.val.update (fun k hk => hl b gn k ha hk) (fun _ h => h) (fun _ _ => rfl)).fields
          (by rw [hn']) (by rw [hn']) (by rw [hn']) (by rw [hn'])
    · rw [Graph.set_ne _ _ hba] at hb
      exact .inl (hI.keep hb (by simp [hba]) fun k hk => hl b gb k hb hk)
  · intro b gb hb
    have : ∃ gb0, G b = some gb0 := by
      by_cases hba : b = a
      · exact ⟨gn, by rw [hba, ha]⟩
      · rw [Graph.set_ne _ _ hba] at hb; exact ⟨gb, hb⟩
    obtain ⟨gb0, hb0⟩ := this
    obtain ⟨t, ht⟩ := hI.fin b gb0 hb0
    refine ht.keepFin (D := fun _ => True) (fun _ _ _ _ _ _ => trivial) ?_ ?_ trivial
    · intro c gc _ hc
      by_cases hca : c = a
      · subst hca; rw [ha] at hc; cases hc
        exact ⟨_, Graph.set_same _ _ _, .inl rfl⟩
      · exact ⟨gc, by rw [Graph.set_ne _ _ hca, hc], .inl rfl⟩
    · intro c gc k gk _ hc hk hgk
      by_cases hka : k = a
      · subst hka; rw [ha] at hgk; cases hgk
        exact ⟨_, Graph.set_same _ _ _, hm c gc hc hk⟩
      · exact ⟨gk, by rw [Graph.set_ne _ _ hka, hgk], rfl⟩

/-- What a successful setter of keys did. -/
structure KeyTo (B : Addr → Prop) (st st' : St) (P P' : Addr → Prop) (G : Graph) (v : Addr)
    (x : Option Addr) (A : Nat) (k : Bytes) : Prop where
  inv : Inv st' P' (G.set (rootOf st x) { baseNode G x with key := some k })
  vals : st'.vals v = some ⟨some (rootOf st x), A⟩
  pin : ∀ b, P b → P' b
  new : ∀ b, P' b → P b ∨ st.nb ≤ b
  frame : Frame (· = rootOf st x) (· = v) B st st'
  cok : CacheOK st → CacheOK st'
  value : ∀ a n, x = some a → a < st.nn → st.nodes a = some n → ∃ n', st'.nodes a = some n' ∧ n'.value = n.value

/-- Whether the handle accepts a key: its node has no parent or is in an object. -/
def AcceptsKey (G : Graph) (x : Option Addr) : Prop :=
  ∀ a gn f, x = some a → G a = some gn → gn.par = some f → ∃ gf ks, G f = some gf ∧ gf.val = .con true ks

/-- The handle is a child of an array. -/
def InArray (G : Graph) (x : Option Addr) : Prop :=
  ∃ a gn f gf, x = some a ∧ G a = some gn ∧ gn.par = some f ∧ G f = some gf ∧ gf.val.type ≠ .object

theorem keyTarget_refuse (hI : Inv st P G) (hv : st.vals v = some ⟨x, A⟩) (h : InArray G x) :
    keyTarget v st = .ok (none, st) := by
  obtain ⟨a, gn, f, gf, rfl, ha, hp, hf, ht⟩ := h
  obtain ⟨nd, h1, h2⟩ := hI.rep a gn ha
  unfold keyTarget
  mstep rdVal_run hv
  simp only
  mstep nFather_run h1 (by rw [h2.father, hp])
  simp only
  mstep hI.nType hf
  rw [if_pos ht]
  rfl

/-- The node whose key is to be set; a node the handle did not have yet has no key field. -/
theorem keyTarget_run (hI : Inv st P G) (hv : st.vals v = some ⟨x, A⟩)
    (hx : ∀ a, x = some a → (G a).isSome) (h : AcceptsKey G x) :
    ∃ st1 n1, keyTarget v st = .ok (some (rootOf st x), st1) ∧ st1.nodes (rootOf st x) = some n1 ∧
      st1.bufs = st.bufs ∧ st1.nb = st.nb ∧ st1.cache = st.cache ∧
      st1.vals v = some ⟨some (rootOf st x), A⟩ ∧ st1.allocs = st.allocs ∧ StOK st1 ∧
      (∀ a n, x = some a → st.nodes a = some n → n1.value = n.value) ∧
      ∀ (st2 : St) (P' : Addr → Prop) (n2 : Node) (k : Bytes), Unchanged st1 st2 → StOK st2 → PinOK st2 P' →
        (∀ b, P b → P' b) → n2 = { n1 with key := n2.key, keyLen := n2.keyLen } → KeyOK st2 P' n2 (some k) →
        Inv (st2.setN (rootOf st x) n2) P' (G.set (rootOf st x) { baseNode G x with key := some k }) ∧
        Frame (· = rootOf st x) (· = v) (fun _ => False) st (st2.setN (rootOf st x) n2) := by
  have hA := hI.ok.live v _ hv
  cases x with
  | some a =>
    obtain ⟨gn, ha⟩ := Option.isSome_iff_exists.1 (hx a rfl)
    obtain ⟨nd, h1, h2⟩ := hI.rep a gn ha
    have hb : baseNode G (some a) = gn := by simp [baseNode, ha]
    refine ⟨st, nd, ?_, h1, rfl, rfl, rfl, hv, rfl, hI.ok, fun a n e hn => by cases e; rw [h1] at hn; cases hn; rfl, ?_⟩
    · unfold keyTarget
      mstep rdVal_run hv
      simp only
      cases hp : gn.par with
      | none =>
        mstep nFather_run h1 (by rw [h2.father, hp])
        rfl
      | some f =>
        obtain ⟨gf, ks, hf, hg⟩ := h a gn f rfl ha hp
        mstep nFather_run h1 (by rw [h2.father, hp])
        simp only
        mstep hI.nType hf
        rw [hg, if_neg (by simp [GVal.type, conType])]
        rfl
    · intro st2 P' n2 k hu ho hpin hP hn2 hk
      rw [hb]
      have hI2 := (hI.unchanged hu ho).mono_pin hP hpin
      refine ⟨hI2.setKey ha (by rw [hu.1.nodes a (hI.lt ha) id]; exact h1) hn2 hk ?_, ?_⟩
      · intro f gf hf hm
        obtain ⟨gk, g1, g2⟩ := hI.kid hf hm
        rw [ha] at g1; cases g1
        obtain ⟨gf', ks, hf', hg⟩ := h a gn f rfl ha g2
        rw [hf] at hf'; cases hf'
        obtain ⟨_, _, hc, _⟩ := hI.con hf hg
        obtain ⟨gk, g1, _, g3⟩ := hc.kid a (by rw [hg] at hm; exact hm)
        rw [ha] at g1; cases g1
        rw [g3]; rfl
      · exact hu.frame (frame_setN.weaken (fun _ h => h) (fun _ h => h.elim) (fun _ h => h.elim))
  | none =>
    let n1 : Node := { owner := A, type := some .null, value := some (.str (.lit { bytes := b!"null" })), len := some 4,
                       prev := some none, father := some none, next := some none }
    refine ⟨((st.addN A).setV v ⟨some st.nn, A⟩).setN st.nn n1, n1, ?_, by simp [rootOf], rfl, rfl, rfl,
      by simp [rootOf], rfl, ((hI.ok.addN (A := A)).setV (x' := ⟨some st.nn, A⟩) hv rfl).setN (a := st.nn) (n := { owner := A }) (by simp),
      ⟨fun _ _ e => (nomatch e), ?_⟩⟩
    · unfold keyTarget
      mstep rdVal_run hv
      simp only
      mstep newNode_run hA
      mstep setValN_run (st := st.addN A) hv
      mstep modNode_run (st := (st.addN A).setV v ⟨some st.nn, A⟩) (n := { owner := A }) (by simp)
      mstep modNode_run (n := { owner := A, prev := some none }) (by simp)
      simp only [setN_setN]
      mstep modNode_run (n := { owner := A, prev := some none, father := some none }) (by simp)
      simp only [setN_setN]
      mstep modNode_run (n := { owner := A, prev := some none, father := some none, next := some none }) (by simp)
      simp only [setN_setN]
      mstep modNode_run (n := { owner := A, type := some .null, prev := some none, father := some none, next := some none }) (by simp)
      simp only [setN_setN]
      mstep modNode_run (n := { owner := A, type := some .null, value := some (.str (.lit { bytes := b!"null" })), prev := some none, father := some none, next := some none }) (by simp)
      simp only [setN_setN]
      rfl
    · intro st2 P' n2 k hu ho hpin hP hn2 hk
      have hnn : st.nn < st2.nn := by have := hu.1.nn; simp at this; omega
      have hlt : ∀ b gb, G b = some gb → b ≠ st.nn := by intro b gb hb; have := hI.lt hb; omega
      have hnod : ∀ b, b < st.nn → st2.nodes b = st.nodes b := by
        intro b hb
        rw [hu.1.nodes b (by simp; omega) id]
        have : b ≠ st.nn := by omega
        simp [this]
      have hbuf : ∀ b, b < st.nb → st2.bufs b = st.bufs b := fun b hb => hu.1.bufs b (by simpa using hb) id
      have hU : Unf (G.set st.nn ⟨some k, .null, none, true, true⟩) st.nn .null :=
        .mk (Graph.set_same _ _ _) (.scalar rfl)
      have hnd2 : st2.nodes st.nn = some n1 := by
        rw [hu.1.nodes st.nn (by simp) id]; simp
      have hl : ∀ b gb k', G b = some gb → k' ∈ gb.val.kids →
          LinksSame st (st2.setN st.nn n2) G (G.set st.nn ⟨some k, .null, none, true, true⟩) k' := by
        intro b gb k' hb hk'
        obtain ⟨gk, hg, _⟩ := hI.kid hb hk'
        have h3 := hlt _ _ hg
        exact LinksSame.of_eq (by simp [h3]; exact hnod _ (hI.lt hg)) (Graph.set_ne _ _ h3)
      refine ⟨hI.change (ho.setN hnd2) hpin hP (fun b hb => ?_) ?_ ?_, ?_⟩
      · obtain ⟨bf, hbf⟩ := Option.isSome_iff_exists.1 (hI.pin b hb).1
        exact hbuf b (hI.ok.buf_lt hbf)
      · intro b gb hb
        by_cases hba : b = st.nn
        · subst hba
          simp only [rootOf, Option.getD_none] at hb ⊢
          rw [Graph.set_same] at hb; cases hb
          refine .inr ⟨n2, by simp, hk, by rw [hn2]; rfl, fun _ => by rw [hn2]; exact ⟨rfl, rfl⟩,
            (ValOK.scalar (gv := .null) rfl).2 ⟨by rw [hn2]; rfl, .lit { bytes := b!"null" }, by rw [hn2], by rw [hn2]; rfl,
              ⟨[0], rfl⟩, fun _ => ⟨_, rfl⟩⟩⟩
        · simp only [rootOf, Option.getD_none] at hb ⊢
          rw [Graph.set_ne _ _ hba] at hb
          exact .inl (hI.keep hb (by simp [hba]; exact hnod _ (hI.lt hb)) fun k' hk' => hl b gb k' hb hk')
      · intro b gb hb
        simp only [rootOf, Option.getD_none] at hb ⊢
        by_cases hba : b = st.nn
        · subst hba; exact ⟨_, hU⟩
        · rw [Graph.set_ne _ _ hba] at hb
          obtain ⟨t, ht⟩ := hI.fin b gb hb
          refine ⟨t, ht.set_ne fun hr => ?_⟩
          obtain ⟨t', ht', _⟩ := Unf.reach_count hr ht
          cases ht' with
          | mk h _ => have := hI.lt h; omega
      · have f := hu.1
        refine ⟨fun b hb hne => ?_, fun b hb hne => ?_, fun b hb _ => hbuf b hb, ?_, ?_, ?_, f.allocs, f.na, f.slack⟩
        · simp [hne]; exact hnod b hb
        · have := f.vals b (by simpa using hb) id
          simp only [setN_vals] at this ⊢
          rw [this]; simp [hne]
        · have := f.nn; simp at this ⊢; omega
        · have := f.nv; simp at this ⊢; omega
        · have := f.nb; simp at this ⊢; omega

/-- Storing a pointer to the key. -/
theorem storeKey_run (hI : Inv st P G) (hv : st.vals v = some ⟨x, A⟩)
    (hx : ∀ a, x = some a → (G a).isSome) (h : AcceptsKey G x) (hp : StrAt st P p k) :
    ∃ st', (do
        match ← keyTarget v with
        | none => return false
        | some a =>
          setKey a (some p)
          setKeyLen a k.length
          return true : M Bool) st = .ok (true, st') ∧
      KeyTo (fun _ => False) st st' P P G v x A k := by
  obtain ⟨st1, n1, e, hn, hb, hnb, hc, hvv, hal, ho1, hval, hfin⟩ := keyTarget_run hI hv hx h
  obtain ⟨h1, h2⟩ := hfin st1 P { n1 with key := some (some p), keyLen := some k.length } k .refl ho1
    (by intro b hb'; have := hI.pin b hb'; simpa [hb, hc] using this) (fun _ h => h) rfl
    ⟨p, rfl, rfl, hp.mono (fun _ h => h) (fun _ _ => by rw [hb])⟩
  refine ⟨_, ?_, h1, by simpa using hvv, fun _ h => h, fun _ h => .inl h, h2, fun hcok => hcok.frame hI.ok h2 (by simpa using hc),
    fun a n hx' _ hn' => by subst hx'; exact ⟨_, upd_same _ _ _, hval a n rfl hn'⟩⟩
  mstep e
  simp only
  mstep modNode_run hn
  mstep modNode_run (n := { n1 with key := some (some p) }) (by simp)
  rw [setN_setN]
  rfl

/-- Storing a copy of the key. -/
theorem storeKeyDup_run (hI : Inv st P G) (hv : st.vals v = some ⟨x, A⟩)
    (hx : ∀ a, x = some a → (G a).isSome) (h : AcceptsKey G x) (hp : Reads st p k) :
    ∃ st', (do
        match ← keyTarget v with
        | none => return false
        | some a =>
          let s ← dup (← rdVal v).a p k.length
          setKey a (some s)
          setKeyLen a k.length
          return true : M Bool) st = .ok (true, st') ∧
      KeyTo (fun _ => False) st st' P (fun b => P b ∨ b = st.nb) G v x A k := by
  obtain ⟨st1, n1, e, hn, hb, hnb, hc, hvv, hal, ho1, hval, hfin⟩ := keyTarget_run hI hv hx h
  have ha1 : st1.allocs A = true := by rw [hal]; exact hI.ok.live v _ hv
  have hpin : PinOK (st1.addB A k.length k) (fun b => P b ∨ b = st.nb) := by
    intro b hb'
    have hlt : ∀ b, P b → b < st.nb := fun b hb' => by
      obtain ⟨bf, hbf⟩ := Option.isSome_iff_exists.1 (hI.pin b hb').1
      exact hI.ok.buf_lt hbf
    rcases hb' with hb' | rfl
    · have := hI.pin b hb'
      have h3 : b ≠ st.nb := by have := hlt b hb'; omega
      simpa [hb, hc, hnb, h3] using this
    · refine ⟨by simp [hnb], fun z hz => ?_⟩
      have := hI.ok.cache z (by simpa [hc] using hz)
      omega
  obtain ⟨h1, h2⟩ := hfin (st1.addB A k.length k) (fun b => P b ∨ b = st.nb)
    { n1 with key := some (some (.buf st1.nb 0)), keyLen := some k.length } k addB_frame (addB_ok ho1 (Nat.le_refl _))
    hpin (fun _ h => .inl h) rfl
    ⟨_, rfl, rfl, .inr hnb, _, [], by simp; rfl, by simp⟩
  refine ⟨_, ?_, h1, by simpa using hvv, fun _ h => .inl h, ?_, h2, fun hcok => hcok.frame hI.ok h2 (by simpa using hc),
    fun a n hx' _ hn' => by subst hx'; exact ⟨_, upd_same _ _ _, hval a n rfl hn'⟩⟩
  · mstep e
    simp only
    mstep rdVal_run hvv
    have hd : dup A p k.length st1 = .ok (.buf st1.nb 0, st1.addB A k.length k) := by
      unfold dup
      have : Reads st1 p k :=
        ((hp.strAt (P := fun _ => True) (fun _ _ _ => trivial)).mono (P' := fun _ => True) (fun _ h => h)
          (fun _ _ => by rw [hb])).reads ho1
      mstep this
      mstep newBuf_run ha1 (Nat.le_refl _)
      rfl
    mstep hd
    mstep modNode_run (st := st1.addB A k.length k) hn
    mstep modNode_run (n := { n1 with key := some (some (.buf st1.nb 0)) }) (by simp)
    rw [setN_setN]
    rfl
  · rintro b (h | rfl)
    · exact .inl h
    · exact .inr (Nat.le_refl _)

theorem Kept.keyTo {B : Addr → Prop} (hk : Kept B st st1 P G) (hnn : st1.nn = st.nn)
    (h : KeyTo (fun _ => False) st1 st' P P' G v x A k) : KeyTo B st st' P P' G v x A k := by
  have hr : rootOf st1 x = rootOf st x := by simp [rootOf, hnn]
  obtain ⟨h1, h3, h4, h5, h6, h7, h8⟩ := h
  rw [hr] at h1 h3 h6
  refine ⟨h1, h3, h4, fun b hb => ?_, ?_, fun hc => h7 (hk.cok hc), fun a n hx' hl hn => h8 a n hx' (by omega)
    (by rw [hk.frame.nodes a hl (fun h => h)]; exact hn)⟩
  · have := hk.frame.nb
    rcases h5 b hb with h | h
    · exact .inl h
    · exact .inr (by omega)
  · exact (hk.frame.weaken (fun _ h => h.elim) (fun _ h => h.elim) (fun _ h => h)).trans h6
      (fun _ _ h => h) (fun _ _ h => h) (fun _ _ h => h.elim)

/-! ### The six setters of keys -/

theorem setKeyFast_run (hI : Inv st P G) (hv : st.vals v = some ⟨x, A⟩)
    (hx : ∀ a, x = some a → (G a).isSome) (hs : CStr st p k) (hP : InP P p) :
    (IsSetBody k → AcceptsKey G x → ∃ st', setKeyFast v p st = .ok (true, st') ∧
      KeyTo (fun _ => False) st st' P P G v x A k) ∧
    (¬ IsSetBody k ∨ InArray G x → setKeyFast v p st = .ok (false, st)) := by
  rcases checkStrAt_run hs with ⟨h, e⟩ | ⟨h, e⟩
  · refine ⟨fun _ hk => ?_, fun hn => ?_⟩
    · obtain ⟨st', e', h'⟩ := storeKey_run hI hv hx hk (hs.inP hP)
      refine ⟨st', ?_, h'⟩
      unfold setKeyFast; mstep e; exact e'
    · rcases hn with hn | hn
      · exact absurd h hn
      · unfold setKeyFast; mstep e; simp only; mstep keyTarget_refuse hI hv hn; rfl
  · refine ⟨fun hb => absurd hb h, fun _ => ?_⟩
    unfold setKeyFast; mstep e; rfl

theorem setKeyC_run (hI : Inv st P G) (hv : st.vals v = some ⟨x, A⟩)
    (hx : ∀ a, x = some a → (G a).isSome) (hs : CStr st p k) :
    (IsSetBody k → AcceptsKey G x → ∃ st', setKeyC v p st = .ok (true, st') ∧
      KeyTo (fun _ => False) st st' P (fun b => P b ∨ b = st.nb) G v x A k) ∧
    (¬ IsSetBody k ∨ InArray G x → setKeyC v p st = .ok (false, st)) := by
  rcases checkStrAt_run hs with ⟨h, e⟩ | ⟨h, e⟩
  · refine ⟨fun _ hk => ?_, fun hn => ?_⟩
    · obtain ⟨st', e', h'⟩ := storeKeyDup_run hI hv hx hk (hs.reads hI.ok)
      refine ⟨st', ?_, h'⟩
      unfold setKeyC; mstep e; exact e'
    · rcases hn with hn | hn
      · exact absurd h hn
      · unfold setKeyC; mstep e; simp only; mstep keyTarget_refuse hI hv hn; rfl
  · refine ⟨fun hb => absurd hb h, fun _ => ?_⟩
    unfold setKeyC; mstep e; rfl

theorem setKeyLenFast_run (hI : Inv st P G) (hc : CacheOK st) (hv : st.vals v = some ⟨x, A⟩)
    (hx : ∀ a, x = some a → (G a).isSome) (hs : Reads st p k) (hP : InP P p) :
    (IsSetBody k → AcceptsKey G x → ∃ st', setKeyLenFast v p k.length st = .ok (true, st') ∧
      KeyTo (CacheB st) st st' P P G v x A k) ∧
    (¬ IsSetBody k ∨ InArray G x → ∃ st', setKeyLenFast v p k.length st = .ok (false, st') ∧
      Kept (CacheB st) st st' P G) := by
  obtain ⟨st1, z, r, e, hr, hF⟩ := checkStrLenAt_run hI hc (hI.ok.live v _ hv) hs
  obtain ⟨k1, k2, k3, k4⟩ := keeps_checkStrLenAt _ _ _ e
  have hv1 : st1.vals v = some ⟨x, A⟩ := by rw [k4]; exact hv
  cases r with
  | true =>
    refine ⟨fun _ hk => ?_, fun hn => ⟨st1, ?_, hF.kept⟩⟩
    · obtain ⟨st', e', h'⟩ := storeKey_run hF.inv hv1 hx hk (strAt_filled hI hF (hs.strAt hP))
      refine ⟨st', ?_, hF.kept.keyTo k1 h'⟩
      unfold setKeyLenFast; mstep rdVal_run hv; mstep e; exact e'
    · rcases hn with hn | hn
      · exact absurd (hr.1 rfl) hn
      · unfold setKeyLenFast; mstep rdVal_run hv; mstep e
        refine (M.bind_ok (keyTarget_refuse hF.inv hv1 hn)).trans ?_
        rfl
  | false =>
    refine ⟨fun hb => (by cases hr.2 hb), fun _ => ⟨st1, ?_, hF.kept⟩⟩
    unfold setKeyLenFast; mstep rdVal_run hv; mstep e; rfl

theorem setKeyLenC_run (hI : Inv st P G) (hc : CacheOK st) (hv : st.vals v = some ⟨x, A⟩)
    (hx : ∀ a, x = some a → (G a).isSome) (hs : Reads st p k) (hn : NotCache st p) :
    (IsSetBody k → AcceptsKey G x → ∃ st' P', setKeyLenC v p k.length st = .ok (true, st') ∧
      KeyTo (CacheB st) st st' P P' G v x A k) ∧
    (¬ IsSetBody k ∨ InArray G x → ∃ st', setKeyLenC v p k.length st = .ok (false, st') ∧
      Kept (CacheB st) st st' P G) := by
  obtain ⟨st1, z, r, e, hr, hF⟩ := checkStrLenAt_run hI hc (hI.ok.live v _ hv) hs
  obtain ⟨k1, k2, k3, k4⟩ := keeps_checkStrLenAt _ _ _ e
  have hv1 : st1.vals v = some ⟨x, A⟩ := by rw [k4]; exact hv
  cases r with
  | true =>
    refine ⟨fun _ hk => ?_, fun hn => ⟨st1, ?_, hF.kept⟩⟩
    · obtain ⟨st', e', h'⟩ := storeKeyDup_run hF.inv hv1 hx hk (reads_filled hI hF hs hn)
      refine ⟨st', _, ?_, hF.kept.keyTo k1 h'⟩
      unfold setKeyLenC; mstep rdVal_run hv; mstep e; exact e'
    · rcases hn with hn | hn
      · exact absurd (hr.1 rfl) hn
      · unfold setKeyLenC; mstep rdVal_run hv; mstep e
        refine (M.bind_ok (keyTarget_refuse hF.inv hv1 hn)).trans ?_
        rfl
  | false =>
    refine ⟨fun hb => (by cases hr.2 hb), fun _ => ⟨st1, ?_, hF.kept⟩⟩
    unfold setKeyLenC; mstep rdVal_run hv; mstep e; rfl

theorem KeyTo.addB {sz : Nat} {d : Bytes} (hI : Inv st P G)
    (h : KeyTo (fun _ => False) (st.addB A sz d) st' (fun b => P b ∨ b = st.nb) P' G v x A k) :
    KeyTo (fun _ => False) st st' P P' G v x A k where
  inv := h.inv
  vals := h.vals
  pin b hb := h.pin b (.inl hb)
  new b hb := by
    rcases h.new b hb with (h | h) | h
    · exact .inl h
    · exact .inr (by omega)
    · simp at h; exact .inr (by omega)
  frame := addB_frame.frame h.frame
  cok hc := h.cok (hc.frame hI.ok addB_frame.1 rfl)
  value := h.value

theorem setKeyEscape_run (hI : Inv st P G) (hv : st.vals v = some ⟨x, A⟩)
    (hx : ∀ a, x = some a → (G a).isSome) (hs : CStr st p k) :
    (AcceptsKey G x → ∃ st', setKeyEscape v p st = .ok (true, st') ∧
      KeyTo (fun _ => False) st st' P (fun b => P b ∨ b = st.nb) G v x A (escBytes k)) ∧
    (InArray G x → ∃ st', setKeyEscape v p st = .ok (false, st') ∧ Kept (fun _ => False) st st' P G) := by
  have ha := hI.ok.live v _ hv
  have hI' := hI.addB (A := A) (sz := (escBytes k).length + 1) (d := escBytes k ++ [0]) (by simp)
  obtain ⟨h1, h2⟩ := setKeyFast_run (v := v) (A := A) (x := x) hI' hv hx escBytes_cstr
    (by intro b off h; cases h; exact .inr rfl)
  constructor
  · intro hk
    obtain ⟨st', e, h⟩ := h1 (escBytes_set k) hk
    refine ⟨st', ?_, h.addB hI⟩
    unfold setKeyEscape
    mstep rdVal_run hv
    mstep escapeAt_run ha hs
    exact e
  · intro hk
    refine ⟨st.addB A ((escBytes k).length + 1) (escBytes k ++ [0]), ?_,
      hI.unchanged addB_frame (addB_ok hI.ok (by simp)), addB_frame.1, fun hc => hc.frame hI.ok addB_frame.1 rfl⟩
    unfold setKeyEscape
    mstep rdVal_run hv
    mstep escapeAt_run ha hs
    exact h2 (.inr hk)

theorem setKeyLenEscape_run (hI : Inv st P G) (hv : st.vals v = some ⟨x, A⟩)
    (hx : ∀ a, x = some a → (G a).isSome) (hs : Reads st p k) :
    (AcceptsKey G x → ∃ st', setKeyLenEscape v p k.length st = .ok (true, st') ∧
      KeyTo (fun _ => False) st st' P (fun b => P b ∨ b = st.nb) G v x A (escBytes k)) ∧
    (InArray G x → ∃ st', setKeyLenEscape v p k.length st = .ok (false, st') ∧ Kept (fun _ => False) st st' P G) := by
  have ha := hI.ok.live v _ hv
  have hI' := hI.addB (A := A) (sz := (escBytes k).length + 1) (d := escBytes k ++ [0]) (by simp)
  obtain ⟨h1, h2⟩ := setKeyFast_run (v := v) (A := A) (x := x) hI' hv hx escBytes_cstr
    (by intro b off h; cases h; exact .inr rfl)
  have he := escapeLenAt_run ha (hs.strAt (P := fun _ => True) (fun _ _ _ => trivial))
  constructor
  · intro hk
    obtain ⟨st', e, h⟩ := h1 (escBytes_set k) hk
    refine ⟨st', ?_, h.addB hI⟩
    unfold setKeyLenEscape
    mstep rdVal_run hv
    mstep he
    exact e
  · intro hk
    refine ⟨st.addB A ((escBytes k).length + 1) (escBytes k ++ [0]), ?_,
      hI.unchanged addB_frame (addB_ok hI.ok (by simp)), addB_frame.1, fun hc => hc.frame hI.ok addB_frame.1 rfl⟩
    unfold setKeyLenEscape
    mstep rdVal_run hv
    mstep he
    exact h2 (.inr hk)

end

end ZJ
