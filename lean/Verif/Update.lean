import Verif.Rep

/-
Changes of the abstract store: what they do to the documents, and when memory that
changed in a few nodes represents the changed store.
-/

set_option linter.unusedSimpArgs false

namespace ZJ

/-- Point update of the store. -/
def Graph.set (G : Graph) (a : Addr) (gn : GNode) : Graph := fun b => if b = a then some gn else G b

/-- Union of stores, the first one has priority. -/
def Graph.or (G H : Graph) : Graph := fun b => (G b).or (H b)

@[simp] theorem Graph.set_same (G : Graph) (a : Addr) (gn : GNode) : G.set a gn a = some gn := by
  simp [Graph.set]

theorem Graph.set_ne (G : Graph) {a b : Addr} (gn : GNode) (h : b ≠ a) : G.set a gn b = G b := by
  simp [Graph.set, h]

theorem Graph.set_apply (G : Graph) (a b : Addr) (gn : GNode) :
    G.set a gn b = if b = a then some gn else G b := rfl

theorem Graph.or_apply (G H : Graph) (b : Addr) : (G.or H) b = (G b).or (H b) := rfl

/-! ### Frames -/

mutual
theorem Unf.frame {G G' : Graph} : ∀ {a t}, Unf G a t →
    (∀ c, Reach G a c → ∀ gn, G c = some gn → G' c = some gn) → Unf G' a t
  | _, _, .mk ha hv, h =>
    .mk (h _ .refl _ ha) (UnfV.frame hv fun _ hk c hc => h c (.step ha hk hc))
theorem UnfV.frame {G G' : Graph} : ∀ {gv t}, UnfV G gv t →
    (∀ k ∈ gv.kids, ∀ c, Reach G k c → ∀ gn, G c = some gn → G' c = some gn) → UnfV G' gv t
  | _, _, .scalar hs, _ => .scalar hs
  | _, _, .con hi, h => .con (UnfI.frame hi h)
theorem UnfI.frame {G G' : Graph} : ∀ {o ks xs}, UnfI G o ks xs →
    (∀ k ∈ ks, ∀ c, Reach G k c → ∀ gn, G c = some gn → G' c = some gn) → UnfI G' o ks xs
  | _, _, _, .nil, _ => .nil
  | _, _, _, .cons hk hkey hu hr, h =>
    .cons (h _ (by simp) _ .refl _ hk) hkey (Unf.frame hu (h _ (by simp)))
      (UnfI.frame hr fun k hk => h k (by simp [hk]))
end

mutual
/-- Documents stay finite if every changed node has a finite document. -/
theorem Unf.replace {G G' : Graph} (h : ∀ b gn, G b = some gn → ∃ gn', G' b = some gn' ∧
      gn'.key.isSome = gn.key.isSome ∧ (gn'.val = gn.val ∨ ∃ t, UnfV G' gn'.val t)) :
    ∀ {a t}, Unf G a t → ∃ t', Unf G' a t'
  | _, _, .mk ha hv => by
    obtain ⟨gn', h1, h2, h3⟩ := h _ _ ha
    rcases h3 with h3 | ⟨t, h3⟩
    · obtain ⟨t', ht⟩ := UnfV.replace h hv
      exact ⟨t', .mk h1 (by rw [h3]; exact ht)⟩
    · exact ⟨t, .mk h1 h3⟩
theorem UnfV.replace {G G' : Graph} (h : ∀ b gn, G b = some gn → ∃ gn', G' b = some gn' ∧
      gn'.key.isSome = gn.key.isSome ∧ (gn'.val = gn.val ∨ ∃ t, UnfV G' gn'.val t)) :
    ∀ {gv t}, UnfV G gv t → ∃ t', UnfV G' gv t'
  | _, _, .scalar hs => ⟨_, .scalar hs⟩
  | _, _, .con hi => by
    obtain ⟨xs, hx⟩ := UnfI.replace h hi
    exact ⟨_, .con hx⟩
theorem UnfI.replace {G G' : Graph} (h : ∀ b gn, G b = some gn → ∃ gn', G' b = some gn' ∧
      gn'.key.isSome = gn.key.isSome ∧ (gn'.val = gn.val ∨ ∃ t, UnfV G' gn'.val t)) :
    ∀ {o ks xs}, UnfI G o ks xs → ∃ xs', UnfI G' o ks xs'
  | _, _, _, .nil => ⟨[], .nil⟩
  | o, _, _, .cons (key := key) hk hkey hu hr => by
    obtain ⟨gn', h1, h2, _⟩ := h _ _ hk
    obtain ⟨t', ht⟩ := Unf.replace h hu
    obtain ⟨xs', hx⟩ := UnfI.replace h hr
    have : ∃ key', KeyIs o gn'.key key' := by
      cases o with
      | true =>
        rw [show _ = some key from hkey] at h2
        obtain ⟨key', hk'⟩ := Option.isSome_iff_exists.1 (h2.trans rfl)
        exact ⟨key', hk'⟩
      | false =>
        rw [show _ = none from hkey.1] at h2
        exact ⟨[], by simpa using h2, rfl⟩
    obtain ⟨key', hk'⟩ := this
    exact ⟨(key', t') :: xs', .cons h1 hk' ht hx⟩
end

/-! ### Changed memory -/

section
variable {st st' : St} {P P' : Addr → Prop} {G G' : Graph}

/-- The links of the node, as far as its parent and siblings rely on them, are the same. -/
def LinksSame (st st' : St) (G G' : Graph) (k : Addr) : Prop :=
  ∀ n gk, st.nodes k = some n → G k = some gk →
    ∃ n' gk', st'.nodes k = some n' ∧ G' k = some gk' ∧ n'.next = n.next ∧ n'.prev = n.prev ∧
      gk'.prevOK = gk.prevOK ∧ gk'.par = gk.par ∧ gk'.key.isSome = gk.key.isSome

theorem LinksSame.of_eq {k} (h1 : st'.nodes k = st.nodes k) (h2 : G' k = G k) :
    LinksSame st st' G G' k := by
  intro n gk hn hg
  exact ⟨n, gk, by rw [h1, hn], by rw [h2, hg], rfl, rfl, rfl, rfl, rfl⟩

theorem ConOK.update {a n o kids e} (h : ConOK st G a n o kids e)
    (hl : ∀ k ∈ kids, LinksSame st st' G G' k) : ConOK st' G' a n o kids e where
  type := h.type
  value := h.value
  len := h.len
  end_ := h.end_
  seg := by
    refine h.seg.congr fun k hk n gk hn hg => ?_
    obtain ⟨n', gk', a1, a2, a3, a4, a5, _⟩ := hl k hk n gk hn hg
    exact ⟨n', gk', a1, a2, a3, a4, a5⟩
  nodup := h.nodup
  kid := fun k hk => by
    obtain ⟨gk, h1, h2, h3⟩ := h.kid k hk
    have : ∃ n, st.nodes k = some n := by
      obtain ⟨l, r, rfl⟩ := List.append_of_mem hk
      obtain ⟨⟨n, _, hn, _⟩, _⟩ := (Seg.append.1 h.seg).2
      exact ⟨n, hn⟩
    obtain ⟨n, hn⟩ := this
    obtain ⟨n', gk', _, a2, _, _, _, a6, a7⟩ := hl k hk n gk hn h1
    exact ⟨gk', a2, by rw [a6, h2], by rw [a7, h3]⟩

theorem ValOK.update {a n gv e} (h : ValOK st P G a n gv e)
    (hl : ∀ k ∈ gv.kids, LinksSame st st' G G' k) (hP : ∀ b, P b → P' b)
    (hb : ∀ b, P b → st'.bufs b = st.bufs b) : ValOK st' P' G' a n gv e := by
  cases gv with
  | con o kids => exact ConOK.update h hl
  | _ => exact ScalarOK.mono h hP hb

theorem NodeOK.update {a gn n} (h : NodeOK st P G a gn n)
    (hl : ∀ k ∈ gn.val.kids, LinksSame st st' G G' k) (hP : ∀ b, P b → P' b)
    (hb : ∀ b, P b → st'.bufs b = st.bufs b) : NodeOK st' P' G' a gn n where
  key := h.key.mono hP hb
  father := h.father
  root := h.root
  val := h.val.update hl hP hb

end

theorem Inv.mono_pin {st P P' G} (h : Inv st P G) (hP : ∀ b, P b → P' b) (hp : PinOK st P') :
    Inv st P' G where
  ok := h.ok
  pin := hp
  rep := h.rep.mono (fun _ _ => rfl) hP (fun _ _ => rfl)
  fin := h.fin

theorem Inv.node {st P G} (h : Inv st P G) {a gn} (ha : G a = some gn) :
    ∃ n, st.nodes a = some n ∧ NodeOK st P G a gn n := h.rep a gn ha

/-! ### Frames -/

/-- From `st` to `st'` memory was allocated, and of the old memory only the nodes of
`N`, the handles of `V` and the byte blocks of `B` changed. No allocator was made or
released. -/
structure Frame (N V B : Addr → Prop) (st st' : St) : Prop where
  nodes : ∀ b, b < st.nn → ¬ N b → st'.nodes b = st.nodes b
  vals : ∀ b, b < st.nv → ¬ V b → st'.vals b = st.vals b
  bufs : ∀ b, b < st.nb → ¬ B b → st'.bufs b = st.bufs b
  nn : st.nn ≤ st'.nn
  nv : st.nv ≤ st'.nv
  nb : st.nb ≤ st'.nb
  allocs : st'.allocs = st.allocs
  na : st'.na = st.na
  slack : st'.slack = st.slack

/-- Nothing that existed before changed; only memory was allocated. -/
abbrev Unchanged (st st' : St) : Prop :=
  Frame (fun _ => False) (fun _ => False) (fun _ => False) st st' ∧ st'.cache = st.cache

theorem Frame.refl {N V B} (st : St) : Frame N V B st st :=
  ⟨fun _ _ _ => rfl, fun _ _ _ => rfl, fun _ _ _ => rfl, Nat.le_refl _, Nat.le_refl _,
    Nat.le_refl _, rfl, rfl, rfl⟩

theorem Frame.trans {N V B N' V' B'} {st st1 st2 : St} (h1 : Frame N V B st st1)
    (h2 : Frame N' V' B' st1 st2) (hN : ∀ b, b < st.nn → N' b → N b)
    (hV : ∀ b, b < st.nv → V' b → V b) (hB : ∀ b, b < st.nb → B' b → B b) :
    Frame N V B st st2 where
  nodes b hb hn := by
    have := h1.nn
    rw [h2.nodes b (by omega) (fun h => hn (hN b hb h)), h1.nodes b hb hn]
  vals b hb hn := by
    have := h1.nv
    rw [h2.vals b (by omega) (fun h => hn (hV b hb h)), h1.vals b hb hn]
  bufs b hb hn := by
    have := h1.nb
    rw [h2.bufs b (by omega) (fun h => hn (hB b hb h)), h1.bufs b hb hn]
  nn := Nat.le_trans h1.nn h2.nn
  nv := Nat.le_trans h1.nv h2.nv
  nb := Nat.le_trans h1.nb h2.nb
  allocs := h2.allocs.trans h1.allocs
  na := h2.na.trans h1.na
  slack := h2.slack.trans h1.slack

theorem Frame.weaken {N V B N' V' B'} {st st' : St} (h : Frame N V B st st')
    (hN : ∀ b, N b → N' b) (hV : ∀ b, V b → V' b) (hB : ∀ b, B b → B' b) :
    Frame N' V' B' st st' :=
  { h with
    nodes := fun b hb hn => h.nodes b hb fun x => hn (hN b x)
    vals := fun b hb hn => h.vals b hb fun x => hn (hV b x)
    bufs := fun b hb hn => h.bufs b hb fun x => hn (hB b x) }

theorem Unchanged.frame {N V B} {st st1 st2 : St} (h1 : Unchanged st st1)
    (h2 : Frame N V B st1 st2) : Frame N V B st st2 :=
  (h1.1.weaken (fun _ h => h.elim) (fun _ h => h.elim) (fun _ h => h.elim)).trans h2
    (fun _ _ h => h) (fun _ _ h => h) (fun _ _ h => h)

theorem Unchanged.trans {st st1 st2 : St} (h1 : Unchanged st st1) (h2 : Unchanged st1 st2) :
    Unchanged st st2 := ⟨h1.frame h2.1, h2.2.trans h1.2⟩

theorem StOK.buf_lt {st : St} (h : StOK st) {b bf} (hb : st.bufs b = some bf) : b < st.nb := by
  apply Decidable.byContradiction
  intro hlt
  rw [h.bufs b (by omega)] at hb
  cases hb

theorem StOK.val_lt {st : St} (h : StOK st) {b x} (hb : st.vals b = some x) : b < st.nv := by
  apply Decidable.byContradiction
  intro hlt
  rw [h.vals b (by omega)] at hb
  cases hb

theorem StOK.node_lt {st : St} (h : StOK st) {b x} (hb : st.nodes b = some x) : b < st.nn := by
  apply Decidable.byContradiction
  intro hlt
  rw [h.nodes b (by omega)] at hb
  cases hb

/-- Memory that only grew represents the same store. -/
theorem Inv.unchanged {st st' P G} (h : Inv st P G) (hu : Unchanged st st') (hok : StOK st') :
    Inv st' P G where
  ok := hok
  pin := by
    intro b hb
    obtain ⟨h1, h2⟩ := h.pin b hb
    obtain ⟨bf, hbf⟩ := Option.isSome_iff_exists.1 h1
    rw [hu.1.bufs b (h.ok.buf_lt hbf) id, hu.2]
    exact ⟨h1, h2⟩
  rep := by
    refine h.rep.mono (fun b hb => ?_) (fun _ h => h) (fun b hb => ?_)
    · obtain ⟨x, hx⟩ := Option.isSome_iff_exists.1 hb
      exact hu.1.nodes b (h.lt hx) id
    · obtain ⟨h1, h2⟩ := h.pin b hb
      obtain ⟨bf, hbf⟩ := Option.isSome_iff_exists.1 h1
      exact hu.1.bufs b (h.ok.buf_lt hbf) id
  fin := h.fin

end ZJ
