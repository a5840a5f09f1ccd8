import Verif.KeySim

/-
Taking a child out of a container (`zj_Move`, zzzjson.h:2171-2191) and appending a
root to a container (zzzjson.h:2654-2663) on the abstract store.
-/

set_option linter.unusedSimpArgs false

namespace ZJ

/-- The store after `a` was moved out of the container `f` with the children
`l ++ a :: r`. The flags record which pointers `zj_Move` leaves null. -/
def Graph.detach (G : Graph) (f a : Addr) (o : Bool) (l r : List Addr) : Graph := fun b =>
  if b = a then (G b).map fun g => { g with par := none, prevOK := true }
  else if b = f then
    (G b).map fun g => { g with val := .con o (l ++ r), endOK := g.endOK && (l.isEmpty || !r.isEmpty) }
  else if r.head? = some b then (G b).map fun g => { g with prevOK := l.isEmpty }
  else G b

/-- The store after the root `x` was appended to the container `f`. -/
def Graph.attach (G : Graph) (f x : Addr) (o : Bool) (kids : List Addr) : Graph := fun b =>
  if b = x then (G b).map fun g => { g with par := some f, prevOK := true }
  else if b = f then (G b).map fun g => { g with val := .con o (kids ++ [x]), endOK := true }
  else G b

/-- What `zj_Move` did to the memory. -/
structure Detached (st st' : St) (f a : Addr) (l r : List Addr) : Prop where
  self : ∃ n, st.nodes a = some n ∧
    st'.nodes a = some { n with next := some none, prev := some none, father := some none }
  fa : ∃ n, st.nodes f = some n ∧ st'.nodes f = some { n with
    value := some (.node (hdOr (l ++ r) none)), len := some (l ++ r).length,
    end_ := if r = [] then some none else n.end_ }
  last : ∀ p, lastOr none l = some p → ∃ n, st.nodes p = some n ∧
    st'.nodes p = some { n with next := some (hdOr r none) }
  head : ∀ x, hdOr r none = some x → ∃ n, st.nodes x = some n ∧
    st'.nodes x = some { n with prev := some none }
  other : ∀ c, c ≠ a → c ≠ f → lastOr none l ≠ some c → hdOr r none ≠ some c →
    st'.nodes c = st.nodes c
  rest : st' = { st with nodes := st'.nodes }

theorem lastOr_mem : ∀ {l : List Addr} {pv p}, lastOr pv l = some p → pv = some p ∨ p ∈ l
  | [], _, _, h => .inl h
  | k :: l, _, _, h => by
    rcases lastOr_mem (l := l) h with h | h
    · cases h; exact .inr (by simp)
    · exact .inr (by simp [h])

theorem hdOr_mem {l : List Addr} {x} (h : hdOr l none = some x) : x ∈ l := by
  cases l with
  | nil => cases h
  | cons k l => cases h; simp

theorem mem_mid {l r : List Addr} {a k} (h : k ∈ l ++ r) : k ∈ l ++ a :: r := by
  rcases List.mem_append.1 h with h | h <;> simp [h]

theorem head?_hdOr {l : List Addr} : l.head? = hdOr l none := by cases l <;> rfl

section
variable {st st' : St} {P : Addr → Prop} {G : Graph} {f a x : Addr} {gf ga gx : GNode} {o : Bool} {l r kids : List Addr}

theorem Inv.con_kid (hI : Inv st P G) (hf : G f = some gf) (hv : gf.val = .con o kids) {k} (hk : k ∈ kids) :
    ∃ gk, G k = some gk ∧ gk.par = some f ∧ gk.key.isSome = o := by
  obtain ⟨_, _, hc, _⟩ := hI.con hf hv
  exact hc.kid k hk

theorem Inv.con_ne (hI : Inv st P G) (hf : G f = some gf) (hv : gf.val = .con o kids) {k c} (hk : k ∈ kids)
    (hr : Reach G k c) : c ≠ f := by
  obtain ⟨t, ht⟩ := hI.fin f gf hf
  exact ht.kid_ne hf (by rw [hv]; exact hk) hr

/-- Values and keys of all nodes but `f` are the same. -/
theorem Unf.but {G G' : Graph} {b f t} (h : Unf G b t) (hn : ¬ Reach G b f)
    (hs : ∀ c gc, c ≠ f → G c = some gc → ∃ gc', G' c = some gc' ∧ gc'.val = gc.val ∧ gc'.key = gc.key) :
    Unf G' b t := by
  refine h.same ⟨fun c gc hc hg => ?_, fun c gc k gk hc hg hk hgk => ?_⟩
  · obtain ⟨gc', h1, h2, _⟩ := hs c gc (fun e => hn (e ▸ hc)) hg
    exact ⟨gc', h1, h2⟩
  · obtain ⟨gc', h1, _, h2⟩ := hs k gk (fun e => hn (e ▸ hc.trans (.step hg hk .refl))) hgk
    exact ⟨gc', h1, h2⟩

theorem UnfI.but {G G' : Graph} {ks xs f} (h : UnfI G o ks xs) (hn : ∀ k ∈ ks, ¬ Reach G k f)
    (hs : ∀ c gc, c ≠ f → G c = some gc → ∃ gc', G' c = some gc' ∧ gc'.val = gc.val ∧ gc'.key = gc.key) :
    UnfI G' o ks xs := by
  refine UnfI.same h (fun k hk => ⟨fun c gc hc hg => ?_, fun c gc k' gk hc hg hk' hgk => ?_⟩) (fun k gk hk hgk => ?_)
  · obtain ⟨gc', h1, h2, _⟩ := hs c gc (fun e => hn k hk (e ▸ hc)) hg
    exact ⟨gc', h1, h2⟩
  · obtain ⟨gc', h1, _, h2⟩ := hs k' gk (fun e => hn k hk (e ▸ hc.trans (.step hg hk' .refl))) hgk
    exact ⟨gc', h1, h2⟩
  · obtain ⟨gc', h1, _, h2⟩ := hs k gk (fun e => hn k hk (e ▸ .refl)) hgk
    exact ⟨gc', h1, h2⟩

/-! ### The store after a move -/

theorem detach_self (ha : G a = some ga) :
    G.detach f a o l r a = some { ga with par := none, prevOK := true } := by
  simp [Graph.detach, ha]

theorem detach_fa (hf : G f = some gf) (hne : f ≠ a) : G.detach f a o l r f =
    some { gf with val := .con o (l ++ r), endOK := gf.endOK && (l.isEmpty || !r.isEmpty) } := by
  simp [Graph.detach, hf, hne]

theorem detach_same {c gc} (h1 : c ≠ f) (hc : G c = some gc) : ∃ gc', G.detach f a o l r c = some gc' ∧
    gc'.val = gc.val ∧ gc'.key = gc.key ∧ gc'.endOK = gc.endOK := by
  by_cases h2 : c = a
  · subst h2; exact ⟨_, detach_self hc, rfl, rfl, rfl⟩
  · by_cases h3 : r.head? = some c
    · exact ⟨{ gc with prevOK := l.isEmpty }, by simp [Graph.detach, h1, h2, h3, hc], rfl, rfl, rfl⟩
    · exact ⟨gc, by simp [Graph.detach, h1, h2, h3, hc], rfl, rfl, rfl⟩

/-- The documents after a move: the child keeps its document, the container loses it,
documents that do not contain the container stay. -/
theorem Inv.detach_doc (hI : Inv st P G) (hf : G f = some gf) (hv : gf.val = .con o (l ++ a :: r)) :
    ∃ ys key ta zs, Unf G f (mkCon o (ys ++ (key, ta) :: zs)) ∧ Unf G a ta ∧
      UnfI G o l ys ∧ UnfI G o r zs ∧
      Unf (G.detach f a o l r) a ta ∧ Unf (G.detach f a o l r) f (mkCon o (ys ++ zs)) ∧
      UnfI (G.detach f a o l r) o (l ++ r) (ys ++ zs) := by
  obtain ⟨t, ht⟩ := hI.fin f gf hf
  obtain ⟨xs, rfl, hi⟩ := ht.con_inv hf hv
  obtain ⟨ys, zs', rfl, h1, h2⟩ := hi.split
  cases h2 with
  | @cons _ _ _ gk key ta zs hk hkey hu hr =>
    have hne : ∀ k ∈ l ++ a :: r, ¬ Reach G k f := fun k hk hr => hI.con_ne hf hv hk hr rfl
    have hs : ∀ c gc, c ≠ f → G c = some gc → ∃ gc', G.detach f a o l r c = some gc' ∧ gc'.val = gc.val ∧ gc'.key = gc.key :=
      fun c gc h hc => by
        obtain ⟨gc', h1, h2, h3, _⟩ := detach_same (a := a) (o := o) (l := l) (r := r) h hc
        exact ⟨gc', h1, h2, h3⟩
    have hfa : f ≠ a := fun e => hne a (by simp) (e ▸ .refl)
    have hi' : UnfI (G.detach f a o l r) o (l ++ r) (ys ++ zs) :=
      (h1.app hr).but (fun k hk => hne k (mem_mid hk)) hs
    exact ⟨ys, key, ta, zs, ht, hu, h1, hr, hu.but (hne a (by simp)) hs,
      .mk (detach_fa hf hfa) (.con hi'), hi'⟩

theorem Inv.detach_fin (hI : Inv st P G) (hf : G f = some gf) (hv : gf.val = .con o (l ++ a :: r)) {b gb}
    (hb : G.detach f a o l r b = some gb) : ∃ t, Unf (G.detach f a o l r) b t := by
  obtain ⟨ys, key, ta, zs, _, _, _, _, _, h1, hi⟩ := hI.detach_doc hf hv
  have hfa : f ≠ a := fun e => hI.con_ne hf hv (k := a) (by simp) .refl e.symm
  have : ∃ gb0, G b = some gb0 := by
    unfold Graph.detach at hb
    cases h : G b with
    | some g => exact ⟨g, rfl⟩
    | none => simp [h] at hb
  obtain ⟨gb0, hb0⟩ := this
  obtain ⟨t, ht⟩ := hI.fin b gb0 hb0
  refine ht.keepFin (D := fun _ => True) (fun _ _ _ _ _ _ => trivial) ?_ ?_ trivial
  · intro c gc _ hc
    by_cases hcf : c = f
    · subst hcf; exact ⟨_, detach_fa hc hfa, .inr ⟨_, .con hi⟩⟩
    · obtain ⟨gc', g1, g2, _⟩ := detach_same (a := a) (o := o) (l := l) (r := r) hcf hc
      exact ⟨gc', g1, .inl g2⟩
  · intro c gc k gk _ hc hk hgk
    by_cases hkf : k = f
    · subst hkf; rw [hf] at hgk; cases hgk; exact ⟨_, detach_fa hf hfa, rfl⟩
    · obtain ⟨gc', g1, _, g2, _⟩ := detach_same (a := a) (o := o) (l := l) (r := r) hkf hgk
      exact ⟨gc', g1, by rw [g2]⟩

theorem mem_iff_of_last {p : Addr} (h : lastOr none l = some p) : p ∈ l := by
  rcases lastOr_mem h with h | h
  · cases h
  · exact h

/-- The memory after a move represents the store after the move. -/
theorem Inv.detach (hI : Inv st P G) (hf : G f = some gf) (hv : gf.val = .con o (l ++ a :: r))
    (hd : Detached st st' f a l r) : Inv st' P (G.detach f a o l r) := by
  obtain ⟨nf, hnf, hc, hnok⟩ := hI.con hf hv
  obtain ⟨ga, hga, hpa, hka⟩ := hc.kid a (by simp)
  have hfa : f ≠ a := fun e => hI.con_ne hf hv (k := a) (by simp) .refl e.symm
  have hnd := hc.nodup
  have hal : a ∉ l := by rw [List.nodup_append] at hnd; intro h; exact hnd.2.2 a h a (by simp) rfl
  have har : a ∉ r := by rw [List.nodup_append, List.nodup_cons] at hnd; exact hnd.2.1.1
  have hlr : ∀ c ∈ l, c ∉ r := by
    rw [List.nodup_append] at hnd; intro c h1 h2; exact hnd.2.2 c h1 c (by simp [h2]) rfl
  have hndlr : (l ++ r).Nodup := by
    rw [List.nodup_append, List.nodup_cons] at hnd
    rw [List.nodup_append]
    exact ⟨hnd.1, hnd.2.1.2, fun c h1 d h2 => hnd.2.2 c h1 d (by simp [h2])⟩
  have hkf : ∀ c ∈ l ++ a :: r, c ≠ f := fun c h => hI.con_ne hf hv h .refl
  have hpar : ∀ c ∈ l ++ a :: r, ∀ gc, G c = some gc → gc.par = some f := by
    intro c h gc hg
    obtain ⟨gk, h1, h2, _⟩ := hc.kid c h
    rw [hg] at h1; cases h1; exact h2
  obtain ⟨nf0, hnf0, hnf'⟩ := hd.fa
  rw [hnf] at hnf0; cases hnf0
  obtain ⟨na, hna, hna'⟩ := hd.self
  -- links of nodes that are not children of `f`
  have hl : ∀ k gk, G k = some gk → gk.par ≠ some f → LinksSame st st' G (G.detach f a o l r) k := by
    intro k gk hg hp
    by_cases hkf' : k = f
    · subst hkf'
      intro n g h1 h2
      rw [hnf] at h1; cases h1
      rw [hf] at h2; cases h2
      exact ⟨_, _, hnf', detach_fa hf hfa, rfl, rfl, rfl, rfl, rfl⟩
    · have h1 : k ≠ a := by rintro rfl; exact hp (hpar k (by simp) gk hg)
      have h2 : lastOr none l ≠ some k := fun e => hp (hpar k (by simp [mem_iff_of_last e]) gk hg)
      have h3 : hdOr r none ≠ some k := fun e => hp (hpar k (by simp [hdOr_mem e]) gk hg)
      refine LinksSame.of_eq (hd.other k h1 hkf' h2 h3) ?_
      simp [Graph.detach, h1, hkf', head?_hdOr, h3]
  have hlk : ∀ b gb, G b = some gb → b ≠ f → ∀ k ∈ gb.val.kids, LinksSame st st' G (G.detach f a o l r) k := by
    intro b gb hb hne k hk
    obtain ⟨gk, h1, h2⟩ := hI.kid hb hk
    exact hl k gk h1 (by rw [h2]; intro e; cases e; exact hne rfl)
  have hseg : Seg st' (G.detach f a o l r) none (l ++ r) none := by
    obtain ⟨s1, s2⟩ := Seg.append.1 hc.seg
    obtain ⟨_, s3⟩ := s2
    refine Seg.append.2 ⟨?_, ?_⟩
    · rcases List.eq_nil_or_concat l with rfl | ⟨l0, p, rfl⟩
      · trivial
      · rw [List.concat_eq_append] at *
        obtain ⟨t1, t2⟩ := Seg.append.1 s1
        refine Seg.append.2 ⟨t1.congr ?_, ?_⟩
        · intro k hk n gk h1 h2
          have e1 : k ≠ a := by rintro rfl; exact hal (by simp [hk])
          have e2 : k ≠ f := hkf k (by simp [hk])
          have e3 : k ≠ p := by
            rintro rfl
            rw [List.append_assoc, List.nodup_append] at hnd
            exact hnd.2.2 k hk k (by simp) rfl
          have e4 : hdOr r none ≠ some k := fun e => hlr k (by simp [hk]) (hdOr_mem e)
          refine ⟨n, gk, ?_, ?_, rfl, rfl, rfl⟩
          · rw [hd.other k e1 e2 (by simp [lastOr_append]; exact Ne.symm e3) e4, h1]
          · simp [Graph.detach, e1, e2, head?_hdOr, e4, h2]
        · obtain ⟨⟨n, gk, h1, h2, h3, h4⟩, _⟩ := t2
          obtain ⟨n', h1', h2'⟩ := hd.last p (by simp [lastOr_append])
          rw [h1] at h1'; cases h1'
          have e1 : p ≠ a := by rintro rfl; exact hal (by simp)
          have e2 : p ≠ f := hkf p (by simp)
          have e4 : hdOr r none ≠ some p := fun e => hlr p (by simp) (hdOr_mem e)
          exact ⟨⟨_, gk, h2', by simp [Graph.detach, e1, e2, head?_hdOr, e4, h2], rfl, h4⟩, trivial⟩
    · cases r with
      | nil => trivial
      | cons y r0 =>
        obtain ⟨⟨n, gk, h1, h2, h3, h4⟩, s4⟩ := s3
        obtain ⟨n', h1', h2'⟩ := hd.head y rfl
        rw [h1] at h1'; cases h1'
        have e1 : y ≠ a := by rintro rfl; exact har (by simp)
        have e2 : y ≠ f := hkf y (by simp)
        refine ⟨⟨_, { gk with prevOK := l.isEmpty }, h2', by simp [Graph.detach, e1, e2, h2], h3, ?_⟩, s4.congr ?_⟩
        · cases l <;> simp
        · intro k hk m gm g1 g2
          have e3 : k ≠ a := by rintro rfl; exact har (by simp [hk])
          have e4 : k ≠ f := hkf k (by simp [hk])
          have e5 : k ≠ y := by
            rintro rfl
            rw [List.nodup_append, List.nodup_cons, List.nodup_cons] at hnd
            exact hnd.2.1.2.1 hk
          have e6 : lastOr none l ≠ some k := fun e => hlr k (mem_iff_of_last e) (by simp [hk])
          refine ⟨m, gm, ?_, ?_, rfl, rfl, rfl⟩
          · rw [hd.other k e3 e4 e6 (by simp; exact Ne.symm e5), g1]
          · simp [Graph.detach, e3, e4, Ne.symm e5, g2]
  have hst : StOK st' := by
    rw [hd.rest]
    refine ⟨fun b hb => ?_, hI.ok.vals, hI.ok.bufs, hI.ok.size, hI.ok.live, hI.ok.cache⟩
    have hnone := hI.ok.nodes b hb
    have hlt : ∀ c gc, G c = some gc → b ≠ c := by intro c gc hg; have := hI.lt hg; simp only at hb; omega
    have hmem : ∀ c ∈ l ++ a :: r, b ≠ c := fun c h => by
      obtain ⟨gk, h1, _⟩ := hc.kid c h; exact hlt c gk h1
    rw [← hnone]
    exact hd.other b (hmem a (by simp)) (hlt f gf hf) (fun e => hmem b (by simp [mem_iff_of_last e]) rfl)
      (fun e => hmem b (by simp [hdOr_mem e]) rfl)
  have hbufs : st'.bufs = st.bufs := by rw [hd.rest]
  have hcache : st'.cache = st.cache := by rw [hd.rest]
  refine hI.change hst ?_ (fun _ h => h) (fun b _ => by rw [hbufs]) ?_ (fun b gb hb => hI.detach_fin hf hv hb)
  · intro b hb; have := hI.pin b hb; simpa [hbufs, hcache] using this
  · intro b gb hb
    by_cases hba : b = a
    · subst hba
      rw [detach_self hga] at hb; cases hb
      exact .inl ⟨ga, na, _, hga, hna, hna', ⟨rfl, rfl, rfl, rfl, rfl, rfl, rfl, rfl, rfl⟩, rfl, fun _ => ⟨rfl, rfl⟩,
        hlk b ga hga (Ne.symm hfa)⟩
    · by_cases hbf : b = f
      · subst hbf
        rw [detach_fa hf hfa] at hb; cases hb
        refine .inr ⟨_, hnf', ?_, hnok.father, hnok.root, ?_⟩
        · exact (hnok.key.mono (fun _ h => h) (fun _ _ => by rw [hbufs])).fields rfl rfl
        · refine ⟨hc.type, rfl, rfl, ?_, hseg, hndlr, ?_⟩
          · intro he hne
            simp only [Bool.and_eq_true, Bool.or_eq_true] at he
            have hrne : r ≠ [] := by
              rintro rfl
              simp at he
              simp [he.2] at hne
            simp only [hrne, if_false]
            rw [hc.end_ he.1 (by simp)]
            cases r with
            | nil => exact absurd rfl hrne
            | cons y r0 => simp [lastOr_append]
          · intro k hk
            have hk' : k ∈ l ++ a :: r := mem_mid hk
            obtain ⟨gk, g1, g2, g3⟩ := hc.kid k hk'
            have e1 : k ≠ a := by rintro rfl; rcases List.mem_append.1 hk with h | h <;> contradiction
            have e2 := hkf k hk'
            by_cases e3 : r.head? = some k
            · exact ⟨{ gk with prevOK := l.isEmpty }, by simp [Graph.detach, e1, e2, e3, g1], g2, g3⟩
            · exact ⟨gk, by simp [Graph.detach, e1, e2, e3, g1], g2, g3⟩
      · by_cases hbh : r.head? = some b
        · have hb0 : ∃ g0, G b = some g0 ∧ gb = { g0 with prevOK := l.isEmpty } := by
            simp [Graph.detach, hba, hbf, hbh] at hb
            obtain ⟨g0, h1, h2⟩ := hb
            exact ⟨g0, h1, h2.symm⟩
          obtain ⟨g0, hg0, rfl⟩ := hb0
          obtain ⟨n, hn, hn'⟩ := hd.head b (by rw [← head?_hdOr]; exact hbh)
          obtain ⟨m, hm, hmok⟩ := hI.rep b g0 hg0
          rw [hn] at hm; cases hm
          have hp := hpar b (by rw [head?_hdOr] at hbh; simp [hdOr_mem hbh]) g0 hg0
          exact .inl ⟨g0, n, _, hg0, hn, hn', ⟨rfl, rfl, rfl, rfl, rfl, rfl, rfl, rfl, rfl⟩, hmok.father,
            fun h => by simp [hp] at h, hlk b g0 hg0 hbf⟩
        · have hb0 : G b = some gb := by simpa [Graph.detach, hba, hbf, hbh] using hb
          by_cases hbl : lastOr none l = some b
          · obtain ⟨n, hn, hn'⟩ := hd.last b hbl
            obtain ⟨m, hm, hmok⟩ := hI.rep b gb hb0
            rw [hn] at hm; cases hm
            have hp := hpar b (by simp [mem_iff_of_last hbl]) gb hb0
            exact .inl ⟨gb, n, _, hb0, hn, hn', ⟨rfl, rfl, rfl, rfl, rfl, rfl, rfl, rfl, rfl⟩, hmok.father,
              fun h => by simp [hp] at h, hlk b gb hb0 hbf⟩
          · exact .inl (hI.keep hb0 (hd.other b hba hbf hbl (by rw [← head?_hdOr]; exact hbh)) (hlk b gb hb0 hbf))

/-! ### `zj_Move` -/

/-- When `zj_Move` of a child works: it is the first child or its back link is intact. -/
def MoveOK (ga : GNode) (l : List Addr) : Prop := l = [] ∨ ga.prevOK = true

theorem move_child {v A : Addr} (hI : Inv st P G) (hv : st.vals v = some ⟨some a, A⟩)
    (ha : G a = some ga) (hf : G f = some gf) (hgv : gf.val = .con o (l ++ a :: r)) (hok : MoveOK ga l) :
    ∃ st', move v st = .ok (true, st') ∧ Detached st st' f a l r := by
  obtain ⟨nf, hnf, hc, hnok⟩ := hI.con hf hgv
  obtain ⟨ga', hga, hpa, hka⟩ := hc.kid a (by simp)
  rw [ha] at hga; cases hga
  obtain ⟨na, hna, hnaok⟩ := hI.rep a ga ha
  have hfa : f ≠ a := fun e => hI.con_ne hf hgv (k := a) (by simp) .refl e.symm
  have hkf : ∀ c ∈ l ++ a :: r, c ≠ f := fun c h => hI.con_ne hf hgv h .refl
  have hnd := hc.nodup
  have hal : a ∉ l := by rw [List.nodup_append] at hnd; intro h; exact hnd.2.2 a h a (by simp) rfl
  have har : a ∉ r := by rw [List.nodup_append, List.nodup_cons] at hnd; exact hnd.2.1.1
  have hlr : ∀ c ∈ l, c ∉ r := by
    rw [List.nodup_append] at hnd; intro c h1 h2; exact hnd.2.2 c h1 c (by simp [h2]) rfl
  obtain ⟨s1, s2⟩ := Seg.append.1 hc.seg
  obtain ⟨⟨na', ga', h1, h2, hnext, hprev⟩, s3⟩ := s2
  rw [hna] at h1; cases h1
  rw [ha] at h2; cases h2
  have hprev' : na.prev = some (lastOr none l) := by
    rcases hok with rfl | hp
    · rw [hprev]; cases ga.prevOK <;> rfl
    · rw [hprev, hp]; rfl
  have hfath : na.father = some (some f) := by rw [hnaok.father, hpa]
  have hlen : nf.len = some (l.length + r.length + 1) := by rw [hc.len]; simp; omega
  have hdec : dec32 (l.length + r.length + 1) = (l ++ r).length := by simp [dec32]
  have hlt := hI.lt ha
  -- first step
  have step1 : ∃ st1, unlinkPrev f a st = .ok ((), st1) ∧
      st1.nodes a = some { na with prev := some none } ∧
      st1.nodes f = some { nf with value := some (.node (hdOr (l ++ r) none)) } ∧
      (∀ p, lastOr none l = some p → ∃ n, st.nodes p = some n ∧ st1.nodes p = some { n with next := some (hdOr r none) }) ∧
      (∀ c, c ≠ a → c ≠ f → lastOr none l ≠ some c → st1.nodes c = st.nodes c) ∧
      st1 = { st with nodes := st1.nodes } := by
    cases hll : lastOr none l with
    | none =>
      have : l = [] := by
        rcases List.eq_nil_or_concat l with rfl | ⟨l0, p, rfl⟩
        · rfl
        · rw [List.concat_eq_append, lastOr_append] at hll; cases hll
      subst this
      refine ⟨st.setN f { nf with value := some (.node (hdOr r none)) }, ?_, ?_, ?_, fun _ h => (by cases h), ?_, rfl⟩
      · unfold unlinkPrev
        mstep nPrev_run hna hprev'
        simp only [lastOr_nil]
        mstep nNext_run hna hnext
        exact modNode_run hnf
      · have e : na.prev = some none := hprev'
        simp [Ne.symm hfa, hna, ← e]
      · simp
      · intro c h1 h2 _
        simp [h2]
    | some p =>
      have hpl := mem_iff_of_last hll
      have hpa' : p ≠ a := by rintro rfl; exact hal hpl
      have hpf : p ≠ f := hkf p (by simp [hpl])
      obtain ⟨np, hnp⟩ : ∃ n, st.nodes p = some n := by
        obtain ⟨gk, g1, _⟩ := hc.kid p (by simp [hpl])
        obtain ⟨n, g2, _⟩ := hI.rep p gk g1
        exact ⟨n, g2⟩
      refine ⟨(st.setN p { np with next := some (hdOr r none) }).setN a { na with prev := some none }, ?_, by simp, ?_, ?_, ?_, rfl⟩
      · unfold unlinkPrev
        mstep nPrev_run hna hprev'
        simp only [hll]
        mstep nNext_run hna hnext
        mstep modNode_run hnp
        exact modNode_run (by simp [Ne.symm hpa']; exact hna)
      · have : l ≠ [] := by rintro rfl; cases hpl
        have e : nf.value = some (.node (hdOr (l ++ r) none)) := by
          rw [hc.value]; cases l with
          | nil => exact absurd rfl this
          | cons y l0 => rfl
        simp [hfa, Ne.symm hpf, hnf, ← e]
      · intro q hq; cases hq
        exact ⟨np, hnp, by simp [hpa']⟩
      · intro c h1 h2 h3
        have : c ≠ p := by rintro rfl; exact h3 rfl
        simp [h1, this]
  obtain ⟨st1, e1, n1a, n1f, n1p, n1o, n1r⟩ := step1
  have step2 : ∃ st2, unlinkNext f a st1 = .ok ((), st2) ∧
      st2.nodes a = some { na with prev := some none, next := some none } ∧
      st2.nodes f = some { nf with value := some (.node (hdOr (l ++ r) none)), end_ := if r = [] then some none else nf.end_ } ∧
      (∀ x, hdOr r none = some x → ∃ n, st.nodes x = some n ∧ st2.nodes x = some { n with prev := some none }) ∧
      (∀ c, c ≠ a → c ≠ f → hdOr r none ≠ some c → st2.nodes c = st1.nodes c) ∧
      st2 = { st with nodes := st2.nodes } := by
    cases hrr : r with
    | nil =>
      subst hrr
      refine ⟨st1.setN f { nf with value := some (.node (hdOr (l ++ []) none)), end_ := some none }, ?_, ?_, ?_, fun _ h => (by cases h), ?_, ?_⟩
      · unfold unlinkNext
        mstep nNext_run n1a hnext
        simp only [hdOr_nil]
        mstep nPrev_run n1a rfl
        exact modNode_run n1f
      · have e : na.next = some none := hnext
        simp [Ne.symm hfa, n1a, ← e]
      · simp
      · intro c h1 h2 _
        simp [h2]
      · rw [n1r]; rfl
    | cons x r0 =>
      have hxr : x ∈ r := by rw [hrr]; simp
      have hxa : x ≠ a := by rintro rfl; exact har hxr
      have hxf : x ≠ f := hkf x (by simp [hxr])
      have hxl : lastOr none l ≠ some x := fun e => hlr x (mem_iff_of_last e) hxr
      obtain ⟨nx, hnx⟩ : ∃ n, st.nodes x = some n := by
        obtain ⟨gk, g1, _⟩ := hc.kid x (by simp [hxr])
        obtain ⟨n, g2, _⟩ := hI.rep x gk g1
        exact ⟨n, g2⟩
      have hnx1 : st1.nodes x = some nx := by rw [n1o x hxa hxf hxl, hnx]
      refine ⟨(st1.setN x { nx with prev := some none }).setN a { na with prev := some none, next := some none }, ?_, by simp, ?_, ?_, ?_, ?_⟩
      · unfold unlinkNext
        mstep nNext_run n1a hnext
        simp only [hrr, hdOr_cons]
        mstep nPrev_run n1a rfl
        mstep modNode_run hnx1
        exact modNode_run (n := { na with prev := some none }) (by simp [Ne.symm hxa]; exact n1a)
      · simp [hfa, Ne.symm hxf, n1f, hrr]
      · intro q hq; cases hq
        exact ⟨nx, hnx, by simp [hxa]⟩
      · intro c h1 h2 h3
        have : c ≠ x := by rintro rfl; exact h3 rfl
        simp [h1, this]
      · rw [n1r]; rfl
  obtain ⟨st2, e2, n2a, n2f, n2x, n2o, n2r⟩ := step2
  refine ⟨(st2.setN f { nf with value := some (.node (hdOr (l ++ r) none)), end_ := if r = [] then some none else nf.end_, len := some (l ++ r).length }).setN a
    { na with prev := some none, next := some none, father := some none }, ?_, ?_⟩
  · unfold move
    mstep rdVal_run hv
    simp only
    mstep nFather_run hna hfath
    simp only
    mstep e1
    mstep e2
    mstep nFather_run n2a hfath
    simp only [deref_some]
    mstep M.pure_run _ _
    mstep nLen_run n2f hlen
    rw [hdec]
    mstep modNode_run n2f
    mstep modNode_run (n := { na with prev := some none, next := some none }) (by simp [Ne.symm hfa]; exact n2a)
    rfl
  · refine ⟨⟨na, hna, by simp⟩, ⟨nf, hnf, by simp [hfa]⟩, ?_, ?_, ?_, by rw [n2r]; rfl⟩
    · intro p hp
      have hpl := mem_iff_of_last hp
      have hpa' : p ≠ a := by rintro rfl; exact hal hpl
      have hpf : p ≠ f := hkf p (by simp [hpl])
      obtain ⟨n, g1, g2⟩ := n1p p hp
      exact ⟨n, g1, by simp [hpa', hpf]; rw [n2o p hpa' hpf (fun e => hlr p hpl (hdOr_mem e)), g2]⟩
    · intro x hx
      have hxr := hdOr_mem hx
      have hxa : x ≠ a := by rintro rfl; exact har hxr
      have hxf : x ≠ f := hkf x (by simp [hxr])
      obtain ⟨n, g1, g2⟩ := n2x x hx
      exact ⟨n, g1, by simp [hxa, hxf, g2]⟩
    · intro c c1 c2 c3 c4
      simp [c1, c2]
      rw [n2o c c1 c2 c4, n1o c c1 c2 c3]

theorem move_root {v A : Addr} (hI : Inv st P G) (hv : st.vals v = some ⟨some a, A⟩)
    (ha : G a = some ga) (hp : ga.par = none) : move v st = .ok (true, st) := by
  obtain ⟨na, hna, hnaok⟩ := hI.rep a ga ha
  unfold move
  mstep rdVal_run hv
  simp only
  mstep nFather_run hna (by rw [hnaok.father, hp])
  rfl

theorem move_empty {v A : Addr} (hv : st.vals v = some ⟨none, A⟩) : move v st = .ok (false, st) := by
  unfold move
  mstep rdVal_run hv
  rfl

/-! ### Appending a child -/

theorem attach_self (hx : G x = some gx) :
    G.attach f x o kids x = some { gx with par := some f, prevOK := true } := by
  simp [Graph.attach, hx]

theorem attach_fa (hf : G f = some gf) (hne : f ≠ x) : G.attach f x o kids f =
    some { gf with val := .con o (kids ++ [x]), endOK := true } := by
  simp [Graph.attach, hf, hne]

theorem attach_same {c gc} (h1 : c ≠ f) (hc : G c = some gc) : ∃ gc', G.attach f x o kids c = some gc' ∧
    gc'.val = gc.val ∧ gc'.key = gc.key ∧ gc'.endOK = gc.endOK := by
  by_cases h2 : c = x
  · subst h2; exact ⟨_, attach_self hc, rfl, rfl, rfl⟩
  · exact ⟨gc, by simp [Graph.attach, h1, h2, hc], rfl, rfl, rfl⟩

/-- The documents after `x` was appended to `f`. -/
theorem Inv.attach_doc (hI : Inv st P G) (hf : G f = some gf) (hv : gf.val = .con o kids)
    (hx : G x = some gx) (hr : ¬ Reach G x f) {key} (hk : KeyIs o gx.key key) :
    ∃ xs tx, Unf G f (mkCon o xs) ∧ Unf G x tx ∧ Unf (G.attach f x o kids) x tx ∧
      Unf (G.attach f x o kids) f (mkCon o (xs ++ [(key, tx)])) ∧
      UnfI (G.attach f x o kids) o (kids ++ [x]) (xs ++ [(key, tx)]) := by
  obtain ⟨t, ht⟩ := hI.fin f gf hf
  obtain ⟨tx, htx⟩ := hI.fin x gx hx
  obtain ⟨xs, rfl, hi⟩ := ht.con_inv hf hv
  have hne : ∀ k ∈ kids, ¬ Reach G k f := fun k hk hr => hI.con_ne hf hv hk hr rfl
  have hs : ∀ c gc, c ≠ f → G c = some gc → ∃ gc', G.attach f x o kids c = some gc' ∧ gc'.val = gc.val ∧ gc'.key = gc.key :=
    fun c gc h hc => by
      obtain ⟨gc', h1, h2, h3, _⟩ := attach_same (x := x) (o := o) (kids := kids) h hc
      exact ⟨gc', h1, h2, h3⟩
  have hfx : f ≠ x := fun e => hr (e ▸ .refl)
  have hu := htx.but hr hs
  have hi' : UnfI (G.attach f x o kids) o (kids ++ [x]) (xs ++ [(key, tx)]) :=
    (hi.but hne hs).app (.cons (attach_self hx) hk hu .nil)
  exact ⟨xs, tx, ht, htx, hu, .mk (attach_fa hf hfx) (.con hi'), hi'⟩

/-- What the append did to the memory. -/
structure Attached (st st' : St) (f x : Addr) (kids : List Addr) : Prop where
  self : ∃ n, st.nodes x = some n ∧
    st'.nodes x = some { n with prev := some (lastOr none kids), father := some (some f) }
  fa : ∃ n, st.nodes f = some n ∧ st'.nodes f = some { n with
    value := some (.node (hdOr (kids ++ [x]) none)), len := some (kids ++ [x]).length,
    end_ := some (some x) }
  last : ∀ p, lastOr none kids = some p → ∃ n, st.nodes p = some n ∧
    st'.nodes p = some { n with next := some (some x) }
  other : ∀ c, c ≠ x → c ≠ f → lastOr none kids ≠ some c → st'.nodes c = st.nodes c
  rest : st' = { st with nodes := st'.nodes }

theorem Inv.attach (hI : Inv st P G) (hf : G f = some gf) (hv : gf.val = .con o kids)
    (hx : G x = some gx) (hp : gx.par = none) (hr : ¬ Reach G x f) (hk : gx.key.isSome = o)
    (hd : Attached st st' f x kids) : Inv st' P (G.attach f x o kids) := by
  obtain ⟨nf, hnf, hc, hnok⟩ := hI.con hf hv
  have hfx : f ≠ x := fun e => hr (e ▸ .refl)
  have hxk : x ∉ kids := by have := hI.not_kid hx hp hf; rw [hv] at this; exact this
  have hkf : ∀ c ∈ kids, c ≠ f := fun c h => hI.con_ne hf hv h .refl
  have hpar : ∀ c ∈ kids, ∀ gc, G c = some gc → gc.par = some f := by
    intro c h gc hg
    obtain ⟨gk, h1, h2, _⟩ := hc.kid c h
    rw [hg] at h1; cases h1; exact h2
  obtain ⟨nf0, hnf0, hnf'⟩ := hd.fa
  rw [hnf] at hnf0; cases hnf0
  obtain ⟨nx, hnx, hnx'⟩ := hd.self
  obtain ⟨nx0, hnx0, hnxok⟩ := hI.rep x gx hx
  rw [hnx] at hnx0; cases hnx0
  have hl : ∀ k gk, G k = some gk → gk.par ≠ some f → k ≠ x → LinksSame st st' G (G.attach f x o kids) k := by
    intro k gk hg hp h1
    by_cases hkf' : k = f
    · subst hkf'
      intro n g h1 h2
      rw [hnf] at h1; cases h1
      rw [hf] at h2; cases h2
      exact ⟨_, _, hnf', attach_fa hf hfx, rfl, rfl, rfl, rfl, rfl⟩
    · have h2 : lastOr none kids ≠ some k := fun e => hp (hpar k (mem_iff_of_last e) gk hg)
      exact LinksSame.of_eq (hd.other k h1 hkf' h2) (by simp [Graph.attach, h1, hkf'])
  have hlk : ∀ b gb, G b = some gb → b ≠ f → ∀ k ∈ gb.val.kids, LinksSame st st' G (G.attach f x o kids) k := by
    intro b gb hb hne k hk
    obtain ⟨gk, h1, h2⟩ := hI.kid hb hk
    exact hl k gk h1 (by rw [h2]; intro e; cases e; exact hne rfl)
      (by rintro rfl; rw [hx] at h1; cases h1; rw [hp] at h2; cases h2)
  have hseg : Seg st' (G.attach f x o kids) none (kids ++ [x]) none := by
    refine Seg.append.2 ⟨?_, ?_⟩
    · have s1 := hc.seg
      have hnd := hc.nodup
      rcases List.eq_nil_or_concat kids with rfl | ⟨l0, p, rfl⟩
      · trivial
      · rw [List.concat_eq_append] at *
        obtain ⟨t1, t2⟩ := Seg.append.1 s1
        refine Seg.append.2 ⟨t1.congr ?_, ?_⟩
        · intro k hk n gk h1 h2
          have e1 : k ≠ x := by rintro rfl; exact hxk (by simp [hk])
          have e2 : k ≠ f := hkf k (by simp [hk])
          have e3 : k ≠ p := by
            rintro rfl
            rw [List.nodup_append] at hnd
            exact hnd.2.2 k hk k (by simp) rfl
          refine ⟨n, gk, ?_, ?_, rfl, rfl, rfl⟩
          · rw [hd.other k e1 e2 (by simp [lastOr_append]; exact Ne.symm e3), h1]
          · simp [Graph.attach, e1, e2, h2]
        · obtain ⟨⟨n, gk, h1, h2, h3, h4⟩, _⟩ := t2
          obtain ⟨n', h1', h2'⟩ := hd.last p (by simp [lastOr_append])
          rw [h1] at h1'; cases h1'
          have e1 : p ≠ x := by rintro rfl; exact hxk (by simp)
          have e2 : p ≠ f := hkf p (by simp)
          exact ⟨⟨_, gk, h2', by simp [Graph.attach, e1, e2, h2], rfl, h4⟩, trivial⟩
    · exact ⟨⟨_, _, hnx', attach_self hx, (hnxok.root hp).1, rfl⟩, trivial⟩
  have hst : StOK st' := by
    rw [hd.rest]
    refine ⟨fun b hb => ?_, hI.ok.vals, hI.ok.bufs, hI.ok.size, hI.ok.live, hI.ok.cache⟩
    have hnone := hI.ok.nodes b hb
    have hlt : ∀ c gc, G c = some gc → b ≠ c := by intro c gc hg; have := hI.lt hg; simp only at hb; omega
    rw [← hnone]
    refine hd.other b (hlt x gx hx) (hlt f gf hf) (fun e => ?_)
    obtain ⟨gk, h1, _⟩ := hc.kid b (mem_iff_of_last e)
    exact hlt b gk h1 rfl
  have hbufs : st'.bufs = st.bufs := by rw [hd.rest]
  have hcache : st'.cache = st.cache := by rw [hd.rest]
  have hkey : ∃ key, KeyIs o gx.key key := by
    cases o with
    | true => obtain ⟨key, h⟩ := Option.isSome_iff_exists.1 hk; exact ⟨key, h⟩
    | false => exact ⟨[], by simpa using hk, rfl⟩
  obtain ⟨key, hkey⟩ := hkey
  obtain ⟨xs, tx, _, _, _, _, hi'⟩ := hI.attach_doc hf hv hx hr hkey
  refine hI.change hst ?_ (fun _ h => h) (fun b _ => by rw [hbufs]) ?_ ?_
  · intro b hb; have := hI.pin b hb; simpa [hbufs, hcache] using this
  · intro b gb hb
    by_cases hba : b = x
    · subst hba
      rw [attach_self hx] at hb; cases hb
      exact .inl ⟨gx, nx, _, hx, hnx, hnx', ⟨rfl, rfl, rfl, rfl, rfl, rfl, rfl, rfl, rfl⟩, rfl, fun h => (by cases h),
        hlk b gx hx (Ne.symm hfx)⟩
    · by_cases hbf : b = f
      · subst hbf
        rw [attach_fa hf hfx] at hb; cases hb
        refine .inr ⟨_, hnf', ?_, hnok.father, hnok.root, ?_⟩
        · exact (hnok.key.mono (fun _ h => h) (fun _ _ => by rw [hbufs])).fields rfl rfl
        · refine ⟨hc.type, rfl, rfl, ?_, hseg, ?_, ?_⟩
          · intro he hne
            simp [lastOr_append]
          · rw [List.nodup_append]
            exact ⟨hc.nodup, by simp, fun c h1 d h2 => by simp at h2; rintro rfl; exact hxk (h2 ▸ h1)⟩
          · intro k hk'
            rcases List.mem_append.1 hk' with h | h
            · obtain ⟨gk, g1, g2, g3⟩ := hc.kid k h
              have e1 : k ≠ x := by rintro rfl; exact hxk h
              have e2 := hkf k h
              exact ⟨gk, by simp [Graph.attach, e1, e2, g1], g2, g3⟩
            · simp at h; subst h
              exact ⟨_, attach_self hx, rfl, hk⟩
      · have hb0 : G b = some gb := by simpa [Graph.attach, hba, hbf] using hb
        by_cases hbl : lastOr none kids = some b
        · obtain ⟨n, hn, hn'⟩ := hd.last b hbl
          obtain ⟨m, hm, hmok⟩ := hI.rep b gb hb0
          rw [hn] at hm; cases hm
          have hp := hpar b (mem_iff_of_last hbl) gb hb0
          exact .inl ⟨gb, n, _, hb0, hn, hn', ⟨rfl, rfl, rfl, rfl, rfl, rfl, rfl, rfl, rfl⟩, hmok.father,
            fun h => by simp [hp] at h, hlk b gb hb0 hbf⟩
        · exact .inl (hI.keep hb0 (hd.other b hba hbf hbl) (hlk b gb hb0 hbf))
  · intro b gb hb
    have : ∃ gb0, G b = some gb0 := by
      unfold Graph.attach at hb
      cases h : G b with
      | some g => exact ⟨g, rfl⟩
      | none => simp [h] at hb
    obtain ⟨gb0, hb0⟩ := this
    obtain ⟨t, ht⟩ := hI.fin b gb0 hb0
    refine ht.keepFin (D := fun _ => True) (fun _ _ _ _ _ _ => trivial) ?_ ?_ trivial
    · intro c gc _ hgc
      by_cases hcf : c = f
      · subst hcf; exact ⟨_, attach_fa hgc hfx, .inr ⟨_, .con hi'⟩⟩
      · obtain ⟨gc', g1, g2, _⟩ := attach_same (x := x) (o := o) (kids := kids) hcf hgc
        exact ⟨gc', g1, .inl g2⟩
    · intro c gc k gk _ hc hk hgk
      by_cases hkf : k = f
      · subst hkf; rw [hf] at hgk; cases hgk; exact ⟨_, attach_fa hf hfx, rfl⟩
      · obtain ⟨gc', g1, _, g2, _⟩ := attach_same (x := x) (o := o) (kids := kids) hkf hgk
        exact ⟨gc', g1, by rw [g2]⟩

/-- `Father = f` and the append, as in all four `Add` functions. -/
theorem attach_run (hI : Inv st P G) (hf : G f = some gf) (hv : gf.val = .con o kids)
    (hx : G x = some gx) (hp : gx.par = none) (hr : ¬ Reach G x f)
    (he : kids = [] ∨ gf.endOK = true) :
    ∃ st', (do setFather x (some f); attach f x : M Unit) st = .ok ((), st') ∧ Attached st st' f x kids := by
  obtain ⟨nf, hnf, hc, hnok⟩ := hI.con hf hv
  have hfx : f ≠ x := fun e => hr (e ▸ .refl)
  have hxk : x ∉ kids := by have := hI.not_kid hx hp hf; rw [hv] at this; exact this
  obtain ⟨nx, hnx, hnxok⟩ := hI.rep x gx hx
  have hrt := hnxok.root hp
  rcases List.eq_nil_or_concat kids with rfl | ⟨l0, p, rfl⟩
  · refine ⟨(st.setN x { nx with father := some (some f) }).setN f { nf with value := some (.node (some x)), len := some 1, end_ := some (some x) }, ?_, ?_⟩
    · mstep modNode_run hnx
      unfold ZJ.attach
      have h1 : (st.setN x { nx with father := some (some f) }).nodes f = some nf := by simp [hfx, hnf]
      mstep nNode_run h1 hc.value
      simp only [hdOr_nil]
      mstep modNode_run h1
      mstep modNode_run (n := { nf with value := some (.node (some x)) }) (by simp)
      rw [setN_setN]
      refine (modNode_run (n := { nf with value := some (.node (some x)), len := some 1 }) (by simp)).trans ?_
      rw [setN_setN]
    · refine ⟨⟨nx, hnx, ?_⟩, ⟨nf, hnf, by simp⟩, fun _ h => (by cases h), ?_, rfl⟩
      · simp [Ne.symm hfx]
        exact hrt.2
      · intro c h1 h2 _
        simp [h1, h2]
  · rw [List.concat_eq_append] at *
    have hend : nf.end_ = some (some p) := by
      rcases he with he | he
      · simp at he
      · rw [hc.end_ he (by simp)]; simp [lastOr_append]
    have hpf : p ≠ f := hI.con_ne hf hv (k := p) (by simp) .refl
    have hpx : p ≠ x := by rintro rfl; exact hxk (by simp)
    obtain ⟨np, hnp⟩ : ∃ n, st.nodes p = some n := by
      obtain ⟨gk, g1, _⟩ := hc.kid p (by simp)
      obtain ⟨n, g2, _⟩ := hI.rep p gk g1
      exact ⟨n, g2⟩
    have hval : ∃ y, nf.value = some (.node (some y)) ∧ hdOr (l0 ++ [p] ++ [x]) none = some y := by
      rw [hc.value]; cases l0 with
      | nil => exact ⟨p, rfl, rfl⟩
      | cons y l => exact ⟨y, rfl, rfl⟩
    obtain ⟨y, hy, hy'⟩ := hval
    let nx1 : Node := { nx with father := some (some f) }
    let st1 := st.setN x nx1
    let st2 := st1.setN p { np with next := some (some x) }
    let st3 := st2.setN x { nx1 with prev := some (some p) }
    have h1 : st1.nodes f = some nf := by simp [st1, hfx, hnf]
    have h1p : st1.nodes p = some np := by simp [st1, hpx, hnp]
    have h2x : st2.nodes x = some nx1 := by simp [st2, st1, Ne.symm hpx]
    have h3f : st3.nodes f = some nf := by simp [st3, st2, st1, hfx, Ne.symm hpf, hnf]
    refine ⟨st3.setN f { nf with end_ := some (some x), len := some ((l0 ++ [p]).length + 1) }, ?_, ?_⟩
    · mstep modNode_run hnx
      unfold ZJ.attach
      mstep nNode_run h1 hy
      simp only
      mstep nEnd_run h1 hend
      simp only [deref_some]
      mstep M.pure_run _ _
      mstep modNode_run h1p
      mstep modNode_run h2x
      mstep modNode_run h3f
      mstep nLen_run (st := st3.setN f { nf with end_ := some (some x) }) (n := { nf with end_ := some (some x) }) (by simp) hc.len
      refine (modNode_run (n := { nf with end_ := some (some x) }) (by simp)).trans ?_
      rw [setN_setN]
    · refine ⟨⟨nx, hnx, ?_⟩, ⟨nf, hnf, ?_⟩, ?_, ?_, rfl⟩
      · simp [Ne.symm hfx, st3, nx1, lastOr_append]
      · simp only [setN_nodes, if_true, hy']
        simp [← hy]
      · intro q hq
        simp [lastOr_append] at hq
        subst hq
        exact ⟨np, hnp, by simp [hpf, hpx, st3, st2]⟩
      · intro c h1 h2 h3
        have : c ≠ p := by rintro rfl; exact h3 (by simp [lastOr_append])
        simp [h1, h2, st3, st2, st1, this]

end

end ZJ
