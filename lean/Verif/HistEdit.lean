import Verif.HistGet

/-!
# Call sequences: moving, adding, deleting and replacing
-/

namespace ZJ
set_option linter.unusedVariables false
set_option linter.unusedSimpArgs false

variable {st st' st1 st2 : St} {P P' : Addr → Prop} {s s' : Store} {v w a x f : Addr} {gn gx gf ga : GNode} {A A' R : Nat}
  {D : Type} {fp : FP D} {G G' G1 : Graph} {o : Bool} {kids l r : List Addr}

/-! ### Changes that only move texts around -/

/-- Every node of `G'` is a node of `G`. Its value is the value of the node `src` tells, or it
is a container; its key is the same, or it has none. -/
def Tame (src : Addr → Addr) (G G' : Graph) : Prop :=
  ∀ c g', G' c = some g' → ∃ g ge, G c = some g ∧ G (src c) = some ge ∧
    (g'.val = ge.val ∨ g'.val.isCon = true) ∧ (g'.key = g.key ∨ g'.key = none)

theorem Tame.valid {src : Addr → Addr} (h : Tame src G G') (hv : GValid G) : GValid G' where
  key c g' k hc hk := by
    obtain ⟨g, ge, h1, h2, _, h4⟩ := h c g' hc
    rcases h4 with h4 | h4
    · exact hv.key c g k h1 (h4 ▸ hk)
    · rw [h4] at hk; cases hk
  num c g' k hc hk := by
    obtain ⟨g, ge, h1, h2, h3, _⟩ := h c g' hc
    rcases h3 with h3 | h3
    · exact hv.num _ ge k h2 (h3 ▸ hk)
    · rw [hk] at h3; cases h3
  str c g' k hc hk := by
    obtain ⟨g, ge, h1, h2, h3, _⟩ := h c g' hc
    rcases h3 with h3 | h3
    · exact hv.str _ ge k h2 (h3 ▸ hk)
    · rw [hk] at h3; cases h3

theorem Tame.refl : Tame id G G := fun c g h => ⟨g, g, h, h, .inl rfl, .inl rfl⟩

theorem Tame.trans (h : Tame id G G1) (h' : Tame id G1 G') : Tame id G G' := by
  intro c g' hc
  obtain ⟨g1, g1', e1, e2, e3, e4⟩ := h' c g' hc
  have e2 : G1 c = some g1' := e2
  rw [e1] at e2; cases e2
  obtain ⟨g, g0, f1, f2, f3, f4⟩ := h c g1 e1
  refine ⟨g, g0, f1, f2, ?_, ?_⟩
  · rcases e3 with e3 | e3
    · rw [e3]; exact f3
    · exact .inr e3
  · rcases e4 with e4 | e4
    · rw [e4]; exact f4
    · exact .inr e4

theorem Tame.detach : Tame id G (G.detach f x o l r) := by
  intro c g' hc
  unfold Graph.detach at hc
  cases hg : G c with
  | none => simp [hg] at hc
  | some g =>
    refine ⟨g, g, rfl, hg, ?_⟩
    rw [hg] at hc
    repeat' split at hc
    all_goals (simp at hc; subst hc; simp [GVal.isCon])

theorem Tame.moved (h : Moved G x G1) : Tame id G G1 := by
  cases h with
  | root => exact .refl
  | child => exact .detach

theorem Tame.attach : Tame id G (G.attach f x o kids) := by
  intro c g' hc
  unfold Graph.attach at hc
  cases hg : G c with
  | none => simp [hg] at hc
  | some g =>
    refine ⟨g, g, rfl, hg, ?_⟩
    rw [hg] at hc
    repeat' split at hc
    all_goals (simp at hc; subst hc; simp [GVal.isCon])

theorem Tame.item (hx : G x = some gx) : Tame id G (G.set x (gx.asItem o)) := by
  intro c g' hc
  rw [Graph.set_apply] at hc
  split at hc
  · rename_i e; subst e; cases hc
    refine ⟨gx, gx, hx, hx, .inl ?_, ?_⟩ <;> cases o <;> simp [GNode.asItem]
  · exact ⟨g', g', hc, hc, .inl rfl, .inl rfl⟩

/-- Node `c` keeps its allocator; its key pointer is the old one, its value pointer that of
`e` before. -/
def Kin (st st' : St) (c e : Addr) : Prop :=
  ∃ n n' ne, st.nodes c = some n ∧ st'.nodes c = some n' ∧ st.nodes e = some ne ∧ n'.owner = n.owner ∧
    (n'.key = n.key ∨ ∀ p, n'.key ≠ some (some p)) ∧ (n'.value = ne.value ∨ ∀ p, n'.value ≠ some (.str p))

theorem Kin.clean {c e : Addr} (hk : Kin st st' c e) (hI : Inv st P G) (hc : (G c).isSome) (he : (G e).isSome)
    (h1 : Clean st R c) (h2 : Clean st R e) (hp : Pers st st') : Clean st' R c := by
  obtain ⟨n, n', ne, e1, e2, e3, e4, e5, e6⟩ := hk
  obtain ⟨gc, hc⟩ := Option.isSome_iff_exists.1 hc
  obtain ⟨ge, he⟩ := Option.isSome_iff_exists.1 he
  intro m hm
  rw [e2] at hm; cases hm
  refine ⟨by rw [e4]; exact (h1 n e1).1, fun b off hb bf' hbf' => ?_⟩
  rcases hb with hb | hb
  · rcases e5 with e5 | e5
    · rw [e5] at hb
      obtain ⟨bf, hbf⟩ := Option.isSome_iff_exists.1 (hI.pin b (hI.ptr hc e1 (.inl hb))).1
      obtain ⟨bf1, f1, f2⟩ := hp.bufs b bf hbf
      rw [f1] at hbf'; cases hbf'
      rw [f2]; exact (h1 n e1).2 b off (.inl hb) bf hbf
    · exact absurd hb (e5 _)
  · rcases e6 with e6 | e6
    · rw [e6] at hb
      obtain ⟨bf, hbf⟩ := Option.isSome_iff_exists.1 (hI.pin b (hI.ptr he e3 (.inr hb))).1
      obtain ⟨bf1, f1, f2⟩ := hp.bufs b bf hbf
      rw [f1] at hbf'; cases hbf'
      rw [f2]; exact (h2 ne e3).2 b off (.inr hb) bf hbf
    · exact absurd hb (e6 _)

theorem Kin.tail {c e : Addr} {raw : Bytes} {N V : Addr → Prop} (hk : Kin st st' c e) (hI' : Inv st' P' G') (hc : G' c = some gn)
    (hv : gn.val = .num raw) (h : Tail st e raw) (ho : StOK st) (hF : Frame N V (fun _ => False) st st') : Tail st' c raw := by
  obtain ⟨n, n', ne, e1, e2, e3, e4, e5, e6⟩ := hk
  obtain ⟨nd, p, b, r, lim, h1, h2, h3, h4⟩ := h
  rw [e3] at h1; cases h1
  obtain ⟨m, hm, hok⟩ := hI'.rep c gn hc
  rw [e2] at hm; cases hm
  obtain ⟨_, q, hq, _⟩ := (ValOK.scalar (by rw [hv]; rfl)).1 hok.val
  rcases e6 with e6 | e6
  · refine ⟨n', p, b, r, lim, e2, by rw [e6]; exact h2, ?_, h4⟩
    cases p with
    | lit s => simpa [ZJ.view] using h3
    | buf c off =>
      simp only [ZJ.view] at h3 ⊢
      cases hb : st.bufs c with
      | none => rw [hb] at h3; cases h3
      | some bf =>
        rw [hF.bufs c (ho.buf_lt hb) (fun h => h), hb]
        rw [hb] at h3
        simp at h3 ⊢
        exact h3
  · exact absurd hq (e6 _)

/-- A call that moves texts around. -/
theorem WP.edit {N V : Addr → Prop} {src : Addr → Addr} {tail' : Addr → Bool} {dep' : Addr → Nat → Bool} {hnd' : Addr → Option Val}
    (h : WP st P s) (hI' : Inv st' P' G') (hF : Frame N V (fun _ => False) st st') (hp : Pers st st') (hscr : ScrOK st' s)
    (hT : Tame src s.node G') (hk : ∀ c, (G' c).isSome → Kin st st' c (src c))
    (ht : ∀ c, tail' c = true → s.tail (src c) = true)
    (hd : ∀ c R, dep' c R = false → s.dep c R = false ∧ s.dep (src c) R = false)
    (hh : ∀ v y, hnd' v = some y → st'.vals v = some y ∧ ∀ a, y.n = some a → (G' a).isSome) :
    WP st' P' { s with node := G', hnd := hnd', tail := tail', dep := dep' } where
  inv := hI'
  hnd := hh
  live := by rw [hF.allocs]; exact h.live
  fresh := by rw [hF.allocs, hF.na]; exact h.fresh
  pad := by rw [hF.slack]; exact h.pad
  valid := hT.valid h.valid
  tail c g raw htl hg hr := by
    obtain ⟨g0, ge, h1, h2, h3, _⟩ := hT c g hg
    have hg' : G' c = some g := hg
    rcases h3 with h3 | h3
    · exact (hk c (by rw [hg']; rfl)).tail hI' hg hr (h.tail _ ge raw (ht c htl) h2 (h3 ▸ hr)) h.inv.ok hF
    · rw [hr] at h3; cases h3
  dep c R hc hdp := by
    obtain ⟨g, hg⟩ := Option.isSome_iff_exists.1 hc
    obtain ⟨g0, ge, h1, h2, _⟩ := hT c g hg
    obtain ⟨d1, d2⟩ := hd c R hdp
    exact (hk c hc).clean h.inv (by rw [h1]; rfl) (by rw [h2]; rfl) (h.dep c R (by rw [h1]; rfl) d1)
      (h.dep _ R (by rw [h2]; rfl) d2) hp
  scr := hscr.1
  scr0 := hscr.2
  seen := h.seen.frame hF

/-- A call that neither makes texts nor nodes. -/
abbrev ekit (st st' : St) (W : Prop) : Kit where
  st0 := st
  stF := st'
  As _ := True
  Hs _ := True
  Q _ := False
  Y _ _ := False
  Cs _ := False
  W := W

theorem WP.etrace {α : Type} {m : M α} {R : α → Prop} {r : α} (h : WP st P s)
    (e : m st = .ok (r, st')) (T : Tri (ekit st st' s.scrOK) True m R) : Pers st st' ∧ Mid (ekit st st' s.scrOK) st' := by
  obtain ⟨h1, h2, _⟩ := T.run e h.inv.ok (fun hp => WP.mid (k := ekit st st' s.scrOK) h (fun h => h) (fun _ _ _ _ => trivial)
    (fun _ _ => trivial) hp) (fun _ => trivial)
  exact ⟨h1, h2⟩

theorem Mid.kin {W : Prop} (hm : Mid (ekit st st' W) st') (hI : Inv st P G) {c : Addr} (hc : (G c).isSome) : Kin st st' c c := by
  obtain ⟨g, hg⟩ := Option.isSome_iff_exists.1 hc
  obtain ⟨n, hn, _⟩ := hI.rep c g hg
  obtain ⟨n', e1, e2, e3, e4⟩ := hm.old c n hn
  refine ⟨n, n', n, hn, e1, hn, e2, e3.imp id fun h p e => ?_, e4.imp id fun h p e => ?_⟩
  · exact (h p e).elim id id
  · exact (h p e).elim id id

/-- A call that moves nodes around. -/
theorem WP.relink {α : Type} {m : M α} {R : α → Prop} {r : α} {V : Addr → Prop} {hnd' : Addr → Option Val} (h : WP st P s)
    (e : m st = .ok (r, st')) (T : Tri (ekit st st' s.scrOK) True m R) (d : Did V (fun _ => False) st st' P P' s.node G')
    (hT : Tame id s.node G')
    (hh : ∀ v y, hnd' v = some y → st'.vals v = some y ∧ ∀ a, y.n = some a → (G' a).isSome) :
    Pers st st' ∧ WP st' P' { s with node := G', hnd := hnd' } := by
  obtain ⟨h1, h2⟩ := h.etrace e T
  have hscr : ScrOK st' (s.use false 0) := WP.scr_next (k := ekit st st' s.scrOK) h h2 (fun h => h) (fun _ h => h.elim)
    (fun h => by cases h) d.frame.na d.frame.allocs d.cok (fun h => by cases h)
  refine ⟨h1, h.edit (src := id) (tail' := s.tail) (dep' := s.dep) d.inv d.frame h1 hscr hT (fun c hc => ?_) (fun _ h => h) (fun _ _ h => ⟨h, h⟩) hh⟩
  obtain ⟨g, hg⟩ := Option.isSome_iff_exists.1 hc
  obtain ⟨g0, _, e1, _⟩ := hT c g hg
  exact h2.kin h.inv (by rw [e1]; rfl)

theorem WP.hnd_same {hnd' : Addr → Option Val} (h : WP st P s) (hv : ∀ u y, s.hnd u = some y → st'.vals u = st.vals u)
    (hd : ∀ c, (s.node c).isSome → (G' c).isSome) : 
    ∀ v y, s.hnd v = some y → st'.vals v = some y ∧ ∀ a, y.n = some a → (G' a).isSome := fun v y hy => by
  obtain ⟨h1, h2⟩ := h.hnd v y hy
  exact ⟨by rw [hv v y hy]; exact h1, fun a ha => hd a (h2 a ha)⟩

/-- A document is made a root. -/
theorem WP.moved (h : WP st P s) (hv : st.vals v = some ⟨some x, A⟩) (hm : Moved s.node x G) :
    ∃ st', move v st = .ok (true, st') ∧ Pers st st' ∧ WP st' P (s.nodes G) ∧ st'.vals = st.vals := by
  obtain ⟨st', e, d, e1, _⟩ := move_run h.inv hv hm
  obtain ⟨h1, h2⟩ := h.relink (hnd' := s.hnd) e (Tri.move v) d (.moved hm)
    (h.hnd_same (hnd' := s.hnd) (fun _ _ _ => by rw [e1]) (fun c hc => by rw [hm.dom]; exact hc))
  exact ⟨st', e, h1, h2, e1⟩

theorem step_move (h : WP st P s) (hL : Legit fp s (.move v)) : Goes fp (.move v) st s := by
  obtain ⟨ha, hm⟩ := hL
  obtain ⟨⟨x, A⟩, hv⟩ := Option.isSome_iff_exists.1 (show (s.hnd v).isSome from ha)
  cases x with
  | none => exact ⟨0, st, _, s, P, fun F _ => by simp only [exec]; mstep move_empty (h.val hv); rfl, .moveNo hv, h⟩
  | some x =>
    obtain ⟨G, hm⟩ := hm x A hv
    obtain ⟨st', e, _, h', _⟩ := h.moved (h.val hv) hm
    exact ⟨0, st', _, _, P, fun F _ => by simp only [exec]; mstep e; rfl, .move hv hm, h'⟩

theorem WP.notCon (h : WP st P s) (hn : s.notCon v o) : NotCon st s.node v o := by
  obtain ⟨ha, hn⟩ := hn
  obtain ⟨⟨x, A⟩, hv⟩ := Option.isSome_iff_exists.1 (show (s.hnd v).isSome from ha)
  cases x with
  | none => exact .inl ⟨A, h.val hv⟩
  | some f =>
    obtain ⟨gf, hf⟩ := Option.isSome_iff_exists.1 (h.has hv f rfl)
    exact .inr ⟨A, f, gf, h.val hv, hf, fun ks e => hn f ks ⟨A, gf, hv, hf, e⟩⟩

/-! ### Deleting -/

theorem step_delAt {i : Nat} (h : WP st P s) (hL : Legit fp s (.delAt v i)) : Goes fp (.delAt v i) st s := by
  obtain ⟨ha, hok⟩ := hL
  by_cases hc : ∃ f ks, s.isCon v false f ks
  · obtain ⟨f, ks, hc⟩ := hc
    have hc' := hc
    obtain ⟨A, gf, hv, hf, hgf⟩ := hc
    by_cases hi : i < ks.length
    · obtain ⟨l, x, r, rfl, rfl⟩ : ∃ l x r, ks = l ++ x :: r ∧ l.length = i :=
        ⟨ks.take i, ks[i], ks.drop (i + 1), by simp, by simp; omega⟩
      obtain ⟨gx, hx, _⟩ := (h.wf.forest f gf _ _ hf hgf).2 x (by simp)
      have hm : Moved s.node x (s.node.detach f x false l r) := .child hx hf hgf (hok f l x r gx hc' rfl hx)
      have h1 := h.unchanged (unch_addV (A := A) (x := some x)) (h.inv.ok.addV (h.alloc hv))
      obtain ⟨st', e, _, h', _⟩ := h1.moved (v := st.nv) (A := A) (by simp) hm
      refine ⟨(l ++ x :: r).length + 1, st', _, _, P, fun F hF => ?_, .delAt hc', h'⟩
      have e1 := arrayGet_run h.inv (h.val hv) hf hgf (index := l.length) (show _ < F from hF)
      rw [show (l ++ x :: r)[l.length]? = some x by simp] at e1
      have e2 : arrayDel F v l.length st = .ok (true, st') := by
        unfold arrayDel
        mstep e1
        exact e
      simp only [exec]
      mstep e2; rfl
    · refine ⟨ks.length + 1, st, _, s, P, fun F hF => ?_, .delAtNo (.inr ⟨f, ks, hc', by omega⟩), h⟩
      simp only [exec]
      mstep arrayDel_missing h.inv (h.val hv) hf hgf (by omega) (show _ < F from hF)
      rfl
  · simp only [not_exists] at hc
    have hn : s.notCon v false := ⟨ha, hc⟩
    refine ⟨0, st, _, s, P, fun F hF => ?_, .delAtNo (.inl hn), h⟩
    simp only [exec]
    mstep (del_other h.inv (p := .lit { bytes := [] })).1 (h.notCon hn)
    rfl

theorem find_split {G : Graph} {k : Bytes} {ks : List Addr} {x : Addr} (h : G.find k ks = some x) :
    ∃ l r, ks = l ++ x :: r ∧ x ∉ l ∧ (∀ c ∈ l, G.keyOf c ≠ some k) ∧ G.keyOf x = some k := by
  obtain ⟨hx, l, r, rfl, hl⟩ := List.find?_eq_some_iff_append.1 h
  have hl' : ∀ c ∈ l, G.keyOf c ≠ some k := fun c hc => by simpa [Graph.keyOf] using hl c hc
  have hx' : G.keyOf x = some k := by simpa [Graph.keyOf] using hx
  exact ⟨l, r, rfl, fun hm => hl' x hm hx', hl', hx'⟩

theorem step_delKey {k : Bytes} (h : WP st P s) (hL : Legit fp s (.delKey v k)) : Goes fp (.delKey v k) st s := by
  obtain ⟨ha, h0, hok⟩ := hL
  have hC := h.addC (k ++ [0])
  have hs : CStr (st.addC (k ++ [0])) (.buf st.nb 0) k := addC_cstr h0
  have hnn : ∀ {ks : List Addr}, ∀ j ∈ ks, ∀ kk, s.node.keyOf j = some kk → (0 : Byte) ∉ kk := fun j _ kk hkk => by
    obtain ⟨gj, hgj, e⟩ := Option.bind_eq_some_iff.1 hkk
    exact (h.valid.key j gj kk hgj e).no_nul
  /- the text goes and comes -/
  have fin : ∀ {c0 r st1 s'}, (∀ F, c0 ≤ F → objDel F v (.buf st.nb 0) (st.addC (k ++ [0])) = .ok (r, st1)) →
      WP st1 P s' → Pers (st.addC (k ++ [0])) st1 → AStep fp s (.delKey v k) (.bool r) s' → Goes fp (.delKey v k) st s := by
    intro c0 r st1 s' e h1 hp ha
    obtain ⟨st'', e0, hw⟩ := withText_run (keep := false) h (f := objDel c0 v) (e c0 (Nat.le_refl _)) h1 hp (fun _ b hb => .inl hb)
    refine ⟨c0, st'', _, s', P, fun F hF => ?_, ha, hw⟩
    have e1 : withText (k ++ [0]) false (objDel F v) st = .ok (r, st'') := by
      have a1 : withText (k ++ [0]) false (objDel F v) st = withText (k ++ [0]) false (objDel c0 v) st := by
        unfold withText
        refine (M.bind_ok (callerText_run _ st)).trans (Eq.trans ?_ (M.bind_ok (callerText_run _ st)).symm)
        refine (M.bind_ok (e F hF)).trans (Eq.trans ?_ (M.bind_ok (e c0 (Nat.le_refl _))).symm)
        rfl
      rw [a1]; exact e0
    simp only [exec]
    mstep e1
    rfl
  by_cases hc : ∃ f ks, s.isCon v true f ks
  · obtain ⟨f, ks, hc⟩ := hc
    have hc' := hc
    obtain ⟨A, gf, hv, hf, hgf⟩ := hc
    cases hfd : s.node.find k ks with
    | some x =>
      obtain ⟨l, r, rfl, hxl, hl, hkx⟩ := find_split hfd
      obtain ⟨gx, hx, _⟩ := (h.wf.forest f gf _ _ hf hgf).2 x (by simp)
      have hm : Moved s.node x (s.node.detach f x true l r) := .child hx hf hgf (hok f l x r gx hc' hfd hx)
      have h1 := hC.unchanged (unch_addV (A := A) (x := some x)) (hC.inv.ok.addV (hC.alloc hv))
      obtain ⟨st', e, hp, h', _⟩ := h1.moved (v := st.nv) (A := A) (upd_same _ _ _) hm
      refine fin (c0 := (l ++ x :: r).length + 1) (fun F hF => ?_) h' (pers_addV.trans hp) (.delKey hc' hfd hxl)
      have e1 := objGet_run hC.inv (hC.val hv) hf hgf hs (show _ < F from hF) hnn
      rw [← find_eq, hfd] at e1
      unfold objDel
      mstep e1
      exact e
    | none =>
      refine fin (c0 := ks.length + 1) (fun F hF => ?_) hC .refl (.delKeyNo (.inr ⟨f, ks, hc', hfd⟩))
      refine objDel_missing hC.inv (hC.val hv) hf hgf (show _ < F from hF) hs hnn (fun c hc => ?_)
      have := List.find?_eq_none.1 hfd c hc
      simpa [Graph.keyOf] using this
  · simp only [not_exists] at hc
    have hn : s.notCon v true := ⟨ha, hc⟩
    exact fin (c0 := 0) (fun F hF => (del_other hC.inv (i := 0)).2 (hC.notCon hn)) hC .refl (.delKeyNo (.inl hn))

/-! ### Valid texts below a node -/

theorem validElems_mem : ∀ {xs : List (Bytes × Json)}, Json.ValidElems (xs.map (·.2)) → ∀ m ∈ xs, m.2.Valid
  | [], _, m, hm => by cases hm
  | y :: xs, h, m, hm => by
    rcases List.mem_cons.1 hm with rfl | hm
    · exact h.1
    · exact validElems_mem h.2 m hm

theorem validMembers_mem : ∀ {xs : List (Bytes × Json)}, Json.ValidMembers xs → ∀ m ∈ xs, IsStrBody m.1 ∧ m.2.Valid
  | [], _, m, hm => by cases hm
  | (q, t) :: xs, h, m, hm => by
    rcases List.mem_cons.1 hm with rfl | hm
    · exact ⟨h.1, h.2.1⟩
    · exact validMembers_mem h.2.2 m hm

theorem UnfI.texts : ∀ {o ks xs}, UnfI G o ks xs → (∀ m ∈ xs, (o = true → IsStrBody m.1) ∧ m.2.Valid) → ∀ k ∈ ks,
    ∃ t gk, Unf G k t ∧ t.Valid ∧ G k = some gk ∧ ∀ q, gk.key = some q → IsStrBody q
  | _, _, _, .nil, _, k, hk => by cases hk
  | o, _, _, .cons (gk := gk) hk hkey hu hr, hv, k, hm => by
    rcases List.mem_cons.1 hm with rfl | hm
    · have := hv _ (List.mem_cons_self ..)
      refine ⟨_, gk, hu, this.2, hk, fun q hq => ?_⟩
      unfold KeyIs at hkey
      cases o with
      | false => rw [if_neg (by simp)] at hkey; rw [hkey.1] at hq; cases hq
      | true => rw [if_pos rfl] at hkey; rw [hkey] at hq; cases hq; exact this.1 rfl
    · exact UnfI.texts hr (fun m h => hv m (List.mem_cons_of_mem _ h)) k hm

/-- The texts of the nodes below a node with a valid document are valid. -/
theorem UnfV.texts {gv : GVal} {t : Json} (h : UnfV G gv t) (hv : t.Valid) : 
    (∀ k ∈ gv.kids, ∃ t gk, Unf G k t ∧ t.Valid ∧ G k = some gk ∧ ∀ q, gk.key = some q → IsStrBody q) ∧
    (∀ q, gv = .num q → IsNum q) ∧ (∀ q, gv = .str q → IsStrBody q) := by
  cases h with
  | scalar hs =>
    cases gv <;> simp [GVal.doc, Json.Valid, GVal.isCon, GVal.kids] at hs hv ⊢
    · exact hv
    · exact hv
  | @con o kids xs hi =>
    refine ⟨UnfI.texts hi fun m hm => ?_, fun q e => (nomatch e), fun q e => (nomatch e)⟩
    cases o with
    | false => exact ⟨fun h => (nomatch h), validElems_mem hv m hm⟩
    | true => exact ⟨fun _ => (validMembers_mem hv m hm).1, (validMembers_mem hv m hm).2⟩

theorem Unf.texts {t : Json} {c : Addr} {g : GNode} (h : Unf G a t) (hv : t.Valid) (hr : Reach G a c) (hg : G c = some g) :
    (c = a ∨ ∀ q, g.key = some q → IsStrBody q) ∧ (∀ q, g.val = .num q → IsNum q) ∧ (∀ q, g.val = .str q → IsStrBody q) := by
  induction hr generalizing t with
  | refl =>
    cases h with
    | mk ha hu => rw [hg] at ha; cases ha; exact ⟨.inl rfl, (hu.texts hv).2⟩
  | @step a gn k c ha hk hr ih =>
    cases h with
    | mk ha' hu =>
      rw [ha] at ha'; cases ha'
      obtain ⟨t', gk, h1, h2, h3, h4⟩ := (hu.texts hv).1 k hk
      obtain ⟨i1, i2⟩ := ih h1 h2 hg
      refine ⟨.inr ?_, i2⟩
      rcases i1 with rfl | i1
      · rw [hg] at h3; cases h3; exact h4
      · exact i1

/-! ### Copying -/

variable {g : Graph} {n : Addr} {key : Option Bytes} {t : Json}

theorem Copied.fresh (h : Copied A st st' P P' G g w n key t) (hI : Inv st P G) {c : Addr} {y : GNode} (hc : g c = some y) :
    G c = none := by
  cases hg : G c with
  | none => rfl
  | some y' => have := hI.lt hg; have := h.new c y hc; omega

/-- The new nodes do not depend on other allocators than their own. -/
theorem Copied.clean (h : Copied A st st' P P' G g w n key t) {c : Addr} {y : GNode} (hc : g c = some y) (hR : R ≠ A) :
    Clean st' R c := by
  intro m hm
  refine ⟨by rw [h.ownN c m (h.new c y hc) hm]; exact fun e => hR e.symm, fun b off hb bf hbf => ?_⟩
  have hfr : Fr st.nb st' b := by
    obtain ⟨m', hm', hok⟩ := h.rep c y hc
    rw [hm] at hm'; cases hm'
    rcases hb with hb | hb
    · have := hok.key
      cases hk : y.key with
      | none => rw [hk] at this; rw [this] at hb; cases hb
      | some q =>
        rw [hk] at this
        obtain ⟨p, h1, _, h3⟩ := this
        rw [hb] at h1; cases h1
        exact h3.1
    · cases hcon : y.val.isCon with
      | true =>
        have := hok.val
        cases hv : y.val <;> rw [hv] at hcon this <;> try cases hcon
        rw [this.value] at hb; cases hb
      | false =>
        obtain ⟨_, p, h1, _, h3, _⟩ := (ValOK.scalar hcon).1 hok.val
        rw [hb] at h1; cases h1
        exact h3.1
  rw [h.ownB b bf hfr.1 hbf]
  intro e; cases e; exact hR rfl

theorem WP.grow (h : WP st P s) (hc : Copied A st st' P P' s.node g w n key t) (ht : t.Valid) 
    (hk : ∀ q, key = some q → IsStrBody q) : WP st' P' (s.grow g A) := by
  have hU := hc.unch
  have hF := hU.1
  have hp : Pers st st' := hF.pers h.inv.ok (fun _ h => h) (fun _ h => h) hU.2
  have hs := h.scr_same hU.2 hF.na hF.allocs fun b hb => hF.bufs b hb fun h => h
  have hor : ∀ c g', (s.node.or g) c = some g' → (g c = none ∧ s.node c = some g') ∨ g c = some g' := by
    intro c g' e
    rw [Graph.or_apply] at e
    cases hg : g c with
    | none => rw [hg] at e; simp at e; exact .inl ⟨rfl, e⟩
    | some y => rw [hg, hc.fresh h.inv hg] at e; exact .inr e
  have htx : ∀ c g', g c = some g' → (∀ q, g'.key = some q → IsStrBody q) ∧ (∀ q, g'.val = .num q → IsNum q) ∧
      (∀ q, g'.val = .str q → IsStrBody q) := by
    intro c g' e
    obtain ⟨h1, h2⟩ := hc.unf.texts ht (hc.links c g' e).2.2.2 e
    refine ⟨?_, h2⟩
    rcases h1 with rfl | h1
    · obtain ⟨gn, e1, _, e2, _⟩ := hc.root
      rw [e] at e1; cases e1
      rw [e2]; exact hk
    · exact h1
  exact {
    inv := hc.did.inv
    hnd := fun v y hv => by
      obtain ⟨h1, h2⟩ := h.hnd v y hv
      refine ⟨by rw [hF.vals v (h.inv.ok.val_lt h1) (fun h => h)]; exact h1, fun a ha => ?_⟩
      show ((s.node.or g) a).isSome
      obtain ⟨y, hy⟩ := Option.isSome_iff_exists.1 (h2 a ha)
      rw [Graph.le_or a y hy]; rfl
    live := by rw [hF.allocs]; exact h.live
    fresh := by rw [hF.allocs, hF.na]; exact h.fresh
    pad := by rw [hF.slack]; exact h.pad
    valid := by
      refine ⟨fun c g' q e => ?_, fun c g' q e => ?_, fun c g' q e => ?_⟩
      · rcases hor c g' e with ⟨_, e⟩ | e
        · exact h.valid.key c g' q e
        · exact (htx c g' e).1 q
      · rcases hor c g' e with ⟨_, e⟩ | e
        · exact h.valid.num c g' q e
        · exact (htx c g' e).2.1 q
      · rcases hor c g' e with ⟨_, e⟩ | e
        · exact h.valid.str c g' q e
        · exact (htx c g' e).2.2 q
    tail := fun c g' raw htl e hr => by
      have htl : (s.tail c && !(g c).isSome) = true := htl
      simp only [Bool.and_eq_true, Bool.not_eq_true'] at htl
      rcases hor c g' e with ⟨_, e⟩ | e
      · exact (h.tail c g' raw htl.1 e hr).frame h.inv e hr (hF.weaken (fun _ h => h) (fun _ h => h) (fun _ h => h.elim)) (fun h => h)
      · rw [e] at htl; cases htl.2
    dep := fun c R hcs hd => by
      have hd : (if (g c).isSome then decide (R = A) else s.dep c R) = false := hd
      obtain ⟨g', e⟩ := Option.isSome_iff_exists.1 hcs
      rcases hor c g' e with ⟨e0, e⟩ | e
      · rw [e0] at hd
        exact (h.dep c R (by rw [e]; rfl) (by simpa using hd)).keep h.inv (by rw [e]; rfl) (hF.nodes c (h.inv.lt e) (fun h => h)) hp
      · rw [e] at hd
        exact hc.clean e (by simpa using hd)
    scr := hs.1
    scr0 := hs.2
    seen := (h.seen.frame hF).nodes fun c hcs => by
      obtain ⟨y, hy⟩ := Option.isSome_iff_exists.1 hcs
      exact hc.did.inv.lt (hc.grow h.inv hy) }

theorem Copied.copyOf (h : Copied A st st' P P' G g w n gx.key t) (hI : Inv st P G) (hx : G x = some gx) (hu : Unf G x t) {gn : GNode}
    (hn : g n = some gn) : CopyOf G x g n gn where
  doc := ⟨t, hu, h.unf⟩
  root := hn
  par := by obtain ⟨y, e1, e2, _⟩ := h.root; rw [hn] at e1; cases e1; exact e2
  key := by obtain ⟨y, e1, _, e2, _⟩ := h.root; rw [hn] at e1; cases e1; exact ⟨gx, hx, e2⟩
  fresh c y hc := h.fresh hI hc
  links := h.links
  forest := h.did.inv.forest.sub (fun c y hc => h.grow hI hc) fun c y hc => h.unf.kids_some (h.links c y hc).2.2.2 hc

theorem WP.nohnd (h : WP st P s) : s.hnd st.nv = none := by
  cases hh : s.hnd st.nv with
  | none => rfl
  | some y =>
    have := (h.hnd _ _ hh).1
    rw [h.inv.ok.vals _ (Nat.le_refl _)] at this; cases this

theorem WP.nohnd' (h : WP st P s) : ¬ s.seen.hnd st.nv := fun h' => absurd (h.seen.hnd _ h') (Nat.lt_irrefl _)

theorem WP.newTo (h : WP st P s) (hc : Copied A st st' P P' s.node g w n key t) : s.seen.newTo g := fun a y ha h' =>
  absurd (h.seen.node a h') (Nat.not_lt.2 (hc.new a y ha))

theorem step_copy (h : WP st P s) (hL : Legit fp s (.copy v)) : Goes fp (.copy v) st s := by
  obtain ⟨⟨x, A⟩, hv⟩ := Option.isSome_iff_exists.1 (show (s.hnd v).isSome from hL)
  cases x with
  | none =>
    refine ⟨0, _, _, s, P, fun F _ => by simp only [exec]; mstep copy_empty h.inv (h.val hv); rfl, .copyNo hv,
      h.unchanged unch_addV (h.inv.ok.addV (h.alloc hv))⟩
  | some x =>
    obtain ⟨gx, hx⟩ := Option.isSome_iff_exists.1 (h.has hv x rfl)
    obtain ⟨t, hu⟩ := h.inv.fin x gx hx
    obtain ⟨c, st', n, g, P', e, hc⟩ := copy_run h.inv (h.val hv) hx hu
    have h1 := h.grow hc (hu.valid h.valid) (fun q => h.valid.key x gx q hx)
    obtain ⟨gn, hn, _⟩ := hc.root
    refine ⟨c, st', _, _, P', fun F hF => ?_, .copy hv (hc.copyOf h.inv hx hu hn) h.nohnd (h.newTo hc) h.nohnd',
      { h1 with hnd := fun u y hu => ?_, seen := h1.seen.hnds (hc.did.inv.ok.val_lt hc.handle) }⟩
    · simp only [exec]
      have := e (F - c)
      rw [show F - c + c = F by omega] at this
      mstep this; rfl
    · have hu : upd (s.grow g A).hnd st.nv (some ⟨some n, A⟩) u = some y := hu
      by_cases e : u = st.nv
      · subst e; rw [upd_same] at hu; cases hu
        refine ⟨hc.handle, fun a ha => ?_⟩
        cases ha
        show ((s.node.or g) n).isSome
        rw [hc.grow h.inv hn]; rfl
      · rw [upd_ne _ _ e] at hu; exact h1.hnd u y hu

/-! ### Adding -/

theorem asItem_true : (gx.asItem true) = gx := rfl
theorem asItem_false : (gx.asItem false) = { gx with key := none } := rfl

theorem set_id (hx : G x = some gx) : G.set x gx = G := by
  funext c
  rw [Graph.set_apply]; split
  · rename_i e; subst e; exact hx.symm
  · rfl

theorem step_addNo {fast : Bool} (h : WP st P s) (ha : s.alive v) (hw : s.alive w) (hn : s.notCon v o ∨ s.notItem w o) :
    Goes fp (.add o fast v w) st s := by
  have one : ∀ {st1 : St}, WP st1 P s → (∀ F, exec fp F (.add o fast v w) st = .ok (.bool false, st1)) → Goes fp (.add o fast v w) st s :=
    fun {st1} h1 e => ⟨0, st1, _, s, P, fun F _ => e F, .addNo hn, h1⟩
  by_cases hc : ∃ f ks, s.isCon v o f ks
  · obtain ⟨f, ks, A, gf, hv, hf, hgf⟩ := hc
    rcases hn with hn | hn
    · exact absurd ⟨A, gf, hv, hf, hgf⟩ (hn.2 f ks)
    · rcases hn with ⟨A', hw'⟩ | ⟨ho, A', x, gx, hw', hx, hk⟩
      · cases o with
        | true =>
          have := fun F => objAdd_emptyArg h.inv (h.val hv) (h.val hw') hf hgf (fuel := F)
          cases fast with
          | true => exact one h fun F => by simp only [exec]; mstep (this F).1; rfl
          | false => exact one h fun F => by simp only [exec]; mstep (this F).2; rfl
        | false =>
          cases fast with
          | true => exact one h fun F => by simp only [exec]; mstep arrayAddFast_emptyArg h.inv (h.val hv) (h.val hw') hf hgf; rfl
          | false =>
            exact one (h.unchanged unch_addV (h.inv.ok.addV (h.alloc hw')))
              fun F => by simp only [exec]; mstep arrayAdd_emptyArg h.inv (h.val hv) (h.val hw') hf hgf; rfl
      · subst ho
        have := fun F => objAdd_nokey h.inv (h.val hv) (h.val hw') hf hgf hx hk (fuel := F)
        cases fast with
        | true => exact one h fun F => by simp only [exec]; mstep (this F).1; rfl
        | false => exact one h fun F => by simp only [exec]; mstep (this F).2; rfl
  · simp only [not_exists] at hc
    have hn' := h.notCon (v := v) (o := o) ⟨ha, hc⟩
    cases o with
    | true =>
      have := fun F => objAdd_reject (vv := w) h.inv hn' (fuel := F)
      cases fast with
      | true => exact one h fun F => by simp only [exec]; mstep (this F).1; rfl
      | false => exact one h fun F => by simp only [exec]; mstep (this F).2; rfl
    | false =>
      have := fun F => arrayAdd_reject (vv := w) h.inv hn' (fuel := F)
      cases fast with
      | true => exact one h fun F => by simp only [exec]; mstep (this F).1; rfl
      | false => exact one h fun F => by simp only [exec]; mstep (this F).2; rfl

/-- The handle of the argument is emptied. -/
theorem WP.emptied (h : WP st P s) (hw : s.hnd w = some ⟨some x, A⟩) (hw' : st'.vals w = some ⟨none, A⟩)
    (hF : ∀ b, b < st.nv → b ≠ w → st'.vals b = st.vals b) (hd : ∀ c, (s.node c).isSome → (G' c).isSome) :
    ∀ u y, upd s.hnd w (some ⟨none, A⟩) u = some y → st'.vals u = some y ∧ ∀ a, y.n = some a → (G' a).isSome := by
  intro u y hu
  by_cases e : u = w
  · subst e; rw [upd_same] at hu; cases hu
    exact ⟨hw', fun a ha => by cases ha⟩
  · rw [upd_ne _ _ e] at hu
    obtain ⟨h1, h2⟩ := h.hnd u y hu
    exact ⟨by rw [hF u (h.inv.ok.val_lt h1) e]; exact h1, fun a ha => hd a (h2 a ha)⟩

theorem step_addFast (h : WP st P s) (hc : s.isCon v o f l) (hw : s.hnd w = some ⟨some x, A⟩) (hm : Moved s.node x G)
    (hx : G x = some gx) (hk : o = true → gx.key.isSome = true) (hcan : CanAdd G f x o kids) : Goes fp (.add o true v w) st s := by
  have hc' := hc
  obtain ⟨B, gf, hv, hf, hgf⟩ := hc
  have hdom : ∀ c, (s.node c).isSome → ((((G.set x (gx.asItem o)).attach f x o kids)) c).isSome := fun c hc => by
    rw [attach_dom, Graph.set_apply]; split
    · rfl
    · rw [hm.dom]; exact hc
  have hT : Tame id s.node ((G.set x (gx.asItem o)).attach f x o kids) :=
    ((Tame.moved hm).trans (.item hx)).trans .attach
  have key : ∀ {m : M Bool} {st'}, (∀ F, exec fp F (.add o true v w) st = (do return Ans.bool (← m) : M (Ans D)) st) →
      m st = .ok (true, st') → Tri (ekit st st' s.scrOK) True m Any →
      Did (· = w) (fun _ => False) st st' P P s.node ((G.set x (gx.asItem o)).attach f x o kids) →
      st'.vals w = some ⟨none, A⟩ → Goes fp (.add o true v w) st s := by
    intro m st' e0 e T d hw'
    have := (h.relink (hnd' := upd s.hnd w (some ⟨none, A⟩)) e T d hT (h.emptied hw hw' d.frame.vals hdom)).2
    exact ⟨0, st', _, _, P, fun F _ => by rw [e0 F]; mstep e; rfl, .addFast hc' hw hm hx hk hcan,
      { this with seen := this.seen.hnds (d.inv.ok.val_lt hw') }⟩
  cases o with
  | true =>
    obtain ⟨gx0, gx', e1, e2, _, e3, _⟩ := hm.self
    rw [hx] at e2; cases e2
    have hk' : gx0.key.isSome := by rw [← e3]; exact hk rfl
    obtain ⟨st', e, d, hw', _⟩ := objAddFast_run h.inv (h.val hv) (h.val hw) hf hgf e1 hk' hm hcan
    refine key (fun F => rfl) e (Tri.objAddFast v w) ?_ hw'
    rw [asItem_true, set_id hx]; exact d
  | false =>
    obtain ⟨st', e, d, hw', _⟩ := arrayAddFast_run h.inv (h.val hv) (h.val hw) hf hgf hm hx hcan
    exact key (fun F => rfl) e (Tri.arrayAddFast v w) d hw'

theorem step_addCopy (h : WP st P s) (hc : s.isCon v o f l) (hw : s.hnd w = some ⟨some x, A⟩) (hx : s.node x = some gx)
    (hk : o = true → gx.key.isSome = true) (he : l = [] ∨ ∃ gf, s.node f = some gf ∧ gf.endOK = true) :
    Goes fp (.add o false v w) st s := by
  have hcon := hc
  obtain ⟨B, gf, hv, hf, hgf⟩ := hc
  have he : l = [] ∨ gf.endOK = true := he.imp id fun ⟨gf', e, h⟩ => by rw [hf] at e; cases e; exact h
  obtain ⟨t, hu⟩ := h.inv.fin x gx hx
  have hkey : ∀ q, gx.key = some q → IsStrBody q := fun q => h.valid.key x gx q hx
  /- the copy is attached -/
  have att : ∀ {c st1 st2 n g P' gn} {m : M Unit}, Copied A st st1 P P' s.node g st.nv n gx.key t → g n = some gn →
      (∀ F, exec fp (F + c) (.add o false v w) st = .ok (.bool true, st2)) → m st1 = .ok ((), st2) →
      Tri (ekit st1 st2 (s.grow g A).scrOK) True m Any →
      Did (fun _ => False) (fun _ => False) st1 st2 P' P' (s.node.or g) (((s.node.or g).set n (gn.asItem o)).attach f n o l) →
      st2.vals = st1.vals → Goes fp (.add o false v w) st s := by
    intro c st1 st2 n g P' gn m hC hn e e2 T d ev
    have h1 := h.grow hC (hu.valid h.valid) hkey
    have hco := hC.copyOf h.inv hx hu hn
    have hT : Tame id (s.node.or g) (((s.node.or g).set n (gn.asItem o)).attach f n o l) :=
      (Tame.item (hC.grow h.inv hn)).trans .attach
    have h2 := (h1.relink (hnd' := s.hnd) e2 T d hT (fun u y hu => by
      obtain ⟨f1, f2⟩ := h1.hnd u y hu
      refine ⟨by rw [ev]; exact f1, fun c hc => ?_⟩
      rw [attach_dom, Graph.set_apply]; split
      · rfl
      · exact f2 c hc)).2
    refine ⟨c, st2, _, _, P', fun F hF => ?_, .add hcon hw hco (fun ho => ?_) (h.newTo hC), h2⟩
    · have := e (F - c)
      rwa [show F - c + c = F by omega] at this
    · obtain ⟨gx', e1, e2⟩ := hco.key
      rw [hx] at e1; cases e1
      rw [e2]; exact hk ho
  cases o with
  | true =>
    obtain ⟨c, st1, st2, n, g, P', e, hC, d, ev, em⟩ := objAdd_run h.inv (h.val hv) (h.val hw) hf hgf he hx (hk rfl) hu
    obtain ⟨gn, hn, hp, hkn, _⟩ := hC.root
    have hf1 : (s.node.or g) f = some gf := Graph.le_or f gf hf
    have hr : ¬ Reach (s.node.or g) n f := fun hr => by
      have := hC.reach h.inv hr (by rw [hn]; rfl)
      have := h.inv.lt hf
      omega
    obtain ⟨st2', em', hA⟩ := attach_run hC.did.inv hf1 hgf (hC.grow h.inv hn) hp hr he
    rw [em] at em'; cases em'
    refine att (c := c) hC hn (fun F => ?_) em (.bind (.setFather _ _) fun _ => .attach _ _) ?_ ev
    · simp only [exec]; mstep e F; rfl
    · rw [asItem_true, set_id (hC.grow h.inv hn)]
      exact hA.did hC.did.inv hf1 hgf (hC.grow h.inv hn) hp hr (by rw [hkn]; exact hk rfl)
  | false =>
    obtain ⟨c, st1, st2, n, g, gn, P', e, hC, hn, d, ev, em⟩ := arrayAdd_run h.inv (h.val hv) (h.val hw) hf hgf he hx hu
    obtain ⟨gn', hn', hp, hkn, _⟩ := hC.root
    rw [hn] at hn'; cases hn'
    have hf1 : (s.node.or g) f = some gf := Graph.le_or f gf hf
    have hr : ¬ Reach (s.node.or g) n f := fun hr => by
      have := hC.reach h.inv hr (by rw [hn]; rfl)
      have := h.inv.lt hf
      omega
    have hn1 := hC.grow h.inv hn
    have hne : f ≠ n := fun e => hr (e ▸ .refl)
    obtain ⟨stk, ek, dk, vk, _⟩ := clearKey_run hC.did.inv hn1 hp
    have hf2 : ((s.node.or g).set n { gn with key := none }) f = some gf := by rw [Graph.set_ne _ _ hne]; exact hf1
    have hn2 : ((s.node.or g).set n { gn with key := none }) n = some { gn with key := none } := Graph.set_same ..
    have hr2 : ¬ Reach ((s.node.or g).set n { gn with key := none }) n f := fun h => hr (Reach.set_same (gn' := { gn with key := none }) hn1 rfl h)
    obtain ⟨st2', em', hA⟩ := attach_run dk.inv hf2 hgf hn2 hp hr2 he
    have em2 : (do setKey n none; setFather n (some f); attach f n : M Unit) st1 = .ok ((), st2') := by
      mstep ek
      exact em'
    rw [em] at em2; cases em2
    refine att (c := c) hC hn (fun F => ?_) em (.bind (.noKey _) fun _ => .bind (.setFather _ _) fun _ => .attach _ _) ?_ ev
    · simp only [exec]; mstep e F; rfl
    · exact dk.trans (hA.did dk.inv hf2 hgf hn2 hp hr2 rfl) (fun b _ hb => by
        rw [Graph.set_apply] at hb; split at hb
        · rename_i e; subst e; rw [hn1]; rfl
        · exact hb) (fun _ _ h => h) (fun _ _ h => h)

theorem step_add {fast : Bool} (h : WP st P s) (hL : Legit fp s (.add o fast v w)) : Goes fp (.add o fast v w) st s := by
  obtain ⟨ha, hw, hok⟩ := hL
  by_cases hc : ∃ f ks, s.isCon v o f ks
  · obtain ⟨f, ks, hc⟩ := hc
    obtain ⟨⟨y, A⟩, hy⟩ := Option.isSome_iff_exists.1 (show (s.hnd w).isSome from hw)
    cases y with
    | none => exact step_addNo h ha hw (.inr (.inl ⟨A, hy⟩))
    | some x =>
      obtain ⟨gx, hx⟩ := Option.isSome_iff_exists.1 (h.has hy x rfl)
      by_cases hk : o = true → gx.key.isSome = true
      · have := hok f ks x A gx hc hy hx hk
        cases fast with
        | true =>
          obtain ⟨G, kids, hm, hcan⟩ := this
          obtain ⟨gx0, gx', e1, e2, _, e3, _⟩ := hm.self
          rw [hx] at e1; cases e1
          exact step_addFast h hc hy hm e2 (fun ho => by rw [e3]; exact hk ho) hcan
        | false => exact step_addCopy h hc hy hx hk this
      · refine step_addNo h ha hw (.inr (.inr ?_))
        cases o with
        | false => exact absurd (fun e => (nomatch e)) hk
        | true =>
          refine ⟨rfl, A, x, gx, hy, hx, ?_⟩
          cases hkk : gx.key with
          | none => rfl
          | some q => exact absurd (fun _ => by rw [hkk]; rfl) hk
  · simp only [not_exists] at hc
    exact step_addNo h ha hw (.inl ⟨ha, hc⟩)

/-! ### Replacing -/

theorem WP.setV {y y' : Val} (h : WP st P s) (hv : st.vals v = some y) (ha : y'.a = y.a)
    (hn : ∀ a, y'.n = some a → (s.node a).isSome) : WP (st.setV v y') P (s.handle v y') := by
  have h0 : WP st P { s with hnd := upd s.hnd v none } := { h with
    hnd := fun u z hu => by
      have hu : upd s.hnd v none u = some z := hu
      by_cases e : u = v
      · subst e; rw [upd_same] at hu; cases hu
      · rw [upd_ne _ _ e] at hu; exact h.hnd u z hu }
  have d := Did.setV (y' := y') h.inv hv ha
  have h1 : WP (st.setV v y') P { s with hnd := upd s.hnd v none } :=
    h0.unch d.inv (frame_setV) rfl fun u hu => by subst hu; exact upd_same ..
  exact { h1 with
    hnd := fun u z hu => by
      have hu : upd s.hnd v (some y') u = some z := hu
      by_cases e : u = v
      · subst e; rw [upd_same] at hu; cases hu
        exact ⟨upd_same .., hn⟩
      · rw [upd_ne _ _ e] at hu
        exact h1.hnd u z (by show upd s.hnd v none u = some z; rw [upd_ne _ _ e]; exact hu)
    seen := h1.seen.hnds (h.inv.ok.val_lt hv) }

theorem Tame.graft {e : Bool} (ha : G a = some ga) (hx : G x = some gx) :
    Tame (fun c => if c = a then x else c) G (G.graft a x ga gx e) := by
  intro c g' hc
  unfold Graph.graft at hc
  simp only
  split at hc
  · rename_i e1; subst e1; cases hc
    rw [if_pos rfl]
    exact ⟨ga, gx, ha, hx, .inl rfl, .inl rfl⟩
  · rename_i e1
    rw [if_neg e1]
    split at hc
    · cases hc
    · cases hg : G c with
      | none => simp [hg] at hc
      | some g =>
        rw [hg] at hc
        refine ⟨g, g, rfl, rfl, ?_⟩
        split at hc <;> (simp at hc; subst hc; simp)

theorem Grafted.kin {e : Bool} (hd : Grafted st st2 a x kids e) (hak : a ∉ kids) (hn : st'.nodes = st2.nodes) {c : Addr}
    (hc : (st.nodes c).isSome) : Kin st st' c (if c = a then x else c) := by
  by_cases e1 : c = a
  · subst e1; rw [if_pos rfl]
    obtain ⟨na, nx, E, h1, h2, h3, _⟩ := hd.self
    exact ⟨na, _, nx, h1, (congrFun hn c).trans h3, h2, rfl, .inl rfl, .inl rfl⟩
  · rw [if_neg e1]
    by_cases e2 : c ∈ kids
    · obtain ⟨n, h1, h2⟩ := hd.kid c e2
      exact ⟨n, _, n, h1, (congrFun hn c).trans h2, h1, rfl, .inl rfl, .inl rfl⟩
    · obtain ⟨n, h1⟩ := Option.isSome_iff_exists.1 hc
      exact ⟨n, n, n, h1, by rw [hn, hd.other c e1 e2]; exact h1, h1, rfl, .inl rfl, .inl rfl⟩

/-- The value of `x` is moved to `a`. -/
theorem WP.grafted {e : Bool} {V : Addr → Prop} {hnd' : Addr → Option Val} (h : WP st P s) (ha : s.node a = some ga) (hx : s.node x = some gx)
    (hr : ¬ Reach s.node x a)
    (hd : Grafted st st2 a x gx.val.kids e) (hn : st'.nodes = st2.nodes) (hF : Frame (fun _ => True) V (fun _ => False) st st')
    (hc : st'.cache = st.cache) (hI' : Inv st' P' (s.node.graft a x ga gx e))
    (hh : ∀ v y, hnd' v = some y → st'.vals v = some y ∧ ∀ c, y.n = some c → ((s.node.graft a x ga gx e) c).isSome) :
    WP st' P' { s.graft a x ga gx e with hnd := hnd' } := by
  have hak : a ∉ gx.val.kids := fun hm => hr (.step hx hm .refl)
  have hkin : ∀ {c}, (st.nodes c).isSome → Kin st st' c (if c = a then x else c) := fun hc => hd.kin hak hn hc
  have hp : Pers st st' := {
    nodes := fun c n hcn => by
      obtain ⟨n0, n', _, e1, e2, _, e3, _⟩ := hkin (c := c) (by rw [hcn]; rfl)
      rw [hcn] at e1; cases e1
      exact ⟨n', e2, e3⟩
    bufs := fun b bf hb => ⟨bf, by rw [hF.bufs b (h.inv.ok.buf_lt hb) (fun h => h)]; exact hb, rfl⟩
    cache := fun hs => by rw [hc]; exact hs }
  have hs := h.scr_same hc hF.na hF.allocs fun b hb => hF.bufs b hb fun h => h
  have hT := Tame.graft (e := e) ha hx
  refine h.edit (src := fun c => if c = a then x else c) (tail' := upd s.tail a (s.tail x))
    (dep' := fun b R => if b = a then s.dep a R || s.dep x R else s.dep b R) hI' hF hp hs hT (fun c hcs => ?_) (fun c htl => ?_) (fun c R hdp => ?_) hh
  · obtain ⟨g, hg⟩ := Option.isSome_iff_exists.1 hcs
    obtain ⟨g0, _, e1, _⟩ := hT c g hg
    obtain ⟨n, hn, _⟩ := h.inv.rep c g0 e1
    exact hkin (by rw [hn]; rfl)
  · by_cases e1 : c = a
    · subst e1; rw [upd_same] at htl; rw [if_pos rfl]; exact htl
    · rw [upd_ne _ _ e1] at htl; rw [if_neg e1]; exact htl
  · have hdp : (if c = a then s.dep a R || s.dep x R else s.dep c R) = false := hdp
    show s.dep c R = false ∧ s.dep (if c = a then x else c) R = false
    by_cases e1 : c = a
    · subst e1
      rw [if_pos rfl] at hdp ⊢
      simpa using hdp
    · rw [if_neg e1] at hdp ⊢
      exact ⟨hdp, hdp⟩

theorem graft_some {e : Bool} {c : Addr} (hc : (G c).isSome) (hx : c ≠ x) : ((G.graft a x ga gx e) c).isSome := by
  obtain ⟨g, hg⟩ := Option.isSome_iff_exists.1 hc
  unfold Graph.graft
  by_cases e1 : c = a
  · rw [if_pos e1]; rfl
  · rw [if_neg e1, if_neg hx]; split <;> simp [hg]

theorem frame_rest {V : Addr → Prop} {F : Addr → Option Node} {st2 : St} (e : st2 = { st with nodes := F }) :
    Frame (fun _ => True) V (fun _ => False) st st2 := by
  subst e
  exact ⟨fun _ _ h => absurd trivial h, fun _ _ _ => rfl, fun _ _ _ => rfl, Nat.le_refl _, Nat.le_refl _, Nat.le_refl _, rfl, rfl, rfl⟩

theorem step_set (h : WP st P s) (hL : Legit fp s (.set false v w)) : Goes fp (.set false v w) st s := by
  obtain ⟨ha, hw, _⟩ := hL
  obtain ⟨⟨z, A⟩, hv⟩ := Option.isSome_iff_exists.1 (show (s.hnd v).isSome from ha)
  obtain ⟨⟨y, A'⟩, hy⟩ := Option.isSome_iff_exists.1 (show (s.hnd w).isSome from hw)
  cases y with
  | none =>
    exact ⟨0, _, _, s, P, fun F _ => by simp only [exec]; mstep set_emptyArg h.inv (h.val hy); rfl, .setNo hy,
      h.unchanged unch_addV (h.inv.ok.addV (h.alloc hy))⟩
  | some x =>
    obtain ⟨gx, hx⟩ := Option.isSome_iff_exists.1 (h.has hy x rfl)
    obtain ⟨t, hu⟩ := h.inv.fin x gx hx
    have hkey : ∀ q, gx.key = some q → IsStrBody q := fun q => h.valid.key x gx q hx
    cases z with
    | none =>
      obtain ⟨c, st1, n, g, P', e, hC, d⟩ := set_empty h.inv (h.val hv) (h.val hy) hx hu
      obtain ⟨gn, hn, _⟩ := hC.root
      have h1 := h.grow hC (hu.valid h.valid) hkey
      have h2 := h1.setV (v := v) (y' := ⟨some n, A⟩) (y := ⟨none, A⟩) (h1.val hv) rfl (fun b hb => by
        cases hb; show ((s.node.or g) n).isSome; rw [hC.grow h.inv hn]; rfl)
      refine ⟨c, _, _, _, P', fun F hF => ?_, .setNew hv hy (hC.copyOf h.inv hx hu hn) (h.newTo hC), h2⟩
      have := e (F - c)
      rw [show F - c + c = F by omega] at this
      simp only [exec]; mstep this; rfl
    | some a =>
      obtain ⟨ga, hga⟩ := Option.isSome_iff_exists.1 (h.has hv a rfl)
      obtain ⟨c, st1, st', n, gn, g, P', e, hC, hn, d, ev, hG⟩ := set_run h.inv (h.val hv) (h.val hy) hga hx hu
      have h1 := h.grow hC (hu.valid h.valid) hkey
      have hr : ¬ Reach (s.node.or g) n a := fun hr => by
        have := hC.reach h.inv hr (by rw [hn]; rfl)
        have := h.inv.lt hga
        omega
      have h2 := h1.grafted (V := fun _ => False) (hnd' := fun u => (s.hnd u).filter fun y => decide (y.n ≠ some n))
        (Graph.le_or a ga hga) (hC.grow h.inv hn) hr hG rfl (frame_rest hG.rest) (by rw [hG.rest]) d.inv (fun u y hu => by
          obtain ⟨e1, e2⟩ := Option.filter_eq_some_iff.1 hu
          obtain ⟨f1, f2⟩ := h1.hnd u y e1
          refine ⟨by rw [ev]; exact f1, fun c hc => graft_some (f2 c hc) fun e => ?_⟩
          subst e; simp [hc] at e2)
      refine ⟨c, st', _, _, P', fun F hF => ?_, .set hv hy hga (hC.copyOf h.inv hx hu hn) (h.newTo hC), h2⟩
      have := e (F - c)
      rw [show F - c + c = F by omega] at this
      simp only [exec]; mstep this; rfl

theorem step_setFast (h : WP st P s) (hL : Legit fp s (.set true v w)) : Goes fp (.set true v w) st s := by
  obtain ⟨ha, hw, hok⟩ := hL
  obtain ⟨⟨z, A⟩, hv⟩ := Option.isSome_iff_exists.1 (show (s.hnd v).isSome from ha)
  obtain ⟨⟨y, A'⟩, hy⟩ := Option.isSome_iff_exists.1 (show (s.hnd w).isSome from hw)
  cases y with
  | none => exact ⟨0, _, _, s, P, fun F _ => by simp only [exec]; mstep setFast_emptyArg (h.val hy); rfl, .setNo hy, h⟩
  | some x =>
    obtain ⟨G, hm, hr⟩ := hok rfl x A' hy
    obtain ⟨st1, e1, _, h1, ev1⟩ := h.moved (h.val hy) hm
    obtain ⟨_, gx, _, hx, hp, _⟩ := hm.self
    have hvv1 : st1.vals w = some ⟨some x, A'⟩ := by rw [ev1]; exact h.val hy
    cases z with
    | none =>
      have hne : v ≠ w := by rintro rfl; rw [hv] at hy; cases hy
      have hv1 : st1.vals v = some ⟨none, A⟩ := by rw [ev1]; exact h.val hv
      have hvv2 : (st1.setV v ⟨some x, A⟩).vals w = some ⟨some x, A'⟩ := by simp [Ne.symm hne, hvv1]
      have h2 := h1.setV (y' := ⟨some x, A⟩) hv1 rfl (fun b hb => by
        cases hb; show (G x).isSome; rw [hx]; rfl)
      have h3 := h2.setV (y' := ⟨none, A'⟩) hvv2 rfl (fun b hb => by cases hb)
      refine ⟨0, _, _, _, P, fun F hF => ?_, .setFastNew hv hy hm, h3⟩
      have : setFast F v w st = .ok (true, (st1.setV v ⟨some x, A⟩).setV w ⟨none, A'⟩) := by
        unfold setFast
        mstep e1
        simp only [Bool.not_true, Bool.false_eq_true, if_false]
        mstep rdVal_run hvv1
        mstep rdVal_run hv1
        simp only
        mstep setValN_run hv1
        mstep setValN_run hvv2
        rfl
      simp only [exec]; mstep this; rfl
    | some a =>
      obtain ⟨ga, hga⟩ : ∃ ga, G a = some ga := Option.isSome_iff_exists.1 (by rw [hm.dom]; exact h.has hv a rfl)
      have hr := hr a A hv
      obtain ⟨c, st', e, d, hw', _, st1', st2, f1, hG, est⟩ := setFast_run h.inv (h.val hv) (h.val hy) hm hga hx hr
      rw [e1] at f1; cases f1
      have hne : v ≠ w := by
        rintro rfl; rw [hv] at hy; cases hy; exact hr .refl
      have hF2 : Frame (fun _ => True) (· = w) (fun _ => False) st1 st' := by
        rw [est]
        exact (frame_rest hG.rest).trans (frame_setV (v := w)) (fun _ _ _ => trivial) (fun _ _ h => h) (fun _ _ h => h)
      have h2 := h1.grafted (V := (· = w)) (st' := st') (hnd' := upd (fun u => (s.hnd u).filter fun y => decide (y.n ≠ some x)) w (some ⟨none, A'⟩))
        hga hx hr hG (by rw [est]; rfl) hF2 (by rw [est]; show st2.cache = st1.cache; rw [hG.rest]) d.inv (fun u y hu => by
          by_cases e : u = w
          · subst e; rw [upd_same] at hu; cases hu
            exact ⟨hw', fun c hc => by cases hc⟩
          · rw [upd_ne _ _ e] at hu
            obtain ⟨g1, g2⟩ := Option.filter_eq_some_iff.1 hu
            obtain ⟨f1, f2⟩ := h1.hnd u y g1
            refine ⟨?_, fun c hc => graft_some (f2 c hc) fun e => ?_⟩
            · rw [est]
              show upd st2.vals w _ u = _
              rw [upd_ne _ _ e, hG.rest]; exact f1
            · subst e; simp [hc] at g2)
      refine ⟨c, st', _, _, P, fun F hF => ?_, .setFast hv hy hm hga hx,
        { h2 with seen := h2.seen.hnds (d.inv.ok.val_lt hw') }⟩
      have := e (F - c)
      rw [show F - c + c = F by omega] at this
      simp only [exec]; mstep this; rfl

end ZJ
