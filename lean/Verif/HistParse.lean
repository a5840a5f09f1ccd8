import Verif.HistEdit

/-
C34: the three parse functions.
-/

set_option linter.unusedSimpArgs false
set_option linter.unusedVariables false

namespace ZJ

variable {st st' : St} {P P' : Addr → Prop} {s s' : Store} {v w a A : Addr} {x : Option Addr} {gn : GNode}
  {D : Type} {fp : FP D} {G : Graph}

/-! ### Which memory a parsed document uses -/

theorem Tri.parseCore {k : Kit} {Pre : Prop} (hf : k.Fine) (v : Addr) (A : Nat) (p : SPtr) (s : Bytes) (lim : Nat) (src : Option Addr)
    (root : Addr) (fuel : Nat) (hA : Pre → k.As A) (hp : Pre → k.Q p)
    (hs : Pre → ∀ a sn n, src = some sn → k.Has sn n → k.KQ a n.key ∧ k.VQ a n.value) :
    Tri k Pre (ZJ.switchValue A p s lim root 0 >>= afterSwitch v A p s lim src
      (fun F i => ZJ.parseLoop v A p s lim src F .head root i) fuel) Any := by
  refine .bind (.switchValue hf A p s lim root 0 hA hp) fun r => ?_
  cases r with
  | bad => exact .restore v src fun h => hs h.1
  | desc n i => exact .parseLoop hf v A p s lim src (fun h => hA h.1) (fun h => hp h.1) (fun h => hs h.1) _ _ _ _
  | leaf i => exact .parseLoop hf v A p s lim src (fun h => hA h.1) (fun h => hp h.1) (fun h => hs h.1) _ _ _ _

/-- The text pointers of the node of the handle. -/
def Ptrs (st : St) (x : Option Addr) (p : SPtr) : Prop :=
  ∃ a n, x = some a ∧ st.nodes a = some n ∧ (n.key = some (some p) ∨ n.value = some (.str p))

/-- The trace of `zj_ParseFast`. -/
theorem WP.parseTrace {p : SPtr} {str : Bytes} {lim : Nat} {r : Bool} (h : WP st P s) (hv : s.hnd v = some ⟨x, A⟩)
    (hT : Text st P p str lim) (hQ : Pers st st' → Ofs st' A p)
    (e : parseFast v p st = .ok (r, st')) :
    Pers st st' ∧ Mid (tkit st st' A v (Ptrs st x) false s.scrOK) st' := by
  have hal := h.alloc hv
  have hs : ∀ w y, (w = v ∨ st.nv ≤ w) → st.vals w = some y → y.a = A := by
    intro w y hw hy
    rcases hw with rfl | hw
    · rw [h.val hv] at hy; cases hy; rfl
    · rw [h.inv.ok.vals w hw] at hy; cases hy
  have hmid := fun hp => WP.mid (k := tkit st st' A v (Ptrs st x) false s.scrOK) h (fun h => h) hs (fun w hw => .inr hw) hp
  have hsrc : ∀ {Pre : Prop} (src : Option Addr), (∀ sn, src = some sn → st.nodes sn = none) → Pre → ∀ a sn n, src = some sn →
      (tkit st st' A v (Ptrs st x) false s.scrOK).Has sn n →
      (tkit st st' A v (Ptrs st x) false s.scrOK).KQ a n.key ∧ (tkit st st' A v (Ptrs st x) false s.scrOK).VQ a n.value :=
    fun src hn _ a sn n hsn hh => hh.2 (hn sn hsn)
  have go : ∀ {st1 : St} {src root}, (∀ sn, src = some sn → st.nodes sn = none) → Good st1 → Pers st st1 →
      ((switchValue A p str lim root 0 >>= afterSwitch v A p str lim src
        (fun F i => parseLoop v A p str lim src F .head root i) (parseFuel str.length)) st1 = .ok (r, st')) →
      (Mid (tkit st st' A v (Ptrs st x) false s.scrOK) st → Mid (tkit st st' A v (Ptrs st x) false s.scrOK) st1) →
      Pers st st' ∧ Mid (tkit st st' A v (Ptrs st x) false s.scrOK) st' := by
    intro st1 src root hn hg hp1 e hm
    have T0 := Tri.parseCore (k := tkit st st' A v (Ptrs st x) false s.scrOK) (Pre := Pers st st') tkit_fine v A p str lim src root
      (parseFuel str.length) (fun _ => rfl) hQ (hsrc src hn)
    obtain ⟨_, hp2⟩ := T0.pers _ _ _ e hg
    have hp := hp1.trans hp2
    exact ⟨hp, (T0.go _ _ _ e hg (hm (hmid hp)) .refl hp).1⟩
  have hnn := h.inv.ok.nodes st.nn (Nat.le_refl _)
  cases x with
  | none =>
    rw [parseFast_none (h.val hv) hal hT] at e
    have hso := startNone_ok h.inv.ok (h.val hv)
    refine go (src := none) (fun _ h => (nomatch h)) ⟨hso.nodes, hso.bufs⟩ ⟨fun a n hn => ⟨n, ?_, rfl⟩, fun b bf hb => ⟨bf, hb, rfl⟩, id⟩ e fun hm => ?_
    · have : a ≠ st.nn := fun e => by rw [e, hnn] at hn; cases hn
      simp [startNone, this]; exact hn
    · refine { hm with old := fun a n hn => ?_, new := fun a n h0 hn => ?_, hs := fun w y hw hy => ?_ }
      · have : a ≠ st.nn := fun e => by rw [e] at hn; exact absurd (hnn.symm.trans hn) (by simp)
        exact ⟨n, by simp [startNone, this]; exact hn, rfl, .inl rfl, .inl rfl⟩
      · by_cases e : a = st.nn
        · subst e
          simp [startNone] at hn; subst hn
          exact ⟨rfl, fun p hp => (nomatch hp), fun p hp => (nomatch hp)⟩
        · simp [startNone, e] at hn
          have h0 : st.nodes a = none := h0
          rw [h0] at hn; cases hn
      · by_cases e : w = v
        · subst e; simp [startNone] at hy; subst hy; rfl
        · simp [startNone, e] at hy; exact hm.hs w y hw hy
  | some b =>
    obtain ⟨go', hgo⟩ := Option.isSome_iff_exists.1 (h.has hv b rfl)
    obtain ⟨n0, hn0, _⟩ := h.inv.rep b go' hgo
    have hlt := h.inv.lt hgo
    rw [parseFast_some (h.val hv) hal hn0 hlt hT] at e
    have hso := startSome_ok (A := A) h.inv.ok n0
    refine go (src := some st.nn) (fun sn h => by cases h; exact hnn) ⟨hso.nodes, hso.bufs⟩ ⟨fun a n hn => ⟨n, ?_, rfl⟩, fun b bf hb => ⟨bf, hb, rfl⟩, id⟩ e fun hm => ?_
    · have : a ≠ st.nn := fun e => by rw [e, hnn] at hn; cases hn
      simp [startSome, this]; exact hn
    · refine { hm with old := fun a n hn => ?_, new := fun a n h0 hn => ?_ }
      · have : a ≠ st.nn := fun e => by rw [e] at hn; exact absurd (hnn.symm.trans hn) (by simp)
        exact ⟨n, by simp [startSome, this]; exact hn, rfl, .inl rfl, .inl rfl⟩
      · by_cases e : a = st.nn
        · subst e
          simp [startSome] at hn; subst hn
          exact ⟨rfl, fun p hp => .inr ⟨b, n0, rfl, hn0, .inl hp⟩, fun p hp => .inr ⟨b, n0, rfl, hn0, .inr hp⟩⟩
        · simp [startSome, e] at hn
          have h0 : st.nodes a = none := h0
          rw [h0] at hn; cases hn

/-! ### zj_ParseFast -/

theorem WP.parsed {p : SPtr} {b : Bytes} {t : Json} (h : WP st P s) (hv : s.hnd v = some ⟨x, A⟩) (hs : CStr st p b)
    (hP : ∀ c off, p = .buf c off → P c) (hown : ∀ c off, p = .buf c off → ∃ bf, st.bufs c = some bf ∧ (bf.owner = none ∨ bf.owner = some A))
    (ht : JText t b) : ∃ st' gv g, parseFast v p st = .ok (true, st') ∧
      PlantOf s.node (rootOf st x) gv g t ∧ s.seen.newTo g ∧
      WP st' P (s.plant v A (rootOf st x) (baseNode s.node x) gv g) ∧ Pers st st' := by
  obtain ⟨st', gv, g, e, hI, hu, hvals, hc, hnn, hF, hterm, hnew, hug⟩ := parseFast_accept h.inv (h.val hv) (h.has hv) hs hP ht
  have hrt : ∀ g', s.node (rootOf st x) = some g' → rootOf st x < st.nn := fun g' h' => h.inv.lt h'
  have hfresh : ∀ c y, g c = some y → s.node c = none ∧ c ≠ rootOf st x := by
    intro c y hcy
    obtain ⟨h1, h2⟩ := hnn c y hcy
    refine ⟨?_, h2⟩
    cases h2 : s.node c with
    | none => rfl
    | some g' => have := h.inv.lt h2; omega
  refine ⟨st', gv, g, e, ⟨hug, hfresh, hnew, ?_⟩, fun c y hy h' => absurd (h.seen.node c h') (Nat.not_lt.2 (hnn c y hy).1), ?_⟩
  · have hF := hI.forest
    have hkid : ∀ f gf, g f = some gf → ∀ k ∈ gf.val.kids, (g k).isSome := by
      intro f gf hf
      obtain ⟨_, _, _, k0, hk0, hr⟩ := hnew f gf hf
      obtain ⟨o, hi, _⟩ := hug.items
      obtain ⟨i, hi'⟩ := List.mem_iff_getElem?.1 hk0
      rcases hi.at i with ⟨e1, _⟩ | ⟨k', gk, key, u, e1, e2, e3, e4, e5⟩
      · rw [hi'] at e1; cases e1
      · rw [hi'] at e1; cases e1
        exact e5.kids_some hr hf
    intro f gf o ks hf hv
    have hmem : ∀ k, (g k).isSome → ∃ gk, g k = some gk ∧ (s.node.plant (rootOf st x) (baseNode s.node x) gv g) k = some gk ∧
        (g.set (rootOf st x) (blank.put gv)) k = some gk := by
      intro k hk
      obtain ⟨gk, e⟩ := Option.isSome_iff_exists.1 hk
      have hne := (hfresh k gk e).2
      exact ⟨gk, e, by simp [Graph.plant, Graph.set, Graph.or, hne, e], by simp [Graph.set, hne, e]⟩
    have key : ∀ gf', (s.node.plant (rootOf st x) (baseNode s.node x) gv g) f = some gf' → gf'.val = .con o ks →
        (∀ k ∈ ks, (g k).isSome) → ks.Nodup ∧ ∀ k ∈ ks, ∃ gk, (g.set (rootOf st x) (blank.put gv)) k = some gk ∧ gk.par = some f ∧ gk.key.isSome = o := by
      intro gf' hf' hv' hks
      obtain ⟨h1, h2⟩ := hF f gf' o ks hf' hv'
      refine ⟨h1, fun k hk => ?_⟩
      obtain ⟨gk, _, e1, e2⟩ := hmem k (hks k hk)
      obtain ⟨gk', e3, e4⟩ := h2 k hk
      rw [e1] at e3; cases e3
      exact ⟨gk, e2, e4⟩
    by_cases ef : f = rootOf st x
    · subst ef
      rw [Graph.set_same] at hf; cases hf
      have hv : gv = .con o ks := hv
      refine key ((baseNode s.node x).put gv) (by simp [Graph.plant]) hv fun k hk => hug.kids_some k (by rw [hv]; exact hk)
    · rw [Graph.set_ne _ _ ef] at hf
      exact key gf (by simp [Graph.plant, Graph.set, Graph.or, ef, hf]) hv fun k hk => hkid f gf hf k (by rw [hv]; exact hk)
  obtain ⟨_, r, lim, hview⟩ := hs
  obtain ⟨hp, hm⟩ := h.parseTrace hv (text_ofView hview hP) (fun hp c off ec bf' hb' => by
    obtain ⟨bf, e1, e2⟩ := hown c off ec
    obtain ⟨b1, e3, e4⟩ := hp.bufs c bf e1
    rw [hb'] at e3; cases e3
    rw [e4]; exact e2) e
  refine ⟨?_, hp⟩
  have hroot : (s.node.plant (rootOf st x) (baseNode s.node x) gv g) (rootOf st x) = some ((baseNode s.node x).put gv) := by
    simp [Graph.plant]
  have hin : ∀ c y, g c = some y → (s.node.plant (rootOf st x) (baseNode s.node x) gv g) c = some y := by
    intro c y hcy
    simp [Graph.plant, Graph.set, Graph.or, (hfresh c y hcy).2, hcy]
  have hreach : ∀ c y, g c = some y → Reach (s.node.plant (rootOf st x) (baseNode s.node x) gv g) (rootOf st x) c := by
    intro c y hcy
    obtain ⟨_, _, _, k, hk, hr⟩ := hnew c y hcy
    exact .step hroot hk (hr.mono hin)
  have hold : ∀ c, c ≠ rootOf st x → g c = none → (s.node.plant (rootOf st x) (baseNode s.node x) gv g) c = s.node c := by
    intro c hne hn
    simp [Graph.plant, Graph.set, Graph.or, hne, hn]
  have htx := fun c gc (hr : Reach (s.node.plant (rootOf st x) (baseNode s.node x) gv g) (rootOf st x) c) hgc => hu.texts (c := c) (g := gc) ht.valid hr hgc
  have hscr := h.scr_same hc hF.na hF.allocs fun b hb => hF.bufs b hb fun h => h
  have hq : ∀ {R : Nat} {c : Addr}, s.uses (rootOf st x) R = false → R ≠ A → ∀ b off,
      (tkit st st' A v (Ptrs st x) false s.scrOK).Q (.buf b off) ∨ (tkit st st' A v (Ptrs st x) false s.scrOK).Y c (.buf b off) →
      ∀ bf, st'.bufs b = some bf → bf.owner ≠ some R := by
    intro R c hu hR b off hq bf' hb'
    rcases hq with hq | ⟨a, n, rfl, hn, hq⟩
    · exact Ofs.ne (.inl hq) hR bf' hb'
    · have hs : (s.node a).isSome := h.has hv a rfl
      have hd : s.dep a R = false := by
        have hu : s.uses a R = false := hu
        simpa [Store.uses, hs] using hu
      obtain ⟨ga, hga⟩ := Option.isSome_iff_exists.1 hs
      obtain ⟨bf, hbf⟩ := Option.isSome_iff_exists.1 (h.inv.pin b (h.inv.ptr hga hn hq)).1
      obtain ⟨b1, e1, e2⟩ := hp.bufs b bf hbf
      rw [hb'] at e1; cases e1
      rw [e2]; exact (h.dep a R hs hd n hn).2 b off hq bf hbf
  exact {
    inv := hI
    hnd := fun w y hw => by
      have hw : upd s.hnd v _ w = some y := hw
      by_cases e : w = v
      · subst e; rw [upd_same] at hw; cases hw
        exact ⟨hvals, fun a ha => by cases ha; show ((s.node.plant _ _ _ _) _).isSome; rw [hroot]; rfl⟩
      · rw [upd_ne _ _ e] at hw
        obtain ⟨h1, h2⟩ := h.hnd w y hw
        refine ⟨by rw [hF.vals w (h.inv.ok.val_lt h1) e]; exact h1, fun a ha => ?_⟩
        show ((s.node.plant _ _ _ _) a).isSome
        by_cases e1 : a = rootOf st x
        · rw [e1, hroot]; rfl
        · cases e2 : g a with
          | some y => rw [hin a y e2]; rfl
          | none => rw [hold a e1 e2]; exact h2 a ha
    live := by rw [hF.allocs]; exact h.live
    fresh := by rw [hF.allocs, hF.na]; exact h.fresh
    pad := by rw [hF.slack]; exact h.pad
    valid := by
      have key : ∀ c gc, (s.node.plant (rootOf st x) (baseNode s.node x) gv g) c = some gc →
          (∀ q, gc.key = some q → IsStrBody q) ∧ (∀ q, gc.val = .num q → IsNum q) ∧ (∀ q, gc.val = .str q → IsStrBody q) := by
        intro c gc hgc
        by_cases e1 : c = rootOf st x
        · refine ⟨?_, (htx c gc (e1 ▸ .refl) hgc).2⟩
          rw [e1, hroot] at hgc; cases hgc
          exact (h.base hv).1
        · cases e2 : g c with
          | some y =>
            obtain ⟨h1, h2⟩ := htx c gc (hreach c y e2) hgc
            exact ⟨h1.resolve_left e1, h2⟩
          | none =>
            rw [hold c e1 e2] at hgc
            exact ⟨fun q => h.valid.key c gc q hgc, fun q => h.valid.num c gc q hgc, fun q => h.valid.str c gc q hgc⟩
      exact ⟨fun c gc q hgc => (key c gc hgc).1 q, fun c gc q hgc => (key c gc hgc).2.1 q, fun c gc q hgc => (key c gc hgc).2.2 q⟩
    tail := fun c gc raw hct hgc hr => by
      have hgc : (s.node.plant _ _ _ _) c = some gc := hgc
      by_cases e1 : c = rootOf st x
      · exact hterm c gc raw (e1 ▸ .refl) hgc hr
      · cases e2 : g c with
        | some y => exact hterm c gc raw (hreach c y e2) hgc hr
        | none =>
          rw [hold c e1 e2] at hgc
          have hct : (s.tail c || decide (c = rootOf st x) || (g c).isSome) = true := hct
          simp [e1, e2] at hct
          exact (h.tail c gc raw hct hgc hr).frame h.inv hgc hr (hF.weaken (fun _ h => h) (fun _ h => h) (fun _ h => h.elim)) e1
    dep := fun c R hcs hd => by
      have hcs : ((s.node.plant _ _ _ _) c).isSome := hcs
      have hd : (if c = rootOf st x ∨ (g c).isSome then s.uses (rootOf st x) R || decide (R = A) else s.dep c R) = false := hd
      by_cases e1 : c = rootOf st x ∨ (g c).isSome
      · rw [if_pos e1] at hd
        simp only [Bool.or_eq_false_iff, decide_eq_false_iff_not] at hd
        cases hg : s.node c with
        | some gc =>
          have e3 : c = rootOf st x := e1.resolve_right fun h' => by
            obtain ⟨y, hy⟩ := Option.isSome_iff_exists.1 h'
            rw [(hfresh c y hy).1] at hg; cases hg
          have : s.dep c R = false := by
            have := hd.1; rw [← e3] at this; simpa [Store.uses, hg] using this
          exact Clean.next (k := tkit st st' A v (Ptrs st x) false s.scrOK) h.inv (by rw [hg]; rfl) (h.dep c R (by rw [hg]; rfl) this)
            hm hp (hq hd.1 hd.2)
        | none =>
          have hn : st.nodes c = none := by
            rcases e1 with e3 | e3
            · cases x with
              | none => exact h.inv.ok.nodes c (by rw [e3]; exact Nat.le_refl _)
              | some a =>
                have := h.has hv a rfl
                rw [e3] at hg; rw [show s.node a = none from hg] at this; cases this
            · obtain ⟨y, hy⟩ := Option.isSome_iff_exists.1 e3
              exact h.inv.ok.nodes c (hnn c y hy).1
          exact Clean.fresh (k := tkit st st' A v (Ptrs st x) false s.scrOK) hn hm hd.2 (hq hd.1 hd.2)
      · rw [if_neg e1] at hd
        have e2 : g c = none := by
          cases h2 : g c with
          | none => rfl
          | some y => exact absurd (.inr (by rw [h2]; rfl)) e1
        have e3 : c ≠ rootOf st x := fun h => e1 (.inl h)
        rw [hold c e3 e2] at hcs
        obtain ⟨gc, hgc⟩ := Option.isSome_iff_exists.1 hcs
        exact (h.dep c R hcs hd).keep h.inv hcs (hF.nodes c (h.inv.lt hgc) e3) hp
    scr := hscr.1
    scr0 := hscr.2
    seen := (h.seen.frame hF).nodes fun c hcs => by
      rcases hcs with e | e
      · exact hI.lt (by rw [e]; exact hroot)
      · obtain ⟨y, hy⟩ := Option.isSome_iff_exists.1 e
        exact hI.lt (hin c y hy) }

theorem WP.addB_pin (h : WP st P s) {sz : Nat} {d : Bytes} (hd : d.length ≤ sz) :
    WP (st.addB A sz d) (fun c => P c ∨ c = st.nb) s :=
  h.unch (h.inv.addB hd) addB_frame.1 addB_frame.2 fun _ h => h.elim

theorem Unchanged.pers (hU : Unchanged st st') (ho : StOK st) : Pers st st' :=
  hU.1.pers ho (fun _ h => h) (fun _ h => h) hU.2

theorem cut_split (b : Bytes) : ∃ r, b ++ [0] = b.takeWhile (· ≠ 0) ++ 0 :: r := by
  induction b with
  | nil => exact ⟨[], rfl⟩
  | cons c b ih =>
    by_cases hc : c = 0
    · exact ⟨b ++ [0], by simp [hc]⟩
    · obtain ⟨r, e⟩ := ih
      exact ⟨r, by rw [List.takeWhile_cons_of_pos (by simpa using hc), List.cons_append, List.cons_append, e]⟩

theorem cut_nul (b : Bytes) : (0 : Byte) ∉ b.takeWhile (· ≠ 0) := by
  induction b with
  | nil => simp
  | cons c b ih =>
    by_cases hc : c = 0
    · simp [hc]
    · rw [List.takeWhile_cons_of_pos (by simpa using hc)]
      intro h
      rcases List.mem_cons.1 h with h | h
      · exact hc h.symm
      · exact ih h

theorem inner_parseLen {f : ParseFn} {b r : Bytes} {p : SPtr} (h : WP st P s) (hv : s.hnd v = some ⟨x, A⟩) (hr : Reads st p b)
    (hc : b ++ [0] = f.cut b ++ 0 :: r) (h0 : (0 : Byte) ∉ f.cut b) (hok : s.pad = true ∨ ∃ t, JText t (f.cut b)) :
    Inner fp (.parse f v b) (parseLen v p b.length) st P s false := by
  by_cases ht : ∃ t, JText t (f.cut b)
  · obtain ⟨t, ht⟩ := ht
    have h2 : WP (st.addB A (b.length + 1) (b ++ [0])) (fun c => P c ∨ c = st.nb) s := h.addB_pin (by simp)
    have hcs : CStr (st.addB A (b.length + 1) (b ++ [0])) (.buf st.nb 0) (f.cut b) := ⟨h0, r, _, by rw [addB_view, hc]⟩
    obtain ⟨st', gv, g, e, hpl, hnw, hw, hp⟩ := h2.parsed hv hcs (fun c off e => by cases e; exact .inr rfl)
      (fun c off e => by cases e; exact ⟨⟨some A, b.length + 1, st.slack st.nb, b ++ [0]⟩, by simp, .inr rfl⟩) ht
    refine ⟨true, st', _, _, (parseLen_eq (h.val hv) (h.alloc hv) hr).trans e, .parse ht (h.target hv) hpl hnw, hw,
      (addB_frame.pers h.inv.ok).trans hp, fun _ c hc => hc.imp id (fun e => by subst e; exact Nat.le_refl _)⟩
  · obtain hpad := hok.resolve_right ht
    rcases parseLen_reject h.inv (h.val hv) (h.has hv) hr hc h0 ht with ⟨st', e, hU, ho⟩ | ⟨_, hl⟩
    · exact ⟨false, st', P, s, e, .parseNo ht, h.unchanged hU ho, hU.pers h.inv.ok, fun _ c hc => .inl hc⟩
    · have := h.pad hpad st.nb
      have : (f.cut b).length ≤ b.length := by
        have := congrArg List.length hc
        simp at this; omega
      omega

theorem step_parse {f : ParseFn} {b : Bytes} (h : WP st P s) (hL : Legit fp s (.parse f v b)) : Goes fp (.parse f v b) st s := by
  obtain ⟨ha, hb, hok⟩ := hL
  obtain ⟨⟨x, A⟩, hv⟩ := Option.isSome_iff_exists.1 (show (s.hnd v).isSome from ha)
  cases f with
  | parse =>
    have h0 : (0 : Byte) ∉ b := hb.resolve_left (fun h => (nomatch h))
    have hcs : CStr (st.addC (b ++ [0])) (.buf st.nb 0) b := addC_cstr h0
    have h1 := h.addC (b ++ [0])
    obtain ⟨r, st', P', s', e, hi⟩ := inner_parseLen (fp := fp) (f := .parse) (r := []) h1 hv (hcs.reads h1.inv.ok) rfl h0 hok
    exact Inner.goes h (P' := P) (fun _ _ h => h) ⟨r, st', P', s', (parse_eq hcs).trans e, hi⟩ fun F => rfl
  | parseLen =>
    have h1 := h.addC b
    obtain ⟨r, hr⟩ := cut_split b
    exact Inner.goes h (P' := P) (fun _ _ h => h) (inner_parseLen (fp := fp) (f := .parseLen) h1 hv addC_reads hr (cut_nul b) hok) fun F => rfl
  | parseFast =>
    have h0 : (0 : Byte) ∉ b := hb.resolve_left (fun h => (nomatch h))
    have hcs : CStr (st.addC (b ++ [0])) (.buf st.nb 0) b := addC_cstr h0
    have h1 := h.addC_pin (b ++ [0])
    refine Inner.goes (keep := true) h (P' := fun c => P c ∨ c = st.nb) (fun h => (nomatch h)) ?_ fun F => rfl
    by_cases ht : ∃ t, JText t b
    · obtain ⟨t, ht⟩ := ht
      obtain ⟨st', gv, g, e, hpl, hnw, hw, hp⟩ := h1.parsed hv hcs (fun c off e => by cases e; exact .inr rfl)
        (fun c off e => by cases e; obtain ⟨bf, e1, e2⟩ := caller_owner (st := st) (d := b ++ [0]); exact ⟨bf, e1, .inl e2⟩) ht
      exact ⟨true, st', _, _, e, .parse ht (h1.target hv) hpl hnw, hw, hp, fun h => (nomatch h)⟩
    · have hpad := hok.resolve_right ht
      have hvw : view (.buf st.nb 0) (st.addC (b ++ [0])) = .ok ((b ++ 0 :: [], b.length + 1 + st.slack st.nb), st.addC (b ++ [0])) := by
        simp [view, St.addC]
      rcases parseFast_reject h1.inv (h1.val hv) (h1.has hv) h0 hvw (fun c off e => by cases e; exact .inr rfl) ht with ⟨st', e, hU, ho⟩ | ⟨_, hl⟩
      · exact ⟨false, st', _, s, e, .parseNo ht, h1.unchanged hU ho, hU.pers h1.inv.ok, fun h => (nomatch h)⟩
      · have := h.pad hpad st.nb
        omega

end ZJ
