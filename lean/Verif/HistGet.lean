import Verif.HistSet

/-
C34: allocators, handles, getters and navigation.
-/

set_option linter.unusedSimpArgs false
set_option linter.unusedVariables false

namespace ZJ

variable {st st' : St} {P P' : Addr → Prop} {s s' : Store} {v w a A : Addr} {x : Option Addr} {gn : GNode}
  {D : Type} {fp : FP D}

/-! ### Reading texts -/

theorem readC_run {p : SPtr} {d r : Bytes} {lim : Nat} (h : view p st = .ok ((d ++ 0 :: r, lim), st)) :
    readC (some p) st = .ok (some (d.takeWhile (· ≠ 0)), st) := by
  have hsplit : ∀ d : Bytes, ∃ r', d ++ 0 :: r = d.takeWhile (· ≠ 0) ++ 0 :: r' := by
    intro d
    induction d with
    | nil => exact ⟨r, rfl⟩
    | cons c d ih =>
      by_cases hc : c = 0
      · subst hc; exact ⟨d ++ 0 :: r, by simp⟩
      · obtain ⟨r', e⟩ := ih
        exact ⟨r', by rw [List.takeWhile_cons_of_pos (by simpa using hc), List.cons_append, List.cons_append, e]⟩
  obtain ⟨r', e⟩ := hsplit d
  have h0 : ∀ d : Bytes, (0 : Byte) ∉ d.takeWhile (· ≠ 0) := by
    intro d
    induction d with
    | nil => simp
    | cons c d ih =>
      by_cases hc : c = 0
      · subst hc; simp
      · rw [List.takeWhile_cons_of_pos (by simpa using hc)]
        simp only [List.mem_cons, not_or]
        exact ⟨fun h => hc h.symm, ih⟩
  rw [e] at h
  unfold readC
  mstep h
  simp only [ZJ.strLen, strLenLoop_eq (h0 d)]
  mstep (show lift (Res.ok (0 + (List.takeWhile (fun x => decide (x ≠ 0)) d).length)) st = .ok (_, st) from rfl)
  simp

theorem takeWhile_self {d : Bytes} (h : (0 : Byte) ∉ d) : d.takeWhile (· ≠ 0) = d := by
  induction d with
  | nil => rfl
  | cons c d ih =>
    simp only [List.mem_cons, not_or] at h
    rw [List.takeWhile_cons_of_pos (by simpa using Ne.symm h.1), ih h.2]

theorem readC_holds {p : SPtr} {d : Bytes} (h : HoldsText st p d) : readC (some p) st = .ok (some (d.takeWhile (· ≠ 0)), st) := by
  obtain ⟨c, bf, rfl, h1, h2⟩ := h
  exact readC_run (r := []) (lim := bf.size + bf.slack) (by simp [view, h1, h2])

theorem readC_addB {sz : Nat} {d : Bytes} :
    readC (some (.buf st.nb 0)) (st.addB A sz (d ++ [0])) = .ok (some (d.takeWhile (· ≠ 0)), st.addB A sz (d ++ [0])) :=
  readC_holds ⟨st.nb, _, rfl, by simp [St.addB]; rfl, rfl⟩

theorem readL_run {p : SPtr} {d : Bytes} (h : StrAt st P p d) (ho : StOK st) :
    readL (some (p, d.length)) st = .ok (some d, st) := by
  unfold readL
  mstep h.reads ho
  rfl

theorem readC_none : readC none st = .ok (none, st) := rfl
theorem readL_none : readL none st = .ok (none, st) := rfl

/-! ### Allocators and handles -/

theorem step_newAlloc (h : WP st P s) : Goes fp .newAlloc st s := by
  have hfree : s.live st.na = false := by rw [h.live]; exact h.fresh _ (Nat.le_refl _)
  refine ⟨0, { st with allocs := upd st.allocs st.na true, na := st.na + 1, log := .new st.na :: st.log }, _, _, P, fun F _ => rfl, .newAlloc hfree fun h' => absurd (h.seen.alloc _ h') (Nat.lt_irrefl _), ?_⟩
  have hI := h.inv
  have ho : StOK { st with allocs := upd st.allocs st.na true, na := st.na + 1, log := .new st.na :: st.log } :=
    ⟨hI.ok.nodes, hI.ok.vals, hI.ok.bufs, hI.ok.size, fun v y hy => by
      have := hI.ok.live v y hy; simp only [upd]; split <;> simp_all, hI.ok.cache⟩
  exact {
    inv := ⟨ho, hI.pin, hI.rep.mono (fun _ _ => rfl) (fun _ h => h) (fun _ _ => rfl), hI.fin⟩
    hnd := h.hnd
    live := by show upd s.live _ _ = upd st.allocs _ _; rw [h.live]
    fresh := fun B hB => by
      have hB : st.na + 1 ≤ B := hB
      show upd st.allocs _ _ _ = false
      rw [upd_ne _ _ (by omega)]; exact h.fresh B (by omega)
    pad := h.pad
    valid := h.valid
    tail := fun a g raw ht hg hr => by
      obtain ⟨nd, p, c', r, lim, h1, h2, h3, h4⟩ := h.tail a g raw ht hg hr
      refine ⟨nd, p, c', r, lim, h1, h2, ?_, h4⟩
      cases p with
      | lit s => simpa [ZJ.view] using h3
      | buf b off =>
        simp only [ZJ.view] at h3 ⊢
        cases hb : st.bufs b <;> rw [hb] at h3 <;> simp at h3 ⊢
        exact h3
    dep := h.dep
    scr := fun z hz => by
      obtain ⟨h1, hl0, h2⟩ := h.scr z hz
      refine ⟨h1, Nat.lt_succ_of_lt hl0, fun hl => ?_⟩
      have hl : upd st.allocs st.na true z.a = true := hl
      have hne : z.a ≠ st.na := by omega
      rw [upd_ne _ _ hne] at hl
      obtain ⟨⟨cont, h3⟩, h4⟩ := h2 hl
      exact ⟨⟨cont, by show upd st.allocs _ _ _ = true; rw [upd_ne _ _ hne]; exact h3.live, h3.hdr, h3.buf, h3.room⟩, h4⟩
    scr0 := h.scr0
    seen := ⟨h.seen.node, h.seen.hnd, fun B hB => hB.elim (fun h' => Nat.lt_succ_of_lt (h.seen.alloc B h')) (fun e => e ▸ Nat.lt_succ_self _)⟩ }

/-- A new handle. -/
theorem WP.handle (h : WP st P s) (ha : st.allocs A = true) (hx : ∀ a, x = some a → (s.node a).isSome) :
    s.hnd st.nv = none ∧ ¬ s.seen.hnd st.nv ∧ WP (st.addV A x) P (s.handle st.nv ⟨x, A⟩) := by
  have hn : s.hnd st.nv = none := by
    cases hh : s.hnd st.nv with
    | none => rfl
    | some y =>
      have := (h.hnd _ _ hh).1
      rw [h.inv.ok.vals _ (Nat.le_refl _)] at this; cases this
  have hw := h.unchanged (unch_addV (A := A) (x := x)) (h.inv.ok.addV ha)
  refine ⟨hn, fun h' => absurd (h.seen.hnd _ h') (Nat.lt_irrefl _),
    { hw with hnd := fun u y hu => ?_, seen := hw.seen.hnds (Nat.lt_succ_self _) }⟩
  have hu : upd s.hnd st.nv (some ⟨x, A⟩) u = some y := hu
  by_cases e : u = st.nv
  · subst e; rw [upd_same] at hu; cases hu
    exact ⟨by simp, hx⟩
  · rw [upd_ne _ _ e] at hu; exact hw.hnd u y hu

theorem step_newValue (h : WP st P s) (hL : Legit fp s (.newValue A)) : Goes fp (.newValue A) st s := by
  have hA : st.allocs A = true := by rw [← h.live]; exact hL
  obtain ⟨h1, h1', h2⟩ := h.handle (x := none) hA (fun _ h => by cases h)
  refine ⟨0, st.addV A none, _, _, P, fun F _ => ?_, .newValue hL h1 h1', h2⟩
  have : newValue A st = .ok (st.nv, st.addV A none) := newVal_run hA
  simp only [exec]; mstep this; rfl

theorem step_release (h : WP st P s) (hL : Legit fp s (.release A)) : Goes fp (.release A) st s := by
  have hA : st.allocs A = true := by rw [← h.live]; exact hL
  have hS : ∀ a gn, s.free A a → s.node a = some gn → ∀ k ∈ gn.val.kids, s.free A k :=
    fun a gn hf hg k hk b hr => hf b (.step hg hk hr)
  have hc : ∀ a, (s.node a).isSome → s.free A a → Clean st A a := fun a ha hf =>
    h.dep a A ha (by have := hf a .refl; simpa [Store.uses, ha] using this)
  have hI := h.inv.without (R := A) (S := fun a => s.free A a ∧ (s.node a).isSome)
    (fun a gn hf hg k hk => ⟨hS a gn hf.1 hg k hk, by
      obtain ⟨o, ks, e⟩ : ∃ o ks, gn.val = .con o ks := by
        cases hv : gn.val <;> rw [hv] at hk <;> simp [GVal.kids] at hk; exact ⟨_, _, rfl⟩
      obtain ⟨gk, e1, _⟩ := h.inv.con_kid hg e (by rw [e] at hk; exact hk)
      rw [e1]; rfl⟩) (fun a ha => hc a ha.2 ha.1)
  have hG : s.node.only (fun a => s.free A a ∧ (s.node a).isSome) = s.node.only (s.free A) := by
    funext a
    unfold Graph.only
    cases hg : s.node a with
    | none => simp
    | some g => by_cases hf : s.free A a <;> simp [hg, hf]
  rw [hG] at hI
  have hsub : ∀ {a g}, s.node.only (s.free A) a = some g → s.free A a ∧ s.node a = some g := fun h => Graph.only_some.1 h
  refine ⟨0, st.without A, _, _, _, fun F _ => ?_, .release hL, ⟨hI, ?_, ?_, ?_, h.pad, ?_, ?_, ?_, ?_, h.scr0, h.seen.mono (Nat.le_refl _) (Nat.le_refl _) (Nat.le_refl _)⟩⟩
  · simp only [exec]; mstep release_run hA; rfl
  · intro u y hu
    have hu : (s.hnd u).filter _ = some y := hu
    rw [Option.filter_eq_some_iff] at hu
    obtain ⟨hu, hp⟩ := hu
    simp only [decide_eq_true_eq] at hp
    obtain ⟨h1, h2⟩ := h.hnd u y hu
    refine ⟨by simp [St.without, h1, hp.1], fun a ha => ?_⟩
    obtain ⟨g, hg⟩ := Option.isSome_iff_exists.1 (h2 a ha)
    show (s.node.only (s.free A) a).isSome
    rw [Graph.only_some.2 ⟨hp.2 a ha, hg⟩]; rfl
  · show upd s.live A false = upd st.allocs A false
    rw [h.live]
  · intro B hB
    show upd st.allocs A false B = false
    by_cases e : B = A
    · subst e; rw [upd_same]
    · rw [upd_ne _ _ e]; exact h.fresh B hB
  · refine ⟨fun a g k hg => ?_, fun a g k hg => ?_, fun a g k hg => ?_⟩
    · exact h.valid.key a g k (hsub hg).2
    · exact h.valid.num a g k (hsub hg).2
    · exact h.valid.str a g k (hsub hg).2
  · intro a g raw ht hg hr
    obtain ⟨hf, hg⟩ := hsub hg
    obtain ⟨nd, p, c', r, lim, h1, h2, h3, h4⟩ := h.tail a g raw ht hg hr
    obtain ⟨k1, k2⟩ := hc a (by rw [hg]; rfl) hf nd h1
    refine ⟨nd, p, c', r, lim, by simp [St.without, h1, k1], h2, ?_, h4⟩
    cases p with
    | lit s => simpa [ZJ.view] using h3
    | buf b off =>
      cases hb : st.bufs b with
      | none => simp [ZJ.view, hb] at h3
      | some bf =>
        have := k2 b off (.inr h2) bf hb
        simp only [ZJ.view, hb] at h3
        simp [ZJ.view, St.without, hb, this]
        simpa using h3
  · intro a R ha hd n hn
    obtain ⟨g, hg⟩ := Option.isSome_iff_exists.1 ha
    obtain ⟨hf, hg⟩ := hsub hg
    have hn' : st.nodes a = some n := by
      simp only [St.without, Option.bind_eq_some_iff] at hn
      obtain ⟨m, e1, e2⟩ := hn
      split at e2 <;> simp_all
    obtain ⟨k1, k2⟩ := h.dep a R (by rw [hg]; rfl) hd n hn'
    refine ⟨k1, fun b off hb bf hbf => k2 b off hb bf ?_⟩
    simp only [St.without, Option.bind_eq_some_iff] at hbf
    obtain ⟨m, e1, e2⟩ := hbf
    split at e2 <;> simp_all
  · intro z hz
    obtain ⟨h1, hl0, h2⟩ := h.scr z hz
    refine ⟨h1, hl0, fun hl => ?_⟩
    have hl : upd st.allocs A false z.a = true := hl
    have hne : z.a ≠ A := fun e => by rw [e, upd_same] at hl; cases hl
    rw [upd_ne _ _ hne] at hl
    obtain ⟨⟨cont, h3⟩, ⟨bf, e1, e2⟩, ⟨bf', e3, e4⟩⟩ := h2 hl
    have u1 : (st.without A).bufs z.hdr = st.bufs z.hdr := by simp [St.without, e1, e2, hne]
    have u2 : (st.without A).bufs z.data = st.bufs z.data := by simp [St.without, e3, e4, hne]
    refine ⟨⟨cont, ?_, by rw [u1]; exact h3.hdr, by rw [u2]; exact h3.buf, h3.room⟩, ?_⟩
    · show upd st.allocs A false z.a = true
      rw [upd_ne _ _ hne]; exact hl
    · unfold OwnZ; rw [u1, u2]; exact ⟨⟨bf, e1, e2⟩, ⟨bf', e3, e4⟩⟩

/-! ### Getters -/

/-- A getter that does not change the memory. -/
theorem WP.get_pure {f : GetFn} {r : Ans D} (h : WP st P s) (hv : s.hnd v = some ⟨x, A⟩)
    (e : ∀ F, f.run fp F v st = .ok (r, st)) (ha : f.Answers fp s.node x (x.bind s.node) r) : Goes fp (.get f v) st s :=
  ⟨0, st, r, s, P, fun F _ => e F, .get hv ha, h⟩

theorem Answers.str_none {G : Graph} {x : Option Nat} {g : GNode} {f : GetFn} (hf : f = .str ∨ f = .strFast) (ht : g.val.type ≠ .string) :
    f.Answers fp G x (some g) (.bytes none) := by
  have := GetFn.Answers.str (fp := fp) (G := G) (x := x) (o := some g) hf
  cases hv : g.val with
  | str raw => rw [hv] at ht; exact absurd rfl ht
  | _ => simpa [hv] using this

theorem Answers.num_none {G : Graph} {x : Option Nat} {g : GNode} {f : GetFn} (hf : f = .numStr ∨ f = .numFast) (ht : g.val.type ≠ .number) :
    f.Answers fp G x (some g) (.bytes none) := by
  have := GetFn.Answers.num (fp := fp) (G := G) (x := x) (o := some g) hf
  cases hv : g.val with
  | num raw => rw [hv] at ht; exact absurd rfl ht
  | _ => simpa [hv] using this

theorem step_get {f : GetFn} (h : WP st P s) (hL : Legit fp s (.get f v)) : Goes fp (.get f v) st s := by
  obtain ⟨ha, hsafe⟩ := hL
  obtain ⟨⟨x, A⟩, hv⟩ := Option.isSome_iff_exists.1 (show (s.hnd v).isSome from ha)
  have hI := h.inv
  have hval := h.val hv
  have hal := h.alloc hv
  cases x with
  | none =>
    obtain ⟨e1, e2, e3, e4, e5, e6, e7, e8, e9, e10, e11, e12, e13, e14⟩ := get_empty (fp := fp) hval
    cases f with
    | type => exact h.get_pure hv (fun F => by simp only [GetFn.run]; mstep getType_empty hval; rfl) .type
    | size => exact h.get_pure hv (fun F => by simp only [GetFn.run]; mstep sizeOf_empty hval; rfl) .size
    | null => exact h.get_pure hv (fun F => by simp only [GetFn.run]; mstep e11; rfl) .null
    | bool => exact h.get_pure hv (fun F => by simp only [GetFn.run]; mstep e10; rfl) .bool
    | str => exact h.get_pure hv (fun F => by simp only [GetFn.run]; mstep e1; rfl) (.str (.inl rfl))
    | strFast => exact h.get_pure hv (fun F => by simp only [GetFn.run]; mstep e2; rfl) (.str (.inr rfl))
    | unStr => exact h.get_pure hv (fun F => by simp only [GetFn.run]; mstep e3; rfl) (.unStrNone fun _ h => by cases h)
    | numStr => exact h.get_pure hv (fun F => by simp only [GetFn.run]; mstep e4; rfl) (.num (.inl rfl))
    | numFast => exact h.get_pure hv (fun F => by simp only [GetFn.run]; mstep e5; rfl) (.num (.inr rfl))
    | int => exact h.get_pure hv (fun F => by simp only [GetFn.run]; mstep e6; rfl) (.intNone (by simp) fun _ h => by cases h)
    | long => exact h.get_pure hv (fun F => by simp only [GetFn.run]; mstep e7; rfl) (.intNone (by simp) fun _ h => by cases h)
    | longLong => exact h.get_pure hv (fun F => by simp only [GetFn.run]; mstep e8; rfl) (.intNone (by simp) fun _ h => by cases h)
    | double => exact h.get_pure hv (fun F => by simp only [GetFn.run]; mstep e9; rfl) (.doubleNone fun _ h => by cases h)
    | key => exact h.get_pure hv (fun F => by simp only [GetFn.run]; mstep e12; rfl) (.key (.inl rfl))
    | keyFast => exact h.get_pure hv (fun F => by simp only [GetFn.run]; mstep e13; rfl) (.key (.inr rfl))
    | unKey => exact h.get_pure hv (fun F => by simp only [GetFn.run]; mstep e14; rfl) (.unKeyNone rfl)
    | print =>
      refine h.get_pure hv (fun F => ?_) .printNone
      simp only [GetFn.run]
      have : stringify F v st = .ok (.lit { bytes := [] }, st) := by unfold stringify; mstep rdVal_run hval; rfl
      mstep this
      rfl
  | some a =>
    obtain ⟨gn, hg⟩ := Option.isSome_iff_exists.1 (h.has hv a rfl)
    have hb : (some a).bind s.node = some gn := hg
    have hadd : ∀ {sz : Nat} {d : Bytes}, d.length ≤ sz → WP (st.addB A sz d) P s := fun hd => h.addB hd
    have hreq : ∀ k, WP (st.req A k) P s := fun k => h.unchanged unch_req h.inv.ok.req
    have hnum : ∀ raw, gn.val = .num raw → IsNum raw := fun raw => h.valid.num a gn raw hg
    have hstr : ∀ raw, gn.val = .str raw → IsStrBody raw := fun raw => h.valid.str a gn raw hg
    have hkey : ∀ raw, gn.key = some raw → IsStrBody raw := fun raw => h.valid.key a gn raw hg
    have tn : ∀ {gv : GVal}, gv.type = .number → ∃ raw, gv = .num raw := by
      intro gv ht
      cases gv with
      | num raw => exact ⟨raw, rfl⟩
      | con o ks => cases o <;> cases ht
      | _ => cases ht
    have ts : ∀ {gv : GVal}, gv.type = .string → ∃ raw, gv = .str raw := by
      intro gv ht
      cases gv with
      | str raw => exact ⟨raw, rfl⟩
      | con o ks => cases o <;> cases ht
      | _ => cases ht
    cases f with
    | type => exact h.get_pure hv (fun F => by simp only [GetFn.run]; mstep getType_run hI hval hg; rfl) (by rw [hb]; exact .type)
    | size => exact h.get_pure hv (fun F => by simp only [GetFn.run]; mstep sizeOf_run hI hval hg; rfl) (by rw [hb]; exact .size)
    | null =>
      refine h.get_pure hv (fun F => by simp only [GetFn.run]; mstep isNull_run hI hval hg; rfl) ?_
      rw [hb]
      have : decide (gn.val = .null) = decide ((some gn).map GNode.val = some .null) := by simp
      rw [this]; exact .null
    | bool => exact h.get_pure hv (fun F => by simp only [GetFn.run]; mstep getBool_run hI hval hg; rfl) (by rw [hb]; exact .bool)
    | str =>
      by_cases ht : gn.val.type = .string
      · obtain ⟨raw, hr⟩ := ts ht
        refine ⟨0, _, .bytes (some raw), s, P, fun F _ => ?_, .get hv ?_, hadd (d := raw ++ [0]) (sz := raw.length + 1) (by simp)⟩
        · simp only [exec, GetFn.run]
          mstep getStr_run hI hval hg hr
          have := readC_addB (st := st) (A := A) (sz := raw.length + 1) (d := raw)
          rw [takeWhile_self (hstr raw hr).no_nul] at this
          mstep this; rfl
        · rw [hb]
          have := GetFn.Answers.str (fp := fp) (G := s.node) (x := some a) (o := some gn) (f := .str) (.inl rfl)
          simpa [hr] using this
      · refine h.get_pure hv (fun F => by simp only [GetFn.run]; mstep (getStr_other hI hval hg ht).1; rfl) ?_
        rw [hb]
        exact Answers.str_none (.inl rfl) ht
    | strFast =>
      by_cases ht : gn.val.type = .string
      · obtain ⟨raw, hr⟩ := ts ht
        obtain ⟨p, e, hp⟩ := getStrFast_run hI hval hg hr
        refine h.get_pure (r := .bytes (some raw)) hv (fun F => ?_) ?_
        · simp only [GetFn.run]
          mstep e
          mstep readL_run hp hI.ok; rfl
        · rw [hb]
          have := GetFn.Answers.str (fp := fp) (G := s.node) (x := some a) (o := some gn) (f := .strFast) (.inr rfl)
          simpa [hr] using this
      · refine h.get_pure hv (fun F => by simp only [GetFn.run]; mstep (getStr_other hI hval hg ht).2.1; rfl) ?_
        rw [hb]
        exact Answers.str_none (.inr rfl) ht
    | unStr =>
      by_cases ht : gn.val.type = .string
      · obtain ⟨raw, hr⟩ := ts ht
        obtain ⟨d, hd⟩ := (hstr raw hr).denotes
        refine ⟨0, _, .bytes (some (d.takeWhile (· ≠ 0))), s, P, fun F _ => ?_, .get hv ?_, hadd (d := d ++ [0]) (sz := raw.length + 1) ?_⟩
        · simp only [exec, GetFn.run]
          mstep getUnEscapeStr_run hI hval hg hr hd
          mstep readC_addB
          rfl
        · rw [hb]; exact .unStr hr hd
        · have := hd.length_le; simp; omega
      · refine h.get_pure hv (fun F => by simp only [GetFn.run]; mstep (getStr_other hI hval hg ht).2.2; rfl) ?_
        rw [hb]
        exact .unStrNone fun n hn => by cases hn; exact ht
    | numStr =>
      by_cases ht : gn.val.type = .number
      · obtain ⟨raw, hr⟩ := tn ht
        refine ⟨0, _, .bytes (some raw), s, P, fun F _ => ?_, .get hv ?_, hadd (d := raw ++ [0]) (sz := raw.length + 1) (by simp)⟩
        · simp only [exec, GetFn.run]
          mstep getNumStr_run hI hval hg hr
          have := readC_addB (st := st) (A := A) (sz := raw.length + 1) (d := raw)
          rw [takeWhile_self (hnum raw hr).no_nul] at this
          mstep this; rfl
        · rw [hb]
          have := GetFn.Answers.num (fp := fp) (G := s.node) (x := some a) (o := some gn) (f := .numStr) (.inl rfl)
          simpa [hr] using this
      · refine h.get_pure hv (fun F => by simp only [GetFn.run]; mstep (getNum_other (fp := fp) hI hval hg ht).1; rfl) ?_
        rw [hb]
        exact Answers.num_none (.inl rfl) ht
    | numFast =>
      by_cases ht : gn.val.type = .number
      · obtain ⟨raw, hr⟩ := tn ht
        obtain ⟨p, e, hp⟩ := getNumFast_run hI hval hg hr
        refine h.get_pure (r := .bytes (some raw)) hv (fun F => ?_) ?_
        · simp only [GetFn.run]
          mstep e
          mstep readL_run hp hI.ok; rfl
        · rw [hb]
          have := GetFn.Answers.num (fp := fp) (G := s.node) (x := some a) (o := some gn) (f := .numFast) (.inr rfl)
          simpa [hr] using this
      · refine h.get_pure hv (fun F => by simp only [GetFn.run]; mstep (getNum_other (fp := fp) hI hval hg ht).2.1; rfl) ?_
        rw [hb]
        exact Answers.num_none (.inr rfl) ht
    | int =>
      by_cases ht : gn.val.type = .number
      · obtain ⟨raw, hr⟩ := tn ht
        obtain ⟨n, hn⟩ := isNum_intPart (hnum raw hr)
        obtain ⟨hl, hfit⟩ : raw.length < 128 ∧ ∀ n, HasIntPart raw n → IntFits 32 n := hsafe a A gn raw hv hg hr
        refine ⟨0, _, .int (some n), s, P, fun F _ => ?_, .get hv (by rw [hb]; exact .int (.inl rfl) hr hn), hreq 4⟩
        simp only [exec, GetFn.run]
        mstep getInt_run hI hval hg hr hl (k := n) (fun r => atoiBits_num hn (hfit n hn) (by decide))
        rfl
      · refine h.get_pure hv (fun F => by simp only [GetFn.run]; mstep (getNum_other (fp := fp) hI hval hg ht).2.2.1; rfl) ?_
        rw [hb]
        exact .intNone (.inl rfl) fun n hn => by cases hn; exact ht
    | long =>
      by_cases ht : gn.val.type = .number
      · obtain ⟨raw, hr⟩ := tn ht
        obtain ⟨n, hn⟩ := isNum_intPart (hnum raw hr)
        obtain ⟨hl, htl, hfit⟩ : raw.length ≤ 128 ∧ s.tail a = true ∧ ∀ n, HasIntPart raw n → IntFits 64 n := hsafe a A gn raw hv hg hr
        refine ⟨0, _, .int (some n), s, P, fun F _ => ?_, .get hv (by rw [hb]; exact .int (.inr (.inl rfl)) hr hn), hreq 8⟩
        simp only [exec, GetFn.run]
        mstep (getLong_run hI hval hg hr hl (h.tail a gn raw htl hg hr) (k := n) (fun c r hc => atoiBits_num hn (hfit n hn) (isDigit_of_numeral hc))).1
        rfl
      · refine h.get_pure hv (fun F => by simp only [GetFn.run]; mstep (getNum_other (fp := fp) hI hval hg ht).2.2.2.1; rfl) ?_
        rw [hb]
        exact .intNone (.inr (.inl rfl)) fun n hn => by cases hn; exact ht
    | longLong =>
      by_cases ht : gn.val.type = .number
      · obtain ⟨raw, hr⟩ := tn ht
        obtain ⟨n, hn⟩ := isNum_intPart (hnum raw hr)
        obtain ⟨hl, htl, hfit⟩ : raw.length ≤ 128 ∧ s.tail a = true ∧ ∀ n, HasIntPart raw n → IntFits 64 n := hsafe a A gn raw hv hg hr
        refine ⟨0, _, .int (some n), s, P, fun F _ => ?_, .get hv (by rw [hb]; exact .int (.inr (.inr rfl)) hr hn), hreq 8⟩
        simp only [exec, GetFn.run]
        mstep (getLong_run hI hval hg hr hl (h.tail a gn raw htl hg hr) (k := n) (fun c r hc => atoiBits_num hn (hfit n hn) (isDigit_of_numeral hc))).2
        rfl
      · refine h.get_pure hv (fun F => by simp only [GetFn.run]; mstep (getNum_other (fp := fp) hI hval hg ht).2.2.2.2.1; rfl) ?_
        rw [hb]
        exact .intNone (.inr (.inr rfl)) fun n hn => by cases hn; exact ht
    | double =>
      by_cases ht : gn.val.type = .number
      · obtain ⟨raw, hr⟩ := tn ht
        obtain ⟨hl, htl⟩ : raw.length ≤ 128 ∧ s.tail a = true := hsafe a A gn raw hv hg hr
        refine ⟨0, _, .double (some (fp.conv raw)), s, P, fun F _ => ?_, .get hv (by rw [hb]; exact .double hr), hreq 8⟩
        simp only [exec, GetFn.run]
        mstep getDouble_run hI hval hg hr hl (h.tail a gn raw htl hg hr) (hnum raw hr).numeral
        rfl
      · refine h.get_pure hv (fun F => by simp only [GetFn.run]; mstep (getNum_other (fp := fp) hI hval hg ht).2.2.2.2.2; rfl) ?_
        rw [hb]
        exact .doubleNone fun n hn => by cases hn; exact ht
    | key =>
      have hA := GetFn.Answers.key (fp := fp) (G := s.node) (x := some a) (o := some gn) (f := .key) (.inl rfl)
      cases hk : gn.key with
      | some raw =>
        refine ⟨0, _, .bytes (some raw), s, P, fun F _ => ?_, .get hv ?_, hadd (d := raw ++ [0]) (sz := raw.length + 1) (by simp)⟩
        · simp only [exec, GetFn.run]
          mstep (getKey_run hI hval hg hk).1
          have := readC_addB (st := st) (A := A) (sz := raw.length + 1) (d := raw)
          rw [takeWhile_self (hkey raw hk).no_nul] at this
          mstep this; rfl
        · rw [hb]; simpa [hk] using hA
      | none =>
        refine h.get_pure hv (fun F => by simp only [GetFn.run]; mstep (getKey_none hI hval hg hk).1; rfl) ?_
        rw [hb]; simpa [hk] using hA
    | keyFast =>
      have hA := GetFn.Answers.key (fp := fp) (G := s.node) (x := some a) (o := some gn) (f := .keyFast) (.inr rfl)
      cases hk : gn.key with
      | some raw =>
        obtain ⟨p, e, hp⟩ := (getKey_run hI hval hg hk).2
        refine h.get_pure (r := .bytes (some raw)) hv (fun F => ?_) ?_
        · simp only [GetFn.run]
          mstep e
          mstep readL_run hp hI.ok; rfl
        · rw [hb]; simpa [hk] using hA
      | none =>
        refine h.get_pure hv (fun F => by simp only [GetFn.run]; mstep (getKey_none hI hval hg hk).2.1; rfl) ?_
        rw [hb]; simpa [hk] using hA
    | unKey =>
      cases hk : gn.key with
      | some raw =>
        obtain ⟨d, hd⟩ := (hkey raw hk).denotes
        refine ⟨0, _, .bytes (some (d.takeWhile (· ≠ 0))), s, P, fun F _ => ?_, .get hv ?_, hadd (d := d ++ [0]) (sz := raw.length + 1) ?_⟩
        · simp only [exec, GetFn.run]
          mstep getUnEscapeKey_run hI hval hg hk hd
          mstep readC_addB
          rfl
        · rw [hb]; exact .unKey hk hd
        · have := hd.length_le; simp; omega
      | none =>
        refine h.get_pure hv (fun F => by simp only [GetFn.run]; mstep (getKey_none hI hval hg hk).2.2; rfl) ?_
        rw [hb]; exact .unKeyNone hk
    | print =>
      obtain ⟨t, ht⟩ := hI.fin a gn hg
      obtain ⟨c, st', b, e, hU, hok, _, bf, h1, h2⟩ := stringify_run hI hval ht
      refine ⟨c, st', .bytes (some t.print), s, P, fun F hF => ?_, .get hv (by rw [hb]; exact .print ht), h.unchanged hU hok⟩
      simp only [exec, GetFn.run]
      mstep e F hF
      have := readC_holds (st := st') (p := .buf b 0) (d := t.print) ⟨b, bf, rfl, h1, h2⟩
      rw [takeWhile_self (print_value t (ht.valid h.valid)).no_nul] at this
      mstep this; rfl

/-! ### Navigation -/

theorem pers_addV : Pers st (st.addV A x) := ⟨fun _ n h => ⟨n, h, rfl⟩, fun _ b h => ⟨b, h, rfl⟩, id⟩

theorem strAt_addC {b : Bytes} : StrAt (st.addC b) (fun _ => True) (.buf st.nb 0) b :=
  ⟨trivial, _, [], upd_same _ _ _, by simp⟩

theorem find_eq {G : Graph} {k : Bytes} {ks : List Addr} : G.find k ks = findKey G k ks := rfl

/-- The handle a navigation function returns. -/
theorem WP.optHandle {f : NavFn} (h : WP st P s) (hw : s.hnd w = some ⟨x, A⟩) (hv : WP st1 P s) (hl : f.Leads s.node x o)
    (ho : ∀ k, o = some k → (s.node k).isSome) : ∃ s', WP (ZJ.optHandle st1 A o).2 P s' ∧
      AStep fp s (.nav f w) (.handle (ZJ.optHandle st1 A o).1) s' := by
  cases o with
  | none => exact ⟨s, hv, .navNo hw hl⟩
  | some k =>
    have := hv.handle (hv.alloc hw) (x := some k) (fun a e => by cases e; exact ho _ rfl)
    exact ⟨_, this.2.2, .nav hw hl this.1 this.2.1⟩

theorem step_nav {f : NavFn} (h : WP st P s) (hL : Legit fp s (.nav f v)) : Goes fp (.nav f v) st s := by
  obtain ⟨ha, hplaced, hnul⟩ := hL
  obtain ⟨⟨x, A⟩, hv⟩ := Option.isSome_iff_exists.1 (show (s.hnd v).isSome from ha)
  have hI := h.inv
  have hval := h.val hv
  have hal := h.alloc hv
  have kid : ∀ {a gn o ks k}, s.node a = some gn → gn.val = .con o ks → k ∈ ks → (s.node k).isSome := by
    intro a gn o ks k hg hk hm
    obtain ⟨gk, h1, _⟩ := (h.wf.forest a gn o ks hg hk).2 k hm
    rw [h1]; rfl
  /- functions that get no text -/
  have plain : ∀ {o c0}, (∀ F, c0 ≤ F → f.run F v st = .ok (ZJ.optHandle st A o)) → f.Leads s.node x o →
      (∀ k, o = some k → (s.node k).isSome) → Goes fp (.nav f v) st s := by
    intro o c0 e hl ho
    obtain ⟨s', h1, h2⟩ := h.optHandle (fp := fp) hv h hl ho
    refine ⟨c0, _, _, s', P, fun F hF => ?_, h2, h1⟩
    simp only [exec]
    mstep e F hF
    rfl
  /- functions that get a key -/
  have keyed : ∀ {o c0 d} {g : Nat → SPtr → M (Option Addr)}, (∀ F, f.run F v = withText d false (g F)) →
      (∀ F, c0 ≤ F → g F (.buf st.nb 0) (st.addC d) = .ok (ZJ.optHandle (st.addC d) A o)) → f.Leads s.node x o →
      (∀ k, o = some k → (s.node k).isSome) → Goes fp (.nav f v) st s := by
    intro o c0 d g hg e hl ho
    obtain ⟨s', h1, h2⟩ := h.optHandle (fp := fp) hv (h.addC d) hl ho
    have hp : Pers (st.addC d) (ZJ.optHandle (st.addC d) A o).2 := by
      cases o with
      | none => exact Pers.refl
      | some k => exact pers_addV
    have w := fun F hF => withText_run (keep := false) h (e F hF) h1 hp (fun _ b hb => .inl hb)
    obtain ⟨st'', e0, hw⟩ := w c0 (Nat.le_refl _)
    refine ⟨c0, st'', _, s', P, fun F hF => ?_, h2, hw⟩
    have e1 : withText d false (g F) st = .ok ((ZJ.optHandle (st.addC d) A o).1, st'') := by
      have a1 : withText d false (g F) st = withText d false (g c0) st := by
        unfold withText
        refine (M.bind_ok (callerText_run d st)).trans (Eq.trans ?_ (M.bind_ok (callerText_run d st)).symm)
        refine (M.bind_ok (e F hF)).trans (Eq.trans ?_ (M.bind_ok (e c0 (Nat.le_refl _))).symm)
        rfl
      rw [a1]; exact e0
    simp only [exec]
    rw [hg F]
    mstep e1
    rfl
  cases x with
  | none =>
    cases f with
    | begin => exact plain (o := none) (c0 := 0) (fun F _ => begin_empty hval) .empty (fun _ e => by cases e)
    | next => exact plain (o := none) (c0 := 0) (fun F _ => next_empty hval) .empty (fun _ e => by cases e)
    | array i => exact plain (o := none) (c0 := 0) (fun F _ => arrayGet_empty hval) .empty (fun _ e => by cases e)
    | obj k =>
      exact keyed (o := none) (c0 := 0) (fun F => rfl) (fun F _ => (objGet_empty (len := 0) ((h.addC _).val hv)).1) .empty
        (fun _ e => by cases e)
    | objLen k =>
      exact keyed (o := none) (c0 := 0) (g := fun F p => objGetLen F v p k.length) (fun F => rfl)
        (fun F _ => (objGet_empty ((h.addC _).val hv)).2) .empty (fun _ e => by cases e)
  | some a =>
    obtain ⟨gn, hg⟩ := Option.isSome_iff_exists.1 (h.has hv a rfl)
    have hkids : ∀ k, k ∈ gn.val.kids → (s.node k).isSome := by
      intro k hk
      cases hgv : gn.val with
      | con o ks => rw [hgv] at hk; exact kid hg hgv hk
      | _ => rw [hgv] at hk; simp [GVal.kids] at hk
    cases f with
    | begin =>
      exact plain (c0 := 0) (fun F _ => begin_run hI hval hg) (.begin hg) (fun k e => hkids k (List.mem_of_mem_head? (by simpa using e)))
    | next =>
      rcases hplaced rfl a A hv with ⟨gn', hg', hp⟩ | ⟨f, gf, o, l, r, hf, hk⟩
      · exact plain (o := none) (c0 := 0) (fun F _ => next_root hI hval hg' hp) (.nextRoot hg' hp) (fun _ e => by cases e)
      · exact plain (c0 := 0) (fun F _ => next_run hI hval hf hk) (.next hf hk)
          (fun k e => kid hf hk (by
            have := List.mem_of_mem_head? (show k ∈ r.head? by simpa using e)
            simp [this]))
    | array i =>
      by_cases hk : ∃ ks, gn.val = .con false ks
      · obtain ⟨ks, hk⟩ := hk
        exact plain (c0 := ks.length + 1) (fun F hF => arrayGet_run hI hval hg hk hF) (.array hg hk)
          (fun k e => kid hg hk (List.mem_of_getElem? e))
      · simp only [not_exists] at hk
        exact plain (o := none) (c0 := 0) (fun F _ => arrayGet_other hI hval hg hk) (.noArray hg hk) (fun _ e => by cases e)
    | obj k =>
      have h1 := h.addC (k ++ [0])
      by_cases hk : ∃ ks, gn.val = .con true ks
      · obtain ⟨ks, hk⟩ := hk
        refine keyed (c0 := ks.length + 1) (g := fun F => objGet F v) (fun F => rfl)
          (fun F hF => objGet_run h1.inv (h1.val hv) hg hk (s := k) (addC_cstr (hnul k rfl)) hF ?_) (.obj (.inl rfl) hg hk)
          (fun a e => kid hg hk (List.mem_of_find?_eq_some e))
        intro j hj kk hkk
        obtain ⟨gj, hgj, e⟩ := Option.bind_eq_some_iff.1 hkk
        exact (h.valid.key j gj kk hgj e).no_nul
      · simp only [not_exists] at hk
        exact keyed (o := none) (c0 := 0) (g := fun F => objGet F v) (fun F => rfl)
          (fun F hF => (objGet_other (len := 0) h1.inv (h1.val hv) hg hk).1) (.noObj (.inl rfl) hg hk) (fun _ e => by cases e)
    | objLen k =>
      have h1 := h.addC k
      by_cases hk : ∃ ks, gn.val = .con true ks
      · obtain ⟨ks, hk⟩ := hk
        exact keyed (c0 := ks.length + 1) (g := fun F p => objGetLen F v p k.length) (fun F => rfl)
          (fun F hF => objGetLen_run h1.inv (h1.val hv) hg hk (s := k) (P' := fun _ => True) (strAt_addC) hF) (.obj (.inr rfl) hg hk)
          (fun a e => kid hg hk (List.mem_of_find?_eq_some e))
      · simp only [not_exists] at hk
        exact keyed (o := none) (c0 := 0) (g := fun F p => objGetLen F v p k.length) (fun F => rfl)
          (fun F hF => (objGet_other h1.inv (h1.val hv) hg hk).2) (.noObj (.inr rfl) hg hk) (fun _ e => by cases e)

end ZJ
