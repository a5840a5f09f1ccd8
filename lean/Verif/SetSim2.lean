import Verif.SetSim

/-
The setters that check their argument (zzzjson.h:2227-2457) and the static scratch
string (zzzjson.h:1272-1288, 1389-1405).
-/

set_option linter.unusedSimpArgs false

namespace ZJ

/-! ### Arguments -/

/-- `P` contains the byte block the pointer points into. -/
def InP (P : Addr → Prop) (p : SPtr) : Prop := ∀ b off, p = .buf b off → P b

theorem Reads.strAt {st p s} (h : Reads st p s) {P : Addr → Prop} (hP : InP P p) :
    StrAt st P p s := by
  unfold Reads readN at h
  cases p with
  | lit s' =>
    simp only at h
    split at h
    · simp only [Res.ok.injEq, Prod.mk.injEq, and_true] at h
      exact ⟨(s'.bytes ++ [0]).drop s.length, by
        conv => rhs; lhs; rw [← h]
        exact (List.take_append_drop _ _).symm⟩
    · cases h
  | buf b off =>
    refine ⟨hP b off rfl, ?_⟩
    simp only at h
    split at h
    · rename_i bf hbf
      refine ⟨bf, (bf.data.drop off).drop s.length, hbf, ?_⟩
      split at h
      · rename_i h0
        have : s = [] := List.length_eq_zero_iff.1 h0
        simp [this]
      · split at h
        · cases h
        · split at h
          · cases h
          · simp only [Res.ok.injEq, Prod.mk.injEq, and_true] at h
            conv => rhs; lhs; rw [← h]
            exact (List.take_append_drop _ _).symm
    · cases h

theorem StrAt.reads {st P p s} (h : StrAt st P p s) (ho : StOK st) : Reads st p s :=
  h.readN ho.size

theorem CStr.inP {st p s P} (h : CStr st p s) (hP : InP P p) : StrAt st P p s := by
  obtain ⟨h0, r, lim, hv⟩ := h
  cases p with
  | lit s' =>
    simp [view] at hv
    exact ⟨0 :: r, hv.1⟩
  | buf b off =>
    refine ⟨hP b off rfl, ?_⟩
    simp only [view] at hv
    split at hv
    · rename_i bf hbf
      simp only [Res.ok.injEq, Prod.mk.injEq, and_true] at hv
      exact ⟨bf, _, hbf, hv.1⟩
    · cases hv

/-- An argument is not in the scratch string. -/
def NotCache (st : St) (p : SPtr) : Prop :=
  ∀ b off z, p = .buf b off → st.cache = some z → b ≠ z.data

theorem checkStrAt_run {st p b} (h : CStr st p b) :
    (IsSetBody b ∧ checkStrAt p st = .ok (some b.length, st)) ∨
    (¬ IsSetBody b ∧ checkStrAt p st = .ok (none, st)) := by
  obtain ⟨h0, r, lim, hv⟩ := h
  rcases checkStr_spec (junk := r) h0 with ⟨h1, h2⟩ | ⟨h1, h2⟩
  · refine .inl ⟨h1, ?_⟩
    unfold checkStrAt; mstep hv; simp only [h2]; rfl
  · refine .inr ⟨h1, ?_⟩
    unfold checkStrAt; mstep hv; simp only [h2]; rfl

theorem checkNumAt_run {st p b} (h : CStr st p b) :
    (IsNum b ∧ checkNumAt p st = .ok (some b.length, st)) ∨
    (¬ IsNum b ∧ checkNumAt p st = .ok (none, st)) := by
  obtain ⟨h0, r, lim, hv⟩ := h
  rcases checkNum_spec (junk := r) h0 with ⟨h1, h2⟩ | ⟨h1, h2⟩
  · refine .inl ⟨h1, ?_⟩
    unfold checkNumAt; mstep hv; simp only [h2]; rfl
  · refine .inr ⟨h1, ?_⟩
    unfold checkNumAt; mstep hv; simp only [h2]; rfl

theorem nul_first (s : Bytes) : ((0 : Byte) ∉ s) ∨ ∃ c r, s = c ++ 0 :: r ∧ (0 : Byte) ∉ c := by
  induction s with
  | nil => simp
  | cons x s ih =>
    by_cases hx : x = 0
    · exact .inr ⟨[], s, by simp [hx], by simp⟩
    · rcases ih with h | ⟨c, r, h1, h2⟩
      · left; simp; exact ⟨Ne.symm hx, h⟩
      · exact .inr ⟨x :: c, r, by simp [h1], by simp; exact ⟨Ne.symm hx, h2⟩⟩

theorem IsSetBody.no_nul {b} (h : IsSetBody b) : (0 : Byte) ∉ b := h.body.no_nul

/-- The text of `s` up to its first NUL, as the checks see it: they find exactly
`s.length` characters iff `s` itself is valid. -/
theorem checkStr_len (s : Bytes) : ∃ o, checkStr (s ++ [0]) = .ok o ∧
    (o = some s.length ↔ IsSetBody s) := by
  rcases nul_first s with h | ⟨c, r, rfl, h⟩
  · rcases checkStr_spec (junk := []) h with ⟨h1, h2⟩ | ⟨h1, h2⟩
    · exact ⟨_, h2, by simp [h1]⟩
    · exact ⟨_, h2, by simp [h1]⟩
  · have hb : ¬ IsSetBody (c ++ 0 :: r) := fun hb => absurd hb.no_nul (by simp)
    rw [List.append_assoc, List.cons_append]
    rcases checkStr_spec (junk := r ++ [0]) h with ⟨h1, h2⟩ | ⟨h1, h2⟩
    · refine ⟨_, h2, ?_⟩
      simp [hb]
    · exact ⟨_, h2, by simp [hb]⟩

theorem checkNum_len (s : Bytes) : ∃ o, checkNum (s ++ [0]) = .ok o ∧
    (o = some s.length ↔ IsNum s) := by
  rcases nul_first s with h | ⟨c, r, rfl, h⟩
  · rcases checkNum_spec (junk := []) h with ⟨h1, h2⟩ | ⟨h1, h2⟩
    · exact ⟨_, h2, by simp [h1]⟩
    · exact ⟨_, h2, by simp [h1]⟩
  · have hb : ¬ IsNum (c ++ 0 :: r) := fun hb => absurd hb.no_nul (by simp)
    rw [List.append_assoc, List.cons_append]
    rcases checkNum_spec (junk := r ++ [0]) h with ⟨h1, h2⟩ | ⟨h1, h2⟩
    · refine ⟨_, h2, ?_⟩
      simp [hb]
    · exact ⟨_, h2, by simp [hb]⟩

/-! ### The scratch string -/

/-- The scratch string, if it was made, is usable (false after its allocator was
released). -/
def CacheOK (st : St) : Prop := ∀ z, st.cache = some z → ∃ cont, ZOK st z cont

/-- The data block of the scratch string. -/
def CacheB (st : St) (b : Addr) : Prop := ∃ z, st.cache = some z ∧ b = z.data

theorem ZOK.frame {st st' : St} {z cont N V} {B : Addr → Prop} (h : ZOK st z cont) (ho : StOK st)
    (hf : Frame N V B st st') (h1 : ¬ B z.hdr) (h2 : ¬ B z.data) : ZOK st' z cont where
  live := by rw [hf.allocs]; exact h.live
  hdr := by
    obtain ⟨x, hx⟩ := Option.isSome_iff_exists.1 h.hdr
    rw [hf.bufs _ (ho.buf_lt hx) h1]; exact h.hdr
  buf := by
    obtain ⟨bf, hb, hr⟩ := h.buf
    exact ⟨bf, by rw [hf.bufs _ (ho.buf_lt hb) h2, hb], hr⟩
  room := h.room

theorem CacheOK.frame {st st' : St} {N V} (h : CacheOK st) (ho : StOK st)
    (hf : Frame N V (fun _ => False) st st') (hc : st'.cache = st.cache) : CacheOK st' := by
  intro z hz
  rw [hc] at hz
  obtain ⟨cont, h1⟩ := h z hz
  exact ⟨cont, h1.frame ho hf id id⟩

section
variable {st : St} {P : Addr → Prop} {G : Graph} {A : Nat} {p : SPtr} {s : Bytes}

/-- After the scratch string was filled with `s`. -/
structure Filled (st st' : St) (P : Addr → Prop) (G : Graph) (z : ZStr) (s : Bytes) : Prop where
  inv : Inv st' P G
  cok : CacheOK st'
  cache : st'.cache = some z
  buf : ∃ bf, st'.bufs z.data = some bf ∧ bf.data = s ++ [0]
  frame : Frame (fun _ => False) (fun _ => False) (CacheB st) st st'
  new : ∀ b, CacheB st' b → CacheB st b ∨ st.nb ≤ b

theorem fillCache_run (hI : Inv st P G) (hc : CacheOK st) (ha : st.allocs A = true)
    (hp : Reads st p s) :
    ∃ st' z, fillCache A p s.length st = .ok (z, st') ∧ Filled st st' P G z s := by
  -- the string to fill: a new one or the old one, emptied
  have start : ∃ st1 z1, (match st.cache with
      | none => newOut A (·.cache)
      | some z => do touchStr z; pure { z with pos := 0 } : M ZStr) st = .ok (z1, st1) ∧
      ZOK st1 z1 [] ∧ StOK st1 ∧ Unchanged st st1 ∧ Reads st1 p s ∧
      (st.cache = none ∧ z1.hdr = st.nb ∧ z1.data = st.nb ∨
        ∃ z, st.cache = some z ∧ z1.hdr = z.hdr ∧ z1.data = z.data) := by
    cases hcache : st.cache with
    | none =>
      obtain ⟨st1, z1, e1, h1, h2, h3, h4, h5, h6⟩ := newOut_run (size := (·.cache)) hI.ok ha st.cfg.cache_pos
      refine ⟨st1, z1, e1, h1, h2, h3, ?_, .inl ⟨rfl, h5, h6⟩⟩
      · have hs : StrAt st (fun b => (st.bufs b).isSome) p s := hp.strAt (by
          intro b off hb
          unfold Reads readN at hp
          simp only [hb] at hp
          split at hp
          · rename_i h; simp [h]
          · cases hp)
        refine (hs.mono (P' := fun _ => True) (fun _ _ => trivial) fun b hb => ?_).reads h2
        obtain ⟨bf, hbf⟩ := Option.isSome_iff_exists.1 hb
        exact h3.1.bufs b (hI.ok.buf_lt hbf) id
    | some z =>
      obtain ⟨cont, hz⟩ := hc z hcache
      refine ⟨st, { z with pos := 0 }, ?_, ⟨hz.live, hz.hdr, ?_, hz.room⟩, hI.ok, .refl, hp,
        .inr ⟨z, rfl, rfl, rfl⟩⟩
      · mstep touchStr_run hz
        rfl
      · obtain ⟨bf, h1, h2, h3, h4⟩ := hz.buf
        exact ⟨bf, h1, h2, by simp, by simp⟩
  obtain ⟨st1, z1, e1, hz1, ho1, hu1, hr1, hcase⟩ := start
  obtain ⟨st2, z2, e2, hz2, hx2, ho2, hw2⟩ := appendStr_run hz1 ho1 hr1
  obtain ⟨st3, z3, e3, hz3, hx3, ho3, hw3⟩ := appendChar_run hz2 ho2 0
  simp only [List.nil_append] at hz2 hx2 hz3 hx3
  have hd1 : z1.data < st1.nb := by obtain ⟨bf, hb, _⟩ := hz1.buf; exact ho1.buf_lt hb
  -- every block of `st` other than the old scratch data is as before
  have hz1c : z1.data < st.nb → CacheB st z1.data := by
    intro h
    rcases hcase with ⟨_, _, h2⟩ | ⟨z, h1, h2, h3⟩
    · omega
    · exact ⟨z, h1, h3⟩
  have fr12 : Frame (fun _ => False) (fun _ => False) (CacheB st) st st2 :=
    Unchanged.frame hu1 (hw2.frame.weaken (fun _ h => h) (fun _ h => h) (B' := (· = z1.data)) (fun _ h => h))
      |>.trans (Frame.refl _) (fun _ _ h => h) (fun _ _ h => h) (fun _ _ h => h)
      |> fun f => { f with bufs := fun b hb hn => f.bufs b hb fun he => hn (he ▸ hz1c (he ▸ hb)) }
  have fr : Frame (fun _ => False) (fun _ => False) (CacheB st) st st3 := by
    refine fr12.trans hw3.frame (fun _ _ h => h) (fun _ _ h => h) fun b hb he => ?_
    rcases hw2.data with h | h
    · rw [he, h]; exact hz1c (by omega)
    · have := hu1.1.nb; omega
  have hnew : z3.data = z1.data ∨ st.nb ≤ z3.data := by
    have := hu1.1.nb
    have := hw2.frame.nb
    rcases hw3.data with h | h
    · rcases hw2.data with h' | h' <;> omega
    · omega
  have hnew' : CacheB st z3.data ∨ st.nb ≤ z3.data := by
    rcases hnew with h | h
    · by_cases hlt : z1.data < st.nb
      · exact .inl (h ▸ hz1c hlt)
      · exact .inr (by omega)
    · exact .inr h
  have hnewh : (∃ z, st.cache = some z ∧ z3.hdr = z.hdr) ∨ st.nb ≤ z3.hdr := by
    have e : z3.hdr = z1.hdr := by rw [hw3.hdr, hw2.hdr]
    rcases hcase with ⟨_, h2, _⟩ | ⟨z, h1, h2, _⟩
    · exact .inr (by omega)
    · exact .inl ⟨z, h1, by omega⟩
  let st4 : St := { st3 with cache := some z3 }
  have hdl : z3.data < st3.nb := by obtain ⟨bf, hb, _⟩ := hz3.buf; exact ho3.buf_lt hb
  have hhl : z3.hdr < st3.nb := by
    obtain ⟨x, hx⟩ := Option.isSome_iff_exists.1 hz3.hdr; exact ho3.buf_lt hx
  have ho4 : StOK st4 := ⟨ho3.nodes, ho3.vals, ho3.bufs, ho3.size, ho3.live, by
    intro z hz; cases hz; exact ⟨hhl, hdl⟩⟩
  have fr4 : Frame (fun _ => False) (fun _ => False) (CacheB st) st st4 :=
    ⟨fr.nodes, fr.vals, fr.bufs, fr.nn, fr.nv, fr.nb, fr.allocs, fr.na, fr.slack⟩
  have hbP : ∀ b, P b → st4.bufs b = st.bufs b := by
    intro b hb
    obtain ⟨h1, h2⟩ := hI.pin b hb
    obtain ⟨bf, hbf⟩ := Option.isSome_iff_exists.1 h1
    refine fr4.bufs b (hI.ok.buf_lt hbf) ?_
    rintro ⟨z, hz, rfl⟩
    exact (h2 z hz).2 rfl
  refine ⟨st4, z3, ?_, ⟨⟨ho4, ?_, ?_, hI.fin⟩, ?_, rfl, ?_, fr4, ?_⟩⟩
  · unfold fillCache
    refine (M.bind_ok (a := st.cache) (st' := st) rfl).trans ?_
    mstep e1
    mstep e2
    mstep e3
    rfl
  · intro b hb
    obtain ⟨h1, h2⟩ := hI.pin b hb
    obtain ⟨bf, hbf⟩ := Option.isSome_iff_exists.1 h1
    have hlt := hI.ok.buf_lt hbf
    refine ⟨by rw [hbP b hb]; exact h1, ?_⟩
    intro z hz
    cases hz
    constructor
    · rintro rfl
      rcases hnewh with ⟨z, hz, h⟩ | h
      · exact (h2 z hz).1 h
      · omega
    · rintro rfl
      rcases hnew' with ⟨z, hz, h⟩ | h
      · exact (h2 z hz).2 h
      · omega
  · exact hI.rep.mono (fun b hb => by
      obtain ⟨y, hy⟩ := Option.isSome_iff_exists.1 hb
      exact fr4.nodes b (hI.lt hy) id) (fun _ h => h) hbP
  · intro z hz
    cases hz
    exact ⟨_, hz3.live, hz3.hdr, hz3.buf, hz3.room⟩
  · obtain ⟨bf, hb, hd⟩ := hx3
    exact ⟨bf, hb, hd⟩
  · rintro b ⟨z, hz, rfl⟩
    cases hz
    exact hnew'

theorem checkStrLenAt_run (hI : Inv st P G) (hc : CacheOK st) (ha : st.allocs A = true)
    (hp : Reads st p s) :
    ∃ st' z r, checkStrLenAt A p s.length st = .ok (r, st') ∧ (r = true ↔ IsSetBody s) ∧
      Filled st st' P G z s := by
  obtain ⟨st', z, e, hF⟩ := fillCache_run hI hc ha hp
  obtain ⟨bf, hb, hd⟩ := hF.buf
  obtain ⟨o, ho, hiff⟩ := checkStr_len s
  have hv : view (.buf z.data 0) st' = .ok ((s ++ [0], bf.size + bf.slack), st') := by
    simp [view, hb, hd]
  refine ⟨st', z, decide (o = some s.length), ?_, by simpa using hiff, hF⟩
  unfold checkStrLenAt
  mstep e
  have : checkStrAt (.buf z.data 0) st' = .ok (o, st') := by
    unfold checkStrAt; mstep hv; simp only [ho]; rfl
  mstep this
  cases o with
  | none => simp
  | some n => simp

theorem checkNumLenAt_run (hI : Inv st P G) (hc : CacheOK st) (ha : st.allocs A = true)
    (hp : Reads st p s) :
    ∃ st' z r, checkNumLenAt A p s.length st = .ok (r, st') ∧ (r = true ↔ IsNum s) ∧
      Filled st st' P G z s := by
  obtain ⟨st', z, e, hF⟩ := fillCache_run hI hc ha hp
  obtain ⟨bf, hb, hd⟩ := hF.buf
  obtain ⟨o, ho, hiff⟩ := checkNum_len s
  have hv : view (.buf z.data 0) st' = .ok ((s ++ [0], bf.size + bf.slack), st') := by
    simp [view, hb, hd]
  refine ⟨st', z, decide (o = some s.length), ?_, by simpa using hiff, hF⟩
  unfold checkNumLenAt
  mstep e
  have : checkNumAt (.buf z.data 0) st' = .ok (o, st') := by
    unfold checkNumAt; mstep hv; simp only [ho]; rfl
  mstep this
  cases o with
  | none => simp
  | some n => simp

end

end ZJ
