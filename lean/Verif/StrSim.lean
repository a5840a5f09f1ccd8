import Verif.ParseTop

/-
The growing output string (zzzjson.h:561-612): appending writes exactly the bytes
given, behind the bytes already there, and touches no other memory.
-/

set_option linter.unusedSimpArgs false

namespace ZJ

/-- The string `z` is usable and holds `cont`. -/
structure ZOK (st : St) (z : ZStr) (cont : Bytes) : Prop where
  live : st.allocs z.a = true
  hdr : (st.bufs z.hdr).isSome
  buf : ∃ bf, st.bufs z.data = some bf ∧ bf.size = z.sizeOf ∧ z.pos ≤ bf.data.length ∧
    bf.data.take z.pos = cont
  room : 0 < z.sizeOf

/-- From `(st, z)` to `(st', z')` only the data of the string was written or moved. -/
structure Wrote (st : St) (z : ZStr) (st' : St) (z' : ZStr) : Prop where
  frame : Frame (fun _ => False) (fun _ => False) (· = z.data) st st'
  cache : st'.cache = st.cache
  a : z'.a = z.a
  hdr : z'.hdr = z.hdr
  data : z'.data = z.data ∨ st.nb ≤ z'.data

/-- The data block of the string holds nothing but its text. -/
def Exact (st : St) (z : ZStr) (cont : Bytes) : Prop :=
  ∃ bf, st.bufs z.data = some bf ∧ bf.data = cont

theorem ZOK.pos {st z cont} (h : ZOK st z cont) : z.pos = cont.length := by
  obtain ⟨bf, _, _, h1, h2⟩ := h.buf
  rw [← h2, List.length_take]; omega

theorem ZOK.pos_le {st z cont} (h : ZOK st z cont) (ho : StOK st) : z.pos ≤ z.sizeOf := by
  obtain ⟨bf, h0, h1, h2, _⟩ := h.buf
  have := ho.size _ _ h0
  omega

/-- The state with the bytes of block `b` replaced. -/
def St.setB (st : St) (b : Addr) (bf : Buf) : St := { st with bufs := upd st.bufs b (some bf) }

theorem growLoop_ok (d : Nat) (hd : 2 ≤ d) : ∀ fuel s need, need ≤ s * 2 ^ fuel → 0 < s →
    ∃ ns, growLoop d (fuel + 1) s need = .ok ns ∧ need ≤ ns ∧ s ≤ ns := by
  intro fuel
  induction fuel with
  | zero =>
    intro s need h _
    have : ¬ need > s := by simpa using h
    exact ⟨s, by simp [growLoop, this], by omega, Nat.le_refl _⟩
  | succ f ih =>
    intro s need h h0
    by_cases hc : need > s
    · have hm : s * 2 ≤ s * d := Nat.mul_le_mul_left _ hd
      obtain ⟨ns, h1, h2, h3⟩ := ih (s * d) need (by
        rw [Nat.pow_succ, Nat.mul_comm (2 ^ f), ← Nat.mul_assoc] at h
        exact Nat.le_trans h (Nat.mul_le_mul_right _ hm)) (by omega)
      refine ⟨ns, ?_, h2, by omega⟩
      unfold growLoop
      simp only [hc, if_true]
      exact h1
    · exact ⟨s, by unfold growLoop; simp [hc], by omega, Nat.le_refl _⟩

section
variable {st : St} {z : ZStr} {cont : Bytes}

theorem touchStr_run (h : ZOK st z cont) : touchStr z st = .ok ((), st) := by
  obtain ⟨x, hx⟩ := Option.isSome_iff_exists.1 h.hdr
  simp [touchStr, hx]

theorem setB_ok (ho : StOK st) {b : Addr} {bf : Buf} (hb : b < st.nb)
    (hs : bf.data.length ≤ bf.size) : StOK (st.setB b bf) where
  nodes := ho.nodes
  vals := ho.vals
  bufs c hc := by
    have : c ≠ b := by simp [St.setB] at hc; omega
    simp [St.setB, upd, this]; exact ho.bufs c hc
  size c x hx := by
    simp [St.setB, upd] at hx
    split at hx
    · cases hx; exact hs
    · exact ho.size c x hx
  live := ho.live
  cache := ho.cache

/-- Room made for `need` bytes: the string may have moved to a new, larger block. -/
theorem moved_run (h : ZOK st z cont) (ho : StOK st) {ns : Nat} (hns : z.pos ≤ ns) (h0 : 0 < ns) :
    (do
      let old ← (fun st => match st.bufs z.data with
        | some b => .ok (b.data.take z.pos, st)
        | none => .ub .wild : M Bytes)
      let d ← newBuf z.a ns old
      pure { z with data := d, sizeOf := ns } : M ZStr) st =
      .ok ({ z with data := st.nb, sizeOf := ns }, st.addB z.a ns cont) ∧
    ZOK (st.addB z.a ns cont) { z with data := st.nb, sizeOf := ns } cont ∧
    StOK (st.addB z.a ns cont) := by
  obtain ⟨bf, hb, hs, hp, ht⟩ := h.buf
  have hl : cont.length ≤ ns := by have := h.pos; omega
  refine ⟨?_, ⟨h.live, ?_, ?_, h0⟩, addB_ok ho hl⟩
  · refine (M.bind_ok (a := cont) (st' := st) (by simp [hb, ht])).trans ?_
    mstep newBuf_run h.live hl
    rfl
  · simp only [addB_bufs]; split
    · rfl
    · exact h.hdr
  · refine ⟨⟨some z.a, ns, st.slack st.nb, cont⟩, by simp, rfl, ?_, ?_⟩
    · have := h.pos; simp; omega
    · have := h.pos; simp [this]

theorem pokeStr_run (h : ZOK st z cont) (ho : StOK st) {s : Bytes}
    (hr : z.pos + s.length ≤ z.sizeOf) :
    ∃ st', pokeStr z s st = .ok ((), st') ∧ ZOK st' { z with pos := z.pos + s.length } (cont ++ s) ∧
      Exact st' { z with pos := z.pos + s.length } (cont ++ s) ∧ StOK st' ∧
      Wrote st z st' { z with pos := z.pos + s.length } := by
  obtain ⟨bf, hb, hs, hp, ht⟩ := h.buf
  have hpos := h.pos
  have hsz : (cont ++ s).length ≤ bf.size := by simp; omega
  refine ⟨st.setB z.data { bf with data := cont ++ s }, ?_, ⟨h.live, ?_, ?_, h.room⟩, ?_, ?_, ?_⟩
  · unfold pokeStr
    simp only [hb]
    rw [if_pos ⟨by omega, hp⟩, ht]
    rfl
  · simp only [St.setB, upd]; split
    · rfl
    · exact h.hdr
  · refine ⟨{ bf with data := cont ++ s }, by simp [St.setB], hs, by simp; omega, ?_⟩
    rw [List.take_of_length_le]; simp; omega
  · exact ⟨{ bf with data := cont ++ s }, by simp [St.setB], rfl⟩
  · exact setB_ok ho (ho.buf_lt hb) hsz
  · refine ⟨⟨fun _ _ _ => rfl, fun _ _ _ => rfl, ?_, Nat.le_refl _, Nat.le_refl _, Nat.le_refl _,
      rfl, rfl, rfl⟩, rfl, rfl, rfl, .inl rfl⟩
    intro b _ hne
    simp [St.setB, upd, hne]

theorem Wrote.moved {ns : Nat} {st' : St} {z' : ZStr}
    (h : Wrote (st.addB z.a ns cont) { z with data := st.nb, sizeOf := ns } st' z') :
    Wrote st z st' z' := by
  have hu : Unchanged st (st.addB z.a ns cont) := addB_frame
  refine ⟨?_, h.cache, h.a, h.hdr, .inr ?_⟩
  · have f := hu.frame h.frame
    exact { f with bufs := fun b hb _ => f.bufs b hb (by simp; omega) }
  · rcases h.data with h | h
    · rw [h]; exact Nat.le_refl _
    · simp at h; omega

/-- zzzjson.h:576-590 -/
theorem appendBytes_run (h : ZOK st z cont) (ho : StOK st) (s : Bytes) :
    ∃ st' z', appendBytes z s st = .ok (z', st') ∧ ZOK st' z' (cont ++ s) ∧
      Exact st' z' (cont ++ s) ∧ StOK st' ∧ Wrote st z st' z' := by
  unfold appendBytes
  by_cases hc : z.pos + s.length > z.sizeOf
  · have hd := st.cfg.delta_gt
    have hm : z.sizeOf * 2 ≤ z.sizeOf * st.cfg.delta := Nat.mul_le_mul_left _ hd
    have h2 : z.pos + s.length ≤ z.sizeOf * st.cfg.delta * 2 ^ (z.pos + s.length) := by
      have h3 := h.room
      have h4 : z.pos + s.length < 2 ^ (z.pos + s.length) := Nat.lt_two_pow_self
      have h5 : 1 * 2 ^ (z.pos + s.length) ≤ z.sizeOf * st.cfg.delta * 2 ^ (z.pos + s.length) :=
        Nat.mul_le_mul_right _ (by omega)
      omega
    have h3 := h.room
    obtain ⟨ns, g1, g2, g3⟩ := growLoop_ok _ hd _ _ _ h2 (by omega)
    obtain ⟨m1, m2, m3⟩ := moved_run h ho (ns := ns) (by omega) (by omega)
    obtain ⟨st', p1, p2, p3, p4, p5⟩ := pokeStr_run m2 m3 (s := s) g2
    refine ⟨st', _, ?_, p2, p3, p4, p5.moved⟩
    mstep touchStr_run h
    refine (M.bind_ok (a := { z with data := st.nb, sizeOf := ns }) (st' := st.addB z.a ns cont) ?_).trans ?_
    · rw [if_pos hc]
      refine (M.bind_ok (a := st.cfg) (st' := st) rfl).trans ?_
      rw [g1]
      exact (M.bind_ok (lift_ok ns)).trans m1
    · mstep p1
      rfl
  · obtain ⟨st', p1, p2, p3, p4, p5⟩ := pokeStr_run h ho (s := s) (by omega)
    refine ⟨st', _, ?_, p2, p3, p4, p5⟩
    mstep touchStr_run h
    refine (M.bind_ok (a := z) (st' := st) (by rw [if_neg hc]; rfl)).trans ?_
    mstep p1
    rfl

/-- zzzjson.h:593-604 -/
theorem appendChar_run (h : ZOK st z cont) (ho : StOK st) (c : Byte) :
    ∃ st' z', appendChar z c st = .ok (z', st') ∧ ZOK st' z' (cont ++ [c]) ∧
      Exact st' z' (cont ++ [c]) ∧ StOK st' ∧ Wrote st z st' z' := by
  have hp := h.pos_le ho
  have h3 := h.room
  unfold appendChar
  by_cases hc : z.pos + 1 > z.sizeOf
  · have hm : z.sizeOf * 2 ≤ z.sizeOf * st.cfg.delta := Nat.mul_le_mul_left _ st.cfg.delta_gt
    obtain ⟨m1, m2, m3⟩ := moved_run h ho (ns := z.sizeOf * st.cfg.delta) (by omega) (by omega)
    obtain ⟨st', p1, p2, p3, p4, p5⟩ := pokeStr_run m2 m3 (s := [c]) (by simp; omega)
    refine ⟨st', _, ?_, p2, p3, p4, p5.moved⟩
    mstep touchStr_run h
    refine (M.bind_ok (a := { z with data := st.nb, sizeOf := z.sizeOf * st.cfg.delta })
      (st' := st.addB z.a (z.sizeOf * st.cfg.delta) cont) ?_).trans ?_
    · rw [if_pos hc]; exact (M.bind_ok (a := st.cfg) (st' := st) rfl).trans m1
    · mstep p1
      rfl
  · obtain ⟨st', p1, p2, p3, p4, p5⟩ := pokeStr_run h ho (s := [c]) (by simp; omega)
    refine ⟨st', _, ?_, p2, p3, p4, p5⟩
    mstep touchStr_run h
    refine (M.bind_ok (a := z) (st' := st) (by rw [if_neg hc]; rfl)).trans ?_
    mstep p1
    rfl

theorem appendStr_run (h : ZOK st z cont) (ho : StOK st) {p : SPtr} {s : Bytes}
    (hs : Reads st p s) :
    ∃ st' z', appendStr z p s.length st = .ok (z', st') ∧ ZOK st' z' (cont ++ s) ∧
      Exact st' z' (cont ++ s) ∧ StOK st' ∧ Wrote st z st' z' := by
  obtain ⟨st', z', h1, h2⟩ := appendBytes_run h ho s
  refine ⟨st', z', ?_, h2⟩
  unfold appendStr
  mstep hs
  exact h1

/-- A new, empty string. -/
theorem newString_run {A init : Nat} (ho : StOK st) (ha : st.allocs A = true) (hi : 0 < init) :
    ∃ st' z, newString A init st = .ok (z, st') ∧ ZOK st' z [] ∧ StOK st' ∧ Unchanged st st' ∧
      z.a = A ∧ z.hdr = st.nb ∧ z.data = st.nb := by
  refine ⟨_, _, M.bind_ok (request_run ha), ⟨ha, ?_, ?_, hi⟩, ⟨ho.nodes, ho.vals, ?_, ?_, ho.live, ?_⟩,
    ⟨⟨fun _ _ _ => rfl, fun _ _ _ => rfl, ?_, Nat.le_refl _, Nat.le_refl _, ?_, rfl, rfl, rfl⟩, rfl⟩,
    rfl, rfl, rfl⟩
  · simp
  · exact ⟨⟨some A, init, st.slack st.nb, []⟩, by simp, rfl, by simp, by simp⟩
  · intro b hb
    simp at hb
    have : b ≠ st.nb := by omega
    simp [upd, this]; exact ho.bufs b (by omega)
  · intro b bf hb
    simp [upd] at hb
    split at hb
    · cases hb; simp
    · exact ho.size b bf hb
  · intro z hz
    have := ho.cache z hz
    simp; omega
  · intro b hb _
    have : b ≠ st.nb := by omega
    simp [upd, this]
  · simp

theorem newOut_run {A : Nat} {size : Cfg → Nat} (ho : StOK st) (ha : st.allocs A = true) (hi : 0 < size st.cfg) :
    ∃ st' z, newOut A size st = .ok (z, st') ∧ ZOK st' z [] ∧ StOK st' ∧ Unchanged st st' ∧
      z.a = A ∧ z.hdr = st.nb ∧ z.data = st.nb := newString_run ho ha hi

end

/-! ### Strings in a state that only grew -/

/-- Since `st0` nothing happened except that `z` was made and received `cont`. -/
structure OutS (st0 st : St) (z : ZStr) (cont : Bytes) : Prop where
  unch : Unchanged st0 st
  ok : StOK st
  hdr : st0.nb ≤ z.hdr
  data : st0.nb ≤ z.data
  zok : ZOK st z cont

theorem OutS.wrote {st0 st z cont st' z' cont'} (h : OutS st0 st z cont) (hw : Wrote st z st' z')
    (ho : StOK st') (hz : ZOK st' z' cont') : OutS st0 st' z' cont' where
  unch := by
    refine ⟨h.unch.1.trans hw.frame (fun _ _ h => h) (fun _ _ h => h) ?_, hw.cache.trans h.unch.2⟩
    intro b hb he
    have := h.data
    omega
  ok := ho
  hdr := by rw [hw.hdr]; exact h.hdr
  data := by
    have := h.data
    have := h.unch.1.nb
    rcases hw.data with hd | hd <;> omega
  zok := hz

section
variable {st0 st : St} {z : ZStr} {cont : Bytes}

theorem OutS.char (h : OutS st0 st z cont) (c : Byte) :
    ∃ st' z', appendChar z c st = .ok (z', st') ∧ OutS st0 st' z' (cont ++ [c]) ∧
      Exact st' z' (cont ++ [c]) := by
  obtain ⟨st', z', h1, h2, h3, h4, h5⟩ := appendChar_run h.zok h.ok c
  exact ⟨st', z', h1, h.wrote h5 h4 h2, h3⟩

theorem OutS.bytes (h : OutS st0 st z cont) (s : Bytes) :
    ∃ st' z', appendBytes z s st = .ok (z', st') ∧ OutS st0 st' z' (cont ++ s) := by
  obtain ⟨st', z', h1, h2, h3, h4, h5⟩ := appendBytes_run h.zok h.ok s
  exact ⟨st', z', h1, h.wrote h5 h4 h2⟩

theorem OutS.strAt (h : OutS st0 st z cont) {P : Addr → Prop} {p : SPtr} {s : Bytes}
    (hp : PinOK st0 P) (ho : StOK st0) (hs : StrAt st0 P p s) :
    ∃ st' z', appendStr z p s.length st = .ok (z', st') ∧ OutS st0 st' z' (cont ++ s) := by
  have hs' : StrAt st P p s := hs.mono (fun _ h => h) fun b hb => by
    obtain ⟨bf, hbf⟩ := Option.isSome_iff_exists.1 (hp b hb).1
    exact h.unch.1.bufs b (ho.buf_lt hbf) id
  obtain ⟨st', z', h1, h2, h3, h4, h5⟩ := appendStr_run h.zok h.ok (hs'.readN h.ok.size)
  exact ⟨st', z', h1, h.wrote h5 h4 h2⟩

end

end ZJ
