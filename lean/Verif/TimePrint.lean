import Verif.TimeParse
import Verif.TimeValApi
import Verif.PropMem
import Verif.PropTime

/-
Bounds for the steps of the functions that write an output string.
-/

set_option linter.unusedSimpArgs false

namespace ZJ

/-- What was paid in advance for copying the data area when it grows the next time. -/
def ZStr.due (z : ZStr) : Nat := 2 * z.pos - z.sizeOf

theorem growLoopT_le {d : Nat} : ∀ (fuel s need : Nat), (growLoopT d fuel s need).Le fun ns k =>
    need ≤ ns ∧ (need ≤ s → ns = s ∧ k = 1) ∧ (s < need → 2 ≤ d ∧ 1 ≤ s ∧ s ≤ ns ∧ s + k ≤ need + 1)
  | 0, _, _ => TR.Le.timeout
  | fuel + 1, s, need => by
    unfold growLoopT
    refine TR.Le.ite (fun h => ?_) fun h => TR.Le.steps fun a e => ?_
    · refine TR.Le.bind (Q := fun _ k => k = 1) (TR.Le.steps fun _ _ => rfl) fun _ m hm => ?_
      intro ns k e
      obtain ⟨h1, h2, h3⟩ := growLoopT_le fuel (s * d) need ns k e
      refine ⟨h1, fun h4 => by omega, fun _ => ?_⟩
      have hd : 2 ≤ d ∧ 1 ≤ s := by
        by_cases h4 : s * d < need
        · obtain ⟨h5, h6, _⟩ := h3 h4
          refine ⟨h5, ?_⟩
          rcases Nat.eq_zero_or_pos s with rfl | h7
          · simp at h6
          · exact h7
        · constructor
          · rcases d with _ | _ | d
            · simp at h4; omega
            · simp at h4; omega
            · omega
          · rcases Nat.eq_zero_or_pos s with rfl | h7
            · simp at h4; omega
            · exact h7
      have hsd : 2 * s ≤ s * d := by
        rw [Nat.mul_comm 2]
        exact Nat.mul_le_mul_left s hd.1
      refine ⟨hd.1, hd.2, ?_⟩
      by_cases h4 : s * d < need
      · obtain ⟨_, _, h5, h6⟩ := h3 h4
        omega
      · obtain ⟨h5, h6⟩ := h2 (by omega)
        omega
    · cases e
      exact ⟨by omega, fun _ => ⟨rfl, rfl⟩, fun h' => by omega⟩

theorem newBuf_size {A n : Nat} {data : Bytes} {st st' : St} {d : Addr} (h : newBuf A n data st = .ok (d, st')) :
    ∃ b, st'.bufs d = some b ∧ b.size = n := by
  unfold newBuf at h
  obtain ⟨_, st1, _, h⟩ := M.bind_inv h
  split at h
  · cases h
    exact ⟨_, upd_same _ _ _, rfl⟩
  · cases h

theorem pokeStr_fits {z : ZStr} {s : Bytes} {st st' : St} (h : pokeStr z s st = .ok ((), st')) :
    ∃ b, st.bufs z.data = some b ∧ z.pos + s.length ≤ b.size := by
  unfold pokeStr at h
  split at h
  · split at h
    · rename_i b hb hc
      exact ⟨b, hb, hc.1⟩
    · cases h
  · cases h

/-- What writing `n` bytes to an output string costs, with what is paid in advance. -/
structure Grew (z : ZStr) (n c : Nat) (z' : ZStr) (k : Nat) : Prop where
  pos : z'.pos = z.pos + n
  fits : z'.pos ≤ z'.sizeOf
  cost : k + z'.due ≤ z.due + 5 * n + c

theorem appendCharT_le {z : ZStr} {c : Byte} (h : z.pos ≤ z.sizeOf) : (appendCharT z c).Le (Grew z 1 5) := by
  intro st z' k st' e
  unfold appendCharT at e
  obtain ⟨_, m1, st1, n1, g1, e, e1⟩ := TM.bind_inv e
  obtain ⟨d1, _⟩ := TM.steps_inv g1
  obtain ⟨z1, m2, st2, n2, g2, e, e2⟩ := TM.bind_inv e
  obtain ⟨_, m3, st3, n3, g3, e, e3⟩ := TM.bind_inv e
  obtain ⟨d3, h3⟩ := TM.steps_inv g3
  cases e
  obtain ⟨b, hb, hp⟩ := pokeStr_fits h3
  unfold growCharT at g2
  split at g2
  · rename_i hg
    obtain ⟨cf, m4, st4, n4, g4, g, e4⟩ := TM.bind_inv g2
    obtain ⟨d4, _⟩ := TM.steps_inv g4
    obtain ⟨old, m5, st5, n5, g5, g, e5⟩ := TM.bind_inv g
    obtain ⟨d5, _⟩ := TM.steps_inv g5
    obtain ⟨d, m6, st6, n6, g6, g, e6⟩ := TM.bind_inv g
    obtain ⟨d6, h6⟩ := TM.steps_inv g6
    cases g
    obtain ⟨b', hb', hn⟩ := newBuf_size h6
    simp only [List.length_singleton] at hp
    have : b = b' := by
      have := hb.symm.trans hb'
      cases this; rfl
    subst this
    have hz : z.sizeOf = z.pos := by omega
    rw [hn, hz] at hp
    have h2 : 2 ≤ cf.delta := by
      rcases hc : cf.delta with _ | _ | d
      · rw [hc] at hp; simp at hp
      · rw [hc] at hp; simp only [Nat.zero_add, Nat.mul_one] at hp; omega
      · omega
    have h2' : z.pos * 2 ≤ z.pos * cf.delta := Nat.mul_le_mul_left _ h2
    refine ⟨rfl, ?_, ?_⟩
    · simp only [hz]; omega
    · simp only [ZStr.due, hz]; omega
  · rename_i hg
    cases g2
    refine ⟨rfl, ?_, ?_⟩
    · simp only; omega
    · simp only [ZStr.due]; omega

theorem appendBytesT_le {z : ZStr} {s : Bytes} (h : z.pos ≤ z.sizeOf) : (appendBytesT z s).Le (Grew z s.length 5) := by
  intro st z' k st' e
  unfold appendBytesT at e
  obtain ⟨_, m1, st1, n1, g1, e, e1⟩ := TM.bind_inv e
  obtain ⟨d1, _⟩ := TM.steps_inv g1
  obtain ⟨z1, m2, st2, n2, g2, e, e2⟩ := TM.bind_inv e
  obtain ⟨_, m3, st3, n3, g3, e, e3⟩ := TM.bind_inv e
  obtain ⟨d3, h3⟩ := TM.steps_inv g3
  cases e
  unfold growBytesT at g2
  split at g2
  · rename_i hg
    obtain ⟨cf, m4, st4, n4, g4, g, e4⟩ := TM.bind_inv g2
    obtain ⟨d4, _⟩ := TM.steps_inv g4
    obtain ⟨ns, m7, st7, n7, g7, g, e7⟩ := TM.bind_inv g
    obtain ⟨h7, _⟩ := TM.liftT_inv g7
    obtain ⟨old, m5, st5, n5, g5, g, e5⟩ := TM.bind_inv g
    obtain ⟨d5, _⟩ := TM.steps_inv g5
    obtain ⟨d, m6, st6, n6, g6, g, e6⟩ := TM.bind_inv g
    obtain ⟨d6, h6⟩ := TM.steps_inv g6
    cases g
    obtain ⟨l1, l2, l3⟩ := growLoopT_le _ _ _ _ _ h7
    have l4 : 2 * z.sizeOf ≤ ns ∧ m7 ≤ s.length + 1 := by
      by_cases l5 : z.sizeOf * cf.delta < z.pos + s.length
      · obtain ⟨l6, l7, l8, l9⟩ := l3 l5
        have := Nat.mul_le_mul_left z.sizeOf l6
        omega
      · obtain ⟨l6, l7⟩ := l2 (by omega)
        refine ⟨?_, by omega⟩
        rw [l6, Nat.mul_comm]
        refine Nat.mul_le_mul_left _ ?_
        rcases hc : cf.delta with _ | _ | d
        · rw [hc] at l5; simp only [Nat.mul_zero] at l5; omega
        · rw [hc] at l5; simp only [Nat.zero_add, Nat.mul_one] at l5; omega
        · omega
    refine ⟨rfl, ?_, ?_⟩
    · simp only; omega
    · simp only [ZStr.due]; omega
  · rename_i hg
    cases g2
    refine ⟨rfl, ?_, ?_⟩
    · simp only; omega
    · simp only [ZStr.due]; omega

theorem appendStrT_le {z : ZStr} {p : SPtr} {len : Nat} (h : z.pos ≤ z.sizeOf) :
    (appendStrT z p len).Le (Grew z len 6) := by
  intro st z' k st' e
  unfold appendStrT at e
  obtain ⟨t, m1, st1, n1, g1, e, e1⟩ := TM.bind_inv e
  obtain ⟨d1, h1⟩ := TM.steps_inv g1
  have hl := readN_length h1
  obtain ⟨a, b, c⟩ := appendBytesT_le h _ _ _ _ e
  exact ⟨by omega, b, by omega⟩

/-- What writing some bytes costs. -/
structure More (z : ZStr) (c : Nat) (z' : ZStr) (k : Nat) : Prop where
  pos : z.pos ≤ z'.pos
  fits : z'.pos ≤ z'.sizeOf
  cost : k + z'.due + 5 * z.pos ≤ z.due + 5 * z'.pos + c

theorem Grew.more {z z' : ZStr} {n c k : Nat} (h : Grew z n c z' k) : More z c z' k :=
  ⟨by have := h.pos; omega, h.fits, by have := h.pos; have := h.cost; omega⟩

theorem More.trans {z z' z'' : ZStr} {c k c' k' c'' k'' : Nat} (h : More z c z' k) (h' : More z' c' z'' k')
    (hc : c + c' + (k'' - (k + k')) ≤ c'') : More z c'' z'' k'' :=
  ⟨Nat.le_trans h.pos h'.pos, h'.fits, by have := h.cost; have := h'.cost; omega⟩

theorem More.refl {z : ZStr} (h : z.pos ≤ z.sizeOf) (c k : Nat) (hk : k ≤ c) : More z c z k :=
  ⟨Nat.le_refl _, h, by omega⟩

theorem putKeyT_le {z : ZStr} {node : Addr} (h : z.pos ≤ z.sizeOf) : (putKeyT z node).Le (More z 18) := by
  unfold putKeyT
  refine TM.Le.one_bind fun key => ?_
  cases key with
  | none => exact TM.Le.pure (.refl h _ _ (by omega))
  | some key =>
    refine TM.Le.bind (appendCharT_le h) fun z1 m1 h1 => TM.Le.one_bind fun len => ?_
    refine TM.Le.bind (appendStrT_le h1.fits) fun z2 m2 h2 => (appendBytesT_le h2.fits).mono fun z3 m3 h3 => ?_
    have a1 := h1.more.trans (k'' := m1 + m2) (c'' := 11) h2.more (by omega)
    exact a1.trans (c'' := 18) h3.more (by omega)

/-- A container that was opened wrote a byte. -/
theorem putValueT_le {z : ZStr} {node : Addr} (h : z.pos ≤ z.sizeOf) :
    (putValueT z node).Le fun r k => More z 22 r.1 k ∧ (r.2 ≠ none → z.pos < r.1.pos) := by
  unfold putValueT
  refine TM.Le.one_bind fun t => ?_
  cases t with
  | array =>
    refine TM.Le.bind (appendCharT_le h) fun z1 m1 h1 => TM.Le.one_bind fun n => ?_
    cases n with
    | some n =>
      refine TM.Le.pure ⟨h1.more.trans (.refl h1.fits 0 0 (by omega)) (by omega), fun _ => ?_⟩
      have := h1.pos; simp only; omega
    | none =>
      refine TM.Le.bind (appendCharT_le h1.fits) fun z2 m2 h2 => TM.Le.pure ⟨h1.more.trans h2.more (by omega), nofun⟩
  | object =>
    refine TM.Le.bind (appendCharT_le h) fun z1 m1 h1 => TM.Le.one_bind fun n => TM.Le.ite (fun _ => ?_) fun _ => ?_
    · refine TM.Le.one_bind fun _ => TM.Le.one_bind fun _ => ?_
      refine TM.Le.pure ⟨h1.more.trans (.refl h1.fits 0 0 (by omega)) (by omega), fun _ => ?_⟩
      have := h1.pos; simp only; omega
    · refine TM.Le.bind (appendCharT_le h1.fits) fun z2 m2 h2 => TM.Le.pure ⟨h1.more.trans h2.more (by omega), nofun⟩
  | string =>
    refine TM.Le.bind (appendCharT_le h) fun z1 m1 h1 => TM.Le.one_bind fun _ => TM.Le.one_bind fun _ => ?_
    refine TM.Le.bind (appendStrT_le h1.fits) fun z2 m2 h2 => TM.Le.bind (appendCharT_le h2.fits) fun z3 m3 h3 =>
      TM.Le.pure ⟨?_, nofun⟩
    have a1 := h1.more.trans (k'' := m1 + m2) (c'' := 11) h2.more (by omega)
    exact a1.trans h3.more (by omega)
  | _ =>
    refine TM.Le.one_bind fun _ => TM.Le.one_bind fun _ => ?_
    refine TM.Le.bind (appendStrT_le h) fun z2 m2 h2 => TM.Le.pure ⟨?_, nofun⟩
    exact h2.more.trans (.refl h2.fits 0 0 (by omega)) (by omega)

theorem rdVal_same {v : Addr} {x : Val} {st st' : St} (h : rdVal v st = .ok (x, st')) : st' = st := by
  unfold rdVal at h
  split at h
  · cases h; rfl
  · cases h

theorem newOut_pos {A : Nat} {size : Cfg → Nat} {z : ZStr} {st st' : St} (h : newOut A size st = .ok (z, st')) :
    z.pos = 0 ∧ z.pos ≤ z.sizeOf := by
  unfold newOut at h
  obtain ⟨c, st1, _, h⟩ := M.bind_inv h
  unfold newString at h
  obtain ⟨d, st2, _, h⟩ := M.bind_inv h
  cases h
  exact ⟨rfl, Nat.zero_le _⟩

theorem TM.val_ok {α : Type} {x : TM α} {a : α} {k : Nat} {st st' : St} (h : x st = .ok ((a, k), st')) :
    x.val st = .ok (a, st') := by
  unfold TM.val
  rw [h]

/-- What a round of the loop has still to pay from outside. -/
def PC.fee : PC → Nat
  | .head => 60
  | .close => 10

theorem stringifyLoopT_le {v : Addr} : ∀ (fuel : Nat) (pc : PC) (node : Addr) (z : ZStr), z.pos ≤ z.sizeOf →
    (stringifyLoopT v fuel pc node z).Le fun z' k => z'.pos ≤ z'.sizeOf ∧ z.pos ≤ z'.pos ∧
      k + z'.due + 80 * z.pos ≤ z.due + 80 * z'.pos + pc.fee
  | 0, pc, node, z, _ => by
    intro st a k st' e
    cases pc <;> (unfold stringifyLoopT at e; exact nomatch (TM.steps_inv e).2)
  | fuel + 1, .head, node, z, hz => by
    unfold stringifyLoopT
    refine TM.Le.one_bind fun x => TM.Le.ite (fun _ => TM.Le.pure ⟨hz, Nat.le_refl _, by simp only [PC.fee]; omega⟩) fun _ => ?_
    refine TM.Le.bind (putKeyT_le hz) fun z1 m1 h1 => TM.Le.bind (putValueT_le h1.fits) fun r m2 h2 => ?_
    obtain ⟨z2, o⟩ := r
    have a1 := h1.pos
    have a2 := h1.cost
    have a3 := h2.1.pos
    have a4 := h2.1.cost
    have a7 := h2.2
    simp only at a3 a4 a7
    cases o with
    | some n =>
      refine (stringifyLoopT_le fuel .head n z2 h2.1.fits).mono fun z3 k h3 => ⟨h3.1, by omega, ?_⟩
      have a5 := a7 (by simp)
      have a6 := h3.2.2
      simp only [PC.fee] at *
      omega
    | none =>
      refine (stringifyLoopT_le fuel .close node z2 h2.1.fits).mono fun z3 k h3 => ⟨h3.1, by omega, ?_⟩
      have a6 := h3.2.2
      simp only [PC.fee] at *
      omega
  | fuel + 1, .close, node, z, hz => by
    intro st z' k st' e
    unfold stringifyLoopT at e
    obtain ⟨x, m1, st1, n1, g1, e, e1⟩ := TM.bind_inv e
    obtain ⟨d1, h1⟩ := TM.steps_inv g1
    split at e
    · rename_i hx
      cases fuel with
      | zero => unfold stringifyLoopT at e; exact nomatch (TM.steps_inv e).2
      | succ fuel =>
        unfold stringifyLoopT at e
        obtain ⟨y, m2, st2, n2, g2, e, e2⟩ := TM.bind_inv e
        obtain ⟨d2, h2⟩ := TM.steps_inv g2
        obtain rfl := rdVal_same h1
        rw [h1] at h2
        cases h2
        rw [if_pos hx] at e
        cases e
        exact ⟨hz, Nat.le_refl _, by simp only [PC.fee]; omega⟩
    · have hle : TM.Le (do
          match ← one (nNext node) with
          | some n =>
            let z ← appendCharT z 0x2C
            stringifyLoopT v fuel .head n z
          | none =>
            let f ← one (deref (← one (nFather node)))
            if (← one (nType f)) = .array then
              let z ← appendCharT z 0x5D
              stringifyLoopT v fuel .close f z
            else
              let z ← appendCharT z 0x7D
              stringifyLoopT v fuel .close f z) fun z' k => z'.pos ≤ z'.sizeOf ∧ z.pos ≤ z'.pos ∧
                k + 1 + z'.due + 80 * z.pos ≤ z.due + 80 * z'.pos + 10 := by
        refine TM.Le.one_bind fun o => ?_
        cases o with
        | some n =>
          refine TM.Le.bind (appendCharT_le hz) fun z1 m1 h1 => (stringifyLoopT_le fuel .head n z1 h1.fits).mono fun z3 k h3 => ?_
          have a1 := h1.pos
          have a2 := h1.cost
          have a3 := h3.2.2
          simp only [PC.fee] at a3
          exact ⟨h3.1, by omega, by omega⟩
        | none =>
          refine TM.Le.one_bind fun f => TM.Le.one_bind fun f => TM.Le.one_bind fun t => TM.Le.ite (fun _ => ?_) fun _ => ?_
          all_goals
            refine TM.Le.bind (appendCharT_le hz) fun z1 m1 h1 => (stringifyLoopT_le fuel .close f z1 h1.fits).mono fun z3 k h3 => ?_
            have a1 := h1.pos
            have a2 := h1.cost
            have a3 := h3.2.2
            simp only [PC.fee] at a3
            exact ⟨h3.1, by omega, by omega⟩
      obtain ⟨a1, a2, a3⟩ := hle _ _ _ _ e
      exact ⟨a1, a2, by simp only [PC.fee]; omega⟩

/-- The steps of `zj_Stringify`: proportional to the bytes it writes. -/
theorem stringifyT_le {F : Nat} {v : Addr} {st st' : St} {q : SPtr} {k : Nat} (h : stringifyT F v st = .ok ((q, k), st')) :
    (q = .lit { bytes := [] } ∧ k = 1) ∨
    ∃ c x, q = .buf c 0 ∧ st'.bufs c = some x ∧ k ≤ 80 * x.data.length + 92 := by
  unfold stringifyT at h
  obtain ⟨x, m1, st1, n1, g1, h, e1⟩ := TM.bind_inv h
  obtain ⟨d1, h1⟩ := TM.steps_inv g1
  cases hn : x.n with
  | none =>
    simp only [hn] at h
    cases h
    exact .inl ⟨rfl, by omega⟩
  | some root =>
    simp only [hn] at h
    obtain ⟨z, m2, st2, n2, g2, h, e2⟩ := TM.bind_inv h
    obtain ⟨d2, h2⟩ := TM.steps_inv g2
    obtain ⟨p2, p3⟩ := newOut_pos h2
    obtain ⟨⟨z1, o⟩, m3, st3, n3, g3, h, e3⟩ := TM.bind_inv h
    obtain ⟨f3, _⟩ := putValueT_le (by omega) _ _ _ _ g3
    have a1 := f3.pos
    have a2 := f3.cost
    simp only at a1 a2 h
    obtain ⟨z2, m4, st4, n4, h4, h5, h6⟩ : ∃ z2 m4 st4 n4, z2.pos ≤ z2.sizeOf ∧ z1.pos ≤ z2.pos ∧
        m4 + z2.due + 80 * z1.pos ≤ z1.due + 80 * z2.pos + 60 ∧ n3 = m4 + n4 ∧
        (do
          let z ← appendCharT z2 0
          return .buf z.data 0 : TM SPtr) st4 = .ok ((q, n4), st') := by
      cases o with
      | some n =>
        obtain ⟨z2, m4, st4, n4, g4, h, e4⟩ := TM.bind_inv h
        obtain ⟨b1, b2, b3⟩ := stringifyLoopT_le _ _ _ _ f3.fits _ _ _ _ g4
        exact ⟨z2, m4, st4, n4, b1, b2, b3, e4, h⟩
      | none =>
        obtain ⟨z2, m4, st4, n4, g4, h, e4⟩ := TM.bind_inv h
        obtain ⟨b1, b2, b3⟩ := stringifyLoopT_le _ _ _ _ f3.fits _ _ _ _ g4
        exact ⟨z2, m4, st4, n4, b1, b2, b3, e4, h⟩
    obtain ⟨h6, h7, h8⟩ := h6
    obtain ⟨z3, m5, st5, n5, g5, h, e5⟩ := TM.bind_inv h8
    have f5 := appendCharT_le h4 _ _ _ _ g5
    cases h
    have : appendChar z2 0 st4 = .ok (z3, st') := by
      rw [← appendCharT_val]
      exact TM.val_ok g5
    obtain ⟨b, c1, c2⟩ := appendChar_inv this
    refine .inr ⟨_, b, rfl, c1, ?_⟩
    have b1 := f5.pos
    have b2 := f5.cost
    have : z.due = 0 := by simp only [ZStr.due]; omega
    omega

end ZJ
