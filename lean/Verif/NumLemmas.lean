import Verif.LexLemmas

/-
The number scanner against the grammar of numbers.
-/

set_option linter.unusedSimpArgs false

namespace ZJ

theorem cIsDigit_eq (c : Byte) : cIsDigit c = isDigit c := rfl

theorem isDigit_ne {c : Byte} (h : isDigit c = true) : c ≠ 0 := by
  intro h0; subst h0; simp [isDigit] at h

/-- The bytes that end a number: not a digit, `.`, `e`, `E`. -/
def NumEnd (c : Byte) : Prop := isDigit c = false ∧ c ≠ 0x2E ∧ c ≠ 0x65 ∧ c ≠ 0x45

theorem digitLoop_complete {s : Bytes} {ds : Bytes} {c : Byte} {r : Bytes}
    (hds : ∀ d ∈ ds, isDigit d = true) (hc : isDigit c = false) :
    ∀ fuel i, s.drop i = ds ++ c :: r → ds.length < fuel →
      digitLoop s fuel i = .ok (i + ds.length) := by
  induction ds with
  | nil =>
    intro fuel i h hf
    obtain ⟨fuel, rfl⟩ : ∃ k, fuel = k + 1 := ⟨fuel - 1, by simp at hf; omega⟩
    simp [digitLoop, rd_drop h, cIsDigit_eq, hc]
  | cons x ds ih =>
    intro fuel i h hf
    obtain ⟨fuel, rfl⟩ : ∃ k, fuel = k + 1 := ⟨fuel - 1, by simp at hf; omega⟩
    have hx := hds x (by simp)
    have h' : s.drop i = x :: (ds ++ c :: r) := by simpa using h
    simp only [List.length_cons] at hf
    simp only [digitLoop, rd_drop h', Res.ok_bind, cIsDigit_eq, hx, if_true]
    rw [ih (fun d hd => hds d (by simp [hd])) fuel (i + 1) (drop_succ h') (by omega)]
    simp; omega

theorem digitLoop_complete' {s : Bytes} {ds : Bytes} {c : Byte} {r : Bytes} {i : Nat}
    (hds : ∀ d ∈ ds, isDigit d = true) (hc : isDigit c = false)
    (h : s.drop i = ds ++ c :: r) :
      digitLoop s (s.length + 1) i = .ok (i + ds.length) := by
  apply digitLoop_complete hds hc _ _ h
  have := congrArg List.length h
  simp at this; omega

theorem digitLoop_total : ∀ fuel {s : Bytes} {i : Nat}, HasNul s i → s.length - i < fuel →
    ∃ ds, digitLoop s fuel i = .ok (i + ds.length) ∧ (∀ d ∈ ds, isDigit d = true) ∧
      s.drop i = ds ++ s.drop (i + ds.length) ∧ HasNul s (i + ds.length) := by
  intro fuel
  induction fuel with
  | zero => intro s i _ h; omega
  | succ fuel ih =>
    intro s i hn hf
    obtain ⟨c, rc, nc⟩ := hn.rd
    cases hd : isDigit c with
    | false => exact ⟨[], by simp [digitLoop, rc, cIsDigit_eq, hd], by simp, by simp, by simpa⟩
    | true =>
      have nc := nc (isDigit_ne hd)
      have := hn.lt
      obtain ⟨ds, h1, h2, h3, h4⟩ := ih nc (by omega)
      have e : i + (c :: ds).length = i + 1 + ds.length := by simp; omega
      refine ⟨c :: ds, ?_, ?_, ?_, ?_⟩
      · simp only [digitLoop, rc, Res.ok_bind, cIsDigit_eq, hd, if_true]
        rw [h1, e]
      · intro d hm
        rcases List.mem_cons.1 hm with h | h
        · subst h; exact hd
        · exact h2 d h
      · rw [rd_ok rc, e, h3]; simp
      · rw [e]; exact h4

/-! ### Completeness -/

theorem numInt_complete {s b r : Bytes} {c : Byte} {i : Nat} (hb : IsInt b)
    (hc : isDigit c = false) (h : s.drop i = b ++ c :: r) :
    numInt s i = .ok (some (i + b.length)) := by
  rcases hb with rfl | ⟨d, ds, rfl, h1, h2, h3⟩
  · simp [numInt, consume, rd_drop h]
  · have h' : s.drop i = d :: (ds ++ c :: r) := by simpa using h
    have hd : d ≠ 0x30 := by grind
    have := digitLoop_complete' h3 hc (drop_succ h')
    simp only [numInt, consume, rd_drop h', Res.ok_bind, hd, if_false, Res.pure_eq, h1, h2,
      and_self, if_true, this, Bool.false_eq_true]
    simp; omega

theorem numFrac_complete {s b r : Bytes} {c : Byte} {i : Nat} (hb : IsFrac b)
    (hc : isDigit c = false) (hc' : c ≠ 0x2E) (h : s.drop i = b ++ c :: r) :
    numFrac s i = .ok (some (i + b.length)) := by
  rcases hb with rfl | ⟨ds, rfl, h1, h2⟩
  · simp [numFrac, consume, rd_drop h, hc']
  · cases ds with
    | nil => simp at h1
    | cons d ds =>
      have h' : s.drop i = 0x2E :: d :: (ds ++ c :: r) := by simpa using h
      have h'' := drop_succ h'
      have hd := h2 d (by simp)
      have := digitLoop_complete' (fun d hd => h2 d (by simp [hd])) hc (drop_succ h'')
      simp only [numFrac, consume, rd_drop h', rd_drop h'', Res.ok_bind, if_true, Res.pure_eq,
        Bool.not_true, Bool.false_eq_true, if_false, cIsDigit_eq, hd, this]
      simp; omega

theorem numExp_complete {s b r : Bytes} {c : Byte} {i : Nat} (hb : IsExp b)
    (hc : NumEnd c) (h : s.drop i = b ++ c :: r) :
    numExp s i = .ok (some (i + b.length)) := by
  obtain ⟨c1, c2, c3, c4⟩ := hc
  rcases hb with rfl | ⟨e, sg, ds, rfl, he, hsg, h1, h2⟩
  · simp [numExp, rd_drop h, c3, c4]
  · cases ds with
    | nil => simp at h1
    | cons d ds =>
      have hd := h2 d (by simp)
      rcases hsg with rfl | rfl | rfl
      · have h' : s.drop i = e :: d :: (ds ++ c :: r) := by simpa using h
        have h'' := drop_succ h'
        have := digitLoop_complete' (fun d hd => h2 d (by simp [hd])) c1 (drop_succ h'')
        have n1 : d ≠ 0x2D := by intro h; subst h; simp [isDigit] at hd
        have n2 : d ≠ 0x2B := by intro h; subst h; simp [isDigit] at hd
        simp only [numExp, rd_drop h', rd_drop h'', Res.ok_bind, he, if_true, n1, n2, or_self,
          if_false, cIsDigit_eq, hd, this, Res.pure_eq]
        simp; omega
      · have h' : s.drop i = e :: 0x2B :: d :: (ds ++ c :: r) := by simpa using h
        have h'' := drop_succ h'
        have h3 := drop_succ h''
        have := digitLoop_complete' (fun d hd => h2 d (by simp [hd])) c1 (drop_succ h3)
        simp only [numExp, rd_drop h', rd_drop h'', Res.ok_bind, he, if_true, or_true,
          cIsDigit_eq, hd, this, Res.pure_eq, rd_drop h3]
        simp; omega
      · have h' : s.drop i = e :: 0x2D :: d :: (ds ++ c :: r) := by simpa using h
        have h'' := drop_succ h'
        have h3 := drop_succ h''
        have := digitLoop_complete' (fun d hd => h2 d (by simp [hd])) c1 (drop_succ h3)
        simp only [numExp, rd_drop h', rd_drop h'', Res.ok_bind, he, if_true, true_or,
          cIsDigit_eq, hd, this, Res.pure_eq, rd_drop h3]
        simp; omega

theorem IsExp.head {b : Bytes} {c : Byte} {r} (hb : IsExp b) (hc : NumEnd c) :
    ∃ x q, b ++ c :: r = x :: q ∧ isDigit x = false ∧ x ≠ 0x2E := by
  rcases hb with rfl | ⟨e, sg, ds, rfl, he, -⟩
  · exact ⟨c, r, rfl, hc.1, hc.2.1⟩
  · refine ⟨e, _, rfl, ?_⟩
    rcases he with rfl | rfl <;> decide

theorem IsFrac.head {b : Bytes} {c : Byte} {r} (hb : IsFrac b) (hc : isDigit c = false) :
    ∃ x q, b ++ c :: r = x :: q ∧ isDigit x = false := by
  rcases hb with rfl | ⟨ds, rfl, -⟩
  · exact ⟨c, r, rfl, hc⟩
  · exact ⟨_, _, rfl, by decide⟩

theorem IsInt.head {b : Bytes} (hb : IsInt b) : ∃ x q, b = x :: q ∧ isDigit x = true := by
  rcases hb with rfl | ⟨d, ds, rfl, h1, h2, -⟩
  · exact ⟨_, _, rfl, by decide⟩
  · refine ⟨d, ds, rfl, ?_⟩
    simp only [isDigit, Bool.and_eq_true, decide_eq_true_eq]
    constructor <;> grind

theorem scanNum_complete {s b r : Bytes} {c : Byte} {i : Nat} (hb : IsNum b)
    (hc : NumEnd c) (h : s.drop i = b ++ c :: r) :
    scanNum s i = .ok (some (i + b.length)) := by
  obtain ⟨m, n, f, e, rfl, hm, hn, hf, he⟩ := hb
  obtain ⟨x, q, hx, hx1, hx2⟩ := he.head (r := r) hc
  obtain ⟨y, q', hy, hy1⟩ := hf.head (r := q) hx1
  obtain ⟨z, q'', hz, hz1⟩ := hn.head
  have hz2 : z ≠ 0x2D := by intro h; subst h; simp [isDigit] at hz1
  have step : ∀ j, s.drop j = n ++ (f ++ (e ++ c :: r)) →
      (do match ← numInt s j with
          | none => return none
          | some i =>
            match ← numFrac s i with
            | none => return none
            | some i => numExp s i) = Res.ok (some (j + (n ++ (f ++ e)).length)) := by
    intro j hj
    have k1 := numInt_complete hn hy1 (by rw [hj, hx, hy])
    have j1 := drop_add hj
    have k2 := numFrac_complete hf hx1 hx2 (by rw [j1, hx])
    have j2 := drop_add j1
    have k3 := numExp_complete he hc j2
    simp only [k1, k2, k3, Res.ok_bind]
    simp; omega
  rcases hm with rfl | rfl
  · have h' : s.drop i = n ++ (f ++ (e ++ c :: r)) := by simpa using h
    have h'' : s.drop i = z :: (q'' ++ (f ++ (e ++ c :: r))) := by rw [h', hz]; simp
    simp only [scanNum, rd_drop h'', Res.ok_bind, hz2, if_false]
    refine (step i h').trans ?_; simp
  · have h' : s.drop i = 0x2D :: (n ++ (f ++ (e ++ c :: r))) := by simpa using h
    simp only [scanNum, rd_drop h', Res.ok_bind, if_true]
    refine (step (i + 1) (drop_succ h')).trans ?_; simp; omega

/-! ### Soundness and totality -/

theorem numInt_total {s : Bytes} {i : Nat} (hn : HasNul s i) :
    ∃ o, numInt s i = .ok o ∧ ∀ j, o = some j → ∃ b, IsInt b ∧ s.drop i = b ++ s.drop j ∧
      j = i + b.length ∧ HasNul s j := by
  obtain ⟨c, rc, nc⟩ := hn.rd
  by_cases h0 : c = 0x30
  · refine ⟨some (i + 1), by simp [numInt, consume, rc, h0], ?_⟩
    intro j hj; cases hj
    exact ⟨[0x30], .inl rfl, by rw [rd_ok rc, h0]; rfl, rfl, nc (by rw [h0]; decide)⟩
  · by_cases h1 : 0x31 ≤ c ∧ c ≤ 0x39
    · have nc := nc (by intro h; subst h; simp at h1)
      have := hn.lt
      obtain ⟨ds, k1, k2, k3, k4⟩ := digitLoop_total (s.length + 1) nc (by omega)
      refine ⟨some (i + 1 + ds.length), ?_, ?_⟩
      · simp only [numInt, consume, rc, Res.ok_bind, h0, if_false, Res.pure_eq, h1, and_self,
          if_true, k1, Bool.false_eq_true]
      · intro j hj; cases hj
        exact ⟨c :: ds, .inr ⟨c, ds, rfl, h1.1, h1.2, k2⟩, by rw [rd_ok rc, k3]; simp,
          by simp; omega, k4⟩
    · exact ⟨none, by simp [numInt, consume, rc, h0, h1], by simp⟩

theorem numFrac_total {s : Bytes} {i : Nat} (hn : HasNul s i) :
    ∃ o, numFrac s i = .ok o ∧ ∀ j, o = some j → ∃ b, IsFrac b ∧ s.drop i = b ++ s.drop j ∧
      j = i + b.length ∧ HasNul s j := by
  obtain ⟨c, rc, nc⟩ := hn.rd
  by_cases h0 : c = 0x2E
  · have nc := nc (by rw [h0]; decide)
    obtain ⟨d, rd', nd⟩ := nc.rd
    cases hd : isDigit d with
    | false => exact ⟨none, by simp [numFrac, consume, rc, h0, rd', cIsDigit_eq, hd], by simp⟩
    | true =>
      have nd := nd (isDigit_ne hd)
      obtain ⟨ds, k1, k2, k3, k4⟩ := digitLoop_total (s.length + 1) nd (by omega)
      refine ⟨some (i + 1 + 1 + ds.length), ?_, ?_⟩
      · simp only [numFrac, consume, rc, Res.ok_bind, h0, if_true, Res.pure_eq, Bool.not_true,
          Bool.false_eq_true, if_false, rd', cIsDigit_eq, hd, k1]
      · intro j hj; cases hj
        refine ⟨0x2E :: d :: ds, .inr ⟨d :: ds, rfl, by simp, ?_⟩, ?_, by simp; omega, k4⟩
        · intro x hx
          rcases List.mem_cons.1 hx with h | h
          · subst h; exact hd
          · exact k2 x h
        · rw [rd_ok rc, rd_ok rd', k3, h0]; simp
  · refine ⟨some i, by simp [numFrac, consume, rc, h0], ?_⟩
    intro j hj; cases hj
    exact ⟨[], .inl rfl, by simp, by simp, hn⟩

theorem numExp_total {s : Bytes} {i : Nat} (hn : HasNul s i) :
    ∃ o, numExp s i = .ok o ∧ ∀ j, o = some j → ∃ b, IsExp b ∧ s.drop i = b ++ s.drop j ∧
      j = i + b.length ∧ HasNul s j := by
  obtain ⟨c, rc, nc⟩ := hn.rd
  by_cases h0 : c = 0x65 ∨ c = 0x45
  · have nc := nc (by intro h; subst h; simp at h0)
    obtain ⟨d, rd', nd⟩ := nc.rd
    by_cases hs : d = 0x2D ∨ d = 0x2B
    · have nd := nd (by intro h; subst h; simp at hs)
      obtain ⟨x, rx, nx⟩ := nd.rd
      cases hx : isDigit x with
      | false =>
        refine ⟨none, ?_, by simp⟩
        simp [numExp, rc, h0, rd', hs, rx, cIsDigit_eq, hx]
      | true =>
        have nx := nx (isDigit_ne hx)
        obtain ⟨ds, k1, k2, k3, k4⟩ := digitLoop_total (s.length + 1) nx (by omega)
        refine ⟨some (i + 1 + 1 + 1 + ds.length), ?_, ?_⟩
        · simp only [numExp, rc, Res.ok_bind, h0, if_true, rd', hs, rx, cIsDigit_eq, hx, k1,
            Res.pure_eq]
        · intro j hj; cases hj
          refine ⟨c :: ([d] ++ x :: ds), .inr ⟨c, [d], x :: ds, rfl, h0, ?_, by simp, ?_⟩, ?_,
            by simp; omega, k4⟩
          · rcases hs with rfl | rfl <;> simp
          · intro y hy
            rcases List.mem_cons.1 hy with h | h
            · subst h; exact hx
            · exact k2 y h
          · rw [rd_ok rc, rd_ok rd', rd_ok rx, k3]; simp
    · cases hd : isDigit d with
      | false => exact ⟨none, by simp [numExp, rc, h0, rd', hs, cIsDigit_eq, hd], by simp⟩
      | true =>
        have nd := nd (isDigit_ne hd)
        obtain ⟨ds, k1, k2, k3, k4⟩ := digitLoop_total (s.length + 1) nd (by omega)
        refine ⟨some (i + 1 + 1 + ds.length), ?_, ?_⟩
        · simp only [numExp, rc, Res.ok_bind, h0, if_true, rd', hs, if_false, cIsDigit_eq, hd, k1,
            Res.pure_eq]
        · intro j hj; cases hj
          refine ⟨c :: ([] ++ d :: ds), .inr ⟨c, [], d :: ds, rfl, h0, .inl rfl, by simp, ?_⟩, ?_,
            by simp; omega, k4⟩
          · intro y hy
            rcases List.mem_cons.1 hy with h | h
            · subst h; exact hd
            · exact k2 y h
          · rw [rd_ok rc, rd_ok rd', k3]; simp
  · refine ⟨some i, by simp [numExp, rc, h0], ?_⟩
    intro j hj; cases hj
    exact ⟨[], .inl rfl, by simp, by simp, hn⟩

theorem scanNum_total {s : Bytes} {i : Nat} (hn : HasNul s i) :
    ∃ o, scanNum s i = .ok o ∧ ∀ j, o = some j → ∃ b, IsNum b ∧ s.drop i = b ++ s.drop j ∧
      j = i + b.length ∧ HasNul s j := by
  obtain ⟨c, rc, nc⟩ := hn.rd
  -- after the sign
  have body : ∀ m k, HasNul s k → (m = [] ∨ m = [0x2D]) → s.drop i = m ++ s.drop k →
      k = i + m.length →
      ∃ o, (do match ← numInt s k with
              | none => return none
              | some i =>
                match ← numFrac s i with
                | none => return none
                | some i => numExp s i) = Res.ok o ∧
        ∀ j, o = some j → ∃ b, IsNum b ∧ s.drop i = b ++ s.drop j ∧
          j = i + b.length ∧ HasNul s j := by
    intro m k hk hm hd hl
    obtain ⟨o1, e1, p1⟩ := numInt_total hk
    cases o1 with
    | none => exact ⟨none, by simp [e1], by simp⟩
    | some j1 =>
      obtain ⟨b1, q1, d1, l1, n1⟩ := p1 j1 rfl
      obtain ⟨o2, e2, p2⟩ := numFrac_total n1
      cases o2 with
      | none => exact ⟨none, by simp [e1, e2], by simp⟩
      | some j2 =>
        obtain ⟨b2, q2, d2, l2, n2⟩ := p2 j2 rfl
        obtain ⟨o3, e3, p3⟩ := numExp_total n2
        refine ⟨o3, by simp [e1, e2, e3], ?_⟩
        intro j hj
        obtain ⟨b3, q3, d3, l3, n3⟩ := p3 j hj
        refine ⟨m ++ (b1 ++ (b2 ++ b3)), ⟨m, b1, b2, b3, rfl, hm, q1, q2, q3⟩, ?_, ?_, n3⟩
        · rw [hd, d1, d2, d3]; simp
        · simp; omega
  by_cases h : c = 0x2D
  · simp only [scanNum, rc, Res.ok_bind, h, if_true]
    exact body [0x2D] (i + 1) (nc (by rw [h]; decide)) (.inr rfl) (by rw [rd_ok rc, h]; rfl) rfl
  · simp only [scanNum, rc, Res.ok_bind, h, if_false]
    exact body [] i hn (.inl rfl) (by simp) (by simp)

theorem isDigit_num_mem {b : Bytes} (h : IsNum b) :
    ∀ c ∈ b, isDigit c = true ∨ c = 0x2D ∨ c = 0x2B ∨ c = 0x2E ∨ c = 0x65 ∨ c = 0x45 := by
  obtain ⟨m, n, f, e, rfl, hm, hn, hf, he⟩ := h
  intro c hc
  simp only [List.mem_append] at hc
  rcases hc with hc | hc | hc | hc
  · rcases hm with rfl | rfl
    · simp at hc
    · simp at hc; simp [hc]
  · rcases hn with rfl | ⟨d, ds, rfl, h1, h2, h3⟩
    · simp at hc; subst hc; left; decide
    · left
      rcases List.mem_cons.1 hc with h | h
      · subst h; simp only [isDigit, Bool.and_eq_true, decide_eq_true_eq]; constructor <;> grind
      · exact h3 c h
  · rcases hf with rfl | ⟨ds, rfl, h1, h2⟩
    · simp at hc
    · rcases List.mem_cons.1 hc with h | h
      · simp [h]
      · left; exact h2 c h
  · rcases he with rfl | ⟨e, sg, ds, rfl, he, hs, h1, h2⟩
    · simp at hc
    · simp only [List.mem_cons, List.mem_append] at hc
      rcases hc with h | h | h
      · subst h; rcases he with rfl | rfl <;> simp
      · rcases hs with rfl | rfl | rfl <;> simp at h <;> simp [h]
      · left; exact h2 c h

theorem IsNum.no_nul {b : Bytes} (h : IsNum b) : (0 : Byte) ∉ b := by
  intro h0
  have := isDigit_num_mem h 0 h0
  simp [isDigit] at this

theorem IsNum.ne_nil {b : Bytes} (h : IsNum b) : ∃ c r, b = c :: r ∧
    (isDigit c = true ∨ c = 0x2D) := by
  obtain ⟨m, n, f, e, rfl, hm, hn, hf, he⟩ := h
  obtain ⟨x, q, rfl, hx⟩ := hn.head
  rcases hm with rfl | rfl
  · exact ⟨x, _, rfl, .inl hx⟩
  · exact ⟨0x2D, _, rfl, .inr rfl⟩

end ZJ
