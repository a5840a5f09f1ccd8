import Verif.Float
import Verif.Machine

/-
Property theorems about doubles, C23 and C65: for C libraries that round correctly.
-/

set_option linter.unusedSimpArgs false
set_option exponentiation.threshold 3000

namespace ZJ

/-! ### The texts that are printed -/

theorem HasValue.num {t : Bytes} {s : Bool} {n : Nat} {k : Int} (h : HasValue t s n k) : IsNum t := by
  obtain ⟨i, f, e, fd, ev, h1, h2, h3, h4, _⟩ := h
  refine ⟨_, i, f, e, h1, by cases s <;> simp, h2, ?_, ?_⟩
  · rcases h3 with ⟨rfl, _⟩ | ⟨rfl, h⟩
    · exact .inl rfl
    · exact .inr ⟨fd, rfl, h⟩
  · rcases h4 with ⟨rfl, _⟩ | ⟨c, sg, es, rfl, hc, hd, hs⟩
    · exact .inl rfl
    · refine .inr ⟨c, sg, es, rfl, hc, ?_, hd⟩
      rcases hs with ⟨h | h, _⟩ | ⟨h, _⟩
      · exact .inl h
      · exact .inr (.inl h)
      · exact .inr (.inr h)

/-- Every JSON number has a value. -/
theorem IsNum.hasValue {t : Bytes} (h : IsNum t) : ∃ s n k, HasValue t s n k := by
  obtain ⟨m, i, f, e, h1, h2, h3, h4, h5⟩ := h
  have hf : ∃ fd, f = [] ∧ fd = [] ∨ f = 0x2E :: fd ∧ IsDigits fd := by
    rcases h4 with rfl | ⟨ds, rfl, h⟩
    · exact ⟨[], .inl ⟨rfl, rfl⟩⟩
    · exact ⟨ds, .inr ⟨rfl, h⟩⟩
  have he : ∃ ev : Int, e = [] ∧ ev = 0 ∨ ∃ c sg es, e = c :: (sg ++ es) ∧ (c = 0x65 ∨ c = 0x45) ∧ IsDigits es ∧
      ((sg = [] ∨ sg = [0x2B]) ∧ ev = (decimalValue es : Int) ∨ sg = [0x2D] ∧ ev = -(decimalValue es : Int)) := by
    rcases h5 with rfl | ⟨c, sg, es, rfl, hc, hs, hd⟩
    · exact ⟨0, .inl ⟨rfl, rfl⟩⟩
    · rcases hs with h | h | h
      · exact ⟨_, .inr ⟨c, sg, es, rfl, hc, hd, .inl ⟨.inl h, rfl⟩⟩⟩
      · exact ⟨_, .inr ⟨c, sg, es, rfl, hc, hd, .inl ⟨.inr h, rfl⟩⟩⟩
      · exact ⟨_, .inr ⟨c, sg, es, rfl, hc, hd, .inr ⟨h, rfl⟩⟩⟩
  obtain ⟨fd, hf⟩ := hf
  obtain ⟨ev, he⟩ := he
  rcases h2 with rfl | rfl
  · exact ⟨false, _, _, i, f, e, fd, ev, h1, h3, hf, he, rfl, rfl⟩
  · exact ⟨true, _, _, i, f, e, fd, ev, h1, h3, hf, he, rfl, rfl⟩

theorem fixed_value {i f e : Bytes} {ev : Int} {s : Bool} (hi : IsInt i) (hf : ∀ c ∈ f, isDigit c = true)
    (he : e = [] ∧ ev = 0 ∨ ∃ c sg es, e = c :: (sg ++ es) ∧ (c = 0x65 ∨ c = 0x45) ∧ IsDigits es ∧
      ((sg = [] ∨ sg = [0x2B]) ∧ ev = (decimalValue es : Int) ∨ sg = [0x2D] ∧ ev = -(decimalValue es : Int))) :
    ∃ n z : Nat, n * 10 ^ z = decimalValue (i ++ f) ∧
      HasValue ((if s then [0x2D] else []) ++ (fixed 0x2E i f ++ e)) s n (ev - f.length + z) ∧
      (fixed 0x2E i f).length ≤ i.length + f.length + 1 := by
  obtain ⟨z, hz⟩ := strip_spec f
  have hl : f.length = (strip f).length + z := by
    have := congrArg List.length hz
    simpa using this
  refine ⟨decimalValue (i ++ strip f), z, ?_, ⟨i, if strip f = [] then [] else 0x2E :: strip f, e, strip f, ev, ?_, hi, ?_, he, rfl, ?_⟩, ?_⟩
  · conv => rhs; rw [hz, ← List.append_assoc, decimalValue_append, decimalValue_zeros]
    simp
  · simp [fixed]
  · by_cases h : strip f = []
    · exact .inl ⟨by simp [h], h⟩
    · refine .inr ⟨by simp [h], h, fun c hc => hf c ?_⟩
      rw [hz]; simp [hc]
  · omega
  · unfold fixed
    split
    · simp; omega
    · simp; omega

theorem Rounded.bounds {x : Nat} {ds : Bytes} {X : Int} (h : Rounded x ds X) (hd : Digits17 ds) (hx : 0 < x)
    (hx2 : x < 2 ^ 53 * 2 ^ 2045) : -1000 < X ∧ X < 1000 := by
  have h1 := hd.lower
  have h2 := hd.upper
  have hlow : 10 ^ 16 * (up (X - 16) * unit) ≤ decimalValue ds * up (X - 16) * unit := by
    rw [Nat.mul_assoc]; exact Nat.mul_le_mul_right _ hd.lower
  have hup : decimalValue ds * up (X - 16) * unit ≤ 10 ^ 17 * (up (X - 16) * unit) := by
    rw [Nat.mul_assoc]; exact Nat.mul_le_mul_right _ (Nat.le_of_lt h2)
  unfold Rounded at h
  generalize hA : decimalValue ds * up (X - 16) * unit = A at *
  generalize hB : up (X - 16) * unit = B at *
  generalize hC : x * down (X - 16) = C at *
  have k1 : C ≤ 10 ^ 18 * B := by omega
  have k2 : B ≤ C := by omega
  subst hC hB
  refine ⟨?_, ?_⟩ <;> apply Decidable.byContradiction <;> intro hn
  · have e1 : up (X - 16) = 1 := by unfold up; rw [show (X - 16).toNat = 0 by omega, Nat.pow_zero]
    have e2 : 10 ^ 1000 ≤ down (X - 16) := Nat.pow_le_pow_right (by decide) (by omega)
    have e3 : 1 * down (X - 16) ≤ x * down (X - 16) := Nat.mul_le_mul_right _ hx
    rw [e1, Nat.one_mul] at k1
    have e4 : 10 ^ 18 * unit < 10 ^ 1000 := by unfold unit; decide +kernel
    exact absurd (Nat.le_trans (Nat.le_trans e2 (by rw [Nat.one_mul] at e3; exact e3)) k1) (Nat.not_le.2 e4)
  · have e1 : down (X - 16) = 1 := by unfold down; rw [show (-(X - 16)).toNat = 0 by omega, Nat.pow_zero]
    have e2 : 10 ^ 900 ≤ up (X - 16) := Nat.pow_le_pow_right (by decide) (by omega)
    have e3 := Nat.mul_le_mul_right unit e2
    rw [e1, Nat.mul_one] at k2
    have e4 : 2 ^ 53 * 2 ^ 2045 < 10 ^ 900 * unit := by unfold unit; decide +kernel
    exact absurd (Nat.lt_of_le_of_lt (Nat.le_trans e3 k2) hx2) (Nat.not_lt.2 (Nat.le_of_lt e4))

theorem ExpDigits.short {es : Bytes} {X : Int} (h : ExpDigits es X) (hX : -1000 < X ∧ X < 1000) : es.length ≤ 3 := by
  obtain ⟨h1, h2, h3, h4⟩ := h
  rcases h4 with h4 | ⟨d, r, rfl, h4⟩
  · omega
  · refine Nat.le_of_not_lt fun hlt => ?_
    rw [show d :: r = [d] ++ r from rfl, decimalValue_append] at h2
    have h5 : 1 ≤ d.toNat - 0x30 := by
      have : ∀ d : Byte, isDigit d = true → d ≠ 0x30 → 1 ≤ d.toNat - 0x30 := by apply allBytes; decide +kernel
      exact this d (h1.2 d (by simp)) h4
    have h6 : decimalValue [d] = d.toNat - 0x30 := by simp [decimalValue]
    have h7 : 10 ^ 3 ≤ 10 ^ r.length := Nat.pow_le_pow_right (by decide) (by rw [List.length_cons] at hlt; omega)
    have h8 : 1 * 10 ^ r.length ≤ decimalValue [d] * 10 ^ r.length := Nat.mul_le_mul_right _ (by omega)
    omega

/-- What is printed for a finite double that is not zero: a JSON number of at most 24 characters,
whose value is the digits with the exponent. -/
theorem gText_value {ds es : Bytes} {X : Int} {s : Bool} (hd : Digits17 ds) (he : ExpDigits es X) (hX : -1000 < X ∧ X < 1000) :
    ∃ n z : Nat, n * 10 ^ z = decimalValue ds ∧
      HasValue ((if s then [0x2D] else []) ++ gText 0x2E ds X es) s n (X - 16 + z) ∧ (gText 0x2E ds X es).length ≤ 23 := by
  obtain ⟨hdig, hlen⟩ := hd.digits
  obtain ⟨d, r, hds, h1, h2, h3, h4⟩ := hd
  have hes := he.short hX
  unfold gText
  by_cases hr : -4 ≤ X ∧ X < 17
  · rw [if_pos hr]
    by_cases hp : 0 ≤ X
    · rw [if_pos hp]
      obtain ⟨n, z, q1, q2, q3⟩ := fixed_value (s := s) (i := ds.take (X.toNat + 1)) (f := ds.drop (X.toNat + 1)) (e := []) (ev := 0)
        (.inr ⟨d, r.take X.toNat, by rw [hds]; rfl, h1, h2, fun c hc => h3 c (List.mem_of_mem_take hc)⟩)
        (fun c hc => hdig c (List.mem_of_mem_drop hc)) (.inl ⟨rfl, rfl⟩)
      rw [List.take_append_drop] at q1
      rw [List.append_nil, List.length_drop, hlen] at q2
      refine ⟨n, z, q1, ?_, ?_⟩
      · have : (0 : Int) - ((17 - (X.toNat + 1) : Nat) : Int) + z = X - 16 + z := by omega
        rw [this] at q2
        exact q2
      · simp only [List.length_take, List.length_drop, hlen] at q3
        omega
    · rw [if_neg hp]
      obtain ⟨n, z, q1, q2, q3⟩ := fixed_value (s := s) (i := [0x30]) (f := List.replicate (-X - 1).toNat 0x30 ++ ds) (e := []) (ev := 0)
        (.inl rfl) (fun c hc => by
          rcases List.mem_append.1 hc with hc | hc
          · rw [List.eq_of_mem_replicate hc]; rfl
          · exact hdig c hc) (.inl ⟨rfl, rfl⟩)
      rw [← List.append_assoc, show [0x30] ++ List.replicate (-X - 1).toNat (0x30 : Byte) = List.replicate ((-X - 1).toNat + 1) 0x30 from rfl,
        decimalValue_append, decimalValue_zeros, Nat.zero_mul, Nat.zero_add] at q1
      rw [List.append_nil, List.length_append, List.length_replicate, hlen] at q2
      refine ⟨n, z, q1, ?_, ?_⟩
      · have : (0 : Int) - (((-X - 1).toNat + 17 : Nat) : Int) + z = X - 16 + z := by omega
        rw [this] at q2
        exact q2
      · simp only [List.length_append, List.length_replicate, hlen, List.length_singleton] at q3
        omega
  · rw [if_neg hr]
    obtain ⟨n, z, q1, q2, q3⟩ := fixed_value (s := s) (i := ds.take 1) (f := ds.drop 1)
      (e := 0x65 :: (if X < 0 then 0x2D else 0x2B) :: es) (ev := X)
      (.inr ⟨d, [], by rw [hds]; rfl, h1, h2, fun c hc => by cases hc⟩)
      (fun c hc => hdig c (List.mem_of_mem_drop hc))
      (.inr ⟨0x65, [if X < 0 then 0x2D else 0x2B], es, by simp, .inl rfl, he.1, by
        by_cases hn : X < 0
        · refine .inr ⟨by simp [hn], ?_⟩
          rw [he.2.1]; omega
        · refine .inl ⟨.inr (by simp [hn]), ?_⟩
          rw [he.2.1]; omega⟩)
    rw [List.take_append_drop] at q1
    rw [List.length_drop, hlen] at q2
    refine ⟨n, z, q1, q2, ?_⟩
    simp only [List.length_take, List.length_drop, hlen] at q3
    simp only [List.length_append, List.length_cons]
    omega

theorem Dbl.fin_mag {m e : Nat} (h : m < 2 ^ 53 ∧ e ≤ 2045 ∧ (e = 0 ∨ 2 ^ 52 ≤ m)) : m * 2 ^ e < 2 ^ 53 * 2 ^ 2045 :=
  Nat.lt_of_lt_of_le (Nat.mul_lt_mul_of_pos_right h.1 (Nat.pow_pos (by decide)))
    (Nat.mul_le_mul_left _ (Nat.pow_le_pow_right (by decide) h.2.1))

/-- The text printed for a finite double: a JSON number, at most 24 characters, and whatever is
nearest to its value is that double. -/
theorem printed_fin {d : Dbl} {t : Bytes} (h : Printed 0x2E d t) (hd : d.finite = true) :
    t.length ≤ 24 ∧ ∃ n k, HasValue t d.neg n k ∧ ∀ y, Nearest d.neg n k y → y = d := by
  cases d with
  | nan s => exact absurd hd (by simp [Dbl.finite])
  | inf s => exact absurd hd (by simp [Dbl.finite])
  | fin s m e g =>
    simp only [Printed] at h
    by_cases hm : m = 0
    · rw [if_pos hm] at h
      subst hm
      refine ⟨by rw [h]; cases s <;> simp, 0, 0, ?_, fun y hy => ?_⟩
      · exact ⟨[0x30], [], [], [], 0, by rw [h]; cases s <;> rfl, .inl rfl, .inl ⟨rfl, rfl⟩, .inl ⟨rfl, rfl⟩, rfl, rfl⟩
      · refine Dbl.ext_mag hy.1 rfl hy.2.1 ?_
        have := hy.2.2 (.fin s 0 e g) rfl
        simp only [Dbl.mag, Nat.zero_mul] at this ⊢
        have e1 : down 0 = 1 := rfl
        rw [e1] at this
        omega
    · rw [if_neg hm] at h
      obtain ⟨ds, X, es, h1, h2, h3, rfl⟩ := h
      have hpos : 0 < m * 2 ^ e := Nat.mul_pos (by omega) (Nat.pow_pos (by decide))
      have hX := h2.bounds h1 hpos (Dbl.fin_mag g)
      obtain ⟨n, z, q1, q2, q3⟩ := gText_value (s := s) h1 h3 hX
      refine ⟨by rw [List.length_append]; cases s <;> simp <;> omega, n, _, q2, fun y hy => ?_⟩
      exact round_trip (x := .fin s m e g) rfl h1 h2 q1 rfl hy

theorem not_num_letter {c : Byte} {r : Bytes} {s : Bool} (hc : isDigit c = false) (h2 : c ≠ 0x2D) :
    ¬ IsNum ((if s then [0x2D] else []) ++ c :: r) := by
  intro h
  obtain ⟨n, h⟩ := isNum_intPart h
  obtain ⟨m, i, f, e, h1, hm, hi, _⟩ := h
  obtain ⟨d, ds, rfl, hd⟩ := intPart_digits hi
  have hd := hd d (by simp)
  cases s <;> rcases hm with rfl | rfl <;> simp at h1
  · rw [h1.1, hd] at hc; cases hc
  · exact h2 h1.1
  · rw [← h1.1] at hd; cases hd
  · rw [h1.1, hd] at hc; cases hc

/-! ### There are such libraries -/

theorem digits_split {a b x y : Bytes} (h : a ++ x = b ++ y) (ha : ∀ c ∈ a, isDigit c = true) (hb : ∀ c ∈ b, isDigit c = true)
    (hx : ∀ c r, x = c :: r → isDigit c = false) (hy : ∀ c r, y = c :: r → isDigit c = false) : a = b ∧ x = y := by
  induction a generalizing b with
  | nil =>
    cases b with
    | nil => exact ⟨rfl, h⟩
    | cons d b =>
      have := hx d (b ++ y) h
      rw [hb d (by simp)] at this; cases this
  | cons c a ih =>
    cases b with
    | nil =>
      have := hy c (a ++ x) h.symm
      rw [ha c (by simp)] at this; cases this
    | cons d b =>
      simp only [List.cons_append, List.cons.injEq] at h
      obtain ⟨q1, q2⟩ := ih h.2 (fun c hc => ha c (by simp [hc])) (fun c hc => hb c (by simp [hc]))
      exact ⟨by rw [h.1, q1], q2⟩

theorem IsInt.digits {i : Bytes} (h : IsInt i) : (∀ c ∈ i, isDigit c = true) ∧ ∃ d r, i = d :: r ∧ isDigit d = true := by
  obtain ⟨d, ds, rfl, h⟩ := intPart_digits h
  exact ⟨h, d, ds, rfl, h d (by simp)⟩

theorem HasValue.unique {t : Bytes} {s s' : Bool} {n n' : Nat} {k k' : Int} (h : HasValue t s n k) (h' : HasValue t s' n' k') :
    s = s' ∧ n = n' ∧ k = k' := by
  obtain ⟨i, f, e, fd, ev, h1, h2, h3, h4, rfl, rfl⟩ := h
  obtain ⟨i', f', e', fd', ev', h1', h2', h3', h4', rfl, rfl⟩ := h'
  rw [h1] at h1'
  clear h1
  obtain ⟨di, d, r, rfl, hd⟩ := h2.digits
  obtain ⟨di', d', r', rfl, hd'⟩ := h2'.digits
  have hs : s = s' := by
    cases s <;> cases s' <;> simp at h1' ⊢
    · rw [h1'.1] at hd; cases hd
    · rw [← h1'.1] at hd'; cases hd'
  subst hs
  have h1' := List.append_cancel_left h1'
  have he : ∀ c q, e = c :: q → c = 0x65 ∨ c = 0x45 := by
    intro c q hc
    rcases h4 with ⟨rfl, _⟩ | ⟨c', sg, es, rfl, g, _⟩
    · cases hc
    · cases hc; exact g
  have he' : ∀ c q, e' = c :: q → c = 0x65 ∨ c = 0x45 := by
    intro c q hc
    rcases h4' with ⟨rfl, _⟩ | ⟨c', sg, es, rfl, g, _⟩
    · cases hc
    · cases hc; exact g
  have ee : ∀ {c : Byte}, c = 0x65 ∨ c = 0x45 → isDigit c = false ∧ c ≠ 0x2E := by
    intro c h; rcases h with rfl | rfl <;> decide
  have hfe : ∀ c q, f ++ e = c :: q → isDigit c = false := by
    intro c q hc
    rcases h3 with ⟨rfl, _⟩ | ⟨rfl, _⟩
    · exact (ee (he c q hc)).1
    · simp at hc; rw [← hc.1]; rfl
  have hfe' : ∀ c q, f' ++ e' = c :: q → isDigit c = false := by
    intro c q hc
    rcases h3' with ⟨rfl, _⟩ | ⟨rfl, _⟩
    · exact (ee (he' c q hc)).1
    · simp at hc; rw [← hc.1]; rfl
  obtain ⟨q1, q2⟩ := digits_split h1' di di' hfe hfe'
  rw [← q1]
  have hff : fd = fd' ∧ e = e' := by
    rcases h3 with ⟨rfl, rfl⟩ | ⟨rfl, g⟩ <;> rcases h3' with ⟨rfl, rfl⟩ | ⟨rfl, g'⟩
    · exact ⟨rfl, q2⟩
    · exact absurd rfl (ee (he 0x2E _ q2)).2
    · exact absurd rfl (ee (he' 0x2E _ q2.symm)).2
    · simp only [List.cons_append, List.cons.injEq, true_and] at q2
      exact digits_split q2 g.2 g'.2 (fun c q hc => (ee (he c q hc)).1) (fun c q hc => (ee (he' c q hc)).1)
  obtain ⟨rfl, rfl⟩ := hff
  refine ⟨rfl, rfl, ?_⟩
  have : ev = ev' := by
    rcases h4 with ⟨rfl, rfl⟩ | ⟨c, sg, es, rfl, _, g, hv⟩ <;> rcases h4' with ⟨q, rfl⟩ | ⟨c', sg', es', q, _, g', hv'⟩
    · rfl
    · cases q
    · cases q
    · simp only [List.cons.injEq] at q
      obtain ⟨_, q⟩ := q
      have nd : ∀ {z : Bytes} {c : Byte} {w : Bytes}, IsDigits z → isDigit c = false → z ≠ c :: w := by
        intro z c w hz hc h
        have := hz.2 c (by rw [h]; simp)
        rw [this] at hc; cases hc
      rcases hv with ⟨rfl | rfl, rfl⟩ | ⟨rfl, rfl⟩ <;> rcases hv' with ⟨rfl | rfl, rfl⟩ | ⟨rfl, rfl⟩ <;>
        simp only [List.nil_append, List.cons_append, List.cons.injEq, true_and] at q
      · rw [q]
      · exact absurd q (nd g (by decide))
      · exact absurd q (nd g (by decide))
      · exact absurd q.symm (nd g' (by decide))
      · rw [q]
      · exact absurd q.1 (by decide)
      · exact absurd q.symm (nd g' (by decide))
      · exact absurd q.1 (by decide)
      · rw [q]
  rw [this]

theorem exists_least {α : Type} (f : α → Nat) (a : α) (p : α → Prop) (h : p a) : ∃ b, p b ∧ ∀ c, p c → f b ≤ f c := by
  generalize hn : f a = n
  induction n using Nat.strongRecOn generalizing a with
  | ind n ih =>
    by_cases hc : ∃ c, p c ∧ f c < n
    · obtain ⟨c, h1, h2⟩ := hc
      exact ih (f c) h2 c h1 rfl
    · exact ⟨a, h, fun c hp => Nat.le_of_not_lt fun hlt => hc ⟨c, hp, by omega⟩⟩

/-- The double with the other sign. -/
def Dbl.withSign (s : Bool) : Dbl → Dbl
  | .nan _ => .nan s
  | .inf _ => .inf s
  | .fin _ m e h => .fin s m e h

theorem exists_nearest (s : Bool) (n : Nat) (k : Int) : ∃ x, Nearest s n k x := by
  obtain ⟨b, h1, h2⟩ := exists_least (fun y : Dbl => (((n * up k * unit : Nat) : Int) - (y.mag * down k : Nat)).natAbs)
    (.inf false) (fun y => y.isNan = false) rfl
  refine ⟨b.withSign s, ?_, ?_, fun y hy => ?_⟩
  · cases b <;> simp_all [Dbl.withSign, Dbl.isNan]
  · cases b <;> rfl
  · have : (b.withSign s).mag = b.mag := by cases b <;> rfl
    rw [this]
    exact h2 y hy

theorem exists_power {Y U : Nat} (hU : 0 < U) (h : U ≤ Y) : ∃ j, 10 ^ j * U ≤ Y ∧ Y < 10 ^ (j + 1) * U := by
  have grow : ∀ j, j < 10 ^ j := fun j => Nat.lt_pow_self (by decide)
  have : ∀ b, (∀ j, j < b → 10 ^ j * U ≤ Y) ∨ ∃ j, 10 ^ j * U ≤ Y ∧ Y < 10 ^ (j + 1) * U := by
    intro b
    induction b with
    | zero => exact .inl fun j hj => absurd hj (Nat.not_lt_zero _)
    | succ b ih =>
      rcases ih with ih | ih
      · by_cases hb : 10 ^ b * U ≤ Y
        · exact .inl fun j hj => by
            rcases Nat.lt_or_eq_of_le (Nat.le_of_lt_succ hj) with h | rfl
            · exact ih j h
            · exact hb
        · cases b with
          | zero => rw [Nat.pow_zero, Nat.one_mul] at hb; exact absurd h hb
          | succ b => exact .inr ⟨b, ih b (Nat.lt_succ_self _), Nat.lt_of_not_le hb⟩
      · exact .inr ih
  rcases this (Y + 1) with h | h
  · have h1 := h Y (Nat.lt_succ_self _)
    have h2 : Y * U < 10 ^ Y * U := Nat.mul_lt_mul_of_pos_right (grow Y) hU
    have h3 : Y * 1 ≤ Y * U := Nat.mul_le_mul_left _ hU
    omega
  · exact h

theorem exists_digits17 {D : Nat} (h1 : 10 ^ 16 ≤ D) (h2 : D < 10 ^ 17) : ∃ ds, Digits17 ds ∧ decimalValue ds = D := by
  obtain ⟨d, r, q1, q2, q3, q4, q5, q6⟩ := decNat_spec D
  have hl := q6 17 (by decide) h2
  have hv : decimalValue (d :: r) = D := q5
  have hlt := decimalValue_lt q2
  rw [hv] at hlt
  have : 16 ≤ r.length := by
    refine Nat.le_of_not_lt fun h => ?_
    have : 10 ^ (d :: r).length ≤ 10 ^ 16 := Nat.pow_le_pow_right (by decide) (by rw [List.length_cons]; omega)
    omega
  obtain ⟨g1, g2⟩ := q3 (by intro h; subst h; exact absurd h1 (by decide))
  exact ⟨_, ⟨d, r, rfl, g1, g2, fun c hc => q2 c (by simp [hc]), by omega⟩, hv⟩

theorem exists_expDigits (X : Int) : ∃ es, ExpDigits es X := by
  obtain ⟨d, r, q1, q2, q3, q4, q5, q6⟩ := decNat_spec X.natAbs
  have hv : decimalValue (d :: r) = X.natAbs := q5
  cases r with
  | nil =>
    refine ⟨[0x30, d], ⟨by simp, fun c hc => ?_⟩, ?_, by simp, .inl rfl⟩
    · simp only [List.mem_cons, List.not_mem_nil, or_false] at hc
      rcases hc with rfl | rfl
      · rfl
      · exact q2 _ (by simp)
    · rw [show [0x30, d] = [0x30] ++ [d] from rfl, decimalValue_append, hv]
      simp [decimalValue]
  | cons c r =>
    refine ⟨d :: c :: r, ⟨by simp, q2⟩, hv, by simp, .inr ⟨d, _, rfl, ?_⟩⟩
    rintro rfl
    by_cases h0 : X.natAbs = 0
    · cases (q4 h0).2
    · exact absurd (q3 h0).1 (by decide)

theorem half_round {Y U : Nat} (hU : 0 < U) :
    2 * ((Y : Int) - (((2 * Y + U) / (2 * U)) * U : Nat)).natAbs ≤ U := by
  have h1 := Nat.div_add_mod (2 * Y + U) (2 * U)
  have h2 := Nat.mod_lt (2 * Y + U) (show 0 < 2 * U by omega)
  generalize (2 * Y + U) / (2 * U) = D at *
  generalize (2 * Y + U) % (2 * U) = m at *
  have h3 : 2 * U * D = 2 * (D * U) := by rw [Nat.mul_assoc, Nat.mul_comm U]
  rw [h3] at h1
  generalize D * U = E at *
  omega

theorem exists_rounded {x : Nat} (hx : 0 < x) : ∃ ds X, Digits17 ds ∧ Rounded x ds X := by
  -- in parts of 10^400, so that all powers are natural
  have hbig : 10 ^ 16 * unit ≤ x * 10 ^ 400 := by
    have : 10 ^ 16 * unit ≤ 1 * 10 ^ 400 := by unfold unit; decide +kernel
    exact Nat.le_trans this (Nat.mul_le_mul_right _ hx)
  have hU0 : 0 < 10 ^ 16 * unit := Nat.mul_pos (by decide) unit_pos
  obtain ⟨j, hj1, hj2⟩ := exists_power hU0 hbig
  have hU : 0 < 10 ^ j * unit := Nat.mul_pos (Nat.pow_pos (by decide)) unit_pos
  have e1 : 10 ^ j * (10 ^ 16 * unit) = 10 ^ 16 * (10 ^ j * unit) := by ac_rfl
  have e2 : 10 ^ (j + 1) * (10 ^ 16 * unit) = 10 ^ 17 * (10 ^ j * unit) := by
    rw [Nat.pow_succ, show (10 : Nat) ^ 17 = 10 * 10 ^ 16 from rfl]; ac_rfl
  rw [e1] at hj1
  rw [e2] at hj2
  have hr := half_round (Y := x * 10 ^ 400) hU
  -- back to the fractions of the specification
  have back : ∀ (D : Nat) (i : Nat) (ds : Bytes), decimalValue ds = D →
      2 * (((x * 10 ^ 400 : Nat) : Int) - (D * (10 ^ i * unit) : Nat)).natAbs ≤ 10 ^ i * unit →
      Rounded x ds ((i : Int) - 400 + 16) := by
    intro D i ds hv h
    unfold Rounded
    rw [show (i : Int) - 400 + 16 - 16 = (i : Int) - 400 by omega, hv]
    have hc : ∃ c, 0 < c ∧ c * down ((i : Int) - 400) = 10 ^ 400 ∧ c * up ((i : Int) - 400) = 10 ^ i := by
      by_cases hi : 400 ≤ i
      · refine ⟨10 ^ 400, Nat.pow_pos (by decide), ?_, ?_⟩
        · unfold down; rw [← Nat.pow_add]; congr 1; omega
        · unfold up; rw [← Nat.pow_add]; congr 1; omega
      · refine ⟨10 ^ i, Nat.pow_pos (by decide), ?_, ?_⟩
        · unfold down; rw [← Nat.pow_add]; congr 1; omega
        · unfold up; rw [← Nat.pow_add]; congr 1; omega
    obtain ⟨c, c0, c1, c2⟩ := hc
    generalize down ((i : Int) - 400) = M at *
    generalize up ((i : Int) - 400) = u at *
    rw [← c1, ← c2] at h
    have k1 : x * (c * M) = c * (x * M) := by ac_rfl
    have k2 : D * (c * u * unit) = c * (D * u * unit) := by ac_rfl
    rw [k1, k2, Int.natCast_mul c, Int.natCast_mul c, ← Int.mul_sub, Int.natAbs_mul, Int.natAbs_natCast, Nat.mul_left_comm,
      Nat.mul_assoc c u unit] at h
    exact Nat.le_of_mul_le_mul_left h c0
  generalize hD : (2 * (x * 10 ^ 400) + 10 ^ j * unit) / (2 * (10 ^ j * unit)) = D at *
  have hD1 : 10 ^ 16 ≤ D := by
    rw [← hD, Nat.le_div_iff_mul_le (by omega)]
    generalize 10 ^ j * unit = U at *
    omega
  have hD2 : D ≤ 10 ^ 17 := by
    rw [← hD]
    refine Nat.le_of_lt_succ ?_
    rw [Nat.div_lt_iff_lt_mul (by omega)]
    generalize 10 ^ j * unit = U at *
    omega
  by_cases h17 : D = 10 ^ 17
  · obtain ⟨ds, q1, q2⟩ := exists_digits17 (D := 10 ^ 16) (Nat.le_refl _) (by decide)
    refine ⟨ds, _, q1, back (10 ^ 16) (j + 1) ds q2 ?_⟩
    have e3 : 10 ^ 16 * (10 ^ (j + 1) * unit) = D * (10 ^ j * unit) := by
      rw [h17, ← e2]; ac_rfl
    rw [e3]
    refine Nat.le_trans hr (Nat.mul_le_mul_right _ (Nat.pow_le_pow_right (by decide) (Nat.le_succ _)))
  · obtain ⟨ds, q1, q2⟩ := exists_digits17 (D := D) hD1 (by omega)
    exact ⟨ds, _, q1, back D j ds q2 hr⟩

theorem exists_printed (pt : Byte) (d : Dbl) : ∃ t, Printed pt d t := by
  cases d with
  | nan s => exact ⟨_, [], rfl⟩
  | inf s => exact ⟨_, [], rfl⟩
  | fin s m e h =>
    by_cases hm : m = 0
    · exact ⟨_, by simp only [Printed]; rw [if_pos hm]⟩
    · obtain ⟨ds, X, q1, q2⟩ := exists_rounded (x := m * 2 ^ e) (Nat.mul_pos (by omega) (Nat.pow_pos (by decide)))
      obtain ⟨es, q3⟩ := exists_expDigits X
      exact ⟨_, by simp only [Printed]; rw [if_neg hm]; exact ⟨ds, X, es, q1, q2, q3, rfl⟩⟩

/-- The hypothesis of the theorems can be met: every double has a text and every text a nearest
double. -/
theorem exists_ieee : ∃ fp, IEEE fp := by
  have h1 : ∀ d, ∃ t, Printed 0x2E d t := exists_printed 0x2E
  have h2 : ∀ t, ∃ x, ∀ s n k, HasValue t s n k → Nearest s n k x := by
    intro t
    by_cases h : ∃ s n k, HasValue t s n k
    · obtain ⟨s, n, k, h⟩ := h
      obtain ⟨x, hx⟩ := exists_nearest s n k
      refine ⟨x, fun s' n' k' h' => ?_⟩
      obtain ⟨rfl, rfl, rfl⟩ := h.unique h'
      exact hx
    · exact ⟨.nan false, fun s n k h' => absurd ⟨s, n, k, h'⟩ h⟩
  obtain ⟨f, hf⟩ := Classical.axiomOfChoice h1
  obtain ⟨g, hg⟩ := Classical.axiomOfChoice h2
  exact ⟨⟨f, g⟩, hf, fun h => hg _ _ _ _ h⟩

/-! ### C23, for a C library that rounds correctly -/

section
variable {st st' : St} {P P' : Addr → Prop} {G : Graph} {v w A B a : Addr} {x y : Option Addr} {p q : SPtr}
  {b raw : Bytes} {n : Int} {t : Json} {gn : GNode}

/-- Exactly the finite doubles are printed as JSON numbers. -/
theorem C23_iff {fp : FP Dbl} (hfp : IEEE fp) (d : Dbl) : IsNum (fp.fmt d) ↔ d.finite = true := by
  refine ⟨fun h => ?_, fun h => ?_⟩
  · have hp := hfp.fmt d
    cases d with
    | nan s =>
      obtain ⟨r, hr⟩ := hp
      rw [hr] at h
      exact absurd h (not_num_letter (by decide) (by decide))
    | inf s =>
      obtain ⟨r, hr⟩ := hp
      rw [hr] at h
      exact absurd h (not_num_letter (by decide) (by decide))
    | fin => rfl
  · obtain ⟨_, n, k, h, _⟩ := printed_fin (hfp.fmt d) h
    exact h.num

/-- C23 for every finite double: `zj_SetDouble` stores a JSON number of at most 24 characters, and
`zj_GetDouble` gives back exactly the double, be it the least positive one, the greatest one or a
negative zero. -/
theorem C23_finite {fp : FP Dbl} (hfp : IEEE fp) {d : Dbl} (hd : d.finite = true) (h : Ready st P G v x A) :
    ∃ st', setDouble fp v d st = .ok (true, st') ∧
      Becomes st st' P (fun b => P b ∨ b = st.nb) G v x A (.num (fp.fmt d)) ∧ (Json.num (fp.fmt d)).Valid ∧
      (fp.fmt d).length ≤ 24 ∧ ∃ st2, getDouble fp v st' = .ok (some d, st2) ∧ Unchanged st' st2 := by
  obtain ⟨hl, n, k, hv, hu⟩ := printed_fin (hfp.fmt d) hd
  obtain ⟨st', q1, q2, q3, q4⟩ := C23_partial (fp := fp) (d := d) h (by omega) hv.num (hu _ (hfp.conv hv))
  exact ⟨st', q1, q2, q3, hl, q4⟩

/-- The same through text: whoever parses what was printed for a finite double gets that double. -/
theorem C23_through_text {fp : FP Dbl} (hfp : IEEE fp) {d : Dbl} (hd : d.finite = true) (h : Ready st P G v x A)
    (hs : CStr st p (fp.fmt d)) :
    ∃ st' st2, parse v p st = .ok (true, st') ∧ getDouble fp v st' = .ok (some d, st2) ∧ Unchanged st' st2 := by
  obtain ⟨hl, n, k, hv, hu⟩ := printed_fin (hfp.fmt d) hd
  have ht : JText (.num (fp.fmt d)) (fp.fmt d) :=
    ⟨[], fp.fmt d, [], by simp, fun _ h => (by cases h), .num hv.num, fun _ h => (by cases h)⟩
  obtain ⟨i, hi⟩ := isNum_intPart hv.num
  obtain ⟨st', q1, _, _, _, st2, q2, q3⟩ := C22_partial (fp := fp) h hs ht hi (by omega)
  rw [hu _ (hfp.conv hv)] at q2
  exact ⟨st', st2, q1, q2, q3⟩

/-- For a client: exactly the finite doubles may be set. -/
theorem C23_legit {fp : FP Dbl} (hfp : IEEE fp) (d : Dbl) {s : Store} : Legit fp s (.double v d) ↔ s.alive v ∧ d.finite = true := by
  show s.alive v ∧ (fp.fmt d).length < 32 ∧ IsNum (fp.fmt d) ↔ _
  rw [C23_iff hfp]
  refine ⟨fun h => ⟨h.1, h.2.2⟩, fun h => ⟨h.1, ?_, h.2⟩⟩
  have := (printed_fin (hfp.fmt d) h.2).1
  omega

/-! ### C65: GetDouble -/

/-- C65: the double that `zj_GetDouble` returns is as near to the value of the number as any double
(values beyond the greatest double count as 2^1024). -/
theorem C65_getDouble {fp : FP Dbl} (hfp : IEEE fp) {s : Bool} {n : Nat} {k : Int} (h : Ready st P G v (some a) A)
    (hs : Shows st v (.num raw)) (hv : HasValue raw s n k) (ht : Tail st a raw) (hl : raw.length ≤ 128) :
    ∃ st' d, getDouble fp v st = .ok (some d, st') ∧ Nearest s n k d ∧ Unchanged st st' := by
  obtain ⟨st', q1, q2, _⟩ := C22_getDouble (fp := fp) h hs hv.num ht hl
  exact ⟨st', _, q1, hfp.conv hv, q2⟩

/-- C65 for a parsed text. -/
theorem C65_parse {fp : FP Dbl} (hfp : IEEE fp) {s : Bool} {n : Nat} {k : Int} (h : Ready st P G v x A)
    (hs : CStr st p b) (ht : JText (.num raw) b) (hv : HasValue raw s n k) (hl : raw.length < 128) :
    ∃ st' st2 d, parse v p st = .ok (true, st') ∧ getDouble fp v st' = .ok (some d, st2) ∧ Nearest s n k d ∧ Unchanged st' st2 := by
  obtain ⟨i, hi⟩ := isNum_intPart hv.num
  obtain ⟨st', q1, _, _, _, st2, q2, q3⟩ := C22_partial (fp := fp) h hs ht hi hl
  exact ⟨st', st2, _, q1, q2, hfp.conv hv, q3⟩

/-- A number that is the value of a double is read as that double. -/
theorem C65_exact {s : Bool} {n : Nat} {k : Int} {d e : Dbl} (hd : d.isNan = false) (hs : d.neg = s)
    (he : n * up k * unit = d.mag * down k) (h : Nearest s n k e) : e = d := by
  refine Dbl.ext_mag h.1 hd (h.2.1.trans hs.symm) ?_
  have h1 := h.2.2 d hd
  rw [he] at h1
  have h2 : d.mag * down k = e.mag * down k := by
    generalize d.mag * down k = X at *
    generalize e.mag * down k = Y at *
    omega
  exact (Nat.eq_of_mul_eq_mul_right (down_pos k) h2).symm

/-- The integers of at most 2^53 are doubles. -/
theorem exists_int {n : Nat} (h : n ≤ 2 ^ 53) (s : Bool) : ∃ d : Dbl, d.finite = true ∧ d.neg = s ∧ d.mag = n * unit := by
  by_cases h0 : n = 0
  · exact ⟨.fin s 0 0 (by decide), rfl, rfl, by subst h0; simp [Dbl.mag]⟩
  by_cases h53 : n = 2 ^ 53
  · refine ⟨.fin s (2 ^ 52) 1075 (by decide), rfl, rfl, ?_⟩
    subst h53
    show 2 ^ 52 * 2 ^ 1075 = 2 ^ 53 * unit
    unfold unit
    rw [← Nat.pow_add]
  · have : ∀ i, i ≤ 52 → 2 ^ (52 - i) ≤ n → ∃ j, j ≤ 52 ∧ 2 ^ 52 ≤ n * 2 ^ j ∧ n * 2 ^ j < 2 ^ 53 := by
      intro i
      induction i with
      | zero => intro _ hi; exact ⟨0, by omega, by simpa using hi, by rw [Nat.pow_zero]; omega⟩
      | succ i ih =>
        intro hi hn
        by_cases hc : 2 ^ (52 - i) ≤ n
        · exact ih (by omega) hc
        · refine ⟨i + 1, hi, ?_, ?_⟩
          · have := Nat.mul_le_mul_right (2 ^ (i + 1)) hn
            rwa [← Nat.pow_add, show 52 - (i + 1) + (i + 1) = 52 by omega] at this
          · have := Nat.mul_lt_mul_of_pos_right (Nat.lt_of_not_le hc) (Nat.pow_pos (n := i + 1) (show 0 < 2 by decide))
            rwa [← Nat.pow_add, show 52 - i + (i + 1) = 53 by omega] at this
    obtain ⟨j, j0, j1, j2⟩ := this 52 (Nat.le_refl _) (by rw [Nat.sub_self, Nat.pow_zero]; omega)
    refine ⟨.fin s (n * 2 ^ j) (1074 - j) ⟨j2, by omega, .inr j1⟩, rfl, rfl, ?_⟩
    show n * 2 ^ j * 2 ^ (1074 - j) = n * unit
    rw [Nat.mul_assoc, ← Nat.pow_add, show j + (1074 - j) = 1074 by omega]
    rfl

theorem Decimal.hasValue (h : Decimal n raw) : HasValue raw (decide (n < 0)) n.natAbs 0 := by
  obtain ⟨m, i, h1, h2, h3, h4⟩ := h
  refine ⟨i, [], [], [], 0, ?_, h2, .inl ⟨rfl, rfl⟩, .inl ⟨rfl, rfl⟩, by simp [h3], by simp⟩
  rw [h1, h4]
  by_cases hn : n < 0 <;> simp [hn]

/-- The numeral of an integer of at most 2^53 is read as exactly that integer. -/
theorem C65_int {fp : FP Dbl} (hfp : IEEE fp) (hd : Decimal n raw) (hn : n.natAbs ≤ 2 ^ 53) :
    (fp.conv raw).finite = true ∧ (fp.conv raw).neg = decide (n < 0) ∧ (fp.conv raw).mag = n.natAbs * unit := by
  obtain ⟨d, h1, h2, h3⟩ := exists_int hn (decide (n < 0))
  have := C65_exact (d := d) (by cases d <;> simp_all [Dbl.finite, Dbl.isNan]) h2 (by
    rw [h3]; simp [up, down]) (hfp.conv hd.hasValue)
  rw [this]
  exact ⟨h1, h2, h3⟩

/-- So `zj_SetLong` and then `zj_GetDouble` give the integer back if it is at most 2^53. -/
theorem C65_setLong {fp : FP Dbl} (hfp : IEEE fp) (h : Ready st P G v x A) (hn : n.natAbs ≤ 2 ^ 53) :
    ∃ st' st2 d, setLong v n st = .ok (true, st') ∧ getDouble fp v st' = .ok (some d, st2) ∧ d.finite = true ∧
      d.neg = decide (n < 0) ∧ d.mag = n.natAbs * unit := by
  obtain ⟨st', q1, q2, q3⟩ := setLong_run h.inv h.val h.node (n := n) (by unfold InRange; omega)
  have hb := q2.becomes h (fun _ h => h.elim)
  obtain ⟨g, hR, _⟩ := hb.store
  have hl := fmtInt_length64 (n := n) (by unfold InRange; omega)
  obtain ⟨st2, q4, q5, _⟩ := C22_getDouble (fp := fp) hR hb.shows (decimal_fmt n).num q3 (by omega)
  exact ⟨st', st2, _, q1, q4, C65_int hfp (decimal_fmt n) hn⟩

/-! ### C66: integers -/

/-- The value of a number without exponent, without what is behind the decimal point, is what
`zj_GetInt`, `zj_GetLong` and `zj_GetLongLong` return (`C22_getInt`, `C22_getLong`). -/
theorem C66_partial {s : Bool} {m : Nat} {k : Int} (hi : HasIntPart raw n) (hv : HasValue raw s m k)
    (he : 0x65 ∉ raw ∧ 0x45 ∉ raw) : n.natAbs = m * up k / down k ∧ (s = true → n ≤ 0) ∧ (s = false → 0 ≤ n) := by
  obtain ⟨i, f, e, fd, ev, h1, h2, h3, h4, rfl, rfl⟩ := hv
  have hee : e = [] ∧ ev = 0 := by
    rcases h4 with h | ⟨c, sg, es, rfl, hc, _⟩
    · exact h
    · rw [h1] at he
      rcases hc with rfl | rfl
      · exact absurd (by simp) he.1
      · exact absurd (by simp) he.2
  obtain ⟨rfl, rfl⟩ := hee
  have hn : HasIntPart raw (if s then -(decimalValue i : Int) else decimalValue i) := by
    refine ⟨_, i, f, [], h1, by cases s <;> simp, h2, ?_, .inl rfl, by cases s <;> simp⟩
    rcases h3 with ⟨rfl, _⟩ | ⟨rfl, h⟩
    · exact .inl rfl
    · exact .inr ⟨fd, rfl, h⟩
  have hu := hi.unique hn
  have hlt : decimalValue fd < 10 ^ fd.length := decimalValue_lt (by
    rcases h3 with ⟨_, rfl⟩ | ⟨_, h⟩
    · simp
    · exact h.2)
  have e1 : up (0 - (fd.length : Int)) = 1 := by unfold up; rw [show (0 - (fd.length : Int)).toNat = 0 by omega, Nat.pow_zero]
  have e2 : down (0 - (fd.length : Int)) = 10 ^ fd.length := by unfold down; congr 1; omega
  refine ⟨?_, ?_, ?_⟩
  · rw [e1, e2, Nat.mul_one, decimalValue_append, Nat.mul_comm, Nat.mul_add_div (Nat.pow_pos (by decide)),
      Nat.div_eq_of_lt hlt, hu]
    cases s <;> simp
  · intro hs; subst hs; rw [hu]; simp
  · intro hs; subst hs; rw [hu]; simp

/-- C66 is false: `1e2` is read as 1, and `12e-1` as 12. -/
theorem C66_false :
    ((do
      let (v, r) ← make 0 b!"[1e2,12e-1]"
      let some e ← arrayGet 9 v 0 | return (r, none, none)
      let some f ← arrayGet 9 v 1 | return (r, none, none)
      return (r, ← getInt e, ← getLong f) : M _) (start fun _ => 0)).out = .ok (true, some 1, some 12) ∧
    HasValue b!"1e2" false 1 2 ∧ HasValue b!"12e-1" false 12 (-1) := by
  refine ⟨by decide +kernel, ?_, ?_⟩
  · exact ⟨b!"1", [], b!"e2", [], 2, rfl, .inr ⟨0x31, [], rfl, by decide, by decide, by simp⟩, .inl ⟨rfl, rfl⟩,
      .inr ⟨0x65, [], b!"2", rfl, .inl rfl, ⟨by simp, by decide⟩, .inl ⟨.inl rfl, by decide⟩⟩, by decide, by decide⟩
  · exact ⟨b!"12", [], b!"e-1", [], -1, rfl, .inr ⟨0x31, b!"2", rfl, by decide, by decide, by decide⟩, .inl ⟨rfl, rfl⟩,
      .inr ⟨0x65, [0x2D], b!"1", rfl, .inl rfl, ⟨by simp, by decide⟩, .inr ⟨rfl, by decide⟩⟩, by decide, by decide⟩

theorem fixed_int {i f e : Bytes} {s : Bool} (hi : IsInt i) (hf : ∀ c ∈ f, isDigit c = true) (he : IsExp e) :
    HasIntPart ((if s then [0x2D] else []) ++ (fixed 0x2E i f ++ e)) (if s then -(decimalValue i : Int) else decimalValue i) := by
  obtain ⟨z, hz⟩ := strip_spec f
  refine ⟨if s then [0x2D] else [], i, if strip f = [] then [] else 0x2E :: strip f, e, by simp [fixed], by cases s <;> simp, hi, ?_, he,
    by cases s <;> simp⟩
  by_cases h : strip f = []
  · exact .inl (by simp [h])
  · refine .inr ⟨strip f, by simp [h], h, fun c hc => hf c ?_⟩
    rw [hz]; simp [hc]

/-- The integer part of what is printed. -/
theorem gText_int {ds es : Bytes} {X : Int} {s : Bool} (hd : Digits17 ds) (he : ExpDigits es X) :
    ∃ j : Nat, HasIntPart ((if s then [0x2D] else []) ++ gText 0x2E ds X es) (if s then -(j : Int) else j) ∧
      (0 ≤ X → X < 17 → j = decimalValue ds / 10 ^ (16 - X.toNat)) ∧ (X < -4 ∨ 17 ≤ X → 1 ≤ j ∧ j ≤ 9) := by
  obtain ⟨hdig, hlen⟩ := hd.digits
  obtain ⟨d, r, hds, h1, h2, h3, h4⟩ := hd
  unfold gText
  by_cases hr : -4 ≤ X ∧ X < 17
  · rw [if_pos hr]
    by_cases hp : 0 ≤ X
    · rw [if_pos hp]
      have q := fixed_int (s := s) (i := ds.take (X.toNat + 1)) (f := ds.drop (X.toNat + 1)) (e := [])
        (.inr ⟨d, r.take X.toNat, by rw [hds]; rfl, h1, h2, fun c hc => h3 c (List.mem_of_mem_take hc)⟩)
        (fun c hc => hdig c (List.mem_of_mem_drop hc)) (.inl rfl)
      rw [List.append_nil] at q
      refine ⟨_, q, fun _ _ => ?_, fun h => by omega⟩
      have hl : (ds.drop (X.toNat + 1)).length = 16 - X.toNat := by rw [List.length_drop, hlen]; omega
      have hlt := decimalValue_lt (ds := ds.drop (X.toNat + 1)) (fun c hc => hdig c (List.mem_of_mem_drop hc))
      rw [hl] at hlt
      conv => rhs; rw [← List.take_append_drop (X.toNat + 1) ds, decimalValue_append, hl, Nat.mul_comm, Nat.mul_add_div (Nat.pow_pos (by decide)), Nat.div_eq_of_lt hlt]
      rfl
    · rw [if_neg hp]
      have q := fixed_int (s := s) (i := [0x30]) (f := List.replicate (-X - 1).toNat 0x30 ++ ds) (e := [])
        (.inl rfl) (fun c hc => by
          rcases List.mem_append.1 hc with hc | hc
          · rw [List.eq_of_mem_replicate hc]; rfl
          · exact hdig c hc) (.inl rfl)
      rw [List.append_nil] at q
      exact ⟨_, q, fun h => absurd h hp, fun h => by omega⟩
  · rw [if_neg hr]
    have q := fixed_int (s := s) (i := ds.take 1) (f := ds.drop 1) (e := 0x65 :: (if X < 0 then 0x2D else 0x2B) :: es)
      (.inr ⟨d, [], by rw [hds]; rfl, h1, h2, fun c hc => by cases hc⟩)
      (fun c hc => hdig c (List.mem_of_mem_drop hc))
      (.inr ⟨0x65, [if X < 0 then 0x2D else 0x2B], es, by simp, .inl rfl, by by_cases hn : X < 0 <;> simp [hn], he.1⟩)
    refine ⟨_, q, fun h h' => absurd ⟨by omega, h'⟩ hr, fun _ => ?_⟩
    have := (digits_pos ⟨h1, h2⟩).2
    rw [hds]
    simpa [decimalValue] using this

theorem rounded_unit {N M D u U : Nat} (hU : 0 < U)
    (h : 2 * ((N * U * M : Nat) - (D * u * U : Nat) : Int).natAbs ≤ u * U) : 2 * ((N * M : Nat) - (D * u : Nat) : Int).natAbs ≤ u := by
  rw [Nat.mul_right_comm, Int.natCast_mul (N * M), Int.natCast_mul (D * u), ← Int.sub_mul, Int.natAbs_mul, Int.natAbs_natCast, ← Nat.mul_assoc] at h
  exact Nat.le_of_mul_le_mul_right h hU

/-- The printed text of an integer below 10^17 has that integer before the point. -/
theorem printed_int {d : Dbl} {t : Bytes} {N : Nat} (h : Printed 0x2E d t) (hd : d.finite = true) (hm : d.mag = N * unit)
    (hN : N < 10 ^ 17) : HasIntPart t (if d.neg then -(N : Int) else N) := by
  cases d with
  | nan s => exact absurd hd (by simp [Dbl.finite])
  | inf s => exact absurd hd (by simp [Dbl.finite])
  | fin s m e g =>
    simp only [Printed] at h
    have hm : m * 2 ^ e = N * unit := hm
    by_cases h0 : m = 0
    · rw [if_pos h0] at h
      subst h0
      rw [Nat.zero_mul] at hm
      have : N = 0 := by
        rcases Nat.mul_eq_zero.1 hm.symm with h | h
        · exact h
        · exact absurd h (Nat.ne_of_gt unit_pos)
      subst this
      refine ⟨_, [0x30], [], [], by rw [h]; rfl, by cases s <;> simp [Dbl.neg], .inl rfl, .inl rfl, .inl rfl, ?_⟩
      cases s <;> simp [Dbl.neg, decimalValue]
    · rw [if_neg h0] at h
      obtain ⟨ds, X, es, h1, h2, h3, rfl⟩ := h
      obtain ⟨j, q1, q2, _⟩ := gText_int (s := s) h1 h3
      have hlow := h1.lower
      have hup := h1.upper
      rw [hm] at h2
      have hr := rounded_unit unit_pos h2
      have hN1 : 1 ≤ N := by
        refine Nat.pos_of_ne_zero fun hn => ?_
        rw [hn, Nat.zero_mul] at hm
        rcases Nat.mul_eq_zero.1 hm with h | h
        · exact h0 h
        · exact absurd h (Nat.ne_of_gt (Nat.pow_pos (by decide)))
      have hX : X ≤ 16 := by
        refine Decidable.byContradiction fun hx => ?_
        have e1 : down (X - 16) = 1 := by unfold down; rw [show (-(X - 16)).toNat = 0 by omega, Nat.pow_zero]
        have e2 : 10 ^ 1 ≤ up (X - 16) := Nat.pow_le_pow_right (by decide) (by omega)
        have e3 : 10 ^ 16 * up (X - 16) ≤ decimalValue ds * up (X - 16) := Nat.mul_le_mul_right _ hlow
        rw [e1, Nat.mul_one] at hr
        have hbig : 10 ^ 17 - 5 ≤ N := by
          generalize decimalValue ds * up (X - 16) = E at *
          generalize up (X - 16) = u at *
          omega
        -- doubles of this size are multiples of 16
        have he : 1078 ≤ e := by
          refine Nat.le_of_not_lt fun he => ?_
          have k1 : m * 2 ^ e < 2 ^ 53 * 2 ^ 1077 := Nat.lt_of_lt_of_le (Nat.mul_lt_mul_of_pos_right g.1 (Nat.pow_pos (by decide)))
            (Nat.mul_le_mul_left _ (Nat.pow_le_pow_right (by decide) (by omega)))
          have k2 : 2 ^ 56 * unit ≤ N * unit := Nat.mul_le_mul_right _ (by omega)
          have k3 : 2 ^ 53 * 2 ^ 1077 = 2 ^ 56 * unit := by unfold unit; rw [← Nat.pow_add]
          rw [hm, k3] at k1
          exact absurd k2 (Nat.not_le.2 k1)
        obtain ⟨i, rfl⟩ := Nat.exists_eq_add_of_le he
        have k4 : m * 2 ^ (1078 + i) = (16 * (m * 2 ^ i)) * unit := by
          rw [Nat.pow_add, show (2 : Nat) ^ 1078 = 2 ^ 4 * unit by unfold unit; rw [← Nat.pow_add]]
          show m * (16 * unit * 2 ^ i) = _
          generalize unit = U
          ac_rfl
        rw [k4] at hm
        have k5 := Nat.eq_of_mul_eq_mul_right unit_pos hm
        generalize m * 2 ^ i = w at *
        omega
      have e1 : up (X - 16) = 1 := by unfold up; rw [show (X - 16).toNat = 0 by omega, Nat.pow_zero]
      rw [e1, Nat.mul_one] at hr
      have heq : N * down (X - 16) = decimalValue ds := by
        generalize N * down (X - 16) = E at *
        omega
      have hX0 : 0 ≤ X := by
        refine Decidable.byContradiction fun hx => ?_
        have e2 : 10 ^ 17 ≤ down (X - 16) := Nat.pow_le_pow_right (by decide) (by omega)
        have e3 : 1 * down (X - 16) ≤ N * down (X - 16) := Nat.mul_le_mul_right _ hN1
        omega
      have e2 : down (X - 16) = 10 ^ (16 - X.toNat) := by unfold down; congr 1; omega
      have := q2 hX0 (by omega)
      rw [← heq, e2, Nat.mul_div_cancel _ (Nat.pow_pos (by decide))] at this
      subst this
      exact q1

/-- The printed text of a double of at least 10^17, or of at most 0.00009, has one digit before the
point, and that is not 0. -/
theorem printed_exp {d : Dbl} {t : Bytes} (h : Printed 0x2E d t) (hd : d.finite = true)
    (hm : 10 ^ 17 * unit ≤ d.mag ∨ 0 < d.mag ∧ d.mag * 10 ^ 5 ≤ 9 * unit) :
    ∃ j : Nat, 1 ≤ j ∧ j ≤ 9 ∧ HasIntPart t (if d.neg then -(j : Int) else j) := by
  cases d with
  | nan s => exact absurd hd (by simp [Dbl.finite])
  | inf s => exact absurd hd (by simp [Dbl.finite])
  | fin s m e g =>
    simp only [Printed] at h
    have hm : 10 ^ 17 * unit ≤ m * 2 ^ e ∨ 0 < m * 2 ^ e ∧ m * 2 ^ e * 10 ^ 5 ≤ 9 * unit := hm
    have hU := unit_pos
    by_cases h0 : m = 0
    · subst h0
      rw [Nat.zero_mul] at hm
      rcases hm with hm | hm
      · have : 0 < 10 ^ 17 * unit := Nat.mul_pos (by decide) hU
        omega
      · exact absurd hm.1 (Nat.lt_irrefl _)
    · rw [if_neg h0] at h
      obtain ⟨ds, X, es, h1, h2, h3, rfl⟩ := h
      obtain ⟨j, q1, _, q2⟩ := gText_int (s := s) h1 h3
      have hlow := h1.lower
      have hup := h1.upper
      have hX : X < -4 ∨ 17 ≤ X := by
        refine Decidable.byContradiction fun hx => ?_
        have e1 : up (X - 16) = 1 := by unfold up; rw [show (X - 16).toNat = 0 by omega, Nat.pow_zero]
        unfold Rounded at h2
        rw [e1, Nat.mul_one, Nat.one_mul] at h2
        have e2 : 1 ≤ down (X - 16) := down_pos _
        have e3 : down (X - 16) ≤ 10 ^ 20 := Nat.pow_le_pow_right (by decide) (by omega)
        have e4 : m * 2 ^ e * 1 ≤ m * 2 ^ e * down (X - 16) := Nat.mul_le_mul_left _ e2
        have e5 : m * 2 ^ e * down (X - 16) ≤ m * 2 ^ e * 10 ^ 20 := Nat.mul_le_mul_left _ e3
        have e6 : 10 ^ 16 * unit ≤ decimalValue ds * unit := Nat.mul_le_mul_right _ hlow
        have e7 : (decimalValue ds + 1) * unit ≤ 10 ^ 17 * unit := Nat.mul_le_mul_right _ hup
        rw [Nat.add_mul] at e7
        generalize m * 2 ^ e * down (X - 16) = E at *
        generalize m * 2 ^ e = x at *
        generalize decimalValue ds * unit = F at *
        generalize unit = U at *
        omega
      exact ⟨j, (q2 hX).1, (q2 hX).2, q1⟩

/-- C66, what holds for doubles: an integer below 10^17 that was set as a double is read as that
integer. -/
theorem C66_setDouble_partial {fp : FP Dbl} (hfp : IEEE fp) {d : Dbl} {N : Nat} (hd : d.finite = true) (hm : d.mag = N * unit)
    (hN : N < 10 ^ 17) (h : Ready st P G v x A) :
    ∃ st' st2, setDouble fp v d st = .ok (true, st') ∧ getLong v st' = .ok (some (if d.neg then -(N : Int) else N), st2) ∧
      getLongLong v st' = .ok (some (if d.neg then -(N : Int) else N), st2) := by
  have hl := (printed_fin (hfp.fmt d) hd).1
  obtain ⟨st', q1, q2, q3⟩ := setDouble_run (d := d) (fp := fp) h.inv h.val h.node (by omega)
  have hb := q2.becomes h (fun _ h => h.elim)
  obtain ⟨g, hR, _⟩ := hb.store
  obtain ⟨st2, q4, q5, _⟩ := C22_getLong hR hb.shows (printed_int (hfp.fmt d) hd hm hN) q3 (by omega) (by split <;> omega) (by split <;> omega)
  exact ⟨st', st2, q1, q4, q5⟩

/-- C66 is false for doubles: after setting a double of at least 10^17 or of at most 0.00009 (other
than 0) the integer getters return its first digit. -/
theorem C66_false_double {fp : FP Dbl} (hfp : IEEE fp) {d : Dbl} (hd : d.finite = true)
    (hm : 10 ^ 17 * unit ≤ d.mag ∨ 0 < d.mag ∧ d.mag * 10 ^ 5 ≤ 9 * unit) (h : Ready st P G v x A) :
    ∃ st' st2 st3 n, setDouble fp v d st = .ok (true, st') ∧ getInt v st' = .ok (some n, st2) ∧ getLong v st' = .ok (some n, st3) ∧
      1 ≤ n.natAbs ∧ n.natAbs ≤ 9 := by
  have hl := (printed_fin (hfp.fmt d) hd).1
  obtain ⟨st', q1, q2, q3⟩ := setDouble_run (d := d) (fp := fp) h.inv h.val h.node (by omega)
  have hb := q2.becomes h (fun _ h => h.elim)
  obtain ⟨g, hR, _⟩ := hb.store
  obtain ⟨j, j1, j2, hi⟩ := printed_exp (hfp.fmt d) hd hm
  obtain ⟨st2, q4, _⟩ := C22_getInt hR hb.shows hi (by omega) (by split <;> omega) (by split <;> omega)
  obtain ⟨st3, q5, _⟩ := C22_getLong hR hb.shows hi q3 (by omega) (by split <;> omega) (by split <;> omega)
  exact ⟨st', st2, st3, _, q1, q4, q5, by split <;> omega, by split <;> omega⟩

/-- A C library that rounds correctly, in a locale with a decimal comma (C99 7.20.1.3: `strtod`
takes the decimal point of the locale): a JSON number is converted up to its point only. -/
def CommaConv (fp : FP Dbl) : Prop := ∃ c : FP Dbl, IEEE c ∧ ∀ t, IsNum t → fp.conv t = c.conv (t.takeWhile (· ≠ 0x2E))

/-- With a decimal comma `zj_GetDouble` returns the part before the point of every number that has
one, whatever follows, an exponent included. -/
theorem C65_locale {fp : FP Dbl} (hfp : CommaConv fp) {s : Bool} {i f e : Bytes} (h : Ready st P G v x A) (hi : IsInt i)
    (hf : IsDigits f) (he : IsExp e)
    (hs : CStr st p ((if s then [0x2D] else []) ++ (i ++ (0x2E :: f ++ e)))) (hl : i.length + f.length + e.length < 126) :
    ∃ st' st2 d, parse v p st = .ok (true, st') ∧ getDouble fp v st' = .ok (some d, st2) ∧ Nearest s (decimalValue i) 0 d := by
  obtain ⟨c, hc, hfp⟩ := hfp
  have hn : IsNum ((if s then [0x2D] else []) ++ (i ++ (0x2E :: f ++ e))) :=
    ⟨_, i, 0x2E :: f, e, rfl, by cases s <;> simp, hi, .inr ⟨f, rfl, hf⟩, he⟩
  obtain ⟨n, hp⟩ := isNum_intPart hn
  obtain ⟨st', q1, _, _, _, st2, q2, _⟩ := C22_partial (fp := fp) h hs (print_text (t := .num _) hn) hp
    (by cases s <;> simp <;> omega)
  refine ⟨st', st2, _, q1, q2, ?_⟩
  rw [hfp _ hn]
  have hd : ∀ a ∈ i, a ≠ 0x2E := by
    intro a ha
    have : isDigit a = true := by
      rcases hi with rfl | ⟨d, ds, rfl, h1, h2, h3⟩
      · simp at ha; subst ha; rfl
      · rcases List.mem_cons.1 ha with rfl | ha
        · simp [isDigit]; grind
        · exact h3 a ha
    rintro rfl
    revert this
    decide
  have ht : ((if s then [0x2D] else []) ++ (i ++ (0x2E :: f ++ e))).takeWhile (· ≠ 0x2E) = (if s then [0x2D] else []) ++ i := by
    rw [← List.append_assoc, List.takeWhile_append_of_pos, List.cons_append, List.takeWhile_cons_of_neg (by simp), List.append_nil]
    intro a ha
    rcases List.mem_append.1 ha with ha | ha
    · cases s
      · simp at ha
      · simp at ha; subst ha; rfl
    · simpa using hd a ha
  rw [ht]
  exact hc.conv ⟨i, [], [], [], 0, by simp, hi, .inl ⟨rfl, rfl⟩, .inl ⟨rfl, rfl⟩, by simp, by simp⟩

/-- So `1.5` is not read as the double nearest to it. -/
theorem C65_false_locale {fp : FP Dbl} (hfp : CommaConv fp) (h : Ready st P G v x A) (hs : CStr st p b!"1.5") :
    HasValue b!"1.5" false 15 (-1) ∧
    ∃ st' st2 d, parse v p st = .ok (true, st') ∧ getDouble fp v st' = .ok (some d, st2) ∧ ¬ Nearest false 15 (-1) d ∧ d.mag = unit := by
  have hi : IsInt b!"1" := .inr ⟨0x31, [], rfl, by decide, by decide, by simp⟩
  refine ⟨⟨b!"1", b!".5", [], b!"5", 0, rfl, hi, .inr ⟨rfl, by simp, by decide⟩, .inl ⟨rfl, rfl⟩, by decide, by decide⟩, ?_⟩
  obtain ⟨st', st2, d, h1, h2, h3⟩ := C65_locale hfp (s := false) (i := b!"1") (f := b!"5") (e := []) h hi ⟨by simp, by decide⟩ (.inl rfl) hs (by decide)
  obtain ⟨o, o1, o2, o3⟩ := exists_int (n := 1) (by decide) false
  have e1 : d = o := C65_exact (by cases o <;> simp_all [Dbl.finite, Dbl.isNan]) o2 (by rw [o3]; simp [up, down, decimalValue]) h3
  refine ⟨st', st2, d, h1, h2, fun h4 => ?_, by rw [e1, o3, Nat.one_mul]⟩
  have e2 : d = .fin false (3 * 2 ^ 51) 1022 (by decide) := C65_exact rfl rfl (by unfold unit Dbl.mag; decide +kernel) h4
  have e3 : d.mag = 3 * 2 ^ 51 * 2 ^ 1022 := by rw [e2]; rfl
  rw [e1, o3] at e3
  revert e3
  unfold unit
  decide +kernel

example : ∃ fp : FP Dbl, CommaConv fp := by
  obtain ⟨c, hc⟩ := exists_ieee
  exact ⟨⟨c.fmt, fun t => c.conv (t.takeWhile (· ≠ 0x2E))⟩, c, hc, fun _ _ => rfl⟩

/-- With a decimal comma, 0.5 is printed as `0,5...`, `zj_SetDouble` stores that, and it is not
JSON: the library depends on the locale of the process. -/
theorem C23_false_locale {fp : FP Dbl} (hfp : ∀ d, Printed 0x2C d (fp.fmt d)) {s : Bool} :
    ¬ IsNum (fp.fmt (.fin s (2 ^ 52) 1021 (by decide))) := by
  have h := hfp (.fin s (2 ^ 52) 1021 (by decide))
  simp only [Printed] at h
  rw [if_neg (by decide)] at h
  obtain ⟨ds, X, es, h1, h2, h3, h4⟩ := h
  have hlow := h1.lower
  have hup := h1.upper
  have hx : 2 ^ 52 * 2 ^ 1021 * 2 = 1 * unit := by unfold unit; rw [Nat.one_mul, ← Nat.pow_add, ← Nat.pow_succ]
  have h5 : Rounded (2 ^ 52 * 2 ^ 1021) ds X → 2 * ((1 * unit * down (X - 16) : Nat) - (2 * decimalValue ds * up (X - 16) * unit : Nat) : Int).natAbs ≤ 2 * (up (X - 16) * unit) := by
    intro h
    rw [← hx]
    unfold Rounded at h
    generalize 2 ^ 52 * 2 ^ 1021 = y at *
    rw [Nat.mul_right_comm y, Nat.mul_assoc 2, Nat.mul_assoc 2]
    generalize y * down (X - 16) = E at *
    generalize decimalValue ds * up (X - 16) * unit = F at *
    generalize up (X - 16) * unit = H at *
    omega
  have h6 : 2 * ((1 * down (X - 16) : Nat) - (2 * decimalValue ds * up (X - 16) : Nat) : Int).natAbs ≤ 2 * up (X - 16) := by
    have h7 := h5 h2
    rw [← Nat.mul_assoc 2 (up _)] at h7
    have : 2 * ((1 * unit * down (X - 16) : Nat) - (decimalValue ds * (2 * up (X - 16)) * unit : Nat) : Int).natAbs ≤ 2 * up (X - 16) * unit := by
      rw [show decimalValue ds * (2 * up (X - 16)) = 2 * decimalValue ds * up (X - 16) by ac_rfl]; exact h7
    have := rounded_unit unit_pos this
    rwa [show decimalValue ds * (2 * up (X - 16)) = 2 * decimalValue ds * up (X - 16) by ac_rfl] at this
  have hX : -4 ≤ X ∧ X < 0 := by
    refine ⟨Decidable.byContradiction fun hx => ?_, Decidable.byContradiction fun hx => ?_⟩
    · have e1 : up (X - 16) = 1 := by unfold up; rw [show (X - 16).toNat = 0 by omega, Nat.pow_zero]
      have e2 : 10 ^ 20 ≤ down (X - 16) := Nat.pow_le_pow_right (by decide) (by omega)
      rw [e1] at h6
      omega
    · have e1 : down (X - 16) ≤ 10 ^ 16 := Nat.pow_le_pow_right (by decide) (by omega)
      have e2 : 1 ≤ up (X - 16) := up_pos _
      have e3 : 2 * 10 ^ 16 * up (X - 16) ≤ 2 * decimalValue ds * up (X - 16) := Nat.mul_le_mul_right _ (by omega)
      generalize 2 * decimalValue ds * up (X - 16) = E at *
      omega
  have hg : gText 0x2C ds X es = fixed 0x2C [0x30] (List.replicate (-X - 1).toNat 0x30 ++ ds) := by
    rw [gText, if_pos ⟨hX.1, by omega⟩, if_neg (by omega)]
  rw [hg] at h4
  obtain ⟨d, r, rfl, g1, g2, g3, g4⟩ := h1
  have hne : strip (List.replicate (-X - 1).toNat 0x30 ++ d :: r) ≠ [] := by
    intro hs
    obtain ⟨z, hz⟩ := strip_spec (List.replicate (-X - 1).toNat 0x30 ++ d :: r)
    rw [hs, List.nil_append] at hz
    have : d ∈ List.replicate z (0x30 : Byte) := by rw [← hz]; simp
    rw [List.eq_of_mem_replicate this] at g1
    exact absurd g1 (by decide)
  have hf : fixed 0x2C [0x30] (List.replicate (-X - 1).toNat 0x30 ++ d :: r) =
      [0x30] ++ 0x2C :: strip (List.replicate (-X - 1).toNat 0x30 ++ d :: r) := by rw [fixed, if_neg hne]
  rw [hf] at h4
  intro hn
  have hm : (0x2C : Byte) ∈ fp.fmt (.fin s (2 ^ 52) 1021 (by decide)) := by rw [h4]; simp
  have := hn.numeral _ hm
  exact absurd this (by decide)

/-! ### The texts of some doubles -/

/-- 0.1, the least positive double and the greatest one are printed as one would expect. -/
example : Printed 0x2E (.fin false 7205759403792794 1018 (by decide)) b!"0.10000000000000001" ∧
    Printed 0x2E (.fin true 1 0 (by decide)) b!"-4.9406564584124654e-324" ∧
    Printed 0x2E (.fin false (2 ^ 53 - 1) 2045 (by decide)) b!"1.7976931348623157e+308" ∧
    Printed 0x2E (.fin true 0 0 (by decide)) b!"-0" ∧
    Printed 0x2E (.fin false 6250000000000000 1078 (by decide)) b!"1e+17" ∧
    Printed 0x2C (.fin false (2 ^ 52) 1021 (by decide)) b!"0,5" := by
  have hd : ∀ {d : Byte} {r : Bytes}, 0x31 ≤ d ∧ d ≤ 0x39 → r.all isDigit = true → r.length = 16 → Digits17 (d :: r) :=
    fun h1 h2 h3 => ⟨_, _, rfl, h1.1, h1.2, by simpa using h2, h3⟩
  have he : ∀ {es : Bytes} {X : Int}, es.all isDigit = true → decimalValue es = X.natAbs → (es.length = 2 ∨ es.length = 3) →
      (es.length = 2 ∨ es.head? ≠ some 0x30) → ExpDigits es X := by
    intro es X h1 h2 h3 h4
    refine ⟨⟨by intro h; subst h; simp at h3, by simpa using h1⟩, h2, by omega, ?_⟩
    rcases h4 with h4 | h4
    · exact .inl h4
    · cases es with
      | nil => simp at h3
      | cons d r => exact .inr ⟨d, r, rfl, by simpa using h4⟩
  have hr : ∀ {x : Nat} {ds : Bytes} {X : Int}, decide (2 * ((x * down (X - 16) : Nat) - (decimalValue ds * up (X - 16) * unit : Nat) : Int).natAbs ≤
      up (X - 16) * unit) = true → Rounded x ds X := fun h => by unfold Rounded; exact of_decide_eq_true h
  refine ⟨?_, ?_, ?_, ?_, ?_, ?_⟩ <;> simp only [Printed]
  · rw [if_neg (by decide)]
    exact ⟨b!"10000000000000001", -1, b!"01", hd (by decide) (by decide) rfl, hr (by decide +kernel),
      he (by decide) (by decide) (by decide) (by decide), by decide +kernel⟩
  · rw [if_neg (by decide)]
    exact ⟨b!"49406564584124654", -324, b!"324", hd (by decide) (by decide) rfl, hr (by decide +kernel),
      he (by decide) (by decide) (by decide) (by decide), by decide +kernel⟩
  · rw [if_neg (by decide)]
    exact ⟨b!"17976931348623157", 308, b!"308", hd (by decide) (by decide) rfl, hr (by decide +kernel),
      he (by decide) (by decide) (by decide) (by decide), by decide +kernel⟩
  · simp
  · rw [if_neg (by decide)]
    exact ⟨b!"10000000000000000", 17, b!"17", hd (by decide) (by decide) rfl, hr (by decide +kernel),
      he (by decide) (by decide) (by decide) (by decide), by decide +kernel⟩
  · rw [if_neg (by decide)]
    exact ⟨b!"50000000000000000", -1, b!"01", hd (by decide) (by decide) rfl, hr (by decide +kernel),
      he (by decide) (by decide) (by decide) (by decide), by decide +kernel⟩

/-- The hypotheses of the theorems of this file can be met together: a library, a value and the
doubles 3, 10^17 and 2^-1074. -/
example : ∃ fp st P G v x A, IEEE fp ∧ Ready st P G v x A ∧ x ≠ none ∧
    (∃ d : Dbl, d.finite = true ∧ d.neg = true ∧ d.mag = 3 * unit) ∧
    (∃ d : Dbl, d.finite = true ∧ 10 ^ 17 * unit ≤ d.mag) ∧
    (∃ d : Dbl, d.finite = true ∧ 0 < d.mag ∧ d.mag * 10 ^ 5 ≤ 9 * unit) := by
  obtain ⟨fp, hfp⟩ := exists_ieee
  obtain ⟨st, P, G, v, a, h, _⟩ := exists_example (t := .arr [.bool true, .null]) (by simp [Json.Valid, Json.ValidElems]) (fun _ => 0)
  refine ⟨fp, _, P, G, v, _, 0, hfp, h.ready, by simp, exists_int (by decide) true, ?_, ?_⟩
  · exact ⟨.fin false 6250000000000000 1078 (by decide), rfl, by unfold unit Dbl.mag; decide +kernel⟩
  · exact ⟨.fin false 1 0 (by decide), rfl, by unfold Dbl.mag; decide, by unfold unit Dbl.mag; decide +kernel⟩

/-- A text with a decimal comma, set and printed: what is printed is not parsed again. -/
example : ((do
      let r ← setDouble (⟨fun _ => b!"0,5", fun _ => ()⟩ : FP Unit) 0 ()
      let s ← stringify 9 0
      let w ← newValue 0
      return (r, ← readN s 4, ← parse w s) : M (Bool × Bytes × Bool)) (start fun _ => 3)).out =
      .ok (true, b!"0,5" ++ [0], false) := by decide +kernel

/-- 0.00001 set and read as an integer: 1. -/
example : ((do
      let r ← setDouble (⟨fun _ => b!"1.0000000000000001e-05", fun _ => ()⟩ : FP Unit) 0 ()
      return (r, ← getInt 0) : M _) (start fun _ => 3)).out = .ok (true, some 1) := by decide +kernel

example : HasIntPart b!"-12.75" (-12) ∧ HasValue b!"-12.75" true 1275 (-2) ∧ (0x65 ∉ b!"-12.75" ∧ 0x45 ∉ b!"-12.75") := by
  refine ⟨⟨b!"-", b!"12", b!".75", [], rfl, .inr rfl, .inr ⟨0x31, b!"2", rfl, by decide, by decide, by decide⟩,
    .inr ⟨b!"75", rfl, by simp, by decide⟩, .inl rfl, by decide⟩,
    ⟨b!"12", b!".75", [], b!"75", 0, rfl, .inr ⟨0x31, b!"2", rfl, by decide, by decide, by decide⟩,
      .inr ⟨rfl, by simp, by decide⟩, .inl ⟨rfl, rfl⟩, by decide, by decide⟩, by decide⟩

end
end ZJ
