import Verif.PropNum

/-
What IEEE 754 and the C standard say about the type `double` and about `printf("%.17g")` and
`strtod`, as far as it is needed to discharge the parameter `FP` of `Num.lean`. Nothing here is
code of /repo: it is the specification of the library functions called in zzzjson.h:387-391 and
405-408.
-/

set_option linter.unusedSimpArgs false
set_option exponentiation.threshold 3000

namespace ZJ

/-! ### Doubles -/

/-- A number of the format binary64: not a number, an infinity, or `m · 2^(e - 1074)` with a sign,
where `m` has at most 53 bits, and exactly 53 unless the exponent is the least one. -/
inductive Dbl where
  | nan (neg : Bool)
  | inf (neg : Bool)
  | fin (neg : Bool) (m e : Nat) (h : m < 2 ^ 53 ∧ e ≤ 2045 ∧ (e = 0 ∨ 2 ^ 52 ≤ m))

/-- The number of units in 1; the unit is the least positive double, 2^-1074. -/
def unit : Nat := 2 ^ 1074

/-- The distance from 0 in units. Rounding treats an infinity as 2^1024. -/
def Dbl.mag : Dbl → Nat
  | .nan _ => 0
  | .inf _ => 2 ^ 52 * 2 ^ 2046
  | .fin _ m e _ => m * 2 ^ e

def Dbl.neg : Dbl → Bool
  | .nan s => s
  | .inf s => s
  | .fin s _ _ _ => s

def Dbl.isNan : Dbl → Bool
  | .nan _ => true
  | _ => false

def Dbl.finite : Dbl → Bool
  | .fin .. => true
  | _ => false

/-! ### Decimal numbers -/

/-- `10^k = up k / down k`. -/
def up (k : Int) : Nat := 10 ^ k.toNat
def down (k : Int) : Nat := 10 ^ (-k).toNat

/-- The JSON number `t` stands for `n · 10^k`, negated if `s`. -/
def HasValue (t : Bytes) (s : Bool) (n : Nat) (k : Int) : Prop :=
  ∃ i f e fd ev, t = (if s then [0x2D] else []) ++ (i ++ (f ++ e)) ∧ IsInt i ∧
    (f = [] ∧ fd = [] ∨ f = 0x2E :: fd ∧ IsDigits fd) ∧
    (e = [] ∧ ev = 0 ∨ ∃ c sg es, e = c :: (sg ++ es) ∧ (c = 0x65 ∨ c = 0x45) ∧ IsDigits es ∧
      ((sg = [] ∨ sg = [0x2B]) ∧ ev = (decimalValue es : Int) ∨ sg = [0x2D] ∧ ev = -(decimalValue es : Int))) ∧
    n = decimalValue (i ++ fd) ∧ k = ev - fd.length

/-- No double is nearer to `n · 10^k` (negated if `s`) than `x`; both are compared in units, times
`down k`. -/
def Nearest (s : Bool) (n : Nat) (k : Int) (x : Dbl) : Prop :=
  x.isNan = false ∧ x.neg = s ∧ ∀ y : Dbl, y.isNan = false →
    ((n * up k * unit : Nat) - (x.mag * down k : Nat) : Int).natAbs ≤
      ((n * up k * unit : Nat) - (y.mag * down k : Nat) : Int).natAbs

/-! ### printf("%.17g") -/

/-- Without the zeros at the end. -/
def strip (f : Bytes) : Bytes := (f.reverse.dropWhile (· = 0x30)).reverse

/-- Digits before and after the decimal point `pt`; `%g` drops zeros at the end, and the point if
nothing follows it. -/
def fixed (pt : Byte) (i f : Bytes) : Bytes := i ++ if strip f = [] then [] else pt :: strip f

/-- C99 7.19.6.1, `%g`: the digits `ds` of the number and its decimal exponent `X`, which is the one
of the first digit, in style `f` if `-4 ≤ X < 17` and in style `e` otherwise; `es` are the digits
of the exponent. -/
def gText (pt : Byte) (ds : Bytes) (X : Int) (es : Bytes) : Bytes :=
  if -4 ≤ X ∧ X < 17 then
    if 0 ≤ X then fixed pt (ds.take (X.toNat + 1)) (ds.drop (X.toNat + 1))
    else fixed pt [0x30] (List.replicate (-X - 1).toNat 0x30 ++ ds)
  else fixed pt (ds.take 1) (ds.drop 1) ++ (0x65 :: (if X < 0 then 0x2D else 0x2B) :: es)

/-- Seventeen digits, the first of which is not 0. -/
def Digits17 (ds : Bytes) : Prop :=
  ∃ d r, ds = d :: r ∧ 0x31 ≤ d ∧ d ≤ 0x39 ∧ (∀ c ∈ r, isDigit c = true) ∧ r.length = 16

/-- The digits of the exponent: at least two, and no more than needed. -/
def ExpDigits (es : Bytes) (X : Int) : Prop :=
  IsDigits es ∧ decimalValue es = X.natAbs ∧ 2 ≤ es.length ∧
    (es.length = 2 ∨ ∃ d r, es = d :: r ∧ d ≠ 0x30)

/-- The digits `ds` with the exponent `X` differ from `x` units by at most half a unit of the last
digit. -/
def Rounded (x : Nat) (ds : Bytes) (X : Int) : Prop :=
  2 * ((x * down (X - 16) : Nat) - (decimalValue ds * up (X - 16) * unit : Nat) : Int).natAbs ≤ up (X - 16) * unit

/-- `t` is a text that `printf("%.17g", d)` may print with the decimal point `pt`. -/
def Printed (pt : Byte) : Dbl → Bytes → Prop
  | .nan s, t => ∃ r, t = (if s then [0x2D] else []) ++ (b!"nan" ++ r)
  | .inf s, t => ∃ r, t = (if s then [0x2D] else []) ++ (b!"inf" ++ r)
  | .fin s m e _, t =>
    if m = 0 then t = (if s then [0x2D] else []) ++ [0x30]
    else ∃ ds X es, Digits17 ds ∧ Rounded (m * 2 ^ e) ds X ∧ ExpDigits es X ∧
      t = (if s then [0x2D] else []) ++ gText pt ds X es

/-- A C library whose conversions round to nearest, in the locale "C" (ties may go either way). -/
structure IEEE (fp : FP Dbl) : Prop where
  fmt : ∀ d, Printed 0x2E d (fp.fmt d)
  conv : ∀ {t s n k}, HasValue t s n k → Nearest s n k (fp.conv t)

/-! ### Lemmas: decimal digits -/

theorem decimalValue_append (a b : Bytes) : decimalValue (a ++ b) = decimalValue a * 10 ^ b.length + decimalValue b := by
  have : ∀ (b : Bytes) x, b.foldl (fun a (c : Byte) => a * 10 + (c.toNat - 0x30)) x = x * 10 ^ b.length + decimalValue b := by
    intro b
    induction b with
    | nil => intro x; simp [decimalValue]
    | cons c b ih =>
      intro x
      simp only [decimalValue, List.foldl, List.length_cons]
      rw [ih, ih (0 * 10 + _), Nat.pow_succ, Nat.add_mul, Nat.add_mul]
      simp only [Nat.zero_mul, Nat.zero_add, Nat.add_assoc]
      congr 1
      rw [Nat.mul_assoc, Nat.mul_comm 10]
  unfold decimalValue
  rw [List.foldl_append, this]
  rfl

theorem decimalValue_zeros (z : Nat) : decimalValue (List.replicate z 0x30) = 0 := by
  induction z with
  | zero => rfl
  | succ z ih =>
    rw [List.replicate_succ, show (0x30 : Byte) :: List.replicate z 0x30 = [0x30] ++ List.replicate z 0x30 from rfl,
      decimalValue_append, ih]
    simp [decimalValue]

theorem strip_spec (f : Bytes) : ∃ z, f = strip f ++ List.replicate z 0x30 := by
  have h := List.takeWhile_append_dropWhile (p := fun c : Byte => decide (c = 0x30)) (l := f.reverse)
  have h2 : ∀ c ∈ f.reverse.takeWhile (fun c : Byte => decide (c = 0x30)), c = 0x30 := fun c hc => by
    have := List.all_takeWhile (p := fun c : Byte => decide (c = 0x30)) (l := f.reverse)
    rw [List.all_eq_true] at this
    simpa using this c hc
  refine ⟨(f.reverse.takeWhile (fun c : Byte => decide (c = 0x30))).length, ?_⟩
  have h3 := congrArg List.reverse h
  rw [List.reverse_append, List.reverse_reverse] at h3
  have h4 : (f.reverse.takeWhile (fun c : Byte => decide (c = 0x30))).reverse =
      List.replicate (f.reverse.takeWhile (fun c : Byte => decide (c = 0x30))).length 0x30 := by
    refine List.eq_replicate_iff.2 ⟨by simp, fun c hc => h2 c (by simpa using hc)⟩
  rw [h4] at h3
  exact h3.symm

theorem digits_pos {d : Byte} (h : 0x31 ≤ d ∧ d ≤ 0x39) : isDigit d = true ∧ 1 ≤ d.toNat - 0x30 ∧ d.toNat - 0x30 ≤ 9 := by
  revert h; revert d
  apply allBytes; decide +kernel

theorem isDigit_le {d : Byte} (h : isDigit d = true) : d.toNat - 0x30 ≤ 9 := by
  revert h; revert d
  apply allBytes; decide +kernel

theorem decimalValue_lt : ∀ {ds : Bytes}, (∀ c ∈ ds, isDigit c = true) → decimalValue ds < 10 ^ ds.length := by
  intro ds
  induction ds with
  | nil => intro _; decide
  | cons d r ih =>
    intro h
    rw [show d :: r = [d] ++ r from rfl, decimalValue_append, List.length_append, Nat.pow_add]
    have h1 := ih fun c hc => h c (by simp [hc])
    have h2 := isDigit_le (h d (by simp))
    have h3 : decimalValue [d] = d.toNat - 0x30 := by simp [decimalValue]
    have h4 : decimalValue [d] * 10 ^ r.length ≤ 9 * 10 ^ r.length := Nat.mul_le_mul_right _ (by omega)
    simp only [List.length_singleton, Nat.pow_one]
    omega

theorem Digits17.lower {ds : Bytes} (h : Digits17 ds) : 10 ^ 16 ≤ decimalValue ds := by
  obtain ⟨d, r, rfl, h1, h2, h3, h4⟩ := h
  rw [show d :: r = [d] ++ r from rfl, decimalValue_append, h4]
  have := (digits_pos ⟨h1, h2⟩).2.1
  have h3 : decimalValue [d] = d.toNat - 0x30 := by simp [decimalValue]
  have h5 : 1 * 10 ^ 16 ≤ decimalValue [d] * 10 ^ 16 := Nat.mul_le_mul_right _ (by omega)
  rw [Nat.one_mul] at h5
  exact Nat.le_trans h5 (Nat.le_add_right _ _)

theorem Digits17.digits {ds : Bytes} (h : Digits17 ds) : (∀ c ∈ ds, isDigit c = true) ∧ ds.length = 17 := by
  obtain ⟨d, r, rfl, h1, h2, h3, h4⟩ := h
  refine ⟨fun c hc => ?_, by simp [h4]⟩
  rcases List.mem_cons.1 hc with rfl | hc
  · exact (digits_pos ⟨h1, h2⟩).1
  · exact h3 c hc

theorem Digits17.upper {ds : Bytes} (h : Digits17 ds) : decimalValue ds < 10 ^ 17 := by
  have := decimalValue_lt h.digits.1
  rwa [h.digits.2] at this

theorem up_pos (k : Int) : 0 < up k := Nat.pow_pos (by decide)
theorem down_pos (k : Int) : 0 < down k := Nat.pow_pos (by decide)
theorem unit_pos : 0 < unit := Nat.pow_pos (by decide)

theorem up_down (k : Int) (z : Nat) : 10 ^ z * up k * down (k + z) = up (k + z) * down k := by
  unfold up down
  rw [← Nat.pow_add, ← Nat.pow_add, ← Nat.pow_add]
  congr 1
  omega

/-! ### Lemmas: the distance of two doubles -/

theorem gap_below {m e m' e' : Nat} (h : m < 2 ^ 53 ∧ (e = 0 ∨ 2 ^ 52 ≤ m)) (h' : m' < 2 ^ 53 ∧ (e' = 0 ∨ 2 ^ 52 ≤ m'))
    (hlt : m' * 2 ^ e' < m * 2 ^ e) : m * 2 ^ e + 2 ^ 53 * (m' * 2 ^ e') ≤ 2 ^ 53 * (m * 2 ^ e) := by
  by_cases he : e' ≤ e
  · obtain ⟨j, rfl⟩ := Nat.exists_eq_add_of_le he
    have e1 : m * 2 ^ (e' + j) = (m * 2 ^ j) * 2 ^ e' := by rw [Nat.pow_add, Nat.mul_assoc, Nat.mul_comm (2 ^ e')]
    rw [e1] at hlt ⊢
    have hab : m' < m * 2 ^ j := Nat.lt_of_mul_lt_mul_right hlt
    have key : m * 2 ^ j + 2 ^ 53 * m' ≤ 2 ^ 53 * (m * 2 ^ j) := by
      cases j with
      | zero => simp only [Nat.pow_zero, Nat.mul_one] at hab ⊢; omega
      | succ j =>
        have h1 : 2 ^ 52 ≤ m := by rcases h.2 with h | h <;> omega
        have h2 : 2 ^ 52 * 2 ≤ m * 2 ^ (j + 1) := Nat.mul_le_mul h1 (by rw [Nat.pow_succ]; have := Nat.pow_pos (n := j) (show 0 < 2 by decide); omega)
        generalize m * 2 ^ (j + 1) = a at *
        omega
    have := Nat.mul_le_mul_right (2 ^ e') key
    rw [Nat.add_mul, Nat.mul_assoc, Nat.mul_assoc] at this
    rw [Nat.mul_assoc] at this
    simpa [Nat.mul_assoc] using this
  · exfalso
    obtain ⟨j, rfl⟩ := Nat.exists_eq_add_of_lt (Nat.lt_of_not_le he)
    have e1 : m' * 2 ^ (e + j + 1) = (m' * 2 ^ (j + 1)) * 2 ^ e := by
      rw [Nat.add_assoc, Nat.pow_add, Nat.mul_assoc, Nat.mul_comm (2 ^ e)]
    rw [e1] at hlt
    have hab := Nat.lt_of_mul_lt_mul_right hlt
    have h1 : 2 ^ 52 ≤ m' := by rcases h'.2 with h | h <;> omega
    have h2 : 2 ^ 52 * 2 ≤ m' * 2 ^ (j + 1) := Nat.mul_le_mul h1 (by rw [Nat.pow_succ]; have := Nat.pow_pos (n := j) (show 0 < 2 by decide); omega)
    omega

theorem gap_above {m e m' e' : Nat} (h : m < 2 ^ 53 ∧ (e = 0 ∨ 2 ^ 52 ≤ m)) (h' : m' < 2 ^ 53 ∧ (e' = 0 ∨ 2 ^ 52 ≤ m'))
    (hlt : m * 2 ^ e < m' * 2 ^ e') : m * 2 ^ e + 2 ^ 53 * (m * 2 ^ e) ≤ 2 ^ 53 * (m' * 2 ^ e') := by
  by_cases he : e ≤ e'
  · obtain ⟨j, rfl⟩ := Nat.exists_eq_add_of_le he
    have e1 : m' * 2 ^ (e + j) = (m' * 2 ^ j) * 2 ^ e := by rw [Nat.pow_add, Nat.mul_assoc, Nat.mul_comm (2 ^ e)]
    rw [e1] at hlt ⊢
    have hab : m < m' * 2 ^ j := Nat.lt_of_mul_lt_mul_right hlt
    have key : m + 2 ^ 53 * m ≤ 2 ^ 53 * (m' * 2 ^ j) := by
      generalize m' * 2 ^ j = b at *
      omega
    have := Nat.mul_le_mul_right (2 ^ e) key
    rw [Nat.add_mul] at this
    simpa [Nat.mul_assoc] using this
  · exfalso
    obtain ⟨j, rfl⟩ := Nat.exists_eq_add_of_lt (Nat.lt_of_not_le he)
    have e1 : m * 2 ^ (e' + j + 1) = (m * 2 ^ (j + 1)) * 2 ^ e' := by
      rw [Nat.add_assoc, Nat.pow_add, Nat.mul_assoc, Nat.mul_comm (2 ^ e')]
    rw [e1] at hlt
    have hab := Nat.lt_of_mul_lt_mul_right hlt
    have h1 : 2 ^ 52 ≤ m := by rcases h.2 with h | h <;> omega
    have h2 : 2 ^ 52 * 2 ≤ m * 2 ^ (j + 1) := Nat.mul_le_mul h1 (by rw [Nat.pow_succ]; have := Nat.pow_pos (n := j) (show 0 < 2 by decide); omega)
    omega

theorem Dbl.canon {x : Dbl} (h : x.isNan = false) :
    ∃ m e, x.mag = m * 2 ^ e ∧ m < 2 ^ 53 ∧ (e = 0 ∨ 2 ^ 52 ≤ m) ∧
      (x = .inf x.neg ∧ m = 2 ^ 52 ∧ e = 2046 ∨ ∃ h, x = .fin x.neg m e h) := by
  cases x with
  | nan s => exact absurd h (by simp [Dbl.isNan])
  | inf s => exact ⟨2 ^ 52, 2046, rfl, by decide, .inr (Nat.le_refl _), .inl ⟨rfl, rfl, rfl⟩⟩
  | fin s m e g => exact ⟨m, e, rfl, g.1, g.2.2, .inr ⟨g, rfl⟩⟩

/-- Doubles are told apart by their sign and their distance from 0. -/
theorem Dbl.ext_mag {x y : Dbl} (hx : x.isNan = false) (hy : y.isNan = false) (hn : x.neg = y.neg) (h : x.mag = y.mag) :
    x = y := by
  obtain ⟨m, e, h1, h2, h3, h4⟩ := canon hx
  obtain ⟨m', e', h1', h2', h3', h4'⟩ := canon hy
  rw [h1, h1'] at h
  have aux : ∀ {m e m' e' : Nat}, m < 2 ^ 53 → (e' = 0 ∨ 2 ^ 52 ≤ m') → m * 2 ^ e = m' * 2 ^ e' → e' ≤ e := by
    intro m e m' e' k1 k2 k3
    refine Nat.le_of_not_lt fun hlt => ?_
    obtain ⟨j, rfl⟩ := Nat.exists_eq_add_of_lt hlt
    have e1 : m' * 2 ^ (e + j + 1) = (m' * 2 ^ (j + 1)) * 2 ^ e := by
      rw [Nat.add_assoc, Nat.pow_add, Nat.mul_assoc, Nat.mul_comm (2 ^ e)]
    rw [e1] at k3
    have k4 := Nat.eq_of_mul_eq_mul_right (Nat.pow_pos (by decide)) k3
    have h1 : 2 ^ 52 ≤ m' := by rcases k2 with h | h <;> omega
    have h2 : 2 ^ 52 * 2 ≤ m' * 2 ^ (j + 1) := Nat.mul_le_mul h1 (by rw [Nat.pow_succ]; have := Nat.pow_pos (n := j) (show 0 < 2 by decide); omega)
    omega
  have he : e = e' := Nat.le_antisymm (aux h2' h3 h.symm) (aux h2 h3' h)
  subst he
  have hm := Nat.eq_of_mul_eq_mul_right (Nat.pow_pos (by decide)) h
  subst hm
  rcases h4 with ⟨q1, q2, q3⟩ | ⟨g, q1⟩ <;> rcases h4' with ⟨r1, r2, r3⟩ | ⟨g', r1⟩
  · rw [q1, r1, hn]
  · omega
  · omega
  · rw [q1, r1, hn]

/-! ### Lemmas: seventeen digits suffice -/

theorem closest {p q DU U : Nat} (h1 : 2 * ((p : Nat) - (DU : Nat) : Int).natAbs ≤ U) (h2 : 10 ^ 16 * U ≤ DU) (hU : 0 < U)
    (h3 : q < p ∧ p + 2 ^ 53 * q ≤ 2 ^ 53 * p ∨ p < q ∧ p + 2 ^ 53 * p ≤ 2 ^ 53 * q) :
    ((DU : Nat) - (p : Nat) : Int).natAbs < ((DU : Nat) - (q : Nat) : Int).natAbs := by
  omega

theorem ratio_eq {n t a b c d u : Nat} (h : t * a * b = c * d) : n * c * u * d = n * t * a * u * b := by
  have : n * c * u * d = n * u * (c * d) := by ac_rfl
  rw [this, ← h]
  ac_rfl

theorem scale_abs {N M N' M' w : Nat} (h : N * M' = N' * M) :
    ((N : Int) - (w * M : Nat)).natAbs * M' = ((N' : Int) - (w * M' : Nat)).natAbs * M := by
  have e1 : ∀ (a : Int) (b : Nat), a.natAbs * b = (a * b).natAbs := fun a b => by rw [Int.natAbs_mul]; simp
  rw [e1, e1, Int.sub_mul, Int.sub_mul, ← Int.natCast_mul, ← Int.natCast_mul, ← Int.natCast_mul, ← Int.natCast_mul, h,
    Nat.mul_right_comm w]

/-- A number that is the correctly rounded 17 digits of `x` is nearer to `x` than to any other
double. -/
theorem round_trip {x y : Dbl} {ds : Bytes} {X : Int} {s : Bool} {n : Nat} {z : Nat} (hx : x.isNan = false)
    (hd : Digits17 ds) (hr : Rounded x.mag ds X) (hn : n * 10 ^ z = decimalValue ds) (hxs : x.neg = s)
    (hy : Nearest s n (X - 16 + z) y) : y = x := by
  refine Dbl.ext_mag hy.1 hx (hy.2.1.trans hxs.symm) (Decidable.byContradiction fun hne => ?_)
  have h := hy.2.2 x hx
  obtain ⟨m, e, h1, h2, h3, _⟩ := Dbl.canon hx
  obtain ⟨m', e', h1', h2', h3', _⟩ := Dbl.canon hy.1
  have hM := down_pos (X - 16)
  have hU : 0 < up (X - 16) * unit := Nat.mul_pos (up_pos _) unit_pos
  have hg : y.mag * down (X - 16) < x.mag * down (X - 16) ∧
        x.mag * down (X - 16) + 2 ^ 53 * (y.mag * down (X - 16)) ≤ 2 ^ 53 * (x.mag * down (X - 16)) ∨
      x.mag * down (X - 16) < y.mag * down (X - 16) ∧
        x.mag * down (X - 16) + 2 ^ 53 * (x.mag * down (X - 16)) ≤ 2 ^ 53 * (y.mag * down (X - 16)) := by
    rcases Nat.lt_or_gt_of_ne hne with hlt | hlt
    · have g := gap_below ⟨h2, h3⟩ ⟨h2', h3'⟩ (by rw [← h1, ← h1']; exact hlt)
      rw [← h1, ← h1'] at g
      have g2 := Nat.mul_le_mul_right (down (X - 16)) g
      rw [Nat.add_mul, Nat.mul_assoc, Nat.mul_assoc] at g2
      exact .inl ⟨Nat.mul_lt_mul_of_pos_right hlt hM, g2⟩
    · have g := gap_above ⟨h2, h3⟩ ⟨h2', h3'⟩ (by rw [← h1, ← h1']; exact hlt)
      rw [← h1, ← h1'] at g
      have g2 := Nat.mul_le_mul_right (down (X - 16)) g
      rw [Nat.add_mul, Nat.mul_assoc, Nat.mul_assoc] at g2
      exact .inr ⟨Nat.mul_lt_mul_of_pos_right hlt hM, g2⟩
  have hlow : 10 ^ 16 * (up (X - 16) * unit) ≤ decimalValue ds * up (X - 16) * unit := by
    rw [Nat.mul_assoc]; exact Nat.mul_le_mul_right _ hd.lower
  have hc := closest hr hlow hU hg
  -- the same fractions, up to a common factor
  have hq : (n * up (X - 16 + z) * unit) * down (X - 16) = (decimalValue ds * up (X - 16) * unit) * down (X - 16 + z) := by
    rw [← hn]
    exact ratio_eq (up_down _ _)
  have scale : ∀ w : Nat, (((n * up (X - 16 + z) * unit : Nat) : Int) - (w * down (X - 16 + z) : Nat)).natAbs * down (X - 16)
      = (((decimalValue ds * up (X - 16) * unit : Nat) : Int) - (w * down (X - 16) : Nat)).natAbs * down (X - 16 + z) := by
    exact fun w => scale_abs hq
  have h4 := Nat.mul_le_mul_right (down (X - 16)) h
  rw [scale, scale] at h4
  have h5 := Nat.le_of_mul_le_mul_right h4 (down_pos _)
  omega

end ZJ
