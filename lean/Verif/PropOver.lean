import Verif.PropPrefix

/-
C05, exactly: which texts make the parser read past the memory it was given.
-/

set_option linter.unusedSimpArgs false
set_option linter.unusedVariables false

namespace ZJ

/-! ### What is claimed -/

mutual
/-- Beginnings of texts after which the grammar awaits a value (blanks may follow). -/
inductive Awaits : Bytes → Prop where
  /-- At the start, where a value is awaited anyway. -/
  | here {w} : IsWs w → Awaits w
  /-- Inside an array or object. -/
  | inside {o w q} : IsWs w → Within o q → Awaits (w ++ (if o then 0x7B else 0x5B) :: q)
/-- The same, after an opening bracket (`o`: curly) or a comma. -/
inductive Within : Bool → Bytes → Prop where
  | elem {q} : Awaits q → Within false q
  | member {w k w1 q} : IsWs w → IsStrBody k → IsWs w1 → Awaits q →
      Within true (w ++ (0x22 :: (k ++ (0x22 :: (w1 ++ (0x3A :: q))))))
  | elems {w t b w' q} : IsWs w → JValue t b → IsWs w' → Within false q → Within false (w ++ (b ++ (w' ++ 0x2C :: q)))
  | members {w k w1 w2 t b w' q} : IsWs w → IsStrBody k → IsWs w1 → IsWs w2 → JValue t b → IsWs w' → Within true q →
      Within true (w ++ (0x22 :: (k ++ (0x22 :: (w1 ++ (0x3A :: (w2 ++ (b ++ (w' ++ 0x2C :: q)))))))))
end

/-- The four bytes compared with a literal starting with `c` at `j` (zzzjson.h:834-858) do not lie in the first `lim`. -/
def Short (lim : Nat) (c : Byte) (j : Nat) : Prop :=
  ((c = 0x6E ∨ c = 0x74) ∧ lim < j + 4) ∨ (c = 0x66 ∧ lim < j + 5)

/-! ### Such places are over-read -/

theorem Short.head {lim j : Nat} {c : Byte} (h : Short lim c j) : isWs c = false ∧ c ≠ 0x5B ∧ c ≠ 0x7B ∧ c ≠ 0x5D ∧ c ≠ 0x7D ∧ c ≠ 0 := by
  rcases h with ⟨rfl | rfl, _⟩ | ⟨rfl, _⟩ <;> decide

theorem pScalar_short {s : Bytes} {lim j : Nat} {c : Byte} (h : Short lim c j) : pScalar s lim c (j + 1) = .ub .oob := by
  rcases h with ⟨rfl | rfl, h⟩ | ⟨rfl, h⟩
  · have e : load4Eq b!"null" s lim j = .ub .oob := by unfold load4Eq; rw [if_neg (by omega)]
    simp only [pScalar, if_true, consumeNull, Nat.add_sub_cancel, e]
    rfl
  · have e : load4Eq b!"true" s lim j = .ub .oob := by unfold load4Eq; rw [if_neg (by omega)]
    simp only [pScalar, if_true, consumeTrue, Nat.add_sub_cancel, e]
    rfl
  · have e : load4Eq b!"alse" s lim (j + 1) = .ub .oob := by unfold load4Eq; rw [if_neg (by omega)]
    simp only [pScalar, if_true, consumeFalse, Nat.add_sub_cancel, e]
    rfl

mutual
theorem Awaits.head {c : Byte} {r : Bytes} {lim j : Nat} (hc : Short lim c j) : ∀ {q}, Awaits q →
    ∃ w d r', q ++ c :: r = w ++ d :: r' ∧ IsWs w ∧ isWs d = false ∧ d ≠ 0x5D ∧ d ≠ 0x7D
  | _, .here (w := w) hw => ⟨w, c, r, rfl, hw, hc.head.1, hc.head.2.2.2.1, hc.head.2.2.2.2.1⟩
  | _, .inside (o := o) (w := w) (q := q) hw _ => ⟨w, _, q ++ c :: r, by simp; rfl, hw, by cases o <;> decide, by cases o <;> decide,
      by cases o <;> decide⟩
theorem Within.head {c : Byte} {r : Bytes} {lim j : Nat} (hc : Short lim c j) : ∀ {o q}, Within o q →
    ∃ w d r', q ++ c :: r = w ++ d :: r' ∧ IsWs w ∧ isWs d = false ∧ d ≠ closer o
  | _, _, .elem h => by
    obtain ⟨w, d, r', h1, h2, h3, h4, _⟩ := h.head (r := r) hc
    exact ⟨w, d, r', h1, h2, h3, h4⟩
  | _, _, .member hw _ _ _ => ⟨_, 0x22, _, by simp; rfl, hw, by decide, by decide⟩
  | _, _, .elems hw hv _ _ => by
    obtain ⟨d, b', rfl, hd⟩ := hv.head
    exact ⟨_, d, _, by simp; rfl, hw, hd.1, hd.2.2.1⟩
  | _, _, .members hw _ _ _ _ _ _ => ⟨_, 0x22, _, by simp; rfl, hw, by decide, by decide⟩
end

theorem pCon_ub {s w : Bytes} {c : Byte} {r : Bytes} {i lim fuel : Nat} {o : Bool}
    (hw : IsWs w) (hc : isWs c = false) (h : s.drop i = w ++ c :: r) (hne : c ≠ closer o) {u}
    (hit : pItems s lim o fuel i = .ub u) : pCon s lim o (fuel + 1) i = .ub u := by
  have e := peekAndConsume_ws (x := closer o) hw hc h
  simp only [pCon, e, hne, if_false, Res.ok_bind, Bool.false_eq_true, pItems_shift hw hc h, hit]
  rfl

theorem pItems_now {s : Bytes} {i i' lim fuel : Nat} {o : Bool} {k : Bytes} {u}
    (hk : pKeyOpt o s i' = .ok (some (k, i))) (hv : pVal s lim fuel i = .ub u) : pItems s lim o (fuel + 1) i' = .ub u := by
  simp only [pItems, hk, Res.ok_bind, hv]
  rfl

theorem pItems_later {s w' : Bytes} {r : Bytes} {i j lim fuel : Nat} {o : Bool} {k : Bytes}
    {t : Json} {i' u} (hk : pKeyOpt o s i' = .ok (some (k, i)))
    (hv : pVal s lim fuel i = .ok (some (t, j)))
    (hw : IsWs w') (h : s.drop j = w' ++ 0x2C :: r)
    (hr : pItems s lim o fuel (j + w'.length + 1) = .ub u) : pItems s lim o (fuel + 1) i' = .ub u := by
  have e := peekAndConsume_ws (x := 0x2C) hw (by decide) h
  simp only [pItems, hk, hv, e, Res.ok_bind, if_true, hr]
  rfl

mutual
theorem pVal_short {s : Bytes} {lim : Nat} {c : Byte} {r : Bytes} (hl : s.length ≤ lim) : ∀ {q}, Awaits q → ∀ {i fuel : Nat},
    s.drop i = q ++ c :: r → Short lim c (i + q.length) → 3 * q.length + 1 ≤ fuel → pVal s lim fuel i = .ub .oob
  | _, .here (w := w) hw, i, fuel, hd, hs, hf => by
    obtain ⟨fuel, rfl⟩ : ∃ k, fuel = k + 1 := ⟨fuel - 1, by omega⟩
    have hp := peek_ws hw hs.head.1 hd
    simp only [pVal, hp, Res.ok_bind, hs.head.2.1, hs.head.2.2.1, if_false]
    exact pScalar_short hs
  | _, .inside (o := o) (w := w) (q := q) hw hq, i, fuel, hd, hs, hf => by
    simp only [List.length_append, List.length_cons] at hs hf
    obtain ⟨fuel, rfl⟩ : ∃ k, fuel = k + 2 := ⟨fuel - 2, by omega⟩
    have hd' : s.drop i = w ++ (if o then 0x7B else 0x5B) :: (q ++ c :: r) := by simpa using hd
    have hp := peek_ws hw (by cases o <;> decide) hd'
    have hd1 := drop_succ (drop_add hd')
    have hit := pItems_short hl hq (i := i + w.length + 1) (fuel := fuel) hd1
      (by rw [show i + w.length + 1 + q.length = i + (w.length + (q.length + 1)) by omega]; exact hs) (by omega)
    obtain ⟨w0, d, r', h1, h2, h3, h4⟩ := hq.head (r := r) hs
    have hcon := pCon_ub h2 h3 (hd1.trans h1) h4 hit
    cases o with
    | false => simp only [pVal, hp, Res.ok_bind, if_true, Bool.false_eq_true, if_false, hcon]
    | true => simp only [pVal, hp, Res.ok_bind, if_true, show ((0x7B : Byte) = 0x5B) = False by decide, if_false, hcon]
theorem pItems_short {s : Bytes} {lim : Nat} {c : Byte} {r : Bytes} (hl : s.length ≤ lim) : ∀ {o q}, Within o q → ∀ {i fuel : Nat},
    s.drop i = q ++ c :: r → Short lim c (i + q.length) → 3 * q.length + 2 ≤ fuel → pItems s lim o fuel i = .ub .oob
  | _, _, .elem hq, i, fuel, hd, hs, hf => by
    obtain ⟨fuel, rfl⟩ : ∃ k, fuel = k + 1 := ⟨fuel - 1, by omega⟩
    exact pItems_now (k := []) rfl (pVal_short hl hq hd hs (by omega))
  | _, _, .member (w := w) (k := k) (w1 := w1) (q := q) hw hk hw1 hq, i, fuel, hd, hs, hf => by
    simp only [List.length_append, List.length_cons] at hs hf
    obtain ⟨fuel, rfl⟩ : ∃ k, fuel = k + 1 := ⟨fuel - 1, by omega⟩
    have hd' : s.drop i = w ++ (0x22 :: (k ++ (0x22 :: (w1 ++ (0x3A :: (q ++ c :: r)))))) := by simpa using hd
    have hkey := pKey_complete hk hw hw1 hd'
    refine pItems_now (k := k) (o := true) (i := i + w.length + 1 + k.length + 1 + w1.length + 1) (by simpa [pKeyOpt] using hkey) ?_
    refine pVal_short hl hq (drop_succ (drop_add (drop_succ (drop_add (drop_succ (drop_add hd')))))) ?_ (by omega)
    rw [show i + w.length + 1 + k.length + 1 + w1.length + 1 + q.length =
      i + (w.length + (k.length + (w1.length + (q.length + 1) + 1) + 1)) by omega]
    exact hs
  | _, _, .elems (w := w) (t := t) (b := b) (w' := w') (q := q) hw hv hw' hq, i, fuel, hd, hs, hf => by
    simp only [List.length_append, List.length_cons] at hs hf
    obtain ⟨fuel, rfl⟩ : ∃ k, fuel = k + 1 := ⟨fuel - 1, by omega⟩
    have hd' : s.drop i = w ++ (b ++ (w' ++ 0x2C :: (q ++ c :: r))) := by simpa using hd
    obtain ⟨x, r', hx, hx'⟩ := follow (c := 0x2C) (r := q ++ c :: r) hw' (by unfold NumEnd; decide)
    have e := pVal_complete hv (lim := lim) (fuel := fuel) hw (by rw [hd', hx]) hx' hl (by omega)
    have hd1 := drop_add (drop_add hd')
    refine pItems_later (k := []) rfl e hw' hd1 ?_
    refine pItems_short hl hq (drop_succ (drop_add hd1)) ?_ (by omega)
    rw [show i + w.length + b.length + w'.length + 1 + q.length = i + (w.length + (b.length + (w'.length + (q.length + 1)))) by omega]
    exact hs
  | _, _, .members (w := w) (k := k) (w1 := w1) (w2 := w2) (t := t) (b := b) (w' := w') (q := q) hw hk hw1 hw2 hv hw' hq,
      i, fuel, hd, hs, hf => by
    simp only [List.length_append, List.length_cons] at hs hf
    obtain ⟨fuel, rfl⟩ : ∃ k, fuel = k + 1 := ⟨fuel - 1, by omega⟩
    have hd' : s.drop i = w ++ (0x22 :: (k ++ (0x22 :: (w1 ++ (0x3A :: (w2 ++ (b ++ (w' ++ 0x2C :: (q ++ c :: r))))))))) := by
      simpa using hd
    have hkey := pKey_complete hk hw hw1 hd'
    have hd0 := drop_succ (drop_add (drop_succ (drop_add (drop_succ (drop_add hd')))))
    obtain ⟨x, r', hx, hx'⟩ := follow (c := 0x2C) (r := q ++ c :: r) hw' (by unfold NumEnd; decide)
    have e := pVal_complete hv (lim := lim) (fuel := fuel) hw2 (by rw [hd0, hx]) hx' hl (by omega)
    have hd1 := drop_add (drop_add hd0)
    refine pItems_later (k := k) (o := true) (by simpa [pKeyOpt] using hkey) e hw' hd1 ?_
    refine pItems_short hl hq (drop_succ (drop_add hd1)) ?_ (by omega)
    rw [show i + w.length + 1 + k.length + 1 + w1.length + 1 + w2.length + b.length + w'.length + 1 + q.length =
      i + (w.length + (k.length + (w1.length + (w2.length + (b.length + (w'.length + (q.length + 1))) + 1) + 1) + 1)) by omega]
    exact hs
end

/-! ### Nothing else is over-read -/

/-- Where the parser over-reads from `i` on. -/
def OverAt (s : Bytes) (lim i : Nat) (A : Bytes → Prop) : Prop :=
  ∃ q c, A q ∧ s.drop i = q ++ c :: s.drop (i + q.length + 1) ∧ Short lim c (i + q.length)

theorem load4Eq_ub {w s : Bytes} {lim i : Nat} (hw : w.length = 4) (h0 : (0 : Byte) ∉ w) (h : At s i) {u}
    (e : load4Eq w s lim i = .ub u) : lim < i + 4 := by
  unfold load4Eq at e
  split at e
  · rename_i hi
    rcases load4Eq_out (lim := i + 4) hw h0 h with ⟨h1, _⟩ | h1 | ⟨h1, _⟩
    all_goals
      unfold load4Eq at h1
      rw [if_pos (Nat.le_refl _)] at h1
      simp only at h1 e
    · rw [h1] at e; cases e
    · rw [h1] at e; cases e
    · split at h1
      · cases h1
      · split at h1 <;> cases h1
  · omega

theorem pScalar_ub {s : Bytes} {i lim : Nat} {c : Byte} (h : At s i) (hc : rd s i = .ok c) {u}
    (e : pScalar s lim c (i + 1) = .ub u) : Short lim c i := by
  by_cases n1 : c = 0x6E
  · subst n1
    simp only [pScalar, if_true, consumeNull, Nat.add_sub_cancel] at e
    cases hl : load4Eq b!"null" s lim i with
    | ok x => rw [hl] at e; cases x <;> cases e
    | ub u' => exact .inl ⟨.inl rfl, load4Eq_ub rfl (by decide) h hl⟩
    | timeout => rw [hl] at e; cases e
  by_cases n2 : c = 0x66
  · subst n2
    simp only [pScalar, if_true, if_false, consumeFalse, show ((0x66 : Byte) = 0x6E) = False by decide] at e
    cases hl : load4Eq b!"alse" s lim (i + 1) with
    | ok x => rw [hl] at e; cases x <;> cases e
    | ub u' =>
      have := load4Eq_ub rfl (by decide) (h.succ hc (by decide)) hl
      exact .inr ⟨rfl, by omega⟩
    | timeout => rw [hl] at e; cases e
  by_cases n3 : c = 0x74
  · subst n3
    simp only [pScalar, if_true, if_false, consumeTrue, Nat.add_sub_cancel,
      show ((0x74 : Byte) = 0x6E) = False by decide, show ((0x74 : Byte) = 0x66) = False by decide] at e
    cases hl : load4Eq b!"true" s lim i with
    | ok x => rw [hl] at e; cases x <;> cases e
    | ub u' => exact .inl ⟨.inr rfl, load4Eq_ub rfl (by decide) h hl⟩
    | timeout => rw [hl] at e; cases e
  · have e' : pScalar s (s.length + 4) c (i + 1) = .ub u := by
      rw [← e]
      simp only [pScalar, n1, n2, n3, if_false]
    have ho := pScalar_out (lim := s.length + 4) h hc
    rw [e'] at ho
    refine absurd (fun j hj => ?_) ho.2
    have := hj.1.lt; omega

mutual
theorem pVal_over (s : Bytes) (lim : Nat) : ∀ fuel i, At s i → 3 * (s.length - i) + 1 ≤ fuel → ∀ {u},
    pVal s lim fuel i = .ub u → OverAt s lim i Awaits
  | 0, _, _, hf, _, _ => by omega
  | fuel + 1, i, h, hf, u, e => by
    obtain ⟨w, c, hw, hc, hp, hd, ha, hr⟩ := h.peek
    have := ha.1.lt
    simp only [pVal, hp, Res.ok_bind] at e
    have con : ∀ o, c = (if o then 0x7B else 0x5B) → pCon s lim o fuel (i + w.length + 1) = .ub u → OverAt s lim i Awaits := by
      intro o ho e
      have hc0 : c ≠ 0 := by rw [ho]; cases o <;> decide
      obtain ⟨q, d, h1, h2, h3⟩ := pCon_over s lim o fuel (i + w.length + 1) (ha.succ hr hc0) (by omega) e
      refine ⟨_, d, .inside (o := o) hw h1, ?_, ?_⟩
      · rw [hd, h2, ho]; simp only [List.append_assoc, List.cons_append, List.length_append, List.length_cons]
        rw [show i + (w.length + (q.length + 1)) + 1 = i + w.length + 1 + q.length + 1 by omega]
      · simp only [List.length_append, List.length_cons]
        rw [show i + (w.length + (q.length + 1)) = i + w.length + 1 + q.length by omega]
        exact h3
    by_cases h1 : c = 0x5B
    · simp only [h1, if_true] at e; exact con false h1 e
    by_cases h2 : c = 0x7B
    · simp only [h2, if_true, if_false, show ((0x7B : Byte) = 0x5B) = False by decide] at e
      exact con true h2 e
    · simp only [h1, h2, if_false] at e
      exact ⟨w, c, .here hw, hd, pScalar_ub ha hr e⟩
theorem pCon_over (s : Bytes) (lim : Nat) (o : Bool) : ∀ fuel i, At s i → 3 * (s.length - i) + 3 ≤ fuel → ∀ {u},
    pCon s lim o fuel i = .ub u → OverAt s lim i (Within o)
  | 0, _, _, hf, _, _ => by omega
  | fuel + 1, i, h, hf, u, e0 => by
    have := h.1.lt
    have hcl : closer o ≠ 0 := by cases o <;> decide
    rcases h.peekAndConsume (closer o) hcl with ⟨w, hw, e, hd, ha⟩ | ⟨w, c, hw, hc, hne, e, hd, ha, hr⟩
    · simp only [pCon, e, Res.ok_bind, if_true, Res.pure_eq] at e0
      cases e0
    · have hd' : s.drop i = w ++ c :: s.drop (i + w.length + 1) := by rw [hd, rd_ok hr]
      simp only [pCon, e, Res.ok_bind, Bool.false_eq_true, if_false, pItems_shift hw hc hd'] at e0
      cases hx : pItems s lim o fuel i with
      | ok x =>
        rw [hx] at e0
        rcases x with _ | ⟨xs, j⟩ <;> cases e0
      | ub u' => exact pItems_over s lim o fuel i h (by omega) hx
      | timeout => rw [hx] at e0; cases e0
theorem pItems_over (s : Bytes) (lim : Nat) (o : Bool) : ∀ fuel i, At s i → 3 * (s.length - i) + 2 ≤ fuel → ∀ {u},
    pItems s lim o fuel i = .ub u → OverAt s lim i (Within o)
  | 0, _, _, hf, _, _ => by omega
  | fuel + 1, i, h, hf, u, e0 => by
    have := h.1.lt
    simp only [pItems] at e0
    have hk : Out s (s.length + 4) (fun x => (o = false ∧ x = ([], i)) ∨ (o = true ∧
        ∃ w w1, IsWs w ∧ IsStrBody x.1 ∧ IsWs w1 ∧
        s.drop i = w ++ (0x22 :: (x.1 ++ (0x22 :: (w1 ++ (0x3A :: s.drop x.2))))) ∧
        x.2 = i + w.length + 1 + x.1.length + 1 + w1.length + 1 ∧ At s x.2)) (pKeyOpt o s i) := by
      cases o with
      | false => simp [pKeyOpt, Out]
      | true =>
        have := pKey_out (lim := s.length + 4) h
        simp only [pKeyOpt, if_true]
        revert this
        cases pKey s i with
        | ok x => cases x <;> simp [Out]
        | ub u => exact id
        | timeout => exact id
    cases hx : pKeyOpt o s i with
    | ub u' =>
      rw [hx] at hk
      refine absurd (fun j hj => ?_) hk.2
      have := hj.1.lt; omega
    | timeout => rw [hx] at e0; cases e0
    | ok x =>
    rw [hx] at e0 hk
    rcases x with _ | ⟨k, i1⟩
    · cases e0
    simp only [Res.ok_bind] at e0
    have hki := hk
    simp only [Out] at hki
    have hi1 : At s i1 ∧ i ≤ i1 := by
      rcases hki with ⟨_, e⟩ | ⟨_, w, w1, _, _, _, _, e, ha⟩
      · cases e; exact ⟨h, Nat.le_refl _⟩
      · exact ⟨ha, by omega⟩
    have hvo := pVal_out s lim fuel i1 hi1.1 (by omega)
    cases hv : pVal s lim fuel i1 with
    | timeout => rw [hv] at hvo; exact hvo.elim
    | ub u' =>
      obtain ⟨q, c, h1, h2, h3⟩ := pVal_over s lim fuel i1 hi1.1 (by omega) hv
      rcases hki with ⟨rfl, e⟩ | ⟨rfl, w0, w1, hw0, hk, hw1, hdk, e, _⟩
      · cases e
        exact ⟨q, c, .elem h1, h2, h3⟩
      · skip
        refine ⟨_, c, .member hw0 hk hw1 h1, ?_, ?_⟩
        · rw [hdk, h2]
          simp only [List.append_assoc, List.cons_append, List.length_append, List.length_cons]
          rw [show i + (w0.length + (k.length + (w1.length + (q.length + 1) + 1) + 1)) + 1 = i1 + q.length + 1 by omega]
        · simp only [List.length_append, List.length_cons]
          rw [show i + (w0.length + (k.length + (w1.length + (q.length + 1) + 1) + 1)) = i1 + q.length by omega]
          exact h3
    | ok y =>
    rw [hv] at e0 hvo
    rcases y with _ | ⟨t, j⟩
    · cases e0
    simp only [Res.ok_bind] at e0
    obtain ⟨wv, bv, hwv, hjv, hdv, hj, hav⟩ := hvo
    simp only at hdv hj hav hjv e0
    have hbv : 0 < bv.length := by
      obtain ⟨c, q, hb, _⟩ := hjv.head
      rw [hb]; simp
    rcases hav.peekAndConsume 0x2C (by decide) with ⟨w, hw, e, hd, ha⟩ | ⟨w, c, hw, hc, hne, e, hd, ha, hr⟩
    · simp only [e, Res.ok_bind, if_true] at e0
      cases hit : pItems s lim o fuel (j + w.length + 1) with
      | ok z =>
        rw [hit] at e0
        rcases z with _ | ⟨xs, j2⟩ <;> cases e0
      | timeout => rw [hit] at e0; cases e0
      | ub u' =>
        obtain ⟨q, c, h1, h2, h3⟩ := pItems_over s lim o fuel (j + w.length + 1) ha (by omega) hit
        rcases hki with ⟨rfl, e⟩ | ⟨rfl, w0, w1, hw0, hk, hw1, hdk, e, _⟩
        · cases e
          refine ⟨_, c, .elems hwv hjv hw h1, ?_, ?_⟩
          · rw [hdv, hd, h2]
            simp only [List.append_assoc, List.cons_append, List.length_append, List.length_cons]
            rw [show i + (wv.length + (bv.length + (w.length + (q.length + 1)))) + 1 = j + w.length + 1 + q.length + 1 by omega]
          · simp only [List.length_append, List.length_cons]
            rw [show i + (wv.length + (bv.length + (w.length + (q.length + 1)))) = j + w.length + 1 + q.length by omega]
            exact h3
        · skip
          refine ⟨_, c, .members hw0 hk hw1 hwv hjv hw h1, ?_, ?_⟩
          · rw [hdk, hdv, hd, h2]
            simp only [List.append_assoc, List.cons_append, List.length_append, List.length_cons]
            rw [show i + (w0.length + (k.length + (w1.length + (wv.length + (bv.length + (w.length + (q.length + 1))) + 1) + 1) + 1)) + 1 =
              j + w.length + 1 + q.length + 1 by omega]
          · simp only [List.length_append, List.length_cons]
            rw [show i + (w0.length + (k.length + (w1.length + (wv.length + (bv.length + (w.length + (q.length + 1))) + 1) + 1) + 1)) =
              j + w.length + 1 + q.length by omega]
            exact h3
    · have hp2 := peek_ws (w := []) (by simp [IsWs]) hc (rd_ok hr)
      simp only [e, Res.ok_bind, Bool.false_eq_true, if_false, hp2] at e0
      split at e0 <;> cases e0
end

mutual
theorem Awaits.no_nul : ∀ {q}, Awaits q → (0 : Byte) ∉ q
  | _, .here hw => hw.no_nul
  | _, .inside (o := o) hw hq => by
    have := hw.no_nul; have := hq.no_nul
    cases o <;> simp_all
theorem Within.no_nul : ∀ {o q}, Within o q → (0 : Byte) ∉ q
  | _, _, .elem h => h.no_nul
  | _, _, .member hw hk hw1 hq => by simp [hw.no_nul, hk.no_nul, hw1.no_nul, hq.no_nul]
  | _, _, .elems hw hv hw' hq => by simp [hw.no_nul, hv.no_nul, hw'.no_nul, hq.no_nul]
  | _, _, .members hw hk hw1 hw2 hv hw' hq => by
    simp [hw.no_nul, hk.no_nul, hw1.no_nul, hw2.no_nul, hv.no_nul, hw'.no_nul, hq.no_nul]
end

/-- The text contains a place where a value is awaited and a letter that starts a literal stands, closer to the
end of the `lim` readable bytes than the comparison needs. -/
def Overread (b : Bytes) (lim : Nat) : Prop := ∃ q c r, b = q ++ c :: r ∧ Awaits q ∧ Short lim c q.length

theorem pText_ub_iff {b s r : Bytes} {lim : Nat} (h0 : (0 : Byte) ∉ b) (hs : s = b ++ 0 :: r) (hl : s.length ≤ lim) :
    (∃ u, pText s lim (3 * s.length + 1) = .ub u) ↔ Overread b lim := by
  have hat : At s 0 := ⟨by simp [HasNul, hs], by simp⟩
  constructor
  · rintro ⟨u, e⟩
    have hub : ∃ u, pVal s lim (3 * s.length + 1) 0 = .ub u := by
      have ho := pVal_out s lim (3 * s.length + 1) 0 hat (by omega)
      unfold pText at e
      cases hv : pVal s lim (3 * s.length + 1) 0 with
      | ub u => exact ⟨u, rfl⟩
      | timeout => rw [hv] at e; cases e
      | ok x =>
        rw [hv] at e ho
        rcases x with _ | ⟨t, i⟩
        · cases e
        obtain ⟨_, _, _, _, _, _, ha⟩ := ho
        obtain ⟨w, c, hw, hc, _, hd, _⟩ := ha.peek
        have hp := peekAndConsume_ws (x := 0) hw hc hd
        simp only [Res.ok_bind, hp] at e
        split at e <;> simp [pure] at e
    obtain ⟨u, hub⟩ := hub
    obtain ⟨q, c, h1, h2, h3⟩ := pVal_over s lim _ 0 hat (by omega) hub
    simp only [List.drop_zero, Nat.zero_add] at h2 h3
    rw [hs] at h2
    have h2' : b ++ 0 :: r = (q ++ [c]) ++ List.drop (q.length + 1) (b ++ 0 :: r) := by simpa using h2
    have hn : (0 : Byte) ∉ q ++ [c] := by
      intro hm
      rcases List.mem_append.1 hm with hm | hm
      · exact h1.no_nul hm
      · exact h3.head.2.2.2.2.2 (List.mem_singleton.1 hm).symm
    rcases List.append_eq_append_iff.1 h2' with ⟨z, e1, e2⟩ | ⟨z, e1, e2⟩
    · cases z with
      | nil => exact ⟨q, c, [], by simpa using e1.symm, h1, h3⟩
      | cons d z =>
        simp only [List.cons_append, List.cons.injEq] at e2
        exact absurd (by rw [e1, ← e2.1]; simp) hn
    · exact ⟨q, c, z, by simpa using e1, h1, h3⟩
  · rintro ⟨q, c, r', rfl, hq, hc⟩
    have e := pVal_short (s := s) hl hq (i := 0) (fuel := 3 * s.length + 1) (r := r' ++ 0 :: r) (c := c)
      (by simp [hs]) (by simpa using hc) (by rw [hs]; simp; omega)
    refine ⟨.oob, ?_⟩
    unfold pText
    rw [e, Res.ub_bind]

theorem parseFast_over {st : St} {P : Addr → Prop} {G : Graph} {v A : Addr} {x : Option Addr} {p : SPtr} {b : Bytes}
    (hI : Inv st P G) (hv : st.vals v = some ⟨x, A⟩)
    (hx : ∀ a, x = some a → (G a).isSome) (h0 : (0 : Byte) ∉ b) {r lim}
    (hview : view p st = .ok ((b ++ 0 :: r, lim), st))
    (hP : ∀ c off, p = .buf c off → P c) : parseFast v p st = .ub .oob ↔ Overread b lim := by
  have hlen := view_len hI.ok hview
  rw [← pText_ub_iff h0 rfl hlen]
  rcases JText_dec b _ r lim h0 rfl hlen with ⟨t, _, hp⟩ | ⟨_, hp | ⟨hp, _⟩⟩
  · obtain ⟨st', _, _, e, _⟩ := parseFast_ok hI hv hx (text_ofView hview hP) (by simp) hp
    rw [e, hp]
    exact ⟨(fun h => nomatch h), (fun ⟨_, h⟩ => nomatch h)⟩
  · obtain ⟨st', e, _⟩ := parseFast_fail hI hv hx (text_ofView hview hP) (by simp) hp
    rw [e, hp]
    exact ⟨(fun h => nomatch h), (fun ⟨_, h⟩ => nomatch h)⟩
  · have e := parseFast_ub hI hv hx (text_ofView hview hP) (by simp) hp
    exact ⟨fun _ => ⟨_, hp⟩, fun _ => e⟩

section
variable {st st' : St} {P : Addr → Prop} {G : Graph} {v A : Addr} {x : Option Addr} {p : SPtr} {b : Bytes}

/-- C05, exactly: `zj_ParseFast` reads outside the memory it was given on exactly the texts with a letter `n` or `t`
where a value is awaited and fewer than four readable bytes from there on, or an `f` and fewer than five. -/
theorem C05_exact (h : Ready st P G v x A) (h0 : (0 : Byte) ∉ b) {r lim} (hv : view p st = .ok ((b ++ 0 :: r, lim), st))
    (hl : Lent st p) : parseFast v p st = .ub .oob ↔ Overread b lim :=
  have h' := h.lend hl
  parseFast_over h'.inv h'.val h'.node h0 hv inP_pinned

/-- C05, exactly, for `zj_ParseLen`, which parses a copy: the text ends at the first zero byte of the copy, and the
memory behind the copy counts. -/
theorem C05_parseLen_exact (h : Ready st P G v x A) (hs : Reads st p b) {c r : Bytes} (hc : b ++ [0] = c ++ 0 :: r)
    (h0 : (0 : Byte) ∉ c) : parseLen v p b.length st = .ub .oob ↔ Overread c (b.length + 1 + st.slack st.nb) := by
  have ha : st.allocs A = true := h.inv.ok.live v _ h.val
  have hI' := h.inv.addB (A := A) (sz := b.length + 1) (d := b ++ [0]) (by simp)
  rw [parseLen_eq h.val ha hs]
  exact parseFast_over (p := .buf st.nb 0) (v := v) (A := A) (x := x) hI' h.val h.node h0
    (by rw [addB_view, hc]) (by intro c off h; cases h; exact .inr rfl)

/-- C05, exactly, for `zj_Parse`. -/
theorem C05_parse_exact (h : Ready st P G v x A) (hs : CStr st p b) :
    parse v p st = .ub .oob ↔ Overread b (b.length + 1 + st.slack st.nb) := by
  rw [parse_eq hs]
  exact C05_parseLen_exact h (hs.reads h.inv.ok) rfl hs.1

end

/-! ### What the specification says -/

mutual
theorem Awaits.fill {t v} (hv : JValue t v) : ∀ {q}, Awaits q →
    ∃ y t' w' v', q ++ (v ++ y) = w' ++ v' ∧ IsWs w' ∧ JValue t' v'
  | _, .here hw => ⟨[], t, _, v, by simp, hw, hv⟩
  | _, .inside (o := .false) (w := w) (q := q) hw hq => by
    obtain ⟨y, ts, h⟩ := hq.fill hv
    exact ⟨y ++ [0x5D], .arr ts, w, 0x5B :: ((q ++ (v ++ y)) ++ [0x5D]), by simp, hw, .arr h⟩
  | _, .inside (o := .true) (w := w) (q := q) hw hq => by
    obtain ⟨y, ts, h⟩ := hq.fill hv
    exact ⟨y ++ [0x7D], .obj ts, w, 0x7B :: ((q ++ (v ++ y)) ++ [0x7D]), by simp, hw, .obj h⟩
theorem Within.fill {t v} (hv : JValue t v) : ∀ {o q}, Within o q → ∃ y,
    match o with
    | .false => ∃ ts, JElems ts (q ++ (v ++ y))
    | .true => ∃ ms, JMembers ms (q ++ (v ++ y))
  | _, _, .elem h => by
    obtain ⟨y, t', w', v', e, hw, h⟩ := h.fill hv
    refine ⟨y, [t'], ?_⟩
    rw [e]
    simpa using JElems.one hw h (w' := []) (by simp [IsWs])
  | _, _, .member (k := k) hw hk hw1 h => by
    obtain ⟨y, t', w', v', e, hw', h⟩ := h.fill hv
    refine ⟨y, [(k, t')], ?_⟩
    have := JMembers.one hw hk hw1 hw' h (w' := []) (by simp [IsWs])
    simpa [e] using this
  | _, _, .elems hw hb hw' h => by
    obtain ⟨y, ts, h⟩ := h.fill hv
    exact ⟨y, _, by simpa using JElems.cons hw hb hw' h⟩
  | _, _, .members hw hk hw1 hw2 hb hw' h => by
    obtain ⟨y, ts, h⟩ := h.fill hv
    exact ⟨y, _, by simpa using JMembers.cons hw hk hw1 hw2 hb hw' h⟩
end

/-- Where a value is awaited a value may stand: with it the beginning goes on to a JSON text. -/
theorem Awaits.goes_on {q t v} (hq : Awaits q) (hv : JValue t v) : ∃ y t', JText t' (q ++ (v ++ y)) := by
  obtain ⟨y, t', w', v', e, hw, h⟩ := hq.fill hv
  exact ⟨y, t', w', v', [], by simpa using e, hw, h, by simp [IsWs]⟩

/-- Nothing is over-read when four bytes after the end of the text (with its zero byte) may be read. -/
theorem Overread.near {b : Bytes} {lim : Nat} (h : Overread b lim) : lim < b.length + 4 := by
  obtain ⟨q, c, r, rfl, _, h⟩ := h
  rcases h with ⟨_, h⟩ | ⟨_, h⟩ <;> simp <;> omega

example : Overread b!"n" 2 := ⟨[], 0x6E, [], rfl, .here (by simp [IsWs]), .inl ⟨.inl rfl, by decide⟩⟩
example : Overread b!"[n]" 4 := ⟨b!"[", 0x6E, b!"]", rfl, .inside (o := false) (w := []) (q := []) (by simp [IsWs])
  (.elem (.here (by simp [IsWs]))), .inl ⟨.inl rfl, by decide⟩⟩
/-- `[n]xx` is refused without reading outside, although it starts in the same way. -/
example : ¬ Overread b!"[n]xx" 6 := fun h => by
  obtain ⟨u, e⟩ := (pText_ub_iff (r := []) (by decide) rfl (by decide)).2 h
  have : (match pText b!"[n]xx\x00" 6 19 with | .ok x => x.isNone | _ => false) = true := by decide +kernel
  rw [show pText b!"[n]xx\x00" 6 19 = _ from e] at this
  cases this
/-- The `n` here is not where a value is awaited. -/
example : ¬ Overread b!"1n" 3 := fun h => by
  obtain ⟨u, e⟩ := (pText_ub_iff (r := []) (by decide) rfl (by decide)).2 h
  have : (match pText b!"1n\x00" 3 10 with | .ok x => x.isNone | _ => false) = true := by decide +kernel
  rw [show pText b!"1n\x00" 3 10 = _ from e] at this
  cases this

/-- The hypotheses of the exact statement can be met, with an over-read and without one. -/
example : ∃ st P G v x A p r lim, Ready st P G v x A ∧ Lent st p ∧ (0 : Byte) ∉ b!"[n]" ∧
    view p st = .ok ((b!"[n]" ++ 0 :: r, lim), st) ∧ Overread b!"[n]" lim :=
  ⟨_, _, _, 0, _, 0, _, [], 4, (start_ready (fun _ => 0)).addC (d := b!"[n]" ++ [0]), addC_lent (start_ok _), by decide, rfl,
    b!"[", 0x6E, b!"]", rfl, .inside (o := false) (w := []) (q := []) (by simp [IsWs])
      (.elem (.here (by simp [IsWs]))), .inl ⟨.inl rfl, by decide⟩⟩
example : ∃ st P G v x A p r lim, Ready st P G v x A ∧ Lent st p ∧ (0 : Byte) ∉ b!"[n]" ∧
    view p st = .ok ((b!"[n]" ++ 0 :: r, lim), st) ∧ ¬ Overread b!"[n]" lim :=
  ⟨_, _, _, 0, _, 0, _, [], 7, (start_ready (fun _ => 3)).addC (d := b!"[n]" ++ [0]), addC_lent (start_ok _), by decide, rfl,
    fun h => absurd h.near (by decide)⟩

end ZJ
