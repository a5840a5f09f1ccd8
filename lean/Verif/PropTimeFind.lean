import Verif.PropTimeApi
import Verif.PropGet
import Verif.PropEdit
import Verif.PropNum

/-
Property theorems about the number of steps of the calls that depend on the document: C60.
-/

set_option linter.unusedSimpArgs false
set_option linter.unusedVariables false

namespace ZJ

section
variable {α β : Type} {st st' : St} {v w : Addr} {D : Type} {P : Addr → Prop} {G : Graph} {A : Nat} {x : Option Addr}
  {p : SPtr}

theorem Run.one {m : M α} {a : α} {st1 : St} {f : α → TM β} {Q : β → Nat → St → Prop} (h : m st = .ok (a, st1))
    (hf : Run (f a) st1 fun b k s => Q b (1 + k) s) : Run (ZJ.one m >>= f) st Q :=
  Run.bind (R := fun b k s => b = a ∧ k = 1 ∧ s = st1)
    (Run.steps fun b s e => by rw [h] at e; cases e; exact ⟨rfl, rfl, rfl⟩) fun b k s e => by
    obtain ⟨rfl, rfl, rfl⟩ := e; exact hf

theorem Run.zero {m : M α} {a : α} {st1 : St} {f : α → TM β} {Q : β → Nat → St → Prop} {n : Nat} (h : m st = .ok (a, st1))
    (hf : Run (f a) st1 fun b k s => Q b (n + k) s) : Run (ZJ.steps n m >>= f) st Q :=
  Run.bind (R := fun b k s => b = a ∧ k = n ∧ s = st1)
    (Run.steps fun b s e => by rw [h] at e; cases e; exact ⟨rfl, rfl, rfl⟩) fun b k s e => by
    obtain ⟨rfl, rfl, rfl⟩ := e; exact hf

theorem Run.lift {r : TR α} {f : α → TM β} {Q : β → Nat → St → Prop} {R : α → Nat → Prop} (h : r.Le R)
    (hf : ∀ a k, R a k → Run (f a) st fun b n s => Q b (k + n) s) : Run (liftT r >>= f) st Q :=
  Run.bind (R := fun b k s => R b k ∧ s = st) (fun b k s e => by
    obtain ⟨h1, rfl⟩ := TM.liftT_inv e; exact ⟨h _ _ h1, rfl⟩) fun b k s e => by
    obtain ⟨h1, rfl⟩ := e; exact hf _ _ h1

/-! ### Lookups by key -/

theorem strIsEqualT_le {r : Bytes} : ∀ {s kk r' : Bytes}, (0 : Byte) ∉ kk →
    (strIsEqualT (s ++ 0 :: r) (kk ++ r') kk.length).Le fun _ k => k ≤ 2 * s.length + 3
  | [], [], r', _ => TR.Le.steps fun _ _ => by simp only [List.length_nil]; omega
  | c :: s, [], r', _ => TR.Le.steps fun _ _ => by simp only [List.length_cons]; omega
  | [], d :: kk, r', h => by
    simp only [List.nil_append, List.cons_append, List.length_cons]
    unfold strIsEqualT
    refine TR.Le.bind (Q := fun _ k => k = 2) (TR.Le.steps fun _ _ => rfl) fun _ k hk => ?_
    rw [if_pos (fun e => h (List.mem_cons.2 (.inl e)))]
    exact TR.Le.pure (by simp only [List.length_nil]; omega)
  | c :: s, d :: kk, r', h => by
    simp only [List.cons_append, List.length_cons]
    unfold strIsEqualT
    refine TR.Le.bind (Q := fun _ k => k = 2) (TR.Le.steps fun _ _ => rfl) fun _ k hk => ?_
    refine TR.Le.ite (fun _ => TR.Le.pure (by omega)) fun _ => ?_
    exact (strIsEqualT_le (s := s) (kk := kk) (r' := r') (fun m => h (List.mem_cons_of_mem _ m))).mono fun _ k' h' => by omega

theorem bytesEqNT_le : ∀ (a b : Bytes) (n : Nat), (bytesEqNT a b n).Le fun _ k => k ≤ 2 * n + 1
  | [], _, 0 => TR.Le.steps fun _ _ => by omega
  | _ :: _, [], 0 => TR.Le.steps fun _ _ => by omega
  | _ :: _, _ :: _, 0 => TR.Le.steps fun _ _ => by omega
  | c :: r, d :: t, n + 1 => by
    show TR.Le (do
      TR.steps 2 (.ok ())
      if c ≠ d then pure false else bytesEqNT r t n) _
    refine TR.Le.bind (Q := fun _ k => k = 2) (TR.Le.steps fun _ _ => rfl) fun _ k hk => ?_
    refine TR.Le.ite (fun _ => TR.Le.pure (by omega)) fun _ => ?_
    exact (bytesEqNT_le r t n).mono fun _ k' h' => by omega
  | [], _, _ + 1 => TR.Le.ub
  | _ :: _, [], _ + 1 => TR.Le.ub

theorem strIsEqualLenT_le (a b : Bytes) (n m : Nat) : (strIsEqualLenT a n b m).Le fun _ k => k ≤ 2 * n + 1 := by
  unfold strIsEqualLenT
  exact TR.Le.ite (fun _ => TR.Le.pure (by omega)) fun _ => bytesEqNT_le a b n

theorem objGetLoopT_run {s : Bytes} (hI : Inv st P G) (hs : CStr st p s) : ∀ (ks : List Addr) {pv : Option Addr} (fuel : Nat),
    Seg st G pv ks none → (∀ k ∈ ks, ∃ kk, G.keyOf k = some kk ∧ (0 : Byte) ∉ kk) →
    Run (objGetLoopT p fuel (hdOr ks none)) st fun _ k st' => k ≤ ks.length * (2 * s.length + 9) ∧ st' = st
  | _, _, 0, _, _ => fun _ _ _ e => by cases ‹List Addr› <;> cases e
  | [], _, _ + 1, _, _ => Run.pure ⟨by simp, rfl⟩
  | k :: ks, _, fuel + 1, ⟨⟨n, gk, h1, h2, h3, _⟩, hseg⟩, hk => by
    obtain ⟨kk, hkk, h0⟩ := hk k (by simp)
    have hgk : gk.key = some kk := by simpa [Graph.keyOf, h2] using hkk
    obtain ⟨nd, q, m1, m2, m3, m4⟩ := hI.key h2 hgk
    rw [h1] at m1; cases m1
    obtain ⟨r', lim', hv'⟩ := m4.view
    obtain ⟨hs0, r, lim, hv⟩ := id hs
    simp only [hdOr_cons]
    unfold objGetLoopT
    refine Run.one (nKey_run h1 m2) ?_
    refine Run.one (a := q) (st1 := st) rfl ?_
    refine Run.one hv ?_
    refine Run.one hv' ?_
    refine Run.one (nKeyLen_run h1 m3) ?_
    refine Run.lift (strIsEqualT_le h0) fun b m hm => ?_
    have ih := objGetLoopT_run hI hs ks fuel hseg (fun k hk' => hk k (by simp [hk']))
    have e : (k :: ks).length * (2 * s.length + 9) = ks.length * (2 * s.length + 9) + (2 * s.length + 9) := by
      rw [List.length_cons, Nat.succ_mul]
    refine Run.ite (fun _ => Run.pure ⟨by omega, rfl⟩) fun _ => ?_
    refine Run.one (nNext_run h1 h3) ?_
    exact ih.mono fun _ k' s' h => ⟨by omega, h.2⟩

theorem objGetLenLoopT_run {P' : Addr → Prop} {s : Bytes} (hI : Inv st P G) (hs : StrAt st P' p s) :
    ∀ (ks : List Addr) {pv : Option Addr} (fuel : Nat),
    Seg st G pv ks none → (∀ k ∈ ks, (G.keyOf k).isSome) →
    Run (objGetLenLoopT p s.length fuel (hdOr ks none)) st fun _ k st' => k ≤ ks.length * (2 * s.length + 7) ∧ st' = st
  | _, _, 0, _, _ => fun _ _ _ e => by cases ‹List Addr› <;> cases e
  | [], _, _ + 1, _, _ => Run.pure ⟨by simp, rfl⟩
  | k :: ks, _, fuel + 1, ⟨⟨n, gk, h1, h2, h3, _⟩, hseg⟩, hk => by
    obtain ⟨kk, hkk⟩ := Option.isSome_iff_exists.1 (hk k (by simp))
    have hgk : gk.key = some kk := by simpa [Graph.keyOf, h2] using hkk
    obtain ⟨nd, q, m1, m2, m3, m4⟩ := hI.key h2 hgk
    rw [h1] at m1; cases m1
    obtain ⟨r', lim', hv'⟩ := m4.view
    obtain ⟨r, lim, hv⟩ := hs.view
    simp only [hdOr_cons]
    unfold objGetLenLoopT
    refine Run.one (nKey_run h1 m2) ?_
    refine Run.one (a := q) (st1 := st) rfl ?_
    refine Run.one hv ?_
    refine Run.one hv' ?_
    refine Run.one (nKeyLen_run h1 m3) ?_
    refine Run.lift (strIsEqualLenT_le _ _ _ _) fun b m hm => ?_
    have ih := objGetLenLoopT_run hI hs ks fuel hseg (fun k hk' => hk k (by simp [hk']))
    have e : (k :: ks).length * (2 * s.length + 7) = ks.length * (2 * s.length + 7) + (2 * s.length + 7) := by
      rw [List.length_cons, Nat.succ_mul]
    refine Run.ite (fun _ => Run.pure ⟨by omega, rfl⟩) fun _ => ?_
    refine Run.one (nNext_run h1 h3) ?_
    exact ih.mono fun _ k' s' h => ⟨by omega, h.2⟩

theorem keys_nul {ks : List Addr} {ms : List (Bytes × Json)} (hi : UnfI G true ks ms) (hk : ∀ m ∈ ms, (0 : Byte) ∉ m.1) :
    ∀ k ∈ ks, ∃ kk, G.keyOf k = some kk ∧ (0 : Byte) ∉ kk := by
  intro k hkm
  obtain ⟨i, hi'⟩ := List.getElem?_of_mem hkm
  rcases hi.at i with ⟨g1, _⟩ | ⟨k', gk, key', u, g1, g2, g3, g4, _⟩
  · rw [hi'] at g1; cases g1
  · rw [hi'] at g1; cases g1
    refine ⟨key', by unfold Graph.keyOf; rw [g3]; exact g4, ?_⟩
    exact hk _ (List.mem_of_getElem? g2)

theorem objGetT_run (h : Ready st P G v x A) {ms : List (Bytes × Json)} (hs : Shows st v (.obj ms))
    (hk : ∀ m ∈ ms, (0 : Byte) ∉ m.1) {fuel : Nat} {key : Bytes} (hp : CStr st p key) :
    Run (objGetT fuel v p) st fun _ k _ => k ≤ ms.length * (2 * key.length + 9) + 4 := by
  obtain ⟨a, gn, rfl, ha, hu⟩ := h.node_of hs
  obtain ⟨ks, hg, hi⟩ := hu.obj_inv
  obtain ⟨nd, h1, h2, _⟩ := h.inv.con ha hg
  unfold objGetT
  refine Run.one (rdVal_run h.val) ?_
  simp only
  refine Run.one (h.inv.nType ha) ?_
  rw [hg]
  simp only [GVal.type, conType, if_true, ne_eq, not_true, if_false]
  refine Run.one (nNode_run h1 h2.value) ?_
  rw [← hi.length]
  refine Run.bind (objGetLoopT_run h.inv hp ks fuel h2.seg (keys_nul hi hk)) fun r k s hr => ?_
  obtain ⟨hr, rfl⟩ := hr
  cases r
  · exact Run.pure (by omega)
  · exact Run.bind (R := fun _ k _ => k = 1) (Run.steps fun _ _ _ => rfl) fun _ _ _ _ => Run.pure (by omega)

/-- C60. Looking up a key in an object with `n` members takes at most about `n` times the length
of the key: the keys of the members are read no further than the key given. -/
theorem C60_objGet (h : Ready st P G v x A) {ms : List (Bytes × Json)} (hs : Shows st v (.obj ms))
    (hk : ∀ m ∈ ms, (0 : Byte) ∉ m.1) {fuel : Nat} {key : Bytes} (hp : CStr st p key) {r : Option Addr}
    (hr : objGet fuel v p st = .ok (r, st')) :
    ∃ k, objGetT fuel v p st = .ok ((r, k), st') ∧ k ≤ ms.length * (2 * key.length + 9) + 4 := by
  obtain ⟨k, e⟩ := TM.of_val (objGetT_val fuel v p) hr
  exact ⟨k, e, objGetT_run h hs hk hp _ _ _ e⟩

/-- C60 for `zj_ObjGetLen`, for any bytes. -/
theorem C60_objGetLen (h : Ready st P G v x A) {ms : List (Bytes × Json)} (hs : Shows st v (.obj ms))
    {fuel : Nat} {key : Bytes} (hp : Points st p key) {r : Option Addr} (hr : objGetLen fuel v p key.length st = .ok (r, st')) :
    ∃ k, objGetLenT fuel v p key.length st = .ok ((r, k), st') ∧ k ≤ ms.length * (2 * key.length + 7) + 4 := by
  obtain ⟨k, e⟩ := TM.of_val (objGetLenT_val fuel v p key.length) hr
  refine ⟨k, e, ?_⟩
  obtain ⟨a, gn, rfl, ha, hu⟩ := h.node_of hs
  obtain ⟨ks, hg, hi⟩ := hu.obj_inv
  obtain ⟨nd, h1, h2, _⟩ := h.inv.con ha hg
  refine (show Run (objGetLenT fuel v p key.length) st fun _ k _ => k ≤ ms.length * (2 * key.length + 7) + 4 from ?_) _ _ _ e
  unfold objGetLenT
  refine Run.one (rdVal_run h.val) ?_
  simp only
  refine Run.one (h.inv.nType ha) ?_
  rw [hg]
  simp only [GVal.type, conType, if_true, ne_eq, not_true, if_false]
  refine Run.one (nNode_run h1 h2.value) ?_
  rw [← hi.length]
  refine Run.bind (objGetLenLoopT_run h.inv hp ks fuel h2.seg (h.inv.keyOf_kid ha hg)) fun r k s hr => ?_
  obtain ⟨hr, rfl⟩ := hr
  cases r
  · exact Run.pure (by omega)
  · exact Run.bind (R := fun _ k _ => k = 1) (Run.steps fun _ _ _ => rfl) fun _ _ _ _ => Run.pure (by omega)

/-- C60. Deleting by key: looking up and a constant. -/
theorem C60_objDel (h : Ready st P G v x A) {ms : List (Bytes × Json)} (hs : Shows st v (.obj ms))
    (hk : ∀ m ∈ ms, (0 : Byte) ∉ m.1) {fuel : Nat} {key : Bytes} (hp : CStr st p key) {r : Bool}
    (hr : objDel fuel v p st = .ok (r, st')) :
    ∃ k, objDelT fuel v p st = .ok ((r, k), st') ∧ k ≤ ms.length * (2 * key.length + 9) + 19 := by
  obtain ⟨k, e⟩ := TM.of_val (objDelT_val fuel v p) hr
  refine ⟨k, e, ?_⟩
  refine (show Run (objDelT fuel v p) st fun _ k _ => k ≤ ms.length * (2 * key.length + 9) + 19 from ?_) _ _ _ e
  unfold objDelT
  refine Run.bind (objGetT_run h hs hk hp) fun r k s hr => ?_
  cases r
  · exact Run.pure (by omega)
  · exact fee_move.run.mono fun _ _ _ h => by omega

/-- C60. Looking up a key in a value that is not an object takes two steps, from any state. -/
theorem C60_lookup_other {fuel len : Nat} {ty : Option JType} (ht : getType v st = .ok (ty, st)) (hn : ty ≠ some .object) :
    (Run (objGetT fuel v p) st fun r k s => r = none ∧ k ≤ 2 ∧ s = st) ∧
    (Run (objGetLenT fuel v p len) st fun r k s => r = none ∧ k ≤ 2 ∧ s = st) ∧
    (Run (objDelT fuel v p) st fun r k s => r = false ∧ k ≤ 2 ∧ s = st) := by
  unfold getType at ht
  obtain ⟨y, st1, h1, h2⟩ := M.bind_inv ht
  have hs : st1 = st := by
    unfold rdVal at h1
    split at h1 <;> first | cases h1 | skip
    rfl
  subst hs
  have key : Run (objGetT fuel v p) st1 fun r k s => r = none ∧ k ≤ 2 ∧ s = st1 := by
    unfold objGetT
    refine Run.one h1 ?_
    cases e : y.n with
    | none => exact Run.pure ⟨rfl, by omega, rfl⟩
    | some a =>
      rw [e] at h2
      obtain ⟨ty', st2, h3, h4⟩ := M.bind_inv h2
      cases h4
      refine Run.one h3 ?_
      rw [if_pos (fun h => hn (by rw [h]))]
      exact Run.pure ⟨rfl, by omega, rfl⟩
  refine ⟨key, ?_, ?_⟩
  · unfold objGetLenT
    refine Run.one h1 ?_
    cases e : y.n with
    | none => exact Run.pure ⟨rfl, by omega, rfl⟩
    | some a =>
      rw [e] at h2
      obtain ⟨ty', st2, h3, h4⟩ := M.bind_inv h2
      cases h4
      refine Run.one h3 ?_
      rw [if_pos (fun h => hn (by rw [h]))]
      exact Run.pure ⟨rfl, by omega, rfl⟩
  · unfold objDelT
    refine Run.bind key fun r k s h => ?_
    obtain ⟨rfl, hk, rfl⟩ := h
    exact Run.pure ⟨rfl, by omega, rfl⟩

/-! ### Setting a value to another -/

/-- Following `Next` from the node `o`, the list ends after at most so many nodes. -/
def Line (st : St) : Option Addr → Nat → Prop
  | none, _ => True
  | some _, 0 => False
  | some a, n + 1 => ∃ nd y, st.nodes a = some nd ∧ nd.next = some y ∧ Line st y n

theorem Seg.line : ∀ {ks : List Addr} {pv : Option Addr}, Seg st G pv ks none → Line st (hdOr ks none) ks.length
  | [], _, _ => by simp [Line]
  | k :: ks, _, ⟨⟨n, gk, h1, h2, h3, _⟩, hs⟩ => ⟨n, _, h1, h3, hs.line⟩

/-- The fields `π` of all nodes are as before. -/
def Holds {γ : Type} (π : Node → γ) (st st' : St) : Prop := ∀ b nd, st.nodes b = some nd → ∃ nd', st'.nodes b = some nd' ∧ π nd' = π nd

theorem Holds.trans {γ : Type} {π : Node → γ} {st1 : St} (h : Holds π st st1) (h' : Holds π st1 st') : Holds π st st' := fun b nd e => by
  obtain ⟨n1, e1, h1⟩ := h b nd e
  obtain ⟨n2, e2, h2⟩ := h' b n1 e1
  exact ⟨n2, e2, h2.trans h1⟩

theorem Line.ahead (h : Holds Node.next st st') : ∀ {o : Option Addr} {n : Nat}, Line st o n → Line st' o n
  | none, n, _ => by cases n <;> trivial
  | some _, 0, hl => hl
  | some a, n + 1, ⟨nd, y, h1, h2, h3⟩ => by
    obtain ⟨nd', e1, e2⟩ := h a nd h1
    exact ⟨nd', y, e1, e2.trans h2, h3.ahead h⟩

theorem modNode_holds {γ : Type} {π : Node → γ} {a : Addr} {f : Node → Node} {u : Unit}
    (h : modNode a f st = .ok (u, st')) (hf : ∀ n, π (f n) = π n) : Holds π st st' := by
  unfold modNode at h
  split at h
  · rename_i n hn
    cases h
    intro b nd hb
    by_cases hab : b = a
    · subst hab
      rw [hn] at hb; cases hb
      exact ⟨f n, by simp [upd], hf n⟩
    · exact ⟨nd, by simp [upd, hab, hb], rfl⟩
  · cases h

theorem modNode_at {a : Addr} {f : Node → Node} {u : Unit} (h : modNode a f st = .ok (u, st')) :
    ∃ n, st.nodes a = some n ∧ st'.nodes a = some (f n) := by
  unfold modNode at h
  split at h
  · rename_i n hn
    cases h
    exact ⟨n, hn, by simp [upd]⟩
  · cases h

theorem rdNode_inv' {a : Addr} {n : Node} (h : rdNode a st = .ok (n, st')) : st.nodes a = some n ∧ st' = st := by
  unfold rdNode at h
  split at h <;> cases h
  exact ⟨by assumption, rfl⟩

theorem nLen_same {a : Addr} {r : Nat} (h : nLen a st = .ok (r, st')) : st' = st := by
  unfold nLen at h
  obtain ⟨n, st1, h1, h2⟩ := M.bind_inv h
  obtain ⟨_, rfl⟩ := rdNode_inv' h1
  cases hl : n.len with
  | none => rw [hl] at h2; cases h2
  | some x => rw [hl] at h2; cases h2; rfl

theorem adoptT_run {f : Addr} : ∀ {fuel n : Nat} {o : Option Addr} {st : St}, Line st o n →
    Run (adoptT f fuel o) st fun _ k _ => k ≤ 2 * n
  | 0, _, none, _, _ => fun _ _ _ e => nomatch e
  | 0, _, some _, _, _ => fun _ _ _ e => nomatch e
  | _ + 1, _, none, _, _ => Run.pure (by omega)
  | fuel + 1, 0, some a, _, h => h.elim
  | fuel + 1, n + 1, some a, st, ⟨nd, y, h1, h2, h3⟩ => by
    unfold adoptT
    refine Run.bind (R := fun _ k s => k = 1 ∧ Holds Node.next st s)
      (Run.steps fun _ s e => ⟨rfl, by unfold setFather at e; exact modNode_holds e fun _ => rfl⟩)
      fun _ k s hk => ?_
    obtain ⟨rfl, ha⟩ := hk
    obtain ⟨nd', e1, e2⟩ := ha a nd h1
    refine Run.one (nNext_run e1 (e2.trans h2)) ?_
    exact (adoptT_run (h3.ahead ha)).mono fun _ k _ h => by omega

/-- What `graft` needs to know of the value it takes over: its list of children ends after at
most `n` nodes. -/
def Bears (st : St) (x : Addr) (n : Nat) : Prop :=
  ∃ nd ty, st.nodes x = some nd ∧ nd.type = some ty ∧ (ty = .array ∨ ty = .object → ∃ o, nd.value = some (.node o) ∧ Line st o n)

theorem graftT_run {fuel a z e n : Nat} (h : Bears st z n) : Run (graftT fuel a z e) st fun _ k _ => k ≤ 2 * n + 12 := by
  obtain ⟨nd, ty, h1, h2, h3⟩ := h
  unfold graftT
  refine Run.one (nType_run h1 h2) ?_
  refine Run.bind (R := fun _ k s => k = 1 ∧ Holds (fun n => (n.next, n.value)) st s ∧ ∃ na, s.nodes a = some na ∧ na.type = some ty)
    (Run.steps fun _ s e => ?_) fun _ k s1 hk => ?_
  · unfold setType at e
    obtain ⟨m, m1, m2⟩ := modNode_at e
    exact ⟨rfl, modNode_holds e fun _ => rfl, _, m2, rfl⟩
  obtain ⟨rfl, g1, na, g2, g3⟩ := hk
  obtain ⟨nd1, g4, g5⟩ := g1 _ _ h1
  have g6 : nd1.value = nd.value := congrArg Prod.snd g5
  refine Run.one (rdNode_run g4) ?_
  simp only
  refine Run.bind (R := fun _ k s => k = 1 ∧ Holds Node.next st s ∧ ∃ na, s.nodes a = some na ∧ na.type = some ty ∧ na.value = nd.value)
    (Run.steps fun _ s e => ?_) fun _ k s2 hk => ?_
  · obtain ⟨m, m1, m2⟩ := modNode_at e
    rw [g2] at m1; cases m1
    refine ⟨rfl, ?_, _, m2, g3, g6⟩
    have : Holds Node.next s1 s := modNode_holds e fun _ => rfl
    refine Holds.trans (fun b nd hb => ?_) this
    obtain ⟨nd', q1, q2⟩ := g1 b nd hb
    exact ⟨nd', q1, congrArg Prod.fst q2⟩
  obtain ⟨rfl, g7, na2, g8, g9, g10⟩ := hk
  refine Run.bind (R := fun _ k s => k = 1 ∧ s = s2) (Run.steps fun _ s e => ⟨rfl, nLen_same e⟩) fun len k s hk => ?_
  obtain ⟨rfl, rfl⟩ := hk
  refine Run.bind (R := fun _ k s' => k = 1 ∧ Holds Node.next s s' ∧ ∃ na, s'.nodes a = some na ∧ na.type = some ty ∧ na.value = nd.value)
    (Run.steps fun _ s' e => ?_) fun _ k s3 hk => ?_
  · unfold setLen at e
    obtain ⟨m, m1, m2⟩ := modNode_at e
    rw [g8] at m1; cases m1
    exact ⟨rfl, modNode_holds e fun _ => rfl, _, m2, g9, g10⟩
  obtain ⟨rfl, g11, na3, g12, g13, g14⟩ := hk
  refine Run.one (nType_run g12 g13) ?_
  refine Run.one (nType_run g12 g13) ?_
  refine Run.ite (fun hc => ?_) fun _ => Run.pure (by omega)
  obtain ⟨o, h4, h5⟩ := h3 hc
  refine Run.bind (R := fun _ k s => k = 1 ∧ s = s3) (Run.steps fun _ s e => ⟨rfl, (rdNode_inv' e).2⟩) fun ne k s' hk => ?_
  obtain ⟨rfl, rfl⟩ := hk
  refine Run.bind (R := fun _ k s => k = 1 ∧ Holds Node.next s' s ∧ ∃ na, s.nodes a = some na ∧ na.value = nd.value)
    (Run.steps fun _ s e => ?_) fun _ k s4 hk => ?_
  · obtain ⟨m, m1, m2⟩ := modNode_at e
    rw [g12] at m1; cases m1
    exact ⟨rfl, modNode_holds e fun _ => rfl, _, m2, g14⟩
  obtain ⟨rfl, g15, na4, g16, g17⟩ := hk
  refine Run.one (nNode_run g16 (g17.trans h4)) ?_
  exact (adoptT_run (h5.ahead ((g7.trans g11).trans g15))).mono fun _ _ _ h => by omega

/-- The number of children of a document. -/
def Json.width : Json → Nat
  | .arr ts => ts.length
  | .obj ms => ms.length
  | _ => 0

theorem Inv.bears {a : Addr} {gn : GNode} {t : Json} (hI : Inv st P G) (ha : G a = some gn) (hu : UnfV G gn.val t) : Bears st a t.width := by
  obtain ⟨nd, h1, h2⟩ := hI.type ha
  refine ⟨nd, _, h1, h2, fun hc => ?_⟩
  generalize hg : gn.val = gv at hu hc
  cases hu with
  | scalar hs => rw [Or.comm, GVal.type_con, hs] at hc; cases hc
  | @con o kids xs hi =>
    obtain ⟨nd', e1, e2, _⟩ := hI.con ha hg
    rw [h1] at e1; cases e1
    refine ⟨_, e2.value, ?_⟩
    have hw : (mkCon o xs).width = kids.length := by
      rw [hi.length]; cases o <;> simp [mkCon, Json.width]
    rw [hw]
    exact e2.seg.line

theorem Unf.split {a : Addr} {t : Json} (h : Unf G a t) : ∃ gn, G a = some gn ∧ UnfV G gn.val t :=
  match h with
  | .mk h1 h2 => ⟨_, h1, h2⟩

section
variable {t : Json} {z B : Nat}

/-- C60. `zj_SetFast` takes a constant number of steps and two for each child of the value that is
moved (not for deeper descendants). -/
theorem C60_setFast (hv : Ready st P G v x A) (hz : Ready st P G w (some z) B) (ht : Shows st w t) (hm : Movable G z)
    {F : Nat} {r : Bool} (h : setFast F v w st = .ok (r, st')) :
    ∃ k, setFastT F v w st = .ok ((r, k), st') ∧ k ≤ 2 * t.width + 31 := by
  obtain ⟨k, e⟩ := TM.of_val (setFastT_val F v w) h
  refine ⟨k, e, ?_⟩
  obtain ⟨G1, hM, hC⟩ := hm.moved hv.inv
  obtain ⟨st1, e1, hD1, hv1, _⟩ := move_run hv.inv hz.val hM
  obtain ⟨k1, e2⟩ := TM.of_val (moveT_val w) e1
  obtain ⟨gx, hgx, hu⟩ := (hC.doc (hz.unf ht)).split
  refine (show Run (setFastT F v w) st fun _ k _ => k ≤ 2 * t.width + 31 from ?_) _ _ _ e
  unfold setFastT
  refine Run.bind (R := fun b k s => b = true ∧ k ≤ 15 ∧ s = st1) (fun b k s e => ?_) fun b k s hk => ?_
  · have := fee_move.run _ _ _ e
    rw [e2] at e; cases e
    exact ⟨rfl, this, rfl⟩
  obtain ⟨rfl, hk, rfl⟩ := hk
  simp only [Bool.not_true, Bool.false_eq_true, if_false]
  refine Run.one (rdVal_run (by rw [hv1]; exact hz.val)) ?_
  refine Run.one (rdVal_run (by rw [hv1]; exact hv.val)) ?_
  cases x with
  | none =>
    refine Fee.run (c := 2) (Fee.one_bind0 fun _ => Fee.one_bind0 fun _ => Fee.pure) |>.mono fun _ _ _ h => by omega
  | some a =>
    simp only
    refine Run.one (a := z) (st1 := s) rfl ?_
    refine Run.bind (graftT_run (hD1.inv.bears hgx hu)) fun _ k2 s2 hk2 => ?_
    refine Fee.run (c := 1) (Fee.one_bind0 fun _ => Fee.pure) |>.mono fun _ _ _ h => by omega

/-- C60. `zj_Set`: the steps of copying and two for each child. -/
theorem C60_set (hv : Ready st P G v x A) (hz : Ready st P G w (some z) B) (ht : Shows st w t)
    {F : Nat} {r : Bool} (h : set F v w st = .ok (r, st')) :
    ∃ k, setT F v w st = .ok ((r, k), st') ∧ k ≤ t.held + ((G.keyOf z).elim 0 List.length) + 2 * t.width + 121 := by
  obtain ⟨k, e⟩ := TM.of_val (setT_val F v w) h
  refine ⟨k, e, ?_⟩
  obtain ⟨gx, hgx⟩ := Option.isSome_iff_exists.1 (hz.node z rfl)
  obtain ⟨c, st1, n, g, P', hrun, hC⟩ := copy_run hv.inv hz.val hgx (hz.unf ht)
  obtain ⟨gn, hn, hp, hkey, _⟩ := hC.root
  have hn1 := hC.grow hv.inv hn
  refine (show Run (setT F v w) st fun _ k _ => k ≤ t.held + ((G.keyOf z).elim 0 List.length) + 2 * t.width + 121 from ?_) _ _ _ e
  unfold setT
  refine Run.bind (R := fun b k s => b = some st.nv ∧ k ≤ t.held + ((G.keyOf z).elim 0 List.length) + 104 ∧ s = st1) (fun b k s e => ?_) fun b k s hk => ?_
  · have e1 : copy F w st = .ok (b, s) := by rw [← copyT_val]; exact TM.val_ok e
    obtain ⟨k', e2, hk⟩ := C60_copy hz ht e1
    rw [e] at e2; cases e2
    have e3 := (copy_mono (v := w) (Nat.le_add_right F c)).ok e1
    rw [hrun F] at e3; cases e3
    exact ⟨rfl, hk, rfl⟩
  obtain ⟨rfl, hk, rfl⟩ := hk
  have hv1 : s.vals v = some ⟨x, A⟩ := by rw [hC.unch.1.vals v (hv.inv.ok.val_lt hv.val) id, hv.val]
  simp only
  refine Run.one (rdVal_run hC.handle) ?_
  refine Run.one (rdVal_run hv1) ?_
  cases x with
  | none =>
    refine Fee.run (c := 1) (Fee.one_bind0 fun _ => Fee.pure) |>.mono fun _ _ _ h => by omega
  | some a =>
    simp only
    refine Run.one (a := n) (st1 := s) rfl ?_
    have hu : UnfV (G.or g) gn.val t := by
      obtain ⟨gm, h1, h2⟩ := hC.unf.split
      rw [hn] at h1; cases h1
      exact UnfV.mono (fun a y h => hC.grow hv.inv h) h2
    refine Run.bind (R := fun _ k s1 => k ≤ 2 ∧ s1 = s) ?_ fun y k s1 hk1 => ?_
    · unfold valNT
      refine Run.one (rdVal_run (by rw [hC.unch.1.vals w (hz.inv.ok.val_lt hz.val) id]; exact hz.val)) ?_
      exact Run.steps fun _ _ e => by cases e; exact ⟨by omega, rfl⟩
    obtain ⟨hk1, rfl⟩ := hk1
    refine Run.bind (graftT_run (hC.did.inv.bears hn1 hu)) fun _ k2 s2 hk2 => ?_
    exact Run.pure (by omega)

/-! ### Numbers -/

theorem numeral_not_space {c : Byte} (h : isNumeralChar c = true) : isSpaceC c = false := by
  have : ∀ c : Byte, isNumeralChar c = true → isSpaceC c = false := by apply allBytes; decide +kernel
  exact this c h

theorem takeWhile_numeral {raw r : Bytes} {c : Byte} (h : ∀ y ∈ raw, isNumeralChar y = true) (hc : isNumeralChar c = false) :
    (raw ++ c :: r).takeWhile isNumeralChar = raw := by
  rw [List.takeWhile_append_of_pos h, List.takeWhile_cons_of_neg (by simp [hc]), List.append_nil]

theorem atoiBitsT_num {bits : Nat} {raw r : Bytes} {c : Byte} (h : ∀ y ∈ raw, isNumeralChar y = true) (hr : raw ≠ [])
    (hc : isNumeralChar c = false) : (atoiBitsT bits (raw ++ c :: r)).Le fun _ k => k ≤ raw.length + 2 := by
  refine (atoiBitsT_reads bits _).mono fun _ k hk => ?_
  match raw, hr with
  | d :: raw, _ =>
    have hd := numeral_not_space (h d (by simp))
    have e1 : ((d :: raw) ++ c :: r).takeWhile isSpaceC = [] := by
      rw [List.cons_append, List.takeWhile_cons_of_neg (by simp [hd])]
    have e2 : ((d :: raw) ++ c :: r).dropWhile isSpaceC = (d :: raw) ++ c :: r := by
      rw [List.cons_append, List.dropWhile_cons_of_neg (by simp [hd])]
    rw [e1, e2, takeWhile_numeral h hc] at hk
    simpa using hk

/-- C60. The conversions of a number read it twice: the copy on the stack, and the number itself
(for `zj_GetInt` the copy again: C60_calls). -/
theorem C60_getLong {raw : Bytes} {a : Addr} (h : Ready st P G v (some a) A) (hs : Shows st v (.num raw)) (hi : IsNum raw)
    (ht : Tail st a raw) {r : Option Int} (hr : getLong v st = .ok (r, st')) :
    ∃ k, getLongT v st = .ok ((r, k), st') ∧ getLongLongT v st = .ok ((r, k), st') ∧ k ≤ 2 * raw.length + 135 := by
  obtain ⟨k, e⟩ := TM.of_val (getLongT_val v) hr
  refine ⟨k, e, e, ?_⟩
  obtain ⟨a', gn, ea, hg, hu⟩ := h.node_of hs
  cases ea
  obtain ⟨nd, p, h1, h2, h3, h4, h5⟩ := h.inv.num hg hu.num
  obtain ⟨c, r', lim, hw, hc⟩ := ht.view h1 h3
  have hw' := view_req (A := A) (k := 8) hw
  refine (show Run (getLongT v) st fun _ k _ => k ≤ 2 * raw.length + 135 from ?_) _ _ _ e
  unfold getLongT
  refine Run.one (rdVal_run h.val) ?_
  simp only
  refine Run.one (nType_run h1 h2) ?_
  simp only [ne_eq, not_true, if_false]
  refine Run.one (request_run (h.inv.ok.live v _ h.val)) ?_
  refine Run.one (nStr_run (st := st.req A 8) h1 h3) ?_
  refine Run.one (nLen_run (st := st.req A 8) h1 h4) ?_
  refine Run.bind (R := fun _ k _ => k ≤ 2 * raw.length + 130) ?_ fun _ _ _ _ => Run.pure (by omega)
  unfold strToLongT
  refine Run.zero ((h5.req (A := A) (k := 8)).readN h.inv.ok.size) ?_
  refine Run.bind (R := fun _ k s => k = 0 ∧ s = st.req A 8) (Run.steps fun _ s e => ⟨rfl, ?_⟩) fun _ k s hk => ?_
  · unfold lift at e
    split at e <;> cases e
    rfl
  obtain ⟨rfl, rfl⟩ := hk
  refine Run.zero hw' ?_
  exact fun b k s e => by
    obtain ⟨e1, rfl⟩ := TM.liftT_inv e
    have := atoiBitsT_num hi.numeral (by obtain ⟨c, r, rfl, _⟩ := hi.ne_nil; simp) hc _ _ e1
    omega

theorem C60_getDouble {fp : FP D} {raw : Bytes} {a : Addr} (h : Ready st P G v (some a) A) (hs : Shows st v (.num raw)) (hi : IsNum raw)
    (ht : Tail st a raw) {r : Option D} (hr : getDouble fp v st = .ok (r, st')) :
    ∃ k, getDoubleT fp v st = .ok ((r, k), st') ∧ k ≤ 2 * raw.length + 135 := by
  obtain ⟨k, e⟩ := TM.of_val (getDoubleT_val fp v) hr
  refine ⟨k, e, ?_⟩
  obtain ⟨a', gn, ea, hg, hu⟩ := h.node_of hs
  cases ea
  obtain ⟨nd, p, h1, h2, h3, h4, h5⟩ := h.inv.num hg hu.num
  obtain ⟨c, r', lim, hw, hc⟩ := ht.view h1 h3
  have hw' := view_req (A := A) (k := 8) hw
  refine (show Run (getDoubleT fp v) st fun _ k _ => k ≤ 2 * raw.length + 135 from ?_) _ _ _ e
  unfold getDoubleT
  refine Run.one (rdVal_run h.val) ?_
  simp only
  refine Run.one (nType_run h1 h2) ?_
  simp only [ne_eq, not_true, if_false]
  refine Run.one (request_run (h.inv.ok.live v _ h.val)) ?_
  refine Run.one (nStr_run (st := st.req A 8) h1 h3) ?_
  refine Run.one (nLen_run (st := st.req A 8) h1 h4) ?_
  refine Run.bind (R := fun _ k _ => k ≤ 2 * raw.length + 130) ?_ fun _ _ _ _ => Run.pure (by omega)
  unfold strToDoubleT
  refine Run.zero ((h5.req (A := A) (k := 8)).readN h.inv.ok.size) ?_
  refine Run.bind (R := fun _ k s => k = 0 ∧ s = st.req A 8) (Run.steps fun _ s e => ⟨rfl, ?_⟩) fun _ k s hk => ?_
  · unfold lift at e
    split at e <;> cases e
    rfl
  obtain ⟨rfl, rfl⟩ := hk
  refine Run.zero hw' ?_
  refine Run.lift (atofTextT_le _) fun n k hk => Run.pure ?_
  rw [takeWhile_numeral hi.numeral hc] at hk
  omega

/-- The worst case: all members but the last have a key that agrees up to its end. -/
example : callStepsOf (.nav (.obj b!"aab")) b!"{\"aac\":1,\"aac\":2,\"aab\":3}" = some 40 := by decide +kernel
example : callStepsOf (.nav (.objLen b!"aab")) b!"{\"aac\":1,\"aac\":2,\"aab\":3}" = some 40 := by decide +kernel
example : callStepsOf (.delKey · b!"aab") b!"{\"aac\":1,\"aac\":2,\"aab\":3}" = some 54 := by decide +kernel
example : callStepsOf (.get .long) b!" 12345" = some 145 := by decide +kernel
example : callStepsOf (.get .double) b!" 12345" = some 144 := by decide +kernel

/-- The steps of setting a new value of an object member to what `b` parses to. -/
def setStepsOf (fast : Bool) (b : Bytes) : Option Nat :=
  match (do
    let A ← newAllocator
    let v ← newValue A
    let w ← newValue A
    let p ← callerText (b ++ [0])
    let _ ← parseFast w p
    setArray v
    execT (⟨fun _ => [], fun _ => ()⟩ : FP Unit) 99 (.set fast v w) : M (Ans Unit × Nat)) (St.init fun _ => 3) with
  | .ok ((_, k), _) => some k
  | _ => none

example : setStepsOf true b!"[1,[2,3,4],5]" = some 23 := by decide +kernel
example : setStepsOf false b!"[1,[2,3,4],5]" = some 163 := by decide +kernel
end
end

end ZJ
