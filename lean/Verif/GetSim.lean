import Verif.NumSim

/-
The getters (zzzjson.h:1822-2084) on the abstract store.
-/

set_option linter.unusedSimpArgs false

namespace ZJ

section
variable {st st' : St} {P P' : Addr → Prop} {G : Graph} {v A a : Addr} {x : Option Addr} {gn : GNode}
  {raw s : Bytes} {p : SPtr}

/-! ### Reading a node -/

theorem Inv.scalar (hI : Inv st P G) (ha : G a = some gn) (hs : gn.val.isCon = false) :
    ∃ nd p, st.nodes a = some nd ∧ nd.type = some gn.val.type ∧ nd.value = some (.str p) ∧
      nd.len = some gn.val.text.length ∧ TextAt st P p gn.val := by
  obtain ⟨nd, h1, h2⟩ := hI.rep a gn ha
  obtain ⟨h3, p, h4, h5, h6⟩ := (ValOK.scalar hs).1 h2.val
  exact ⟨nd, p, h1, h3, h4, h5, h6⟩

theorem Inv.type (hI : Inv st P G) (ha : G a = some gn) :
    ∃ nd, st.nodes a = some nd ∧ nd.type = some gn.val.type := by
  obtain ⟨nd, h1, h2⟩ := hI.rep a gn ha
  refine ⟨nd, h1, ?_⟩
  have := h2.val
  generalize gn.val = gv at this
  cases gv with
  | con o ks => exact ConOK.type this
  | _ => exact this.1

theorem Inv.nType (hI : Inv st P G) (ha : G a = some gn) : nType a st = .ok (gn.val.type, st) := by
  obtain ⟨nd, h1, h2⟩ := hI.type ha
  exact nType_run h1 h2

theorem conType_ne {o : Bool} : conType o = if o then .object else .array := rfl

theorem GVal.type_con {gv : GVal} : (gv.type = .object ∨ gv.type = .array) ↔ gv.isCon = true := by
  cases gv <;> simp [GVal.type, GVal.isCon, conType]

/-! ### Copies handed out -/

/-- `copyOut`: a fresh NUL-terminated block with the text. -/
theorem copyOut_run (ho : StOK st) (ha : st.allocs A = true) (hp : StrAt st P p s) :
    copyOut A p s.length st = .ok (.buf st.nb 0, st.addB A (s.length + 1) (s ++ [0])) := by
  unfold copyOut
  mstep hp.readN ho.size
  mstep newBuf_run ha (by simp)
  rfl

/-! ### Type and size -/

theorem getType_run (hI : Inv st P G) (hv : st.vals v = some ⟨some a, A⟩) (ha : G a = some gn) :
    getType v st = .ok (some gn.val.type, st) := by
  unfold getType
  mstep rdVal_run hv
  mstep hI.nType ha
  rfl

theorem getType_empty (hv : st.vals v = some ⟨none, A⟩) : getType v st = .ok (none, st) := by
  unfold getType; mstep rdVal_run hv; rfl

theorem sizeOf_run (hI : Inv st P G) (hv : st.vals v = some ⟨some a, A⟩) (ha : G a = some gn) :
    sizeOf v st = .ok (gn.val.kids.length, st) := by
  unfold sizeOf
  mstep rdVal_run hv
  mstep hI.nType ha
  cases hg : gn.val with
  | con o ks =>
    obtain ⟨nd, h1, h2, _⟩ := hI.con ha hg
    have : ¬ ((GVal.con o ks).type ≠ .object ∧ (GVal.con o ks).type ≠ .array) := by
      cases o <;> simp [GVal.type, conType]
    rw [if_neg this]
    exact nLen_run h1 h2.len
  | _ => rfl

theorem sizeOf_empty (hv : st.vals v = some ⟨none, A⟩) : sizeOf v st = .ok (0, st) := by
  unfold sizeOf; mstep rdVal_run hv; rfl

/-! ### Iteration -/

/-- A handle for an optional node, as the getters return it. -/
def optHandle (st : St) (A : Nat) : Option Addr → Option Addr × St
  | some k => (some st.nv, st.addV A (some k))
  | none => (none, st)

theorem ret_handle (ha : st.allocs A = true) (o : Option Addr) :
    (match o with
      | none => (pure none : M (Option Addr))
      | some n => do return some (← newVal A (some n))) st = .ok (optHandle st A o) := by
  cases o with
  | none => rfl
  | some k => exact M.bind_ok (newVal_run ha)

theorem begin_run (hI : Inv st P G) (hv : st.vals v = some ⟨some a, A⟩) (ha : G a = some gn) :
    begin_ v st = .ok (optHandle st A gn.val.kids.head?) := by
  unfold begin_
  mstep rdVal_run hv
  simp only
  mstep hI.nType ha
  have hA := hI.ok.live v _ hv
  cases hg : gn.val with
  | con o ks =>
    obtain ⟨nd, h1, h2, _⟩ := hI.con ha hg
    have : ¬ ((GVal.con o ks).type ≠ .object ∧ (GVal.con o ks).type ≠ .array) := by
      cases o <;> simp [GVal.type, conType]
    rw [if_neg this]
    mstep nNode_run h1 h2.value
    cases ks with
    | nil => rfl
    | cons k ks => exact M.bind_ok (newVal_run hA)
  | _ => rfl

theorem begin_empty (hv : st.vals v = some ⟨none, A⟩) : begin_ v st = .ok (none, st) := by
  unfold begin_; mstep rdVal_run hv; rfl

theorem Seg.at {l r : List Addr} {k : Addr} {pv nx : Option Addr} (h : Seg st G pv (l ++ k :: r) nx) :
    ∃ n gk, st.nodes k = some n ∧ G k = some gk ∧ n.next = some (hdOr r nx) ∧
      n.prev = some (if gk.prevOK then lastOr pv l else none) := (Seg.append.1 h).2.1

/-- `zj_Next` of a child: the following sibling. -/
theorem next_run (hI : Inv st P G) (hv : st.vals v = some ⟨some a, A⟩) {f gf o l r}
    (hf : G f = some gf) (hg : gf.val = .con o (l ++ a :: r)) :
    next_ v st = .ok (optHandle st A r.head?) := by
  obtain ⟨nd, h1, h2, _⟩ := hI.con hf hg
  obtain ⟨n, gk, k1, k2, k3, _⟩ := h2.seg.at
  unfold next_
  mstep rdVal_run hv
  simp only
  mstep nNext_run k1 k3
  cases r with
  | nil => rfl
  | cons k ks => exact M.bind_ok (newVal_run (hI.ok.live v _ hv))

theorem next_root (hI : Inv st P G) (hv : st.vals v = some ⟨some a, A⟩) (ha : G a = some gn)
    (hp : gn.par = none) : next_ v st = .ok (none, st) := by
  obtain ⟨nd, h1, h2⟩ := hI.rep a gn ha
  unfold next_
  mstep rdVal_run hv
  simp only
  mstep nNext_run h1 (h2.root hp).1
  rfl

theorem next_empty (hv : st.vals v = some ⟨none, A⟩) : next_ v st = .ok (none, st) := by
  unfold next_; mstep rdVal_run hv; rfl

/-! ### Access by index and by key -/

theorem arrayGetLoop_run {index : Nat} : ∀ (ks : List Addr) {pv : Option Addr} (i fuel : Nat),
    Seg st G pv ks none → ks.length < fuel → i ≤ index →
    arrayGetLoop index fuel i (hdOr ks none) st = .ok (ks[index - i]?, st) := by
  intro ks
  induction ks with
  | nil =>
    intro pv i fuel _ hl _
    match fuel, hl with
    | fuel + 1, _ => rfl
  | cons k ks ih =>
    intro pv i fuel ⟨⟨n, gk, h1, h2, h3, _⟩, hs⟩ hl hi
    obtain ⟨fuel, rfl⟩ : ∃ f, fuel = f + 1 := ⟨fuel - 1, by simp at hl; omega⟩
    simp only [hdOr_cons]
    unfold arrayGetLoop
    by_cases he : i = index
    · subst he; simp
    · rw [if_neg he]
      mstep nNext_run h1 h3
      rw [ih (i + 1) fuel hs (by simp at hl; omega) (by omega)]
      rw [show index - i = (index - (i + 1)) + 1 by omega, List.getElem?_cons_succ]

theorem arrayGet_run (hI : Inv st P G) (hv : st.vals v = some ⟨some a, A⟩) (ha : G a = some gn)
    {ks} (hg : gn.val = .con false ks) {fuel index : Nat} (hf : ks.length < fuel) :
    arrayGet fuel v index st = .ok (optHandle st A ks[index]?) := by
  obtain ⟨nd, h1, h2, _⟩ := hI.con ha hg
  unfold arrayGet
  mstep rdVal_run hv
  simp only
  mstep hI.nType ha
  rw [hg]
  simp only [GVal.type, conType, Bool.false_eq_true, if_false, ne_eq, not_true]
  mstep nNode_run h1 h2.value
  mstep arrayGetLoop_run ks 0 fuel h2.seg hf (by omega)
  exact ret_handle (hI.ok.live v _ hv) _

theorem arrayGet_other (hI : Inv st P G) (hv : st.vals v = some ⟨some a, A⟩) (ha : G a = some gn)
    (hg : ∀ ks, gn.val ≠ .con false ks) {fuel index : Nat} : arrayGet fuel v index st = .ok (none, st) := by
  unfold arrayGet
  mstep rdVal_run hv
  simp only
  mstep hI.nType ha
  have : gn.val.type ≠ .array := by
    intro h
    cases hv : gn.val with
    | con o ks => cases o with
      | false => exact hg ks hv
      | true => rw [hv] at h; cases h
    | _ => rw [hv] at h; cases h
  rw [if_pos this]
  rfl

theorem arrayGet_empty (hv : st.vals v = some ⟨none, A⟩) {fuel index : Nat} :
    arrayGet fuel v index st = .ok (none, st) := by
  unfold arrayGet; mstep rdVal_run hv; rfl

theorem strIsEqual_spec : ∀ {c r d t : Bytes}, (0 : Byte) ∉ c → (0 : Byte) ∉ d →
    strIsEqual (c ++ 0 :: r) (d ++ t) d.length = .ok (decide (c = d))
  | [], r, [], t, _, _ => by simp [strIsEqual]
  | [], r, d :: ds, t, _, h => by
    have : (0 : Byte) ≠ d := fun e => h (by simp [e])
    simp [strIsEqual, this]
  | c :: cs, r, [], t, h, _ => by
    have : c ≠ 0 := fun e => h (by simp [e])
    simp [strIsEqual, this]
  | c :: cs, r, d :: ds, t, h, h' => by
    have ih := strIsEqual_spec (c := cs) (r := r) (d := ds) (t := t)
      (fun e => h (by simp [e])) (fun e => h' (by simp [e]))
    simp only [List.cons_append, List.length_cons, strIsEqual]
    by_cases he : c = d
    · simp [he, ih]
    · simp [he]

theorem bytesEqN_spec : ∀ {c r d t : Bytes}, c.length = d.length →
    bytesEqN (c ++ r) (d ++ t) c.length = .ok (decide (c = d))
  | [], r, [], t, _ => by simp [bytesEqN]
  | [], r, d :: ds, t, h => by simp at h
  | c :: cs, r, [], t, h => by simp at h
  | c :: cs, r, d :: ds, t, h => by
    have ih := bytesEqN_spec (c := cs) (r := r) (d := ds) (t := t) (by simpa using h)
    simp only [List.cons_append, List.length_cons, bytesEqN]
    by_cases he : c = d
    · simp [he, ih]
    · simp [he]

theorem strIsEqualLen_spec {c r d t : Bytes} :
    strIsEqualLen (c ++ r) c.length (d ++ t) d.length = .ok (decide (c = d)) := by
  unfold strIsEqualLen
  by_cases h : c.length = d.length
  · rw [if_neg (by simpa using h)]
    exact bytesEqN_spec h
  · rw [if_pos h]
    have : c ≠ d := fun e => h (by rw [e])
    simp [this]

/-- The key of a node of the store. -/
def Graph.keyOf (G : Graph) (k : Addr) : Option Bytes := (G k).bind GNode.key

/-- The first of the nodes `ks` whose key is `key`. -/
def findKey (G : Graph) (key : Bytes) (ks : List Addr) : Option Addr :=
  ks.find? fun k => decide (G.keyOf k = some key)

theorem findKey_cons {key : Bytes} {k : Addr} {ks : List Addr} {kk : Bytes} (h : G.keyOf k = some kk) :
    findKey G key (k :: ks) = if key = kk then some k else findKey G key ks := by
  unfold findKey
  rw [List.find?_cons]
  by_cases he : key = kk
  · simp [h, he]
  · have : ¬ kk = key := fun e => he e.symm
    simp [h, he, this]

theorem Inv.key (hI : Inv st P G) (ha : G a = some gn) {k} (hk : gn.key = some k) :
    ∃ nd p, st.nodes a = some nd ∧ nd.key = some (some p) ∧ nd.keyLen = some k.length ∧ StrAt st P p k := by
  obtain ⟨nd, h1, h2⟩ := hI.rep a gn ha
  have := h2.key
  rw [hk] at this
  obtain ⟨p, h3, h4, h5⟩ := this
  exact ⟨nd, p, h1, h3, h4, h5⟩

theorem objGetLoop_run (hI : Inv st P G) (hs : CStr st p s) : ∀ (ks : List Addr) {pv : Option Addr} (fuel : Nat),
    Seg st G pv ks none → ks.length < fuel →
    (∀ k ∈ ks, ∃ kk, G.keyOf k = some kk ∧ (0 : Byte) ∉ kk) →
    objGetLoop p fuel (hdOr ks none) st = .ok (findKey G s ks, st) := by
  intro ks
  induction ks with
  | nil =>
    intro pv fuel _ hl _
    match fuel, hl with
    | fuel + 1, _ => rfl
  | cons k ks ih =>
    intro pv fuel ⟨⟨n, gk, h1, h2, h3, _⟩, hseg⟩ hl hk
    obtain ⟨fuel, rfl⟩ : ∃ f, fuel = f + 1 := ⟨fuel - 1, by simp at hl; omega⟩
    obtain ⟨kk, hkk, h0⟩ := hk k (by simp)
    have hgk : gk.key = some kk := by simpa [Graph.keyOf, h2] using hkk
    obtain ⟨nd, q, m1, m2, m3, m4⟩ := hI.key h2 hgk
    rw [h1] at m1; cases m1
    obtain ⟨r', lim', hv'⟩ := m4.view
    obtain ⟨hs0, r, lim, hv⟩ := id hs
    rw [findKey_cons hkk]
    simp only [hdOr_cons]
    unfold objGetLoop
    mstep nKey_run h1 m2
    refine (M.bind_ok (a := q) (st' := st) rfl).trans ?_
    mstep hv
    simp only
    mstep hv'
    simp only
    mstep nKeyLen_run h1 m3
    rw [strIsEqual_spec hs0 h0]
    mstep lift_ok _
    by_cases he : s = kk
    · simp [he]
    · simp only [he, decide_false, Bool.false_eq_true, if_false]
      mstep nNext_run h1 h3
      exact ih fuel hseg (by simp at hl; omega) (fun k hk' => hk k (by simp [hk']))

theorem objGetLenLoop_run (hI : Inv st P G) (hs : StrAt st P' p s) : ∀ (ks : List Addr) {pv : Option Addr} (fuel : Nat),
    Seg st G pv ks none → ks.length < fuel → (∀ k ∈ ks, (G.keyOf k).isSome) →
    objGetLenLoop p s.length fuel (hdOr ks none) st = .ok (findKey G s ks, st) := by
  intro ks
  induction ks with
  | nil =>
    intro pv fuel _ hl _
    match fuel, hl with
    | fuel + 1, _ => rfl
  | cons k ks ih =>
    intro pv fuel ⟨⟨n, gk, h1, h2, h3, _⟩, hseg⟩ hl hk
    obtain ⟨fuel, rfl⟩ : ∃ f, fuel = f + 1 := ⟨fuel - 1, by simp at hl; omega⟩
    obtain ⟨kk, hkk⟩ := Option.isSome_iff_exists.1 (hk k (by simp))
    have hgk : gk.key = some kk := by simpa [Graph.keyOf, h2] using hkk
    obtain ⟨nd, q, m1, m2, m3, m4⟩ := hI.key h2 hgk
    rw [h1] at m1; cases m1
    obtain ⟨r', lim', hv'⟩ := m4.view
    obtain ⟨r, lim, hv⟩ := hs.view
    rw [findKey_cons hkk]
    simp only [hdOr_cons]
    unfold objGetLenLoop
    mstep nKey_run h1 m2
    refine (M.bind_ok (a := q) (st' := st) rfl).trans ?_
    mstep hv
    simp only
    mstep hv'
    simp only
    mstep nKeyLen_run h1 m3
    rw [strIsEqualLen_spec]
    mstep lift_ok _
    by_cases he : s = kk
    · simp [he]
    · simp only [he, decide_false, Bool.false_eq_true, if_false]
      mstep nNext_run h1 h3
      exact ih fuel hseg (by simp at hl; omega) (fun k hk' => hk k (by simp [hk']))

theorem Inv.keyOf_kid (hI : Inv st P G) (ha : G a = some gn) {ks} (hg : gn.val = .con true ks) :
    ∀ k ∈ ks, (G.keyOf k).isSome := by
  obtain ⟨nd, h1, h2, _⟩ := hI.con ha hg
  intro k hk
  obtain ⟨gk, g1, g2, g3⟩ := h2.kid k hk
  simp [Graph.keyOf, g1, g3]

theorem objGet_run (hI : Inv st P G) (hv : st.vals v = some ⟨some a, A⟩) (ha : G a = some gn)
    {ks} (hg : gn.val = .con true ks) (hs : CStr st p s) {fuel : Nat} (hf : ks.length < fuel)
    (hk : ∀ k ∈ ks, ∀ kk, G.keyOf k = some kk → (0 : Byte) ∉ kk) :
    objGet fuel v p st = .ok (optHandle st A (findKey G s ks)) := by
  obtain ⟨nd, h1, h2, _⟩ := hI.con ha hg
  unfold objGet
  mstep rdVal_run hv
  simp only
  mstep hI.nType ha
  rw [hg]
  simp only [GVal.type, conType, if_true, ne_eq, not_true, if_false]
  mstep nNode_run h1 h2.value
  have : ∀ k ∈ ks, ∃ kk, G.keyOf k = some kk ∧ (0 : Byte) ∉ kk := by
    intro k hk'
    obtain ⟨kk, h⟩ := Option.isSome_iff_exists.1 (hI.keyOf_kid ha hg k hk')
    exact ⟨kk, h, hk k hk' kk h⟩
  mstep objGetLoop_run hI hs ks fuel h2.seg hf this
  exact ret_handle (hI.ok.live v _ hv) _

theorem objGetLen_run (hI : Inv st P G) (hv : st.vals v = some ⟨some a, A⟩) (ha : G a = some gn)
    {ks} (hg : gn.val = .con true ks) (hs : StrAt st P' p s) {fuel : Nat} (hf : ks.length < fuel) :
    objGetLen fuel v p s.length st = .ok (optHandle st A (findKey G s ks)) := by
  obtain ⟨nd, h1, h2, _⟩ := hI.con ha hg
  unfold objGetLen
  mstep rdVal_run hv
  simp only
  mstep hI.nType ha
  rw [hg]
  simp only [GVal.type, conType, if_true, ne_eq, not_true, if_false]
  mstep nNode_run h1 h2.value
  mstep objGetLenLoop_run hI hs ks fuel h2.seg hf (hI.keyOf_kid ha hg)
  exact ret_handle (hI.ok.live v _ hv) _

theorem not_object (hg : ∀ ks, gn.val ≠ .con true ks) : gn.val.type ≠ .object := by
  intro h
  cases hv : gn.val with
  | con o ks => cases o with
    | true => exact hg ks hv
    | false => rw [hv] at h; cases h
  | _ => rw [hv] at h; cases h

theorem objGet_other (hI : Inv st P G) (hv : st.vals v = some ⟨some a, A⟩) (ha : G a = some gn)
    (hg : ∀ ks, gn.val ≠ .con true ks) {fuel : Nat} {len : Nat} :
    objGet fuel v p st = .ok (none, st) ∧ objGetLen fuel v p len st = .ok (none, st) := by
  constructor
  · unfold objGet
    mstep rdVal_run hv
    simp only
    mstep hI.nType ha
    rw [if_pos (not_object hg)]
    rfl
  · unfold objGetLen
    mstep rdVal_run hv
    simp only
    mstep hI.nType ha
    rw [if_pos (not_object hg)]
    rfl

theorem objGet_empty (hv : st.vals v = some ⟨none, A⟩) {fuel len : Nat} :
    objGet fuel v p st = .ok (none, st) ∧ objGetLen fuel v p len st = .ok (none, st) := by
  constructor
  · unfold objGet; mstep rdVal_run hv; rfl
  · unfold objGetLen; mstep rdVal_run hv; rfl

/-! ### Scalars -/

theorem isNull_run (hI : Inv st P G) (hv : st.vals v = some ⟨some a, A⟩) (ha : G a = some gn) :
    isNull v st = .ok (decide (gn.val = .null), st) := by
  unfold isNull
  mstep rdVal_run hv
  mstep hI.nType ha
  cases hg : gn.val with
  | con o ks => cases o <;> rfl
  | _ => rfl

theorem getBool_run (hI : Inv st P G) (hv : st.vals v = some ⟨some a, A⟩) (ha : G a = some gn) :
    getBool v st = .ok ((match gn.val with | .bool b => some b | _ => none), st) := by
  unfold getBool
  mstep rdVal_run hv
  mstep hI.nType ha
  cases hg : gn.val with
  | bool b =>
    simp only [GVal.type, ne_eq, not_true, if_false]
    obtain ⟨nd, p, h1, h2, h3, h4, h5, _⟩ := hI.scalar ha (by rw [hg]; rfl)
    obtain ⟨r, lim, hw⟩ := h5.view
    mstep nStr_run h1 h3
    mstep hw
    rw [hg]
    cases b <;> rfl
  | con o ks => cases o <;> rfl
  | _ => rfl

theorem getStrFast_run (hI : Inv st P G) (hv : st.vals v = some ⟨some a, A⟩) (ha : G a = some gn)
    (hg : gn.val = .str s) : ∃ p, getStrFast v st = .ok (some (p, s.length), st) ∧ StrAt st P p s := by
  obtain ⟨nd, p, h1, h2, h3, h4, h5, _⟩ := hI.scalar ha (by rw [hg]; rfl)
  rw [hg] at h2 h4 h5
  refine ⟨p, ?_, h5⟩
  unfold getStrFast
  mstep rdVal_run hv
  mstep nType_run h1 h2
  simp only [GVal.type, ne_eq, not_true, if_false]
  mstep nStr_run h1 h3
  mstep nLen_run h1 h4
  rfl

theorem getNumFast_run (hI : Inv st P G) (hv : st.vals v = some ⟨some a, A⟩) (ha : G a = some gn)
    (hg : gn.val = .num s) : ∃ p, getNumFast v st = .ok (some (p, s.length), st) ∧ StrAt st P p s := by
  obtain ⟨nd, p, h1, h2, h3, h4, h5, _⟩ := hI.scalar ha (by rw [hg]; rfl)
  rw [hg] at h2 h4 h5
  refine ⟨p, ?_, h5⟩
  unfold getNumFast
  mstep rdVal_run hv
  mstep nType_run h1 h2
  simp only [GVal.type, ne_eq, not_true, if_false]
  mstep nStr_run h1 h3
  mstep nLen_run h1 h4
  rfl

theorem getStr_run (hI : Inv st P G) (hv : st.vals v = some ⟨some a, A⟩) (ha : G a = some gn)
    (hg : gn.val = .str s) :
    getStr v st = .ok (some (.buf st.nb 0), st.addB A (s.length + 1) (s ++ [0])) := by
  obtain ⟨nd, p, h1, h2, h3, h4, h5, _⟩ := hI.scalar ha (by rw [hg]; rfl)
  rw [hg] at h2 h4 h5
  unfold getStr
  mstep rdVal_run hv
  simp only
  mstep nType_run h1 h2
  simp only [GVal.type, ne_eq, not_true, if_false]
  mstep nStr_run h1 h3
  mstep nLen_run h1 h4
  mstep copyOut_run hI.ok (hI.ok.live v _ hv) h5
  rfl

theorem getNumStr_run (hI : Inv st P G) (hv : st.vals v = some ⟨some a, A⟩) (ha : G a = some gn)
    (hg : gn.val = .num s) :
    getNumStr v st = .ok (some (.buf st.nb 0), st.addB A (s.length + 1) (s ++ [0])) := by
  obtain ⟨nd, p, h1, h2, h3, h4, h5, _⟩ := hI.scalar ha (by rw [hg]; rfl)
  rw [hg] at h2 h4 h5
  unfold getNumStr
  mstep rdVal_run hv
  simp only
  mstep nType_run h1 h2
  simp only [GVal.type, ne_eq, not_true, if_false]
  mstep nStr_run h1 h3
  mstep nLen_run h1 h4
  mstep copyOut_run hI.ok (hI.ok.live v _ hv) h5
  rfl

theorem getUnEscapeStr_run (hI : Inv st P G) (hv : st.vals v = some ⟨some a, A⟩) (ha : G a = some gn)
    (hg : gn.val = .str s) {d} (hd : Denotes s d) :
    getUnEscapeStr v st = .ok (some (.buf st.nb 0), st.addB A (s.length + 1) (d ++ [0])) := by
  obtain ⟨nd, p, h1, h2, h3, h4, h5, _⟩ := hI.scalar ha (by rw [hg]; rfl)
  rw [hg] at h2 h4 h5
  have h4' : nd.len = some s.length := h4
  obtain ⟨r, lim, hw⟩ := h5.view
  unfold getUnEscapeStr
  mstep rdVal_run hv
  simp only
  mstep nType_run h1 h2
  simp only [GVal.type, ne_eq, not_true, if_false]
  mstep nLen_run h1 h4'
  mstep nStr_run h1 h3
  mstep hw
  simp only
  have := unEscapeStr_ok hd (s := s ++ r) rfl
  simp only [GVal.text, this]
  mstep lift_ok _
  mstep newBuf_run (hI.ok.live v _ hv) (by have := hd.length_le; simp; omega)
  rfl

/-! ### Wrong type -/

theorem scalar_type {gv : GVal} {ty : JType} (h : gv.type ≠ ty) : gv.type ≠ ty := h

theorem getStr_other (hI : Inv st P G) (hv : st.vals v = some ⟨some a, A⟩) (ha : G a = some gn)
    (hg : gn.val.type ≠ .string) :
    getStr v st = .ok (none, st) ∧ getStrFast v st = .ok (none, st) ∧
    getUnEscapeStr v st = .ok (none, st) := by
  refine ⟨?_, ?_, ?_⟩
  · unfold getStr
    mstep rdVal_run hv; simp only; mstep hI.nType ha
    rw [if_pos hg]; rfl
  · unfold getStrFast
    mstep rdVal_run hv; simp only; mstep hI.nType ha
    rw [if_pos hg]; rfl
  · unfold getUnEscapeStr
    mstep rdVal_run hv; simp only; mstep hI.nType ha
    rw [if_pos hg]; rfl

theorem getNum_other {D} {fp : FP D} (hI : Inv st P G) (hv : st.vals v = some ⟨some a, A⟩) (ha : G a = some gn)
    (hg : gn.val.type ≠ .number) :
    getNumStr v st = .ok (none, st) ∧ getNumFast v st = .ok (none, st) ∧
    getInt v st = .ok (none, st) ∧ getLong v st = .ok (none, st) ∧ getLongLong v st = .ok (none, st) ∧
    getDouble fp v st = .ok (none, st) := by
  refine ⟨?_, ?_, ?_, ?_, ?_, ?_⟩
  · unfold getNumStr
    mstep rdVal_run hv; simp only; mstep hI.nType ha
    rw [if_pos hg]; rfl
  · unfold getNumFast
    mstep rdVal_run hv; simp only; mstep hI.nType ha
    rw [if_pos hg]; rfl
  · unfold getInt
    mstep rdVal_run hv; simp only; mstep hI.nType ha
    rw [if_pos hg]; rfl
  · unfold getLong
    mstep rdVal_run hv; simp only; mstep hI.nType ha
    rw [if_pos hg]; rfl
  · unfold getLongLong
    mstep rdVal_run hv; simp only; mstep hI.nType ha
    rw [if_pos hg]; rfl
  · unfold getDouble
    mstep rdVal_run hv; simp only; mstep hI.nType ha
    rw [if_pos hg]; rfl

theorem get_empty {D} {fp : FP D} (hv : st.vals v = some ⟨none, A⟩) :
    getStr v st = .ok (none, st) ∧ getStrFast v st = .ok (none, st) ∧
    getUnEscapeStr v st = .ok (none, st) ∧
    getNumStr v st = .ok (none, st) ∧ getNumFast v st = .ok (none, st) ∧
    getInt v st = .ok (none, st) ∧ getLong v st = .ok (none, st) ∧ getLongLong v st = .ok (none, st) ∧
    getDouble fp v st = .ok (none, st) ∧ getBool v st = .ok (none, st) ∧ isNull v st = .ok (false, st) ∧
    getKey v st = .ok (none, st) ∧ getKeyFast v st = .ok (none, st) ∧ getUnEscapeKey v st = .ok (none, st) := by
  refine ⟨?_, ?_, ?_, ?_, ?_, ?_, ?_, ?_, ?_, ?_, ?_, ?_, ?_, ?_⟩
  · unfold getStr; mstep rdVal_run hv; rfl
  · unfold getStrFast; mstep rdVal_run hv; rfl
  · unfold getUnEscapeStr; mstep rdVal_run hv; rfl
  · unfold getNumStr; mstep rdVal_run hv; rfl
  · unfold getNumFast; mstep rdVal_run hv; rfl
  · unfold getInt; mstep rdVal_run hv; rfl
  · unfold getLong; mstep rdVal_run hv; rfl
  · unfold getLongLong; mstep rdVal_run hv; rfl
  · unfold getDouble; mstep rdVal_run hv; rfl
  · unfold getBool; mstep rdVal_run hv; rfl
  · unfold isNull; mstep rdVal_run hv; rfl
  · unfold getKey; mstep rdVal_run hv; rfl
  · unfold getKeyFast; mstep rdVal_run hv; rfl
  · unfold getUnEscapeKey; mstep rdVal_run hv; rfl

/-! ### Keys -/

theorem getKey_run (hI : Inv st P G) (hv : st.vals v = some ⟨some a, A⟩) (ha : G a = some gn)
    (hg : gn.key = some s) :
    getKey v st = .ok (some (.buf st.nb 0), st.addB A (s.length + 1) (s ++ [0])) ∧
    ∃ p, getKeyFast v st = .ok (some (p, s.length), st) ∧ StrAt st P p s := by
  obtain ⟨nd, p, h1, h2, h3, h4⟩ := hI.key ha hg
  refine ⟨?_, p, ?_, h4⟩
  · unfold getKey
    mstep rdVal_run hv
    simp only
    mstep nKey_run h1 h2
    simp only
    mstep nKeyLen_run h1 h3
    mstep copyOut_run hI.ok (hI.ok.live v _ hv) h4
    rfl
  · unfold getKeyFast
    mstep rdVal_run hv
    simp only
    mstep nKey_run h1 h2
    simp only
    mstep nKeyLen_run h1 h3
    rfl

theorem getUnEscapeKey_run (hI : Inv st P G) (hv : st.vals v = some ⟨some a, A⟩) (ha : G a = some gn)
    (hg : gn.key = some s) {d} (hd : Denotes s d) :
    getUnEscapeKey v st = .ok (some (.buf st.nb 0), st.addB A (s.length + 1) (d ++ [0])) := by
  obtain ⟨nd, p, h1, h2, h3, h4⟩ := hI.key ha hg
  obtain ⟨r, lim, hw⟩ := h4.view
  unfold getUnEscapeKey
  mstep rdVal_run hv
  simp only
  mstep nKey_run h1 h2
  simp only
  mstep nKeyLen_run h1 h3
  mstep hw
  simp only
  rw [unEscapeStr_ok hd (s := s ++ r) rfl]
  mstep lift_ok _
  mstep newBuf_run (hI.ok.live v _ hv) (by have := hd.length_le; simp; omega)
  rfl

theorem getKey_none (hI : Inv st P G) (hv : st.vals v = some ⟨some a, A⟩) (ha : G a = some gn)
    (hg : gn.key = none) :
    getKey v st = .ok (none, st) ∧ getKeyFast v st = .ok (none, st) ∧ getUnEscapeKey v st = .ok (none, st) := by
  obtain ⟨nd, h1, h2⟩ := hI.rep a gn ha
  have h3 := h2.key
  rw [hg] at h3
  refine ⟨?_, ?_, ?_⟩
  · unfold getKey; mstep rdVal_run hv; simp only; mstep nKey_run h1 h3; rfl
  · unfold getKeyFast; mstep rdVal_run hv; simp only; mstep nKey_run h1 h3; rfl
  · unfold getUnEscapeKey; mstep rdVal_run hv; simp only; mstep nKey_run h1 h3; rfl

end

end ZJ
