import Verif.Rep
import Verif.Num

/-
The loop of zj_ParseFast against the recursive parser of `Grammar.lean`.
-/

set_option linter.unusedSimpArgs false

namespace ZJ

/-- The text at `p` is `s`; `lim` bytes are readable. -/
structure Text (st : St) (P : Addr → Prop) (p : SPtr) (s : Bytes) (lim : Nat) : Prop where
  view : view p st = .ok ((s, lim), st)
  sub : ∀ k raw r, k < s.length → s.drop k = raw ++ r → StrAt st P (p.add k) raw

theorem Text.buf {st : St} {P : Addr → Prop} {b off : Nat} {bf : Buf} (h : st.bufs b = some bf)
    (hP : P b) : Text st P (.buf b off) (bf.data.drop off) (bf.size + bf.slack - off) where
  view := by simp [ZJ.view, h]
  sub := by
    intro k raw r _ hd
    refine ⟨hP, bf, r, h, ?_⟩
    rw [← hd, List.drop_drop]

theorem Text.lit {st : St} {P : Addr → Prop} (s : Lit) :
    Text st P (.lit s) (s.bytes ++ [0]) (s.bytes.length + 1) where
  view := by simp [ZJ.view]
  sub := by
    intro k raw r hk hd
    refine ⟨r, ?_⟩
    rw [← hd, List.drop_append_of_le_length]
    simp at hk; omega

theorem Text.mono {st st' : St} {P : Addr → Prop} {p s lim} (h : Text st P p s lim)
    (hb : st'.bufs = st.bufs) : Text st' P p s lim where
  view := by
    have := h.view
    cases p with
    | lit s' => simp [ZJ.view] at this ⊢; exact this
    | buf b off =>
      simp only [ZJ.view, hb] at this ⊢
      cases hbf : st.bufs b with
      | none => rw [hbf] at this; cases this
      | some bf => rw [hbf] at this; simp at this ⊢; exact this
  sub := fun k raw r hk hd => (h.sub k raw r hk hd).mono (fun _ h => h) (fun _ _ => by rw [hb])

/-- A node after a scalar value was stored. -/
def Node.putS (n : Node) (gv : GVal) (p : SPtr) : Node :=
  { n with type := some gv.type, value := some (.str p), len := some gv.text.length }

section
variable {A : Nat} {p : SPtr} {s : Bytes} {lim : Nat} {st : St} {P : Addr → Prop} {n : Addr}
  {nd : Node}

theorem store3 {ty : JType} {q : SPtr} {len : Nat} {α} (r : α) (hn : st.nodes n = some nd) :
    (do setType n ty; setStrP n q; setLen n len; return r : M α) st =
      .ok (r, st.setN n { nd with type := some ty, value := some (.str q), len := some len }) := by
  mstep modNode_run hn
  mstep modNode_run (n := { nd with type := some ty }) (by simp)
  mstep modNode_run (n := { nd with type := some ty, value := some (.str q) }) (by simp)
  simp

/-- If the node holds a number, its text in `s` ends just before position `j`. -/
def EndsAt (p : SPtr) (s : Bytes) (nd : Node) (gv : GVal) (j : Nat) : Prop :=
  ∀ raw, gv = .num raw → ∃ k r, nd.value = some (.str (p.add k)) ∧ k < s.length ∧
    s.drop k = raw ++ r ∧ k + raw.length = j

/-- The text of every number of `g` is followed in `s` by a byte that is not part of a numeral. -/
def Tails (p : SPtr) (s : Bytes) (st : St) (g : Graph) : Prop :=
  ∀ a gn raw, g a = some gn → gn.val = .num raw → ∃ nd k c r, st.nodes a = some nd ∧
    nd.value = some (.str (p.add k)) ∧ k < s.length ∧ s.drop k = raw ++ c :: r ∧
    isNumeralChar c = false

theorem switch_scalar {i i1 : Nat} {c : Byte} (hT : Text st P p s lim) (hp : peek s i = .ok (c, i1))
    (h1 : c ≠ 0x5B) (h2 : c ≠ 0x7B) (hn : st.nodes n = some nd) (hat : At s (i1 - 1))
    (hr : rd s (i1 - 1) = .ok c) (hi1 : 1 ≤ i1) :
    match pScalar s lim c i1 with
    | .ok none => switchValue A p s lim n i st = .ok (.bad, st)
    | .ok (some (t, j)) => ∃ gv q, gv.isCon = false ∧ gv.doc = t ∧ TextAt st P q gv ∧
        EndsAt p s (nd.putS gv q) gv j ∧
        switchValue A p s lim n i st = .ok (.leaf j, st.setN n (nd.putS gv q))
    | .ub u => switchValue A p s lim n i st = .ub u
    | .timeout => True := by
  unfold pScalar switchValue
  simp only [M.bind_run, hp, lift_ok, h1, h2, if_false]
  by_cases h3 : c = 0x6E
  · simp only [h3, if_true]
    cases hc : consumeNull s lim i1 with
    | ub u => simp [hc, M.bind_run]
    | timeout => simp
    | ok x =>
      obtain ⟨ok, j⟩ := x
      cases ok with
      | false => simp [M.bind_run]
      | true =>
        simp only [Res.ok_bind, Bool.not_true, Bool.false_eq_true, if_false, Res.pure_eq]
        refine ⟨.null, .lit { bytes := b!"null" }, rfl, rfl, ⟨⟨[0], rfl⟩, fun _ => ⟨_, rfl⟩⟩, nofun, ?_⟩
        simp only [M.bind_run, lift_ok, Bool.not_true, Bool.false_eq_true, if_false]
        exact store3 _ hn
  simp only [h3, if_false]
  by_cases h4 : c = 0x66
  · simp only [h4, if_true]
    cases hc : consumeFalse s lim i1 with
    | ub u => simp [hc, M.bind_run]
    | timeout => simp
    | ok x =>
      obtain ⟨ok, j⟩ := x
      cases ok with
      | false => simp [M.bind_run]
      | true =>
        simp only [Res.ok_bind, Bool.not_true, Bool.false_eq_true, if_false, Res.pure_eq]
        refine ⟨.bool false, .lit { bytes := b!"false" }, rfl, rfl, ⟨⟨[0], rfl⟩, fun _ => ⟨_, rfl⟩⟩, nofun, ?_⟩
        simp only [M.bind_run, lift_ok, Bool.not_true, Bool.false_eq_true, if_false]
        exact store3 _ hn
  simp only [h4, if_false]
  by_cases h5 : c = 0x74
  · simp only [h5, if_true]
    cases hc : consumeTrue s lim i1 with
    | ub u => simp [hc, M.bind_run]
    | timeout => simp
    | ok x =>
      obtain ⟨ok, j⟩ := x
      cases ok with
      | false => simp [M.bind_run]
      | true =>
        simp only [Res.ok_bind, Bool.not_true, Bool.false_eq_true, if_false, Res.pure_eq]
        refine ⟨.bool true, .lit { bytes := b!"true" }, rfl, rfl, ⟨⟨[0], rfl⟩, fun _ => ⟨_, rfl⟩⟩, nofun, ?_⟩
        simp only [M.bind_run, lift_ok, Bool.not_true, Bool.false_eq_true, if_false]
        exact store3 _ hn
  simp only [h5, if_false]
  by_cases h6 : c = 0x22
  · simp only [h6, if_true]
    have ha1 : At s i1 := by
      have := hat.succ hr (by rw [h6]; decide)
      rwa [show i1 - 1 + 1 = i1 by omega] at this
    have hlt := ha1.1.lt
    rcases strBody_out ha1 with ⟨e, hd, ha2⟩ | ⟨e, ok, j, e2, ho⟩
    · simp only [e, Res.ok_bind, if_true, Res.pure_eq]
      refine ⟨.str [], p.add (i1 + 1), rfl, rfl, ⟨hT.sub _ _ _ ha2.1.lt rfl, nofun⟩, nofun, ?_⟩
      simp only [M.bind_run, lift_ok, if_true]
      exact store3 _ hn
    · simp only [e, e2, Res.ok_bind, Bool.false_eq_true, if_false]
      cases ok with
      | false => simp [e2, M.bind_run, e]
      | true =>
        obtain ⟨b, hb, hd, hj, ha2⟩ := ho rfl
        simp only [Bool.not_true, Bool.false_eq_true, if_false, Res.pure_eq]
        have ht : (s.drop i1).take (j - i1 - 1) = b := take_mid hd (by omega)
        refine ⟨.str b, p.add i1, rfl, by rw [ht]; rfl, ⟨hT.sub _ _ _ hlt hd, nofun⟩, nofun, ?_⟩
        simp only [M.bind_run, lift_ok, Bool.not_true, Bool.false_eq_true, if_false, e2]
        rw [show j - i1 - 1 = (GVal.str b).text.length by simp [GVal.text]; omega]
        exact store3 _ hn
  simp only [h6, if_false]
  have hlt := hat.1.lt
  obtain ⟨o, e, ho⟩ := scanNum_total hat.1
  have hcn : consumeNum s i1 = .ok o := e
  simp only [hcn, Res.ok_bind]
  cases o with
  | none => simp [M.bind_run]
  | some j =>
    obtain ⟨b, hb, hd, hj, _⟩ := ho j rfl
    simp only [Res.pure_eq]
    have ht : (s.drop (i1 - 1)).take (j - (i1 - 1)) = b := take_mid hd (by omega)
    refine ⟨.num b, p.add (i1 - 1), rfl, by rw [ht]; rfl, ⟨hT.sub _ _ _ hlt hd, nofun⟩, ?_, ?_⟩
    · intro raw h
      cases h
      exact ⟨i1 - 1, _, rfl, hlt, hd, by omega⟩
    mstep lift_ok _
    simp only
    rw [show j - (i1 - 1) = (GVal.num b).text.length by simp [GVal.text]; omega]
    exact store3 _ hn
end

/-! ### What a piece of the parser changes -/

/-- From `st` to `st'` only the nodes of `S` changed and nodes were allocated. -/
structure Chg (A : Nat) (S : Addr → Prop) (st st' : St) : Prop where
  vals : st'.vals = st.vals
  bufs : st'.bufs = st.bufs
  nv : st'.nv = st.nv
  nb : st'.nb = st.nb
  allocs : st'.allocs = st.allocs
  na : st'.na = st.na
  cache : st'.cache = st.cache
  slack : st'.slack = st.slack
  nn : st.nn ≤ st'.nn
  log : st'.log = List.replicate (st'.nn - st.nn) (.alloc A 72) ++ st.log
  nodes : ∀ b, ¬ S b → (b < st.nn ∨ st'.nn ≤ b) → st'.nodes b = st.nodes b
  own : ∀ b, b < st.nn → (st'.nodes b).map Node.owner = (st.nodes b).map Node.owner
  new : ∀ b, st.nn ≤ b → b < st'.nn → (st'.nodes b).map Node.owner = some A

theorem Chg.refl {A S} (st : St) : Chg A S st st :=
  ⟨rfl, rfl, rfl, rfl, rfl, rfl, rfl, rfl, Nat.le_refl _, by simp, fun _ _ _ => rfl,
    fun _ _ => rfl, fun b h1 h2 => by omega⟩

theorem Chg.setN {A} {S : Addr → Prop} {st : St} {a : Addr} {n nd : Node}
    (hn : st.nodes a = some nd) (ho : n.owner = nd.owner) (h : S a) :
    Chg A S st (st.setN a n) :=
  ⟨rfl, rfl, rfl, rfl, rfl, rfl, rfl, rfl, Nat.le_refl _, by simp, fun b hb _ => by
    have : b ≠ a := fun e => hb (e ▸ h)
    simp [this], fun b _ => by
    by_cases hb : b = a
    · simp [hb, hn, ho]
    · simp [hb], fun b h1 h2 => by simp at h2; omega⟩

theorem Chg.addN {A} {S : Addr → Prop} {st : St} : Chg A S st (st.addN A) :=
  ⟨rfl, rfl, rfl, rfl, rfl, rfl, rfl, rfl, by simp, by simp, fun b hb h => by
    simp at h
    have : b ≠ st.nn := by omega
    simp [this], fun b h => by
    have : b ≠ st.nn := by omega
    simp [this], fun b h1 h2 => by
    have : b = st.nn := by simp at h2; omega
    simp [this]⟩

theorem Chg.trans {A} {S S2 : Addr → Prop} {st st1 st2 : St} (h1 : Chg A S st st1)
    (h2 : Chg A S2 st1 st2) (hS : ∀ b, S2 b → S b ∨ (st.nn ≤ b ∧ b < st1.nn)) :
    Chg A S st st2 where
  vals := by rw [h2.vals, h1.vals]
  bufs := by rw [h2.bufs, h1.bufs]
  nv := by rw [h2.nv, h1.nv]
  nb := by rw [h2.nb, h1.nb]
  allocs := by rw [h2.allocs, h1.allocs]
  na := by rw [h2.na, h1.na]
  cache := by rw [h2.cache, h1.cache]
  slack := by rw [h2.slack, h1.slack]
  nn := Nat.le_trans h1.nn h2.nn
  log := by
    rw [h2.log, h1.log, ← List.append_assoc, List.replicate_append_replicate]
    congr 2
    have := h1.nn; have := h2.nn
    omega
  nodes := by
    intro b hb hn
    have := h1.nn; have := h2.nn
    rw [h2.nodes b (fun h => ?_) (by omega), h1.nodes b hb (by omega)]
    rcases hS b h with h | h
    · exact hb h
    · omega
  own := by
    intro b hb
    have := h1.nn
    rw [h2.own b (by omega), h1.own b hb]
  new := by
    intro b hb hb2
    by_cases hl : b < st1.nn
    · rw [h2.own b hl, h1.new b hb hl]
    · exact h2.new b (by omega) hb2

/-- The fields a value does not touch are the same. -/
structure SameLinks (n n' : Node) : Prop where
  owner : n'.owner = n.owner
  key : n'.key = n.key
  keyLen : n'.keyLen = n.keyLen
  next : n'.next = n.next
  prev : n'.prev = n.prev
  father : n'.father = n.father

theorem SameLinks.refl (n : Node) : SameLinks n n := ⟨rfl, rfl, rfl, rfl, rfl, rfl⟩

theorem ValOK.fields {st P G a n n' gv e} (h : ValOK st P G a n gv e) (h1 : n'.type = n.type)
    (h2 : n'.value = n.value) (h3 : n'.len = n.len) (h4 : n'.end_ = n.end_) :
    ValOK st P G a n' gv e := by
  cases gv with
  | con o kids =>
    exact ⟨by rw [h1, h.type], by rw [h2, h.value], by rw [h3, h.len],
      fun e k => by rw [h4, h.end_ e k], h.seg, h.nodup, h.kid⟩
  | _ =>
    obtain ⟨g1, p, g2, g3, g4⟩ := h
    exact ⟨by rw [h1, g1], p, by rw [h2, g2], by rw [h3, g3], g4⟩

/-- Nodes as a parse or a copy makes them: all links right, and all of them below the nodes `ks`. -/
def Sprout (g : Graph) (ks : List Addr) : Prop :=
  ∀ a x, g a = some x → x.prevOK = true ∧ x.endOK = true ∧ x.par.isSome = true ∧ ∃ k ∈ ks, Reach g k a

/-- A value was built at node `n`. -/
structure Built (A : Nat) (P : Addr → Prop) (st st' : St) (n : Addr) (nd nd' : Node) (gv : GVal)
    (g : Graph) (t : Json) : Prop where
  node : st'.nodes n = some nd'
  links : SameLinks nd nd'
  val : ValOK st' P g n nd' gv true
  unf : UnfV g gv t
  rep : RepOn st' P g
  dom : ∀ a x, g a = some x → st.nn ≤ a ∧ a < st'.nn
  fin : ∀ a x, g a = some x → ∃ t, Unf g a t
  chg : Chg A (· = n) st st'
  new : Sprout g gv.kids

/-- The children `k :: ks` of the container `f` were built, `k` and `f` being there
before. -/
structure BuiltI (A : Nat) (P : Addr → Prop) (st st' : St) (o : Bool) (f : Addr) (fd fd' : Node)
    (m : Nat) (pv : Option Addr) (k : Addr) (ks : List Addr) (g : Graph)
    (xs : List (Bytes × Json)) : Prop where
  node : st'.nodes f = some fd'
  links : SameLinks fd fd'
  type : fd'.type = fd.type
  value : fd'.value = fd.value
  len : fd'.len = some (m + ks.length)
  end_ : fd'.end_ = some (lastOr (some k) ks)
  seg : Seg st' g pv (k :: ks) none
  fresh : ∀ x ∈ ks, st.nn ≤ x
  nodup : ks.Nodup
  kid : ∀ x ∈ k :: ks, ∃ gk, g x = some gk ∧ gk.par = some f ∧ gk.key.isSome = o
  unf : UnfI g o (k :: ks) xs
  rep : RepOn st' P g
  dom : ∀ a x, g a = some x → a = k ∨ (st.nn ≤ a ∧ a < st'.nn)
  fin : ∀ a x, g a = some x → ∃ t, Unf g a t
  chg : Chg A (fun b => b = k ∨ b = f) st st'
  new : Sprout g (k :: ks)

/-! ### Keys -/

section
variable {A : Nat} {p : SPtr} {s : Bytes} {lim : Nat} {st : St} {P : Addr → Prop} {k f : Addr}
  {kd fd : Node} {o : Bool}

theorem parseKey_sim {i : Nat} (hT : Text st P p s lim) (hat : At s i)
    (hk : st.nodes k = some kd) (hf : st.nodes f = some fd)
    (hfa : kd.father = some (some f)) (hty : fd.type = some (conType o)) :
    match pKeyOpt o s i with
    | .ok none => ∃ st', Chg A (· = k) st st' ∧ parseKey p s k i st = .ok (none, st')
    | .ok (some (key, j)) => ∃ ko kd', KeyIs o ko key ∧ KeyOK st P kd' ko ∧
        kd'.owner = kd.owner ∧ kd'.father = kd.father ∧ kd'.prev = kd.prev ∧
        parseKey p s k i st = .ok (some j, st.setN k kd')
    | .ub u => parseKey p s k i st = .ub u
    | .timeout => True := by
  have hfa' := nFather_run hk hfa
  have hty' := nType_run hf hty
  cases o with
  | false =>
    refine ⟨none, { kd with key := some none }, ⟨rfl, rfl⟩, rfl, rfl, rfl, rfl, ?_⟩
    unfold parseKey
    mstep hfa'
    mstep M.pure_run _ _
    mstep hty'
    simp only [conType, Bool.false_eq_true, if_false, reduceCtorEq]
    mstep modNode_run hk
    rfl
  | true =>
    have hobj : conType true = .object := rfl
    rw [hobj] at hty'
    have run : parseKey p s k i st = (do
        let (ok, i) ← lift (peekAndConsume 0x22 s i)
        if !ok then return none
        let start := i
        let (ok, i) ← lift (consume 0x22 s i)
        if ok then
          setKey k (some (p.add start))
          setKeyLen k 0
          let (ok, i) ← lift (peekAndConsume 0x3A s i)
          if !ok then return none
          return some i
        else
          let (ok, i) ← lift (consumeStr s i)
          if !ok then return none
          setKey k (some (p.add start))
          setKeyLen k (i - start - 1)
          let (ok, i) ← lift (peekAndConsume 0x3A s i)
          if !ok then return none
          return some i : M (Option Nat)) st := by
      unfold parseKey
      mstep hfa'
      mstep M.pure_run _ _
      mstep hty'
      rfl
    rw [run]
    clear run
    simp only [pKeyOpt, if_true, pKey]
    rcases hat.peekAndConsume 0x22 (by decide) with ⟨w, hw, e, hd, ha⟩ |
      ⟨w, c, hw, hc, hne, e, hd, ha, hr⟩
    · rw [e]
      simp only [Res.ok_bind, Bool.not_true, Bool.false_eq_true, if_false, M.bind_run, lift_ok]
      have hlt := ha.1.lt
      have two : ∀ len : Nat, ∀ j : Nat, (do
          setKey k (some (p.add (i + w.length + 1)))
          setKeyLen k len
          let (ok, i) ← lift (peekAndConsume 0x3A s j)
          if !ok then return none
          return some i : M (Option Nat)) st = (do
          let (ok, i) ← lift (peekAndConsume 0x3A s j)
          if !ok then return none
          return some i : M (Option Nat)) (st.setN k { kd with
            key := some (some (p.add (i + w.length + 1))), keyLen := some len }) := by
        intro len j
        mstep modNode_run hk
        mstep modNode_run (n := { kd with key := some (some (p.add (i + w.length + 1))) }) (by simp)
        simp
      have fin : ∀ (key : Bytes) (j : Nat), At s j → (∃ r, s.drop (i + w.length + 1) = key ++ r) →
          match (do
            let (ok, i) ← peekAndConsume 0x3A s j
            if !ok then return none
            return some (key, i) : Res (Option (Bytes × Nat))) with
          | .ok none => ∃ st', Chg A (· = k) st st' ∧ (do
              let (ok, i) ← lift (peekAndConsume 0x3A s j)
              if !ok then return none
              return some i : M (Option Nat)) (st.setN k { kd with
                key := some (some (p.add (i + w.length + 1))), keyLen := some key.length }) =
              .ok (none, st')
          | .ok (some (key', j')) => ∃ ko kd', KeyIs true ko key' ∧ KeyOK st P kd' ko ∧
              kd'.owner = kd.owner ∧ kd'.father = kd.father ∧ kd'.prev = kd.prev ∧ (do
              let (ok, i) ← lift (peekAndConsume 0x3A s j)
              if !ok then return none
              return some i : M (Option Nat)) (st.setN k { kd with
                key := some (some (p.add (i + w.length + 1))), keyLen := some key.length }) =
              .ok (some j', st.setN k kd')
          | .ub u => (do
              let (ok, i) ← lift (peekAndConsume 0x3A s j)
              if !ok then return none
              return some i : M (Option Nat)) (st.setN k { kd with
                key := some (some (p.add (i + w.length + 1))), keyLen := some key.length }) = .ub u
          | .timeout => True := by
        intro key j hj ⟨r, hr⟩
        rcases hj.peekAndConsume 0x3A (by decide) with ⟨w', hw', e', hd', ha'⟩ |
          ⟨w', c', hw', hc', hne', e', hd', ha', hr'⟩
        · rw [e']
          simp only [Res.ok_bind, Bool.not_true, Bool.false_eq_true, if_false, Res.pure_eq]
          refine ⟨some key, { kd with
                key := some (some (p.add (i + w.length + 1))), keyLen := some key.length }, rfl,
                ⟨_, rfl, rfl, hT.sub _ _ _ hlt hr⟩, rfl, rfl, rfl, ?_⟩
          simp [M.bind_run]
        · rw [e']
          simp only [Res.ok_bind, Bool.not_false, if_true, Res.pure_eq]
          refine ⟨_, Chg.setN (n := { kd with
                key := some (some (p.add (i + w.length + 1))), keyLen := some key.length }) hk rfl rfl, ?_⟩
          simp [M.bind_run]
      rcases strBody_out ha with ⟨e2, hd2, ha2⟩ | ⟨e2, ok, j, e3, ho⟩
      · have h := fin [] (i + w.length + 1 + 1) ha2 ⟨_, rfl⟩
        have h2 := two 0 (i + w.length + 1 + 1)
        simp only [e2, Res.ok_bind, if_true, lift_ok]
        simp only [M.bind_run] at h2 h ⊢
        rw [h2]
        exact h
      · cases ok with
        | false =>
          simp only [e2, e3, Res.ok_bind, Bool.false_eq_true, if_false, Bool.not_false, if_true,
            Res.pure_eq]
          refine ⟨st, Chg.refl st, ?_⟩
          simp [M.bind_run, e3]
        | true =>
          obtain ⟨b, hb, hd3, hj, ha3⟩ := ho rfl
          have ht : (s.drop (i + w.length + 1)).take (j - (i + w.length + 1) - 1) = b :=
            take_mid hd3 (by omega)
          have h := fin b j ha3 ⟨_, hd3⟩
          have h2 := two b.length j
          simp only [e2, e3, Res.ok_bind, Bool.false_eq_true, if_false, Bool.not_true, lift_ok, ht]
          rw [show b.length = j - (i + w.length + 1) - 1 by omega] at h h2
          simp only [M.bind_run] at h2 h ⊢
          simp only [e3, lift_ok, Bool.not_true, Bool.false_eq_true, if_false, M.bind_run]
          rw [h2]
          exact h
    · rw [e]
      simp only [Res.ok_bind, Bool.not_false, if_true, Res.pure_eq]
      refine ⟨st, Chg.refl st, ?_⟩
      simp [M.bind_run]
end

/-! ### The loop -/

/-- What is known during a parse: the handle `v` holds the node `root`. -/
structure Ctx (v A : Nat) (p : SPtr) (s : Bytes) (lim : Nat) (P : Addr → Prop) (root : Addr)
    (st : St) : Prop where
  vals : st.vals v = some ⟨some root, A⟩
  alloc : st.allocs A = true
  text : Text st P p s lim
  root : root < st.nn

theorem Ctx.chg {v A p s lim P root S st st'} (h : Ctx v A p s lim P root st)
    (hc : Chg A S st st') : Ctx v A p s lim P root st' where
  vals := by rw [hc.vals, h.vals]
  alloc := by rw [hc.allocs, h.alloc]
  text := h.text.mono hc.bufs
  root := Nat.lt_of_lt_of_le h.root hc.nn

section
variable (v A : Nat) (p : SPtr) (s : Bytes) (lim : Nat) (src : Option Addr)

/-- The code behind the `switch`. -/
def afterSwitch (fin : Nat → Nat → M Bool) (F : Nat) : Step → M Bool
  | .bad => restore v src
  | .desc n i => parseLoop v A p s lim src F .head n i
  | .leaf i => fin F i

variable {v A p s lim src} {P : Addr → Prop} {root : Addr} {st : St}

theorem loop_head {k i F : Nat} (h : Ctx v A p s lim P root st) (hk : k ≠ root) :
    parseLoop v A p s lim src (F + 1) .head k i st = (do
      match ← parseKey p s k i with
      | none => restore v src
      | some i =>
        switchValue A p s lim k i >>=
          afterSwitch v A p s lim src (fun F i => parseLoop v A p s lim src F .close k i) F) st := by
  conv => lhs; unfold parseLoop
  mstep rdVal_run h.vals
  have : ¬ (some k = some root) := by simpa using hk
  simp only [this, if_false]
  refine congrFun (congrArg (parseKey p s k i >>= ·) ?_) st
  funext o
  cases o with
  | none => rfl
  | some i =>
    refine congrArg (switchValue A p s lim k i >>= ·) ?_
    funext x
    cases x <;> rfl

theorem close_comma {k f j j1 F m : Nat} {kd fd : Node} (h : Ctx v A p s lim P root st)
    (hk : k ≠ root) (hj : peekAndConsume 0x2C s j = .ok (true, j1)) (hkd : st.nodes k = some kd)
    (hfd : st.nodes f = some fd) (hkf : k ≠ f) (hkn : k < st.nn) (hfn : f < st.nn)
    (hfa : kd.father = some (some f)) (hm : fd.len = some m) :
    parseLoop v A p s lim src (F + 1) .close k j st =
      parseLoop v A p s lim src F .head st.nn j1
        ((((st.addN A).setN st.nn
          { owner := A, father := some (some f), prev := some (some k) }).setN f
          { fd with end_ := some (some st.nn), len := some (m + 1) }).setN k
          { kd with next := some (some st.nn) }) := by
  have k1 : k ≠ st.nn := by omega
  have f1 : f ≠ st.nn := by omega
  have fk : f ≠ k := Ne.symm hkf
  conv => lhs; unfold parseLoop
  mstep rdVal_run h.vals
  have : ¬ (some k = some root) := by simpa using hk
  simp only [this, if_false, hj]
  mstep lift_ok _
  simp only [if_true]
  mstep newNode_run h.alloc
  mstep nFather_run (n := kd) (by simp [k1, hkd]) hfa
  mstep modNode_run (n := { owner := A }) (by simp)
  mstep modNode_run (n := { owner := A, father := some (some f) }) (by simp)
  mstep nFather_run (n := kd) (by simp [k1, hkd]) hfa
  mstep M.pure_run _ _
  mstep modNode_run (n := fd) (by simp [f1, hfd])
  mstep nLen_run (n := { fd with end_ := some (some st.nn) }) (by simp) hm
  mstep modNode_run (n := { fd with end_ := some (some st.nn) }) (by simp)
  mstep modNode_run (n := kd) (by simp [k1, hkf, hkd])
  simp

theorem close_end {k f j j1 F : Nat} {c : Byte} {kd fd : Node} {o : Bool} {j0 : Nat}
    (h : Ctx v A p s lim P root st)
    (hk : k ≠ root) (hj : peekAndConsume 0x2C s j = .ok (false, j0)) (hp : peek s j0 = .ok (c, j1))
    (hkd : st.nodes k = some kd) (hfd : st.nodes f = some fd)
    (hfa : kd.father = some (some f)) (hty : fd.type = some (conType o)) :
    parseLoop v A p s lim src (F + 1) .close k j st =
      if c = closer o then parseLoop v A p s lim src F .close f j1
        (st.setN k { kd with next := some none })
      else restore v src st := by
  conv => lhs; unfold parseLoop
  mstep rdVal_run h.vals
  have : ¬ (some k = some root) := by simpa using hk
  simp only [this, if_false, hj]
  mstep lift_ok _
  simp only [Bool.false_eq_true, if_false, hp]
  mstep lift_ok _
  simp only
  mstep nFather_run hkd hfa
  mstep M.pure_run _ _
  mstep nType_run hfd hty
  have e : ((c = 0x7D ∧ conType o = .object) ∨ (c = 0x5D ∧ conType o = .array)) ↔ c = closer o := by
    cases o <;> simp [conType, closer]
  simp only [e]
  split
  · mstep modNode_run hkd
    rfl
  · rfl

theorem close_root {j F : Nat} (h : Ctx v A p s lim P root st) :
    parseLoop v A p s lim src (F + 1) .close root j st =
      parseLoop v A p s lim src F .head root j st := by
  conv => lhs; unfold parseLoop
  mstep rdVal_run h.vals
  simp

theorem open_empty {n i j : Nat} {nd : Node} {o : Bool} {α} (K : Step → M α)
    (hn : st.nodes n = some nd) (hj : peekAndConsume (closer o) s i = .ok (true, j)) :
    (openContainer A s (conType o) (closer o) n i >>= K) st =
      K (.leaf j) (st.setN n { nd with
        type := some (conType o), value := some (.node none), len := some 0 }) := by
  have run : openContainer A s (conType o) (closer o) n i st = .ok (.leaf j, st.setN n { nd with
        type := some (conType o), value := some (.node none), len := some 0 }) := by
    unfold openContainer
    mstep modNode_run hn
    rw [hj]
    mstep lift_ok _
    simp only [if_true]
    mstep modNode_run (n := { nd with type := some (conType o) }) (by simp)
    mstep modNode_run (n := { nd with type := some (conType o), value := some (.node none) })
      (by simp)
    simp
  mstep run
  rfl

theorem open_items {n i j : Nat} {nd : Node} {o : Bool} {α} (K : Step → M α)
    (ha : st.allocs A = true) (hnn : n < st.nn)
    (hn : st.nodes n = some nd) (hj : peekAndConsume (closer o) s i = .ok (false, j)) :
    (openContainer A s (conType o) (closer o) n i >>= K) st =
      K (.desc st.nn j) (((st.addN A).setN st.nn
        { owner := A, father := some (some n), prev := some none }).setN n
        { nd with type := some (conType o), value := some (.node (some st.nn)),
                  end_ := some (some st.nn), len := some 1 }) := by
  have n1 : n ≠ st.nn := by omega
  have n2 : st.nn ≠ n := by omega
  have run : openContainer A s (conType o) (closer o) n i st =
      .ok (.desc st.nn j, ((st.addN A).setN st.nn
        { owner := A, father := some (some n), prev := some none }).setN n
        { nd with type := some (conType o), value := some (.node (some st.nn)),
                  end_ := some (some st.nn), len := some 1 }) := by
    unfold openContainer
    mstep modNode_run hn
    rw [hj]
    mstep lift_ok _
    simp only [Bool.false_eq_true, if_false]
    mstep newNode_run (show (st.setN n _).allocs A = true from ha)
    simp only [setN_nn]
    mstep modNode_run (n := { owner := A }) (by simp)
    mstep modNode_run (n := { owner := A, father := some (some n) }) (by simp)
    mstep modNode_run (n := { nd with type := some (conType o) }) (by simp [n1])
    mstep modNode_run (n := { nd with type := some (conType o), value := some (.node (some st.nn)) })
      (by simp)
    mstep modNode_run (n := { nd with
      type := some (conType o), value := some (.node (some st.nn)),
      end_ := some (some st.nn) }) (by simp)
    simp only [setN_setN, M.pure_run, Res.ok.injEq, Prod.mk.injEq, true_and]
    simp only [St.setN, St.addN]
    congr 1
    funext b
    simp only [upd]
    by_cases hb : b = n
    · simp [hb]
    · simp [hb]
  mstep run
  rfl
end

/-! ### Simulation -/

theorem KeyOK.fields {st P n n' k} (h : KeyOK st P n k) (h1 : n'.key = n.key)
    (h2 : n'.keyLen = n.keyLen) : KeyOK st P n' k := by
  cases k with
  | none => simpa [KeyOK, h1] using h
  | some k => obtain ⟨p, a, b, c⟩ := h; exact ⟨p, by rw [h1, a], by rw [h2, b], c⟩

theorem RepOn.lift {st st' : St} {P : Addr → Prop} {g G : Graph} (h : RepOn st P g) (hg : g.le G)
    (hn : ∀ b, (g b).isSome → st'.nodes b = st.nodes b) (hb : st'.bufs = st.bufs) {a gn}
    (ha : g a = some gn) : ∃ n, st'.nodes a = some n ∧ NodeOK st' P G a gn n := by
  obtain ⟨n, h1, h2⟩ := h a gn ha
  exact ⟨n, by rw [hn a (by simp [ha]), h1],
    h2.mono hg hn (fun _ h => h) (fun _ _ => by rw [hb])⟩

/-- The abstract nodes of an item `k`, its value and the items behind it. -/
def glue (k : Addr) (gk : GNode) (g1 g2 : Graph) : Graph :=
  fun a => if a = k then some gk else (g1 a).or (g2 a)

theorem sprout_glue {g1 g2 : Graph} {gv : GVal} {ks : List Addr} {k f : Addr} {ko : Option Bytes} {N1 N2 : Nat}
    (h1 : Sprout g1 gv.kids) (h2 : Sprout g2 ks) (hd1 : ∀ a x, g1 a = some x → N1 ≤ a ∧ a < N2)
    (hd2 : ∀ a x, g2 a = some x → N2 ≤ a) (hk : k < N1) (hN : k < N2) :
    Sprout (glue k ⟨ko, gv, some f, true, true⟩ g1 g2) (k :: ks) := by
  have e0 : glue k ⟨ko, gv, some f, true, true⟩ g1 g2 k = some ⟨ko, gv, some f, true, true⟩ := by
    simp [ZJ.glue]
  have le1 : g1.le (glue k ⟨ko, gv, some f, true, true⟩ g1 g2) := by
    intro a x ha
    have := hd1 a x ha
    have : a ≠ k := by omega
    simp [ZJ.glue, this, ha]
  have le2 : g2.le (glue k ⟨ko, gv, some f, true, true⟩ g1 g2) := by
    intro a x ha
    have h1 := hd2 a x ha
    have : a ≠ k := by omega
    have h3 : g1 a = none := by
      cases h : g1 a with
      | none => rfl
      | some y => have := hd1 a y h; omega
    simp [ZJ.glue, this, ha, h3]
  intro a x ha
  by_cases hak : a = k
  · subst hak
    rw [e0] at ha; cases ha
    exact ⟨rfl, rfl, rfl, a, by simp, .refl⟩
  · cases h : g1 a with
    | some y =>
      have : y = x := by simpa [ZJ.glue, hak, h] using ha
      subst this
      obtain ⟨q1, q2, q3, c, hc, hr⟩ := h1 a y h
      exact ⟨q1, q2, q3, k, by simp, .step e0 hc (hr.mono le1)⟩
    | none =>
      have h' : g2 a = some x := by simpa [ZJ.glue, hak, h] using ha
      obtain ⟨q1, q2, q3, c, hc, hr⟩ := h2 a x h'
      exact ⟨q1, q2, q3, c, by simp [hc], hr.mono le2⟩

section
variable {A : Nat} {P : Addr → Prop} {st1 st2 st4 : St} {k f : Addr} {kd1 kd2 : Node}
  {gv : GVal} {g1 g2 : Graph} {t : Json} {ks : List Addr} {xs : List (Bytes × Json)}
  {ko : Option Bytes} {key : Bytes} {o : Bool} {pv : Option Addr}

theorem glue_ok (hB : Built A P st1 st2 k kd1 kd2 gv g1 t) (hk : k < st1.nn)
    (hko : KeyIs o ko key) (hkey : KeyOK st1 P kd1 ko) (hfa : kd1.father = some (some f))
    (hpv : kd1.prev = some pv) (hnk : st4.nodes k = some { kd2 with next := some (hdOr ks none) })
    (hn4 : ∀ b, st1.nn ≤ b → b < st2.nn → st4.nodes b = st2.nodes b) (hb4 : st4.bufs = st2.bufs)
    (hrep : RepOn st4 P g2) (hdom : ∀ a x, g2 a = some x → st2.nn ≤ a)
    (hfin : ∀ a x, g2 a = some x → ∃ t, Unf g2 a t)
    (hseg : Seg st4 g2 (some k) ks none) (hunf : UnfI g2 o ks xs)
    (hkid : ∀ x ∈ ks, ∃ gk, g2 x = some gk ∧ gk.par = some f ∧ gk.key.isSome = o) :
    Seg st4 (glue k ⟨ko, gv, some f, true, true⟩ g1 g2) pv (k :: ks) none ∧
    (∀ x ∈ k :: ks, ∃ gk, glue k ⟨ko, gv, some f, true, true⟩ g1 g2 x = some gk ∧
      gk.par = some f ∧ gk.key.isSome = o) ∧
    UnfI (glue k ⟨ko, gv, some f, true, true⟩ g1 g2) o (k :: ks) ((key, t) :: xs) ∧
    RepOn st4 P (glue k ⟨ko, gv, some f, true, true⟩ g1 g2) ∧
    (∀ a x, glue k ⟨ko, gv, some f, true, true⟩ g1 g2 a = some x →
      ∃ t, Unf (glue k ⟨ko, gv, some f, true, true⟩ g1 g2) a t) := by
  have hnn := hB.chg.nn
  have e0 : glue k ⟨ko, gv, some f, true, true⟩ g1 g2 k = some ⟨ko, gv, some f, true, true⟩ := by
    simp [glue]
  have le1 : g1.le (glue k ⟨ko, gv, some f, true, true⟩ g1 g2) := by
    intro a x ha
    have := hB.dom a x ha
    have : a ≠ k := by omega
    simp [glue, this, ha]
  have le2 : g2.le (glue k ⟨ko, gv, some f, true, true⟩ g1 g2) := by
    intro a x ha
    have h1 := hdom a x ha
    have : a ≠ k := by omega
    have h3 : g1 a = none := by
      cases h : g1 a with
      | none => rfl
      | some y => have := hB.dom a y h; omega
    simp [glue, this, ha, h3]
  have same1 : ∀ b, (g1 b).isSome → st4.nodes b = st2.nodes b := by
    intro b hb
    obtain ⟨x, hx⟩ := Option.isSome_iff_exists.1 hb
    have := hB.dom b x hx
    exact hn4 b (by omega) (by omega)
  have hkos : ko.isSome = o := by
    cases o with
    | true => rw [show ko = some key from hko]; rfl
    | false => rw [show ko = none from hko.1]; rfl
  have hbufs : st4.bufs = st1.bufs := by rw [hb4, hB.chg.bufs]
  refine ⟨⟨⟨_, _, hnk, e0, rfl, ?_⟩, hseg.mono le2 fun _ _ => rfl⟩, ?_, ?_, ?_, ?_⟩
  · simp only [if_true]; rw [hB.links.prev, hpv]
  · intro x hx
    rcases List.mem_cons.1 hx with rfl | hx
    · exact ⟨_, e0, rfl, hkos⟩
    · obtain ⟨gk, a, b⟩ := hkid x hx
      exact ⟨gk, le2 _ _ a, b⟩
  · exact .cons e0 hko (.mk e0 (hB.unf.mono le1)) (hunf.mono le2)
  · intro a gn ha
    by_cases hak : a = k
    · subst hak
      rw [e0] at ha; cases ha
      refine ⟨_, hnk, ?_, ?_, ?_, ?_⟩
      · refine KeyOK.fields (n := kd1) ?_ hB.links.key hB.links.keyLen
        exact hkey.mono (fun _ h => h) (fun _ _ => by rw [hbufs])
      · exact (hB.links.father.trans hfa)
      · intro h; cases h
      · refine ValOK.fields (n := kd2) ?_ rfl rfl rfl rfl
        exact hB.val.mono le1 same1 (fun _ h => h) (fun _ _ => by rw [hb4])
    · cases h1 : g1 a with
      | some y =>
        have : y = gn := by simpa [glue, hak, h1] using ha
        subst this
        exact hB.rep.lift le1 same1 hb4 h1
      | none =>
        have h2 : g2 a = some gn := by simpa [glue, hak, h1] using ha
        exact hrep.lift le2 (fun _ _ => rfl) rfl h2
  · intro a gn ha
    by_cases hak : a = k
    · subst hak
      exact ⟨t, .mk e0 (hB.unf.mono le1)⟩
    · cases h1 : g1 a with
      | some y =>
        obtain ⟨t', ht⟩ := hB.fin a y h1
        exact ⟨t', ht.mono le1⟩
      | none =>
        have h2 : g2 a = some gn := by simpa [glue, hak, h1] using ha
        obtain ⟨t', ht⟩ := hfin a gn h2
        exact ⟨t', ht.mono le2⟩
end

theorem numeral_ws {w r : Bytes} {x : Byte} (hw : IsWs w) (hx : isNumeralChar x = false) :
    ∃ c r', w ++ x :: r = c :: r' ∧ isNumeralChar c = false := by
  cases w with
  | nil => exact ⟨x, r, rfl, hx⟩
  | cons c w =>
    refine ⟨c, _, rfl, ?_⟩
    have key : ∀ c, isWs c = true → isNumeralChar c = false := by
      apply allBytes; decide +kernel
    exact key c (hw c (by simp))

theorem EndsAt.tail {p : SPtr} {s : Bytes} {nd : Node} {gv : GVal} {j : Nat} {w r : Bytes} {x : Byte}
    (h : EndsAt p s nd gv j) (hd : s.drop j = w ++ x :: r) (hw : IsWs w)
    (hx : isNumeralChar x = false) {raw : Bytes} (e : gv = .num raw) :
    ∃ k c r, nd.value = some (.str (p.add k)) ∧ k < s.length ∧ s.drop k = raw ++ c :: r ∧
      isNumeralChar c = false := by
  obtain ⟨k, r1, h1, h2, h3, h4⟩ := h raw e
  obtain ⟨c, r', e1, e2⟩ := numeral_ws (r := r) hw hx
  refine ⟨k, c, r', h1, h2, ?_, e2⟩
  have : s.drop j = r1 := by rw [← h4, ← List.drop_drop, h3]; simp
  rw [h3, ← this, hd, e1]

theorem Tails.glue {p : SPtr} {s : Bytes} {st1 st2 st4 : St} {k : Addr} {gv : GVal} {g1 g2 : Graph}
    {kd2 kd4 : Node} {j : Nat} {w r : Bytes} {x : Byte} {ko : Option Bytes} {f : Option Addr}
    (h1 : Tails p s st2 g1) (h2 : Tails p s st4 g2) (hE : EndsAt p s kd2 gv j)
    (hd : s.drop j = w ++ x :: r) (hw : IsWs w) (hx : isNumeralChar x = false)
    (hdom : ∀ a x, g1 a = some x → st1.nn ≤ a ∧ a < st2.nn)
    (hk : st4.nodes k = some kd4) (hv : kd4.value = kd2.value)
    (hn : ∀ b, st1.nn ≤ b → b < st2.nn → st4.nodes b = st2.nodes b) :
    Tails p s st4 (ZJ.glue k ⟨ko, gv, f, true, true⟩ g1 g2) := by
  intro a gn raw ha e
  by_cases hak : a = k
  · subst hak
    have : gn = ⟨ko, gv, f, true, true⟩ := by simpa [ZJ.glue] using ha.symm
    subst this
    obtain ⟨k, c, r, q1, q2⟩ := hE.tail hd hw hx e
    exact ⟨kd4, k, c, r, hk, by rw [hv, q1], q2⟩
  · cases e1 : g1 a with
    | some y =>
      have : y = gn := by simpa [ZJ.glue, hak, e1] using ha
      subst this
      obtain ⟨nd, q⟩ := h1 a y raw e1 e
      have := hdom a y e1
      exact ⟨nd, by rw [hn a this.1 this.2]; exact q⟩
    | none =>
      exact h2 a gn raw (by simpa [ZJ.glue, hak, e1] using ha) e

section
variable (v A : Nat) (p : SPtr) (s : Bytes) (lim : Nat) (src : Option Addr) (P : Addr → Prop)

/-- Simulation of a value at node `n`: `run F` is the code with `F` steps left. -/
def SimV (fin : Nat → Nat → M Bool) (e : Nat) (st : St) (n : Addr) (nd : Node) (i : Nat)
    (run : Nat → Res (Bool × St)) : Res (Option (Json × Nat)) → Prop
  | .ok none => ∃ c st', c ≤ s.length - i ∧ Chg A (· = n) st st' ∧
      ∀ F, run (F + c) = restore v src st'
  | .ok (some (t, j)) => ∃ c st' nd' gv g, c + 1 + i ≤ j + e ∧
      Built A P st st' n nd nd' gv g t ∧ EndsAt p s nd' gv j ∧ Tails p s st' g ∧
      ∀ F, run (F + c) = fin F j st'
  | .ub u => ∃ c, c ≤ s.length - i ∧ ∀ F, run (F + c) = .ub u
  | .timeout => True

/-- Simulation of the items of the container `f`, starting with node `k`. -/
def SimI (st : St) (o : Bool) (f k : Addr) (fd : Node) (m : Nat) (pv : Option Addr) (i : Nat)
    (run : Nat → Res (Bool × St)) : Res (Option (List (Bytes × Json) × Nat)) → Prop
  | .ok none => ∃ c st', c ≤ s.length - i + 1 ∧ Chg A (fun b => b = k ∨ b = f) st st' ∧
      ∀ F, run (F + c) = restore v src st'
  | .ok (some (xs, j)) => ∃ c st' fd' ks g, c + i ≤ j ∧
      BuiltI A P st st' o f fd fd' m pv k ks g xs ∧ Tails p s st' g ∧
      ∀ F, run (F + c) = parseLoop v A p s lim src F .close f j st'
  | .ub u => ∃ c, c ≤ s.length - i + 1 ∧ ∀ F, run (F + c) = .ub u
  | .timeout => True
end

theorem M.bind_assoc {α β γ : Type} (x : M α) (f : α → M β) (g : β → M γ) :
    (x >>= f) >>= g = x >>= fun a => f a >>= g := by
  funext st
  simp only [M.bind_run]
  cases x st with
  | ok r => rfl
  | ub u => rfl
  | timeout => rfl

theorem SimV.weaken {v A : Nat} {p : SPtr} {s : Bytes} {src : Option Addr} {P : Addr → Prop}
    {fin : Nat → Nat → M Bool} {e : Nat} {st : St} {n : Addr} {nd : Node} {i i' : Nat}
    {run : Nat → Res (Bool × St)} {r : Res (Option (Json × Nat))}
    (h : SimV v A p s src P fin e st n nd i' run r) (hi : i ≤ i') :
    SimV v A p s src P fin e st n nd i run r := by
  cases r with
  | timeout => trivial
  | ub u => obtain ⟨c, h1, h2⟩ := h; exact ⟨c, by omega, h2⟩
  | ok x =>
    cases x with
    | none => obtain ⟨c, st', h1, h2⟩ := h; exact ⟨c, st', by omega, h2⟩
    | some x =>
      obtain ⟨c, st', nd', gv, g, h1, h2⟩ := h
      exact ⟨c, st', nd', gv, g, by omega, h2⟩

theorem SimV.congr {v A : Nat} {p : SPtr} {s : Bytes} {src : Option Addr} {P : Addr → Prop}
    {fin : Nat → Nat → M Bool} {e : Nat} {st : St} {n : Addr} {nd : Node} {i : Nat}
    {run run' : Nat → Res (Bool × St)} {r : Res (Option (Json × Nat))}
    (h : SimV v A p s src P fin e st n nd i run r) (hr : ∀ F, run' F = run F) :
    SimV v A p s src P fin e st n nd i run' r := by
  rwa [show run' = run from funext hr]

theorem pKeyOpt_at {o : Bool} {s : Bytes} {i : Nat} (h : At s i) {key j}
    (e : pKeyOpt o s i = .ok (some (key, j))) : At s j ∧ i ≤ j := by
  cases o with
  | false => simp [pKeyOpt] at e; rw [← e.2]; exact ⟨h, Nat.le_refl _⟩
  | true =>
    have := pKey_out (lim := 0) h
    simp only [pKeyOpt, if_true] at e
    rw [e] at this
    obtain ⟨w, w1, _, _, _, _, e, ha⟩ := this
    simp only at e ha
    exact ⟨ha, by omega⟩

theorem pVal_at {s : Bytes} {lim fuel i : Nat} (h : At s i) (hf : 3 * (s.length - i) + 1 ≤ fuel)
    {t j} (e : pVal s lim fuel i = .ok (some (t, j))) : At s j ∧ i < j := by
  have := pVal_out s lim fuel i h hf
  rw [e] at this
  obtain ⟨wv, bv, hwv, hv, hdv, hj, hav⟩ := this
  simp only at hdv hj hav hv
  obtain ⟨c, q, hb, _⟩ := hv.head
  have : 0 < bv.length := by rw [hb]; simp
  exact ⟨hav, by omega⟩

section
variable {v A : Nat} {p : SPtr} {s : Bytes} {lim : Nat} {src : Option Addr} {P : Addr → Prop}
  {root : Addr}

mutual
theorem simVal : ∀ (fuel : Nat) {i n : Nat} {nd : Node} {st : St} {fin : Nat → Nat → M Bool}
    {e : Nat}, Ctx v A p s lim P root st → At s i → 3 * (s.length - i) + 1 ≤ fuel →
    st.nodes n = some nd → n < st.nn →
    (∀ F j st', Ctx v A p s lim P root st' →
      parseLoop v A p s lim src (F + e) .close n j st' = fin F j st') →
    SimV v A p s src P fin e st n nd i
      (fun F => (switchValue A p s lim n i >>= afterSwitch v A p s lim src fin F) st)
      (pVal s lim fuel i)
  | 0 => by intros; omega
  | fuel + 1 => by
    intro hc hat hfu hn hnn hfin
    rename_i i n nd st fin e
    obtain ⟨w, ch, hw, hch, e1, hd, ha, hr⟩ := hat.peek
    have hlt := ha.1.lt
    have con : ∀ o : Bool, ch = (if o then 0x7B else 0x5B) →
        SimV v A p s src P fin e st n nd i
          (fun F => (openContainer A s (conType o) (closer o) n (i + w.length + 1) >>=
            afterSwitch v A p s lim src fin F) st) (pCon s lim o fuel (i + w.length + 1)) := by
      intro o ho
      have ha' := ha.succ hr (by rw [ho]; cases o <;> decide)
      refine (simCon fuel (o := o) hc ha' (by omega) hn hnn hfin (by omega)).weaken (by omega)
    simp only [pVal, e1, Res.ok_bind]
    by_cases h1 : ch = 0x5B
    · simp only [h1, if_true]
      refine (con false h1).congr fun F => ?_
      unfold switchValue
      rw [M.bind_assoc, e1]
      mstep lift_ok _
      simp only [h1, if_true]
      rfl
    by_cases h2 : ch = 0x7B
    · simp only [h2, if_true, if_false, show ((0x7B : Byte) = 0x5B) = False by decide]
      refine (con true h2).congr fun F => ?_
      unfold switchValue
      rw [M.bind_assoc, e1]
      mstep lift_ok _
      simp only [h2, if_true, if_false, show ((0x7B : Byte) = 0x5B) = False by decide]
      rfl
    · simp only [h1, h2, if_false]
      have hS := switch_scalar (A := A) hc.text e1 h1 h2 hn (by simpa using ha) (by simpa using hr)
        (by omega)
      have hO := pScalar_out (lim := lim) ha hr
      cases hp : pScalar s lim ch (i + w.length + 1) with
      | timeout => trivial
      | ub u =>
        rw [hp] at hS
        refine ⟨0, by omega, fun F => ?_⟩
        simp only [M.bind_run, hS]
      | ok x =>
        rw [hp] at hS hO
        cases x with
        | none =>
          refine ⟨0, st, by omega, Chg.refl st, fun F => ?_⟩
          mstep hS
          rfl
        | some x =>
          obtain ⟨t, j⟩ := x
          obtain ⟨gv, q, h3, h4, h5, hE, h6⟩ := hS
          obtain ⟨b, hb, _, hj, _⟩ := hO
          simp only at hb hj
          obtain ⟨c', q', hb', _⟩ := hb.head
          have : 0 < b.length := by rw [hb']; simp
          refine ⟨0, st.setN n (nd.putS gv q), nd.putS gv q, gv, fun _ => none, by omega,
            ⟨by simp, ⟨rfl, rfl, rfl, rfl, rfl, rfl⟩, ?_, ?_, ?_, ?_,
            (by intro a gn h; cases h), Chg.setN hn rfl rfl, nofun⟩, hE, (by intro a gn raw h; cases h),
            fun F => ?_⟩
          · exact (ValOK.scalar h3).2 ⟨rfl, q, rfl, rfl, h5⟩
          · rw [← h4]; exact .scalar h3
          · intro a gn h; cases h
          · intro a gn h; cases h
          · mstep h6
            rfl
theorem simCon : ∀ (fuel : Nat) {o : Bool} {i n : Nat} {nd : Node} {st : St}
    {fin : Nat → Nat → M Bool} {e : Nat}, Ctx v A p s lim P root st → At s i →
    3 * (s.length - i) + 3 ≤ fuel → st.nodes n = some nd → n < st.nn →
    (∀ F j st', Ctx v A p s lim P root st' →
      parseLoop v A p s lim src (F + e) .close n j st' = fin F j st') → 1 ≤ i →
    SimV v A p s src P fin e st n nd (i - 1)
      (fun F => (openContainer A s (conType o) (closer o) n i >>=
        afterSwitch v A p s lim src fin F) st)
      (pCon s lim o fuel i)
  | 0 => by intros; omega
  | fuel + 1 => by
    intro hc hat hfu hn hnn hfin hi
    rename_i o i n nd st fin e
    have hlt := hat.1.lt
    have hcl : closer o ≠ 0 := by cases o <;> decide
    rcases hat.peekAndConsume (closer o) hcl with ⟨w, hw, e1, hd, ha⟩ |
      ⟨w, c, hw, hcw, hne, e1, hd, ha, hr⟩
    · simp only [pCon, e1, Res.ok_bind, if_true, Res.pure_eq]
      refine ⟨0, st.setN n { nd with
        type := some (conType o), value := some (.node none), len := some 0 }, { nd with
        type := some (conType o), value := some (.node none), len := some 0 },
        .con o [], fun _ => none, by omega,
        ⟨by simp, ⟨rfl, rfl, rfl, rfl, rfl, rfl⟩, ?_, ?_, ?_, ?_,
            (by intro a gn h; cases h), Chg.setN hn rfl rfl, nofun⟩, nofun,
        (by intro a gn raw h; cases h), fun F => open_empty _ hn e1⟩
      · exact ⟨rfl, rfl, rfl, by simp, trivial, by simp, by simp⟩
      · exact .con .nil
      · intro a gn h; cases h
      · intro a gn h; cases h
    · simp only [pCon, e1, Res.ok_bind, Bool.false_eq_true, if_false]
      have step := fun F => open_items (afterSwitch v A p s lim src fin F) hc.alloc hnn hn e1
      have n1 : n ≠ st.nn := by omega
      generalize hst1 : ((st.addN A).setN st.nn
        { owner := A, father := some (some n), prev := some none }).setN n
        { nd with type := some (conType o), value := some (.node (some st.nn)),
                  end_ := some (some st.nn), len := some 1 } = st1 at step
      have chg1 : Chg A (· = n) st st1 := by
        rw [← hst1]
        have h1 : Chg A (· = n) st ((st.addN A).setN st.nn
            { owner := A, father := some (some n), prev := some none }) :=
          Chg.trans Chg.addN (Chg.setN (S := (· = st.nn)) (nd := { owner := A }) (by simp) rfl rfl)
            (by intro b hb; right; simp at hb ⊢; omega)
        refine h1.trans (Chg.setN (S := (· = n)) (nd := nd) (by simp [n1, hn]) rfl rfl) ?_
        intro b hb; exact .inl hb
      have nn1 : st1.nn = st.nn + 1 := by rw [← hst1]; simp
      have hc1 := hc.chg chg1
      have hk1 : st1.nodes st.nn =
          some { owner := A, father := some (some n), prev := some none } := by
        rw [← hst1]; simp [Ne.symm n1]
      have hn1 : st1.nodes n =
          some { nd with type := some (conType o), value := some (.node (some st.nn)),
                         end_ := some (some st.nn), len := some 1 } := by
        rw [← hst1]; simp
      have hroot := hc.root
      have hlw := ha.1.lt
      have hI := simItems fuel (o := o) (i := i + w.length) hc1 ha (by omega) hk1 rfl rfl
        (by omega) (Ne.symm n1) (by omega) (by omega) hn1 rfl rfl rfl
      cases hi : pItems s lim o fuel (i + w.length) with
      | timeout => simp [SimV]
      | ub u =>
        rw [hi] at hI
        obtain ⟨c2, hc2b, hI⟩ := hI
        simp only [Res.ub_bind, SimV]
        refine ⟨c2, by omega, fun F => ?_⟩
        rw [step]
        exact hI F
      | ok x =>
        rw [hi] at hI
        simp only [Res.ok_bind]
        cases x with
        | none =>
          obtain ⟨c2, st2, hc2b, hch2, hI⟩ := hI
          simp only [Res.pure_eq, SimV]
          refine ⟨c2, st2, by omega, Chg.trans chg1 hch2 ?_, fun F => ?_⟩
          · rintro b (hb | hb)
            · right; omega
            · exact .inl hb
          · rw [step]
            exact hI F
        | some x =>
          obtain ⟨xs, j'⟩ := x
          obtain ⟨c2, st2, fd2, ks, g2, hc2b, hBI, hTs, hI⟩ := hI
          have hc2 := hc1.chg hBI.chg
          have hn12 := hBI.chg.nn
          simp only [Res.pure_eq, SimV]
          refine ⟨e + c2, st2, fd2, .con o (st.nn :: ks), g2, by omega,
            ⟨hBI.node, ?_, ?_, ?_, hBI.rep, ?_, hBI.fin, ?_, hBI.new⟩, nofun, hTs, fun F => ?_⟩
          · have l := hBI.links
            exact ⟨l.owner, l.key, l.keyLen, l.next, l.prev, l.father⟩
          · refine ⟨hBI.type, hBI.value, ?_, fun _ _ => hBI.end_, hBI.seg, ?_, hBI.kid⟩
            · rw [hBI.len]; simp only [List.length_cons]; congr 1; omega
            · refine List.nodup_cons.2 ⟨fun h => ?_, hBI.nodup⟩
              have := hBI.fresh _ h
              omega
          · exact .con hBI.unf
          · intro a x hax
            have := hBI.dom a x hax
            omega
          · refine Chg.trans chg1 hBI.chg ?_
            rintro b (hb | hb)
            · right; omega
            · exact .inl hb
          · rw [step, ← Nat.add_assoc]
            refine (hI (F + e)).trans ?_
            exact hfin F j' st2 hc2
theorem simItems : ∀ (fuel : Nat) {o : Bool} {i k f m : Nat} {kd fd : Node} {st : St}
    {pv : Option Addr}, Ctx v A p s lim P root st → At s i → 3 * (s.length - i) + 2 ≤ fuel →
    st.nodes k = some kd → kd.father = some (some f) → kd.prev = some pv → k ≠ root → k ≠ f →
    k < st.nn → f < st.nn → st.nodes f = some fd → fd.type = some (conType o) →
    fd.len = some m → fd.end_ = some (some k) →
    SimI v A p s lim src P st o f k fd m pv i
      (fun F => parseLoop v A p s lim src F .head k i st) (pItems s lim o fuel i)
  | 0 => by intros; omega
  | fuel + 1 => by
    intro hc hat hfu hk hfa hpv hkr hkf hkn hfn hf hty hm hend
    rename_i o i k f m kd fd st pv
    have hlen := hat.1.lt
    have hK := parseKey_sim (A := A) hc.text hat hk hf hfa hty
    have head : ∀ F, parseLoop v A p s lim src (F + 1) .head k i st = _ := fun F => loop_head hc hkr
    simp only [pItems]
    cases hp : pKeyOpt o s i with
    | timeout => simp [SimI]
    | ub u =>
      rw [hp] at hK
      simp only [Res.ub_bind, SimI]
      refine ⟨1, by omega, fun F => ?_⟩
      rw [head F]
      simp only [M.bind_run, hK]
    | ok x =>
      rw [hp] at hK
      simp only [Res.ok_bind]
      cases x with
      | none =>
        obtain ⟨st', h1, h2⟩ := hK
        simp only [Res.pure_eq, SimI]
        refine ⟨1, st', by omega, Chg.trans (Chg.refl st) h1 (fun b hb => .inl (.inl hb)), fun F => ?_⟩
        rw [head F]
        mstep h2
        rfl
      | some x =>
        obtain ⟨key, i1⟩ := x
        obtain ⟨ha1, hi1⟩ := pKeyOpt_at hat hp
        obtain ⟨ko, kd1, hki, hko, hown1, hfa1, hpv1, hrun⟩ := hK
        have head1 : ∀ F, parseLoop v A p s lim src (F + 1) .head k i st =
            (switchValue A p s lim k i1 >>= afterSwitch v A p s lim src
              (fun F i => parseLoop v A p s lim src F .close k i) F) (st.setN k kd1) := by
          intro F
          rw [head F]
          mstep hrun
          rfl
        clear head
        have hc1 : Ctx v A p s lim P root (st.setN k kd1) := 
          hc.chg (Chg.setN (S := (· = k)) hk hown1 rfl)
        have hV := simVal fuel (n := k) (nd := kd1)
          (fin := fun F i => parseLoop v A p s lim src F .close k i) (e := 0) hc1 ha1 (by omega)
          (by simp) hkn (fun F j st' _ => rfl)
        simp only
        cases hv : pVal s lim fuel i1 with
        | timeout => simp [SimI]
        | ub u =>
          rw [hv] at hV
          obtain ⟨c, hcb, hV⟩ := hV
          simp only [Res.ub_bind, SimI]
          refine ⟨c + 1, by omega, fun F => ?_⟩
          rw [show F + (c + 1) = (F + c) + 1 by omega, head1]
          exact hV F
        | ok x =>
          rw [hv] at hV
          simp only [Res.ok_bind]
          cases x with
          | none =>
            obtain ⟨c, st', hcb, hch, hV⟩ := hV
            simp only [Res.pure_eq, SimI]
            refine ⟨c + 1, st', by omega, ?_, fun F => ?_⟩
            · exact Chg.trans (Chg.setN hk hown1 (.inl rfl)) hch (fun b hb => .inl (.inl hb))
            · rw [show F + (c + 1) = (F + c) + 1 by omega, head1]
              exact hV F
          | some x =>
            obtain ⟨t, j⟩ := x
            obtain ⟨haj, hij⟩ := pVal_at ha1 (by omega) hv
            obtain ⟨c, st2, kd2, gv, g1, hcb, hB, hE, hTs, hV⟩ := hV
            have hlj := haj.1.lt
            have hc2 := hc1.chg hB.chg
            have hn12 : st.nn ≤ st2.nn := hB.chg.nn
            have hf2 : st2.nodes f = some fd := by
              rw [hB.chg.nodes f (Ne.symm hkf) (.inl hfn)]
              simp [Ne.symm hkf, hf]
            have hfa2 : kd2.father = some (some f) := by rw [hB.links.father, hfa1, hfa]
            have chg2 : Chg A (fun b => b = k ∨ b = f) st st2 :=
              Chg.trans (Chg.setN hk hown1 (.inl rfl)) hB.chg (fun b hb => .inl (.inl hb))
            simp only
            rcases haj.peekAndConsume 0x2C (by decide) with ⟨w, hw, e, hd, ha⟩ |
              ⟨w, ch, hw, hch, hne, e, hd, ha, hr⟩
            · simp only [e, Res.ok_bind, if_true]
              have step := fun F => close_comma (src := src) (F := F) hc2 hkr e hB.node hf2 hkf
                (by omega) (by omega) hfa2 hm
              generalize hst3 : (((st2.addN A).setN st2.nn
                { owner := A, father := some (some f), prev := some (some k) }).setN f
                { fd with end_ := some (some st2.nn), len := some (m + 1) }).setN k
                { kd2 with next := some (some st2.nn) } = st3 at step
              have k1 : k ≠ st2.nn := by omega
              have f1 : f ≠ st2.nn := by omega
              have chg3 : Chg A (fun b => b = k ∨ b = f) st2 st3 := by
                rw [← hst3]
                have h1 : Chg A (fun b => b = k ∨ b = f) st2 ((st2.addN A).setN st2.nn
                    { owner := A, father := some (some f), prev := some (some k) }) :=
                  Chg.trans Chg.addN
                    (Chg.setN (S := (· = st2.nn)) (nd := { owner := A }) (by simp) rfl rfl)
                    (by intro b hb; right; simp at hb ⊢; omega)
                have h2 := h1.trans (Chg.setN (S := (· = f)) (a := f) (nd := fd)
                  (n := { fd with end_ := some (some st2.nn), len := some (m + 1) })
                  (by simp [f1, hf2]) rfl rfl) (fun b hb => .inl (.inr hb))
                exact h2.trans (Chg.setN (S := (· = k)) (nd := kd2)
                  (by simp [k1, hkf, hB.node]) rfl rfl) (fun b hb => .inl (.inl hb))
              have nn3 : st3.nn = st2.nn + 1 := by rw [← hst3]; simp
              have hc3 := hc2.chg chg3
              have hn3 : st3.nodes st2.nn =
                  some { owner := A, father := some (some f), prev := some (some k) } := by
                rw [← hst3]; simp [Ne.symm k1, Ne.symm f1]
              have hf3 : st3.nodes f =
                  some { fd with end_ := some (some st2.nn), len := some (m + 1) } := by
                rw [← hst3]; simp [Ne.symm hkf]
              have hk3 : st3.nodes k = some { kd2 with next := some (some st2.nn) } := by
                rw [← hst3]; simp
              have hroot2 := hc2.root
              have hI := simItems fuel (o := o) (i := j + w.length + 1) hc3 ha (by omega) hn3 rfl rfl
                (by omega) (Ne.symm f1) (by omega) (by omega) hf3 hty rfl rfl
              cases hi : pItems s lim o fuel (j + w.length + 1) with
              | timeout => simp [SimI]
              | ub u =>
                rw [hi] at hI
                obtain ⟨c2, hc2b, hI⟩ := hI
                simp only [Res.ub_bind, SimI]
                refine ⟨c2 + 1 + c + 1, by omega, fun F => ?_⟩
                rw [show F + (c2 + 1 + c + 1) = (F + c2 + 1 + c) + 1 by omega, head1]
                refine (hV (F + c2 + 1)).trans ?_
                simp only
                rw [step]
                exact hI F
              | ok x =>
                rw [hi] at hI
                simp only [Res.ok_bind]
                cases x with
                | none =>
                  obtain ⟨c2, st4, hc2b, hch4, hI⟩ := hI
                  simp only [Res.pure_eq, SimI]
                  refine ⟨c2 + 1 + c + 1, st4, by omega, ?_, fun F => ?_⟩
                  · refine Chg.trans (Chg.trans chg2 chg3 fun b hb => .inl hb) hch4 ?_
                    rintro b (hb | hb)
                    · right; omega
                    · exact .inl (.inr hb)
                  · rw [show F + (c2 + 1 + c + 1) = (F + c2 + 1 + c) + 1 by omega, head1]
                    refine (hV (F + c2 + 1)).trans ?_
                    simp only
                    rw [step]
                    exact hI F
                | some x =>
                  obtain ⟨xs, j'⟩ := x
                  obtain ⟨c2, st4, fd4, ks, g2, hc2b, hBI, hTs2, hI⟩ := hI
                  simp only [Res.pure_eq, SimI]
                  have hn34 : st3.nn ≤ st4.nn := hBI.chg.nn
                  have hG := glue_ok (st4 := st4) (ks := st2.nn :: ks) (g2 := g2) (xs := xs) (o := o)
                    (key := key) (f := f) (pv := pv)
                    hB hkn hki (hko.mono (fun _ h => h) (fun _ _ => rfl)) (by rw [hfa1, hfa])
                    (by rw [hpv1, hpv])
                    (by rw [hBI.chg.nodes k (by omega) (.inl (by omega)), hk3]; rfl)
                    (by
                      intro b hb1 hb2
                      simp only [setN_nn] at hb1
                      rw [hBI.chg.nodes b (by omega) (.inl (by omega)),
                        chg3.nodes b (by omega) (.inl hb2)])
                    (by rw [hBI.chg.bufs, chg3.bufs]) hBI.rep
                    (by
                      intro a x hax
                      have := hBI.dom a x hax
                      omega) hBI.fin hBI.seg hBI.unf hBI.kid
                  obtain ⟨hG1, hG2, hG3, hG4, hG5⟩ := hG
                  have hTG := Tails.glue (st4 := st4) (k := k)
                    (kd4 := { kd2 with next := some (some st2.nn) }) (ko := ko) (f := some f) hTs hTs2 hE hd hw
                    (by decide) hB.dom
                    (by rw [hBI.chg.nodes k (by omega) (.inl (by omega)), hk3]) rfl
                    (by
                      intro b hb1 hb2
                      simp only [setN_nn] at hb1
                      rw [hBI.chg.nodes b (by omega) (.inl (by omega)),
                        chg3.nodes b (by omega) (.inl hb2)])
                  refine ⟨c2 + 1 + c + 1, st4, fd4, st2.nn :: ks, _, by omega,
                    ⟨hBI.node, ?_, hBI.type, hBI.value, ?_, hBI.end_, hG1, ?_, ?_, hG2, hG3, hG4,
                    ?_, hG5, ?_, sprout_glue hB.new hBI.new hB.dom (by
                      intro a x hax
                      have := hBI.dom a x hax
                      omega) hkn (by omega)⟩, hTG, fun F => ?_⟩
                  · have l := hBI.links
                    exact ⟨l.owner, l.key, l.keyLen, l.next, l.prev, l.father⟩
                  · rw [hBI.len]; simp only [List.length_cons]; congr 1; omega
                  · intro x hx
                    rcases List.mem_cons.1 hx with rfl | hx
                    · exact hn12
                    · have := hBI.fresh x hx; omega
                  · refine List.nodup_cons.2 ⟨fun h => ?_, hBI.nodup⟩
                    have := hBI.fresh _ h
                    omega
                  · intro a x hax
                    simp only [glue] at hax
                    split at hax
                    · exact .inl ‹_›
                    · right
                      cases h1 : g1 a with
                      | some y => have := hB.dom a y h1; simp only [setN_nn] at this; omega
                      | none =>
                        rw [h1] at hax
                        have := hBI.dom a x hax
                        omega
                  · refine Chg.trans (Chg.trans chg2 chg3 fun b hb => .inl hb) hBI.chg ?_
                    rintro b (hb | hb)
                    · right; omega
                    · exact .inl (.inr hb)
                  · rw [show F + (c2 + 1 + c + 1) = (F + c2 + 1 + c) + 1 by omega, head1]
                    refine (hV (F + c2 + 1)).trans ?_
                    simp only
                    rw [step]
                    exact hI F
            · have hp2 := peek_ws (w := []) (by simp [IsWs]) hch (rd_ok hr)
              simp only [List.length_nil, Nat.add_zero] at hp2
              simp only [e, Res.ok_bind, Bool.false_eq_true, if_false, hp2]
              have step := fun F => close_end (src := src) (F := F) hc2 hkr e hp2 hB.node hf2
                hfa2 hty
              have hlw := ha.1.lt
              by_cases ecl : ch = closer o
              · simp only [ecl, if_true] at step ⊢
                simp only [Res.pure_eq, SimI]
                have hG := glue_ok (st4 := st2.setN k { kd2 with next := some none }) (ks := [])
                    (g2 := fun _ => none) (xs := []) (o := o)
                    (key := key) (f := f) (pv := pv)
                    hB hkn hki (hko.mono (fun _ h => h) (fun _ _ => rfl)) (by rw [hfa1, hfa])
                    (by rw [hpv1, hpv]) (by simp)
                    (by
                      intro b hb1 hb2
                      simp only [setN_nn] at hb1
                      have : b ≠ k := by omega
                      simp [this])
                    rfl (by intro a gn h; cases h)
                    (by
                      intro a x hax
                      cases hax) (by intro a gn h; cases h) trivial .nil (by simp)
                obtain ⟨hG1, hG2, hG3, hG4, hG5⟩ := hG
                have hTG := Tails.glue (st4 := st2.setN k { kd2 with next := some none }) (k := k)
                    (kd4 := { kd2 with next := some none })
                    (g2 := fun _ => none) (ko := ko) (f := some f) hTs
                    (by intro a gn raw h; cases h) hE
                    (by rw [rd_ok hr] at hd; exact hd) hw
                    (by rw [ecl]; cases o <;> decide) hB.dom (by simp) rfl
                    (by
                      intro b hb1 hb2
                      simp only [setN_nn] at hb1
                      have : b ≠ k := by omega
                      simp [this])
                refine ⟨1 + c + 1, st2.setN k { kd2 with next := some none }, fd, [], _, by omega,
                    ⟨by simp [Ne.symm hkf, hf2], SameLinks.refl _, rfl, rfl, hm, hend, hG1,
                    by simp, by simp, hG2, hG3, hG4, ?_, hG5, ?_, sprout_glue (ks := []) hB.new nofun hB.dom nofun hkn (by omega)⟩, hTG, fun F => ?_⟩
                · intro a x hax
                  simp only [glue] at hax
                  split at hax
                  · exact .inl ‹_›
                  · right
                    cases h1 : g1 a with
                    | some y => have := hB.dom a y h1; simp only [setN_nn] at this; simp; omega
                    | none =>
                      rw [h1] at hax
                      cases hax
                · exact Chg.trans chg2 (Chg.setN (S := (· = k)) hB.node rfl rfl) (fun b hb => .inl (.inl hb))
                · rw [show F + (1 + c + 1) = (F + 1 + c) + 1 by omega, head1]
                  refine (hV (F + 1)).trans ?_
                  simp only
                  rw [step]
              · simp only [ecl, if_false] at step ⊢
                simp only [Res.pure_eq, SimI]
                refine ⟨1 + c + 1, st2, by omega, chg2, fun F => ?_⟩
                rw [show F + (1 + c + 1) = (F + 1 + c) + 1 by omega, head1]
                refine (hV (F + 1)).trans ?_
                simp only
                rw [step]
end
end

end ZJ
