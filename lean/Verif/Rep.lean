import Verif.Run
import Verif.Grammar

/-
How the memory of the library represents documents.

`Graph` is the abstract store: a map from node addresses to abstract nodes with an
ordered list of children. `RepOn st P G` says that the memory `st` represents `G`,
where strings may live in the byte blocks of `P`. `Unf G a t` says that the
document below node `a` is `t`.
-/

set_option linter.unusedSimpArgs false

namespace ZJ

/-- Value of an abstract node: a scalar with its text, or a container with its
children in order. -/
inductive GVal where
  | null
  | bool (b : Bool)
  | num (raw : Bytes)
  | str (raw : Bytes)
  | con (obj : Bool) (kids : List Addr)
deriving DecidableEq, Repr

def conType (o : Bool) : JType := if o then .object else .array

def GVal.type : GVal → JType
  | .null => .null
  | .bool _ => .bool
  | .num _ => .number
  | .str _ => .string
  | .con o _ => conType o

/-- The text a scalar node stores. -/
def GVal.text : GVal → Bytes
  | .null => b!"null"
  | .bool true => b!"true"
  | .bool false => b!"false"
  | .num raw => raw
  | .str raw => raw
  | .con _ _ => []

def GVal.isCon : GVal → Bool
  | .con _ _ => true
  | _ => false

def GVal.kids : GVal → List Addr
  | .con _ ks => ks
  | _ => []

/-- The document of a scalar. -/
def GVal.doc : GVal → Json
  | .null => .null
  | .bool b => .bool b
  | .num raw => .num raw
  | .str raw => .str raw
  | .con o _ => mkCon o []

/-- An abstract node. `prevOK` / `endOK`: whether the back link of the node / the
pointer to the last child can be relied on (`zj_Move` may destroy them). -/
structure GNode where
  key : Option Bytes
  val : GVal
  par : Option Addr
  prevOK : Bool := true
  endOK : Bool := true
deriving DecidableEq, Repr

abbrev Graph := Addr → Option GNode

/-! ### The document below a node -/

/-- The key of a child of an object (`o`) or of an array. -/
def KeyIs (o : Bool) (k : Option Bytes) (key : Bytes) : Prop :=
  if o then k = some key else k = none ∧ key = []

mutual
/-- `Unf G a t`: the document at node `a` is `t`. -/
inductive Unf (G : Graph) : Addr → Json → Prop where
  | mk {a gn t} : G a = some gn → UnfV G gn.val t → Unf G a t
inductive UnfV (G : Graph) : GVal → Json → Prop where
  | scalar {gv} : gv.isCon = false → UnfV G gv gv.doc
  | con {o kids xs} : UnfI G o kids xs → UnfV G (.con o kids) (mkCon o xs)
inductive UnfI (G : Graph) : Bool → List Addr → List (Bytes × Json) → Prop where
  | nil {o} : UnfI G o [] []
  | cons {o k ks gk key t xs} : G k = some gk → KeyIs o gk.key key → Unf G k t →
      UnfI G o ks xs → UnfI G o (k :: ks) ((key, t) :: xs)
end

/-- Bytes asked of all allocators together. -/
def total : List Ev → Nat
  | [] => 0
  | .alloc _ n :: l => n + total l
  | _ :: l => total l

/-- `g` is part of `G`. -/
def Graph.le (g G : Graph) : Prop := ∀ a x, g a = some x → G a = some x

mutual
theorem Unf.mono {g G : Graph} (h : g.le G) : ∀ {a t}, Unf g a t → Unf G a t
  | _, _, .mk ha hv => .mk (h _ _ ha) (UnfV.mono h hv)
theorem UnfV.mono {g G : Graph} (h : g.le G) : ∀ {gv t}, UnfV g gv t → UnfV G gv t
  | _, _, .scalar hs => .scalar hs
  | _, _, .con hi => .con (UnfI.mono h hi)
theorem UnfI.mono {g G : Graph} (h : g.le G) : ∀ {o ks xs}, UnfI g o ks xs → UnfI G o ks xs
  | _, _, _, .nil => .nil
  | _, _, _, .cons hk hkey hu hr => .cons (h _ _ hk) hkey (Unf.mono h hu) (UnfI.mono h hr)
end

mutual
theorem Unf.det {G : Graph} : ∀ {a t t'}, Unf G a t → Unf G a t' → t = t'
  | _, _, _, .mk ha hv, .mk ha' hv' => by
    rw [ha] at ha'; cases ha'; exact UnfV.det hv hv'
theorem UnfV.det {G : Graph} : ∀ {gv t t'}, UnfV G gv t → UnfV G gv t' → t = t'
  | _, _, _, .scalar hs, h' => by
    cases h' with
    | scalar => rfl
    | con => cases hs
  | _, _, _, .con h, h' => by
    cases h' with
    | scalar h => cases h
    | con h' => rw [UnfI.det h h']
theorem UnfI.det {G : Graph} : ∀ {o ks xs xs'}, UnfI G o ks xs → UnfI G o ks xs' → xs = xs'
  | _, _, _, _, .nil, h' => by cases h'; rfl
  | _, _, _, _, .cons hk hkey hu hr, h' => by
    cases h' with
    | cons hk' hkey' hu' hr' =>
      rw [hk] at hk'; cases hk'
      rw [Unf.det hu hu', UnfI.det hr hr']
      congr 2
      unfold KeyIs at hkey hkey'
      split at hkey
      · rename_i ho; rw [if_pos ho] at hkey'; rw [hkey] at hkey'; cases hkey'; rfl
      · rename_i ho; rw [if_neg ho] at hkey'; rw [hkey.2, hkey'.2]
end

theorem UnfI.length {G : Graph} : ∀ {o ks xs}, UnfI G o ks xs → ks.length = xs.length
  | _, _, _, .nil => rfl
  | _, _, _, .cons _ _ _ hr => by simp [UnfI.length hr]

theorem UnfI.app {G : Graph} : ∀ {o ks xs ks' xs'}, UnfI G o ks xs → UnfI G o ks' xs' →
    UnfI G o (ks ++ ks') (xs ++ xs')
  | _, _, _, _, _, .nil, h' => h'
  | _, _, _, _, _, .cons hk hkey hu hr, h' => .cons hk hkey hu (UnfI.app hr h')

/-! ### Strings in memory -/

/-- The `raw.length` bytes at `p` are `raw`; a byte block they lie in is one of `P`. -/
def StrAt (st : St) (P : Addr → Prop) (p : SPtr) (raw : Bytes) : Prop :=
  match p with
  | .lit s => ∃ r, s.bytes ++ [0] = raw ++ r
  | .buf b off => P b ∧ ∃ bf r, st.bufs b = some bf ∧ bf.data.drop off = raw ++ r

theorem StrAt.mono {st st' : St} {P P' : Addr → Prop} {p raw} (h : StrAt st P p raw)
    (hP : ∀ b, P b → P' b) (hb : ∀ b, P b → st'.bufs b = st.bufs b) : StrAt st' P' p raw := by
  cases p with
  | lit s => exact h
  | buf b off =>
    obtain ⟨hp, bf, r, hbf, hd⟩ := h
    exact ⟨hP b hp, bf, r, by rw [hb b hp, hbf], hd⟩

theorem StrAt.view {st : St} {P p raw} (h : StrAt st P p raw) :
    ∃ r lim, view p st = .ok ((raw ++ r, lim), st) := by
  cases p with
  | lit s => obtain ⟨r, h⟩ := h; exact ⟨r, s.bytes.length + 1, by simp [ZJ.view, h]⟩
  | buf b off =>
    obtain ⟨_, bf, r, hbf, hd⟩ := h
    exact ⟨r, bf.size + bf.slack - off, by simp [ZJ.view, hbf, hd]⟩

theorem StrAt.readN {st : St} {P p raw} (h : StrAt st P p raw)
    (hs : ∀ b bf, st.bufs b = some bf → bf.data.length ≤ bf.size) :
    readN p raw.length st = .ok (raw, st) := by
  cases p with
  | lit s =>
    obtain ⟨r, h⟩ := h
    have : raw.length ≤ s.bytes.length + 1 := by
      have := congrArg List.length h; simp at this; omega
    simp [ZJ.readN, this, h]
  | buf b off =>
    obtain ⟨_, bf, r, hbf, hd⟩ := h
    simp only [ZJ.readN, hbf]
    by_cases h0 : raw.length = 0
    · have : raw = [] := List.length_eq_zero_iff.1 h0
      simp [this]
    · have hl := congrArg List.length hd
      simp at hl
      have := hs b bf hbf
      have g1 : ¬ bf.size < off + raw.length := by omega
      have g2 : ¬ bf.data.length < off + raw.length := by omega
      simp [h0, g1, g2, hd]

/-! ### Nodes in memory -/

/-- First element, or `nx`. -/
def hdOr (ks : List Addr) (nx : Option Addr) : Option Addr :=
  match ks with
  | [] => nx
  | k :: _ => some k

/-- Last element, or `pv`. -/
def lastOr (pv : Option Addr) (ks : List Addr) : Option Addr :=
  match ks with
  | [] => pv
  | k :: ks => lastOr (some k) ks

@[simp] theorem hdOr_nil {nx} : hdOr [] nx = nx := rfl
@[simp] theorem hdOr_cons {k ks nx} : hdOr (k :: ks) nx = some k := rfl
@[simp] theorem lastOr_nil {pv} : lastOr pv [] = pv := rfl
@[simp] theorem lastOr_cons {pv k ks} : lastOr pv (k :: ks) = lastOr (some k) ks := rfl

theorem lastOr_append {pv : Option Addr} {l : List Addr} {r : List Addr} :
    lastOr pv (l ++ r) = lastOr (lastOr pv l) r := by
  induction l generalizing pv with
  | nil => rfl
  | cons a l ih => simp [ih]

theorem hdOr_append {l r : List Addr} {nx : Option Addr} :
    hdOr (l ++ r) nx = hdOr l (hdOr r nx) := by
  cases l <;> rfl

/-- The nodes `ks` are linked in this order between `pv` and `nx`. A back link that
is not reliable (`prevOK = false`) is null. -/
def Seg (st : St) (G : Graph) : Option Addr → List Addr → Option Addr → Prop
  | _, [], _ => True
  | pv, k :: ks, nx =>
    (∃ n gk, st.nodes k = some n ∧ G k = some gk ∧ n.next = some (hdOr ks nx) ∧
      n.prev = some (if gk.prevOK then pv else none)) ∧ Seg st G (some k) ks nx

theorem Seg.append {st G} {pv nx : Option Addr} {l r : List Addr} :
    Seg st G pv (l ++ r) nx ↔ Seg st G pv l (hdOr r nx) ∧ Seg st G (lastOr pv l) r nx := by
  induction l generalizing pv with
  | nil => simp [Seg]
  | cons a l ih =>
    simp only [List.cons_append, Seg, ih, lastOr_cons, hdOr_append, and_assoc]

theorem Seg.mono {st st' : St} {g G : Graph} (hg : g.le G)
    (hn : ∀ a, (g a).isSome → st'.nodes a = st.nodes a) :
    ∀ {pv ks nx}, Seg st g pv ks nx → Seg st' G pv ks nx
  | _, [], _, _ => trivial
  | pv, k :: ks, nx, ⟨⟨n, gk, h1, h2, h3, h4⟩, hr⟩ =>
    ⟨⟨n, gk, by rw [hn k (by simp [h2]), h1], hg k gk h2, h3, h4⟩, Seg.mono hg hn hr⟩

/-- Only the links and flags of the listed nodes matter. -/
theorem Seg.congr {st st' : St} {G G' : Graph} :
    ∀ {pv ks nx}, Seg st G pv ks nx →
      (∀ k ∈ ks, ∀ n gk, st.nodes k = some n → G k = some gk →
        ∃ n' gk', st'.nodes k = some n' ∧ G' k = some gk' ∧ n'.next = n.next ∧ n'.prev = n.prev ∧
          gk'.prevOK = gk.prevOK) → Seg st' G' pv ks nx
  | _, [], _, _, _ => trivial
  | pv, k :: ks, nx, ⟨⟨n, gk, h1, h2, h3, h4⟩, hr⟩, h => by
    obtain ⟨n', gk', e1, e2, e3, e4, e5⟩ := h k (by simp) n gk h1 h2
    exact ⟨⟨n', gk', e1, e2, by rw [e3, h3], by rw [e4, h4, e5]⟩,
      Seg.congr hr fun k' hk' => h k' (by simp [hk'])⟩

def KeyOK (st : St) (P : Addr → Prop) (n : Node) : Option Bytes → Prop
  | none => n.key = some none
  | some k => ∃ p, n.key = some (some p) ∧ n.keyLen = some k.length ∧ StrAt st P p k

/-- A container node `n` at `a` with these children. -/
structure ConOK (st : St) (G : Graph) (a : Addr) (n : Node) (o : Bool) (kids : List Addr)
    (endOK : Bool) : Prop where
  type : n.type = some (conType o)
  value : n.value = some (.node (hdOr kids none))
  len : n.len = some kids.length
  end_ : endOK = true → kids ≠ [] → n.end_ = some (lastOr none kids)
  seg : Seg st G none kids none
  nodup : kids.Nodup
  kid : ∀ k ∈ kids, ∃ gk, G k = some gk ∧ gk.par = some a ∧ gk.key.isSome = o

/-- `null`, `true` and `false` are static texts. -/
def GVal.isLit : GVal → Bool
  | .null => true
  | .bool _ => true
  | _ => false

/-- The text of a scalar is at `p`. -/
def TextAt (st : St) (P : Addr → Prop) (p : SPtr) (gv : GVal) : Prop :=
  StrAt st P p gv.text ∧ (gv.isLit = true → ∃ s, p = .lit s)

def ScalarOK (st : St) (P : Addr → Prop) (n : Node) (gv : GVal) : Prop :=
  n.type = some gv.type ∧ ∃ p, n.value = some (.str p) ∧ n.len = some gv.text.length ∧
    TextAt st P p gv

def ValOK (st : St) (P : Addr → Prop) (G : Graph) (a : Addr) (n : Node) (gv : GVal)
    (endOK : Bool) : Prop :=
  match gv with
  | .con o kids => ConOK st G a n o kids endOK
  | gv => ScalarOK st P n gv

theorem ValOK.scalar {st P G a n gv e} (h : gv.isCon = false) :
    ValOK st P G a n gv e ↔ ScalarOK st P n gv := by
  cases gv <;> first | rfl | cases h

structure NodeOK (st : St) (P : Addr → Prop) (G : Graph) (a : Addr) (gn : GNode) (n : Node) :
    Prop where
  key : KeyOK st P n gn.key
  father : n.father = some gn.par
  root : gn.par = none → n.next = some none ∧ n.prev = some none
  val : ValOK st P G a n gn.val gn.endOK

/-- The memory represents the abstract nodes of `G`. -/
def RepOn (st : St) (P : Addr → Prop) (G : Graph) : Prop :=
  ∀ a gn, G a = some gn → ∃ n, st.nodes a = some n ∧ NodeOK st P G a gn n

/-! ### Transfer -/

section
variable {st st' : St} {P P' : Addr → Prop} {g G : Graph} {a : Addr} {n : Node}

theorem KeyOK.mono {k} (h : KeyOK st P n k) (hP : ∀ b, P b → P' b)
    (hb : ∀ b, P b → st'.bufs b = st.bufs b) : KeyOK st' P' n k := by
  cases k with
  | none => exact h
  | some k => obtain ⟨p, h1, h2, h3⟩ := h; exact ⟨p, h1, h2, h3.mono hP hb⟩

theorem ScalarOK.mono {gv} (h : ScalarOK st P n gv) (hP : ∀ b, P b → P' b)
    (hb : ∀ b, P b → st'.bufs b = st.bufs b) : ScalarOK st' P' n gv := by
  obtain ⟨h0, p, h1, h2, h3, h4⟩ := h; exact ⟨h0, p, h1, h2, h3.mono hP hb, h4⟩

theorem ConOK.mono {o kids e} (h : ConOK st g a n o kids e) (hg : g.le G)
    (hn : ∀ b, (g b).isSome → st'.nodes b = st.nodes b) : ConOK st' G a n o kids e where
  type := h.type
  value := h.value
  len := h.len
  end_ := h.end_
  seg := h.seg.mono hg hn
  nodup := h.nodup
  kid := fun k hk => by
    obtain ⟨gk, h1, h2⟩ := h.kid k hk
    exact ⟨gk, hg _ _ h1, h2⟩

theorem ValOK.mono {gv e} (h : ValOK st P g a n gv e) (hg : g.le G)
    (hn : ∀ b, (g b).isSome → st'.nodes b = st.nodes b) (hP : ∀ b, P b → P' b)
    (hb : ∀ b, P b → st'.bufs b = st.bufs b) : ValOK st' P' G a n gv e := by
  cases gv with
  | con o kids => exact ConOK.mono h hg hn
  | _ => exact ScalarOK.mono h hP hb

theorem NodeOK.mono {gn} (h : NodeOK st P g a gn n) (hg : g.le G)
    (hn : ∀ b, (g b).isSome → st'.nodes b = st.nodes b) (hP : ∀ b, P b → P' b)
    (hb : ∀ b, P b → st'.bufs b = st.bufs b) : NodeOK st' P' G a gn n where
  key := h.key.mono hP hb
  father := h.father
  root := h.root
  val := h.val.mono hg hn hP hb

theorem RepOn.mono (h : RepOn st P g)
    (hn : ∀ b, (g b).isSome → st'.nodes b = st.nodes b) (hP : ∀ b, P b → P' b)
    (hb : ∀ b, P b → st'.bufs b = st.bufs b) : RepOn st' P' g := by
  intro a gn ha
  obtain ⟨n, h1, h2⟩ := h a gn ha
  exact ⟨n, by rw [hn a (by simp [ha]), h1], h2.mono (fun _ _ h => h) hn hP hb⟩

end

/-! ### Well-formed states -/

structure StOK (st : St) : Prop where
  nodes : ∀ a, st.nn ≤ a → st.nodes a = none
  vals : ∀ a, st.nv ≤ a → st.vals a = none
  bufs : ∀ a, st.nb ≤ a → st.bufs a = none
  size : ∀ b bf, st.bufs b = some bf → bf.data.length ≤ bf.size
  live : ∀ v x, st.vals v = some x → st.allocs x.a = true
  cache : ∀ z, st.cache = some z → z.hdr < st.nb ∧ z.data < st.nb

/-- Blocks documents rely on exist and are not used by the scratch string. -/
def PinOK (st : St) (P : Addr → Prop) : Prop :=
  ∀ b, P b → (st.bufs b).isSome ∧ ∀ z, st.cache = some z → b ≠ z.hdr ∧ b ≠ z.data

/-- The invariant: memory represents the store `G`, and every document is finite. -/
structure Inv (st : St) (P : Addr → Prop) (G : Graph) : Prop where
  ok : StOK st
  pin : PinOK st P
  rep : RepOn st P G
  fin : ∀ a gn, G a = some gn → ∃ t, Unf G a t

theorem Inv.lt {st P G} (h : Inv st P G) {a gn} (ha : G a = some gn) : a < st.nn := by
  obtain ⟨n, hn, _⟩ := h.rep a gn ha
  apply Decidable.byContradiction
  intro hlt
  rw [h.ok.nodes a (by omega)] at hn
  cases hn

/-- `v` is a handle for node `a` (allocator `A`). -/
def Handle (st : St) (G : Graph) (v a A : Addr) : Prop :=
  st.vals v = some ⟨some a, A⟩ ∧ (G a).isSome

/-- `v` is an empty handle. -/
def Empty (st : St) (v A : Addr) : Prop := st.vals v = some ⟨none, A⟩

/-- The document behind a handle. -/
def Doc (st : St) (G : Graph) (v : Addr) (t : Json) : Prop :=
  ∃ a A, st.vals v = some ⟨some a, A⟩ ∧ Unf G a t

/-! ### Reachability -/

/-- `c` is `b` or below `b`. -/
inductive Reach (G : Graph) : Addr → Addr → Prop where
  | refl {a} : Reach G a a
  | step {a gn k c} : G a = some gn → k ∈ gn.val.kids → Reach G k c → Reach G a c

theorem Reach.trans {G : Graph} {a b c} (h : Reach G a b) (h' : Reach G b c) : Reach G a c := by
  induction h with
  | refl => exact h'
  | step ha hk _ ih => exact .step ha hk (ih h')

theorem Reach.mono {g G : Graph} (h : g.le G) {a c} (hr : Reach g a c) : Reach G a c := by
  induction hr with
  | refl => exact .refl
  | step ha hk _ ih => exact .step (h _ _ ha) hk ih

end ZJ
