import Verif.GraftSim

/-
What the memory literally contains: the document found by following the C pointers
from a node (`MDoc`), without any abstract store. Memory that represents a store shows
the documents of the store. Also here: steps of the caller, the first state of a program,
and the fact that every valid document can be reached, which the examples use.
-/

set_option linter.unusedSimpArgs false

namespace ZJ

/-- The `raw.length` bytes at `p` are `raw`. -/
def Points (st : St) (p : SPtr) (raw : Bytes) : Prop := StrAt st (fun _ => True) p raw

/-- The key fields of a child of an object (`o`) or of an array. -/
def MKey (st : St) (n : Node) (o : Bool) (key : Bytes) : Prop :=
  if o then ∃ p, n.key = some (some p) ∧ n.keyLen = some key.length ∧ Points st p key
  else n.key = some none ∧ key = []

mutual
/-- `MDoc st a t`: reading the memory from node `a` on along `Type`, `Value`, `Len`,
`Key`, `Next` (zzzjson.h:615-642) gives the document `t`. -/
inductive MDoc (st : St) : Addr → Json → Prop where
  | null {a n} : st.nodes a = some n → n.type = some .null → MDoc st a .null
  | bool {a n p} (b : Bool) : st.nodes a = some n → n.type = some .bool → n.value = some (.str p) →
      n.len = some (if b then 4 else 5) → Points st p (if b then b!"true" else b!"false") →
      MDoc st a (.bool b)
  | num {a n p raw} : st.nodes a = some n → n.type = some .number → n.value = some (.str p) →
      n.len = some raw.length → Points st p raw → MDoc st a (.num raw)
  | str {a n p raw} : st.nodes a = some n → n.type = some .string → n.value = some (.str p) →
      n.len = some raw.length → Points st p raw → MDoc st a (.str raw)
  | arr {a n h xs} : st.nodes a = some n → n.type = some .array → n.value = some (.node h) →
      n.len = some xs.length → MKids st false h xs → MDoc st a (.arr (xs.map (·.2)))
  | obj {a n h xs} : st.nodes a = some n → n.type = some .object → n.value = some (.node h) →
      n.len = some xs.length → MKids st true h xs → MDoc st a (.obj xs)
/-- The chain of siblings that starts at the pointer. -/
inductive MKids (st : St) : Bool → Option Addr → List (Bytes × Json) → Prop where
  | nil {o} : MKids st o none []
  | cons {o k n nx key t xs} : st.nodes k = some n → MKey st n o key → n.next = some nx →
      MDoc st k t → MKids st o nx xs → MKids st o (some k) ((key, t) :: xs)
end

/-- The handle `v` shows the document `t`. -/
def Shows (st : St) (v : Addr) (t : Json) : Prop :=
  ∃ a A, st.vals v = some ⟨some a, A⟩ ∧ MDoc st a t

theorem Points.det {st p a b} (h : Points st p a) (h' : Points st p b) (hl : a.length = b.length) :
    a = b := by
  cases p with
  | lit s =>
    obtain ⟨r, h⟩ := h
    obtain ⟨r', h'⟩ := h'
    exact (List.append_inj (h.symm.trans h') hl).1
  | buf c off =>
    obtain ⟨_, bf, r, hb, h⟩ := h
    obtain ⟨_, bf', r', hb', h'⟩ := h'
    rw [hb] at hb'; cases hb'
    exact (List.append_inj (h.symm.trans h') hl).1

theorem MKey.det {st n o a b} (h : MKey st n o a) (h' : MKey st n o b) : a = b := by
  unfold MKey at h h'
  cases o with
  | true =>
    simp only [if_true] at h h'
    obtain ⟨p, h1, h2, h3⟩ := h
    obtain ⟨p', g1, g2, g3⟩ := h'
    rw [h1] at g1; cases g1
    rw [h2] at g2
    exact h3.det g3 (Option.some.inj g2)
  | false =>
    simp only [Bool.false_eq_true, if_false] at h h'
    rw [h.2, h'.2]

mutual
/-- The memory shows at most one document. -/
theorem MDoc.det {st : St} : ∀ {a t t'}, MDoc st a t → MDoc st a t' → t = t'
  | _, _, _, .null h1 h2, h' => by
    cases h' with
    | null => rfl
    | bool _ g1 g2 | num g1 g2 | str g1 g2 | arr g1 g2 | obj g1 g2 =>
      rw [h1] at g1; cases g1; rw [h2] at g2; cases g2
  | _, _, _, .bool b h1 h2 h3 h4 h5, h' => by
    cases h' with
    | bool b' g1 g2 g3 g4 g5 =>
      rw [h1] at g1; cases g1
      rw [h4] at g4
      cases b <;> cases b' <;> first | rfl | (simp at g4)
    | null g1 g2 | num g1 g2 | str g1 g2 | arr g1 g2 | obj g1 g2 =>
      rw [h1] at g1; cases g1; rw [h2] at g2; cases g2
  | _, _, _, .num h1 h2 h3 h4 h5, h' => by
    cases h' with
    | num g1 g2 g3 g4 g5 =>
      rw [h1] at g1; cases g1
      rw [h3] at g3; cases g3
      rw [h4] at g4
      rw [h5.det g5 (Option.some.inj g4)]
    | null g1 g2 | bool _ g1 g2 | str g1 g2 | arr g1 g2 | obj g1 g2 =>
      rw [h1] at g1; cases g1; rw [h2] at g2; cases g2
  | _, _, _, .str h1 h2 h3 h4 h5, h' => by
    cases h' with
    | str g1 g2 g3 g4 g5 =>
      rw [h1] at g1; cases g1
      rw [h3] at g3; cases g3
      rw [h4] at g4
      rw [h5.det g5 (Option.some.inj g4)]
    | null g1 g2 | bool _ g1 g2 | num g1 g2 | arr g1 g2 | obj g1 g2 =>
      rw [h1] at g1; cases g1; rw [h2] at g2; cases g2
  | _, _, _, .arr h1 h2 h3 h4 h5, h' => by
    have IH := fun xs => MKids.det (xs' := xs) h5
    cases h' with
    | arr g1 g2 g3 g4 g5 =>
      rw [h1] at g1; cases g1
      rw [h3] at g3; cases g3
      rw [IH _ g5]
    | null g1 g2 | bool _ g1 g2 | num g1 g2 | str g1 g2 | obj g1 g2 =>
      rw [h1] at g1; cases g1; rw [h2] at g2; cases g2
  | _, _, _, .obj h1 h2 h3 h4 h5, h' => by
    have IH := fun xs => MKids.det (xs' := xs) h5
    cases h' with
    | obj g1 g2 g3 g4 g5 =>
      rw [h1] at g1; cases g1
      rw [h3] at g3; cases g3
      rw [IH _ g5]
    | null g1 g2 | bool _ g1 g2 | num g1 g2 | str g1 g2 | arr g1 g2 =>
      rw [h1] at g1; cases g1; rw [h2] at g2; cases g2
theorem MKids.det {st : St} : ∀ {o h xs xs'}, MKids st o h xs → MKids st o h xs' → xs = xs'
  | _, _, _, _, .nil, h' => by cases h'; rfl
  | _, _, _, _, .cons h1 h2 h3 h4 h5, h' => by
    have IH := fun t => MDoc.det (t' := t) h4
    have IH' := fun xs => MKids.det (xs' := xs) h5
    cases h' with
    | cons g1 g2 g3 g4 g5 =>
      rw [h1] at g1; cases g1
      rw [h3] at g3; cases g3
      rw [h2.det g2, IH _ g4, IH' _ g5]
end

theorem Shows.det {st v t t'} (h : Shows st v t) (h' : Shows st v t') : t = t' := by
  obtain ⟨a, A, h1, h2⟩ := h
  obtain ⟨a', A', h1', h2'⟩ := h'
  rw [h1] at h1'; cases h1'
  exact h2.det h2'

section
variable {st : St} {P : Addr → Prop} {G : Graph}

theorem StrAt.points {p raw} (h : StrAt st P p raw) : Points st p raw :=
  h.mono (fun _ _ => trivial) (fun _ _ => rfl)

theorem NodeOK.mkey {a gn n o key} (h : NodeOK st P G a gn n) (hk : KeyIs o gn.key key) : MKey st n o key := by
  have h1 := h.key
  cases o with
  | true =>
    rw [show gn.key = some key from hk] at h1
    obtain ⟨p, h2, h3, h4⟩ := h1
    exact ⟨p, h2, h3, h4.points⟩
  | false =>
    rw [show gn.key = none from hk.1] at h1
    exact ⟨h1, hk.2⟩

mutual
/-- Memory that represents a store shows the documents of the store. -/
theorem RepOn.mdoc (hI : RepOn st P G) : ∀ {a t}, Unf G a t → MDoc st a t
  | _, _, .mk ha hu => RepOn.mdocV hI hu ha rfl
theorem RepOn.mdocV (hI : RepOn st P G) : ∀ {gv t}, UnfV G gv t → ∀ {a gn}, G a = some gn → gn.val = gv →
    MDoc st a t
  | gv, _, .scalar hs, a, gn, ha, hg => by
    obtain ⟨nd, h1, hok⟩ := hI a gn ha
    obtain ⟨h2, p, h3, h4, h5⟩ := (ValOK.scalar (by rw [hg]; exact hs)).1 hok.val
    rw [hg] at h2 h4 h5
    cases gv with
    | null => exact .null h1 h2
    | bool b =>
      cases b with
      | true => exact .bool true h1 h2 h3 h4 h5.1.points
      | false => exact .bool false h1 h2 h3 h4 h5.1.points
    | num raw => exact .num h1 h2 h3 h4 h5.1.points
    | str raw => exact .str h1 h2 h3 h4 h5.1.points
    | con => cases hs
  | _, _, .con (o := o) hi, a, gn, ha, hg => by
    obtain ⟨n, hn, hok⟩ := hI a gn ha
    have hv := hok.val
    rw [hg] at hv
    have hv : ConOK st G a n o _ gn.endOK := hv
    have IH := RepOn.mdocI hI hi hv.seg
    have hl := hi.length
    cases o with
    | true => exact .obj hn hv.type hv.value (by rw [hv.len, hl]) IH
    | false => exact .arr hn hv.type hv.value (by rw [hv.len, hl]) IH
theorem RepOn.mdocI (hI : RepOn st P G) : ∀ {o ks xs}, UnfI G o ks xs → ∀ {pv}, Seg st G pv ks none →
    MKids st o (hdOr ks none) xs
  | _, _, _, .nil, _, _ => .nil
  | _, _, _, .cons hk hkey hu hr, _, ⟨⟨n, gk, h1, h2, h3, _⟩, hs⟩ => by
    have IH := RepOn.mdoc hI hu
    have IH' := RepOn.mdocI hI hr hs
    obtain ⟨n', hn', hok⟩ := hI _ _ hk
    rw [h1] at hn'; cases hn'
    exact .cons h1 (hok.mkey hkey) h3 IH IH'
end

theorem Inv.mdoc (hI : Inv st P G) {a t} (h : Unf G a t) : MDoc st a t := hI.rep.mdoc h

theorem Inv.shows (hI : Inv st P G) {v a A t} (hv : st.vals v = some ⟨some a, A⟩) (hu : Unf G a t) :
    Shows st v t := ⟨a, A, hv, hI.mdoc hu⟩

end

/-! ### Steps of the caller -/

/-- The state after the caller made a block of memory with the bytes `d`. -/
def St.addC (st : St) (d : Bytes) : St :=
  { st with bufs := upd st.bufs st.nb (some ⟨none, d.length, st.slack st.nb, d⟩), nb := st.nb + 1 }

/-- The caller makes a block of memory with the bytes `d`. -/
def callerText (d : Bytes) : M SPtr := fun st => .ok (.buf st.nb 0, st.addC d)

theorem callerText_run (d : Bytes) (st : St) : callerText d st = .ok (.buf st.nb 0, st.addC d) := rfl

section
variable {st : St} {P : Addr → Prop} {G : Graph} {A : Nat} {d b : Bytes}

theorem addC_unch : Unchanged st (st.addC d) :=
  ⟨⟨fun _ _ _ => rfl, fun _ _ _ => rfl, fun b hb _ => upd_ne _ _ (by omega), Nat.le_refl _, Nat.le_refl _,
    Nat.le_succ _, rfl, rfl, rfl⟩, rfl⟩

theorem addC_ok (h : StOK st) : StOK (st.addC d) where
  nodes := h.nodes
  vals := h.vals
  bufs a ha := by
    have h1 : st.nb + 1 ≤ a := ha
    show upd _ _ _ a = none
    rw [upd_ne _ _ (by omega)]
    exact h.bufs a (by omega)
  size c bf hc := by
    have hc : upd _ _ _ c = some bf := hc
    unfold upd at hc
    split at hc
    · cases hc; exact Nat.le_refl _
    · exact h.size c bf hc
  live := h.live
  cache z hz := by
    have := h.cache z hz
    show z.hdr < st.nb + 1 ∧ z.data < st.nb + 1
    omega

theorem Inv.addC (hI : Inv st P G) : Inv (st.addC d) P G := hI.unchanged addC_unch (addC_ok hI.ok)

theorem CacheOK.addC (h : CacheOK st) (ho : StOK st) : CacheOK (st.addC d) := h.frame ho addC_unch.1 rfl

theorem addC_cstr (h0 : (0 : Byte) ∉ b) : CStr (st.addC (b ++ [0])) (.buf st.nb 0) b :=
  ⟨h0, [], (b ++ [0]).length + st.slack st.nb, by simp [view, St.addC, upd]⟩

theorem addC_reads : Reads (st.addC b) (.buf st.nb 0) b := by
  unfold Reads readN
  simp only [St.addC, upd_same]
  by_cases h : b.length = 0
  · have : b = [] := List.length_eq_zero_iff.1 h
    simp [this]
  · simp [h]

/-- The block the caller made may be used by documents. -/
theorem Inv.addC_pin (hI : Inv st P G) : Inv (st.addC d) (fun c => P c ∨ c = st.nb) G := by
  refine (hI.addC (d := d)).mono_pin (fun _ h => .inl h) ?_
  intro c hc
  rcases hc with hc | rfl
  · exact (hI.addC (d := d)).pin c hc
  · refine ⟨by simp [St.addC], fun z hz => ?_⟩
    have := hI.ok.cache z hz
    omega

end

/-! ### The first state of a program -/

/-- After `zj_NewAllocator` and `zj_NewValue`. -/
def start (slack : Nat → Nat) (cfg : Cfg := {}) : St :=
  ({ St.init slack cfg with allocs := upd (fun _ => false) 0 true, na := 1, log := [.new 0] }).addV 0 none

theorem start_run (slack : Nat → Nat) (cfg : Cfg := {}) : (do let A ← newAllocator; newValue A : M Addr) (St.init slack cfg) = .ok (0, start slack cfg) := rfl

theorem start_vals (slack : Nat → Nat) (cfg : Cfg := {}) : (start slack cfg).vals 0 = some ⟨none, 0⟩ := rfl

theorem start_ok (slack : Nat → Nat) (cfg : Cfg := {}) : StOK (start slack cfg) where
  nodes _ _ := rfl
  vals a ha := by
    have : 1 ≤ a := ha
    show upd _ _ _ a = none
    rw [upd_ne _ _ (by show a ≠ 0; omega)]
    rfl
  bufs _ _ := rfl
  size b bf h := by cases h
  live v x h := by
    have h : upd (fun _ => none) 0 (some ⟨none, 0⟩) v = some x := h
    unfold upd at h
    split at h
    · cases h; rfl
    · cases h
  cache z h := by cases h

theorem start_inv (slack : Nat → Nat) (cfg : Cfg := {}) : Inv (start slack cfg) (fun _ => False) (fun _ => none) where
  ok := start_ok slack cfg
  pin b h := h.elim
  rep a gn h := by cases h
  fin a gn h := by cases h

theorem start_cache (slack : Nat → Nat) (cfg : Cfg := {}) : CacheOK (start slack cfg) := fun z h => by cases h

/-! ### Every valid document can be made -/

/-- From any proper state: a new handle with the document `t`, and all that was there
before is still there. -/
structure Made (st st' : St) (P P' : Addr → Prop) (G G' : Graph) (A v a : Addr) (t : Json) : Prop where
  inv : Inv st' P' G'
  cok : CacheOK st'
  handle : st'.vals v = some ⟨some a, A⟩
  doc : Unf G' a t
  root : ∃ gn, G' a = some gn ∧ gn.par = none ∧ gn.key = none
  new : v = st.nv ∧ st.nn ≤ a
  old : ∀ b gb, G b = some gb → G' b = some gb
  vals : ∀ w, w < st.nv → st'.vals w = st.vals w
  allocs : st'.allocs = st.allocs

/-- `zj_NewValue`, a text of the caller, `zj_Parse`. -/
def make (A : Nat) (b : Bytes) : M (Addr × Bool) := do
  let v ← newValue A
  let p ← callerText (b ++ [0])
  let r ← parse v p
  return (v, r)

theorem make_run {st : St} {P : Addr → Prop} {G : Graph} {A : Nat} {b : Bytes} {t : Json} (hI : Inv st P G)
    (hc : CacheOK st) (hA : st.allocs A = true) (ht : JText t b) :
    ∃ st' P' G' a, make A b st = .ok ((st.nv, true), st') ∧ Made st st' P P' G G' A st.nv a t := by
  have hI1 : Inv (st.addV A none) P G := hI.unchanged unch_addV (hI.ok.addV hA)
  have hI2 : Inv ((st.addV A none).addC (b ++ [0])) P G := hI1.addC
  have hv : ((st.addV A none).addC (b ++ [0])).vals st.nv = some ⟨none, A⟩ := by simp [St.addC, St.addV, upd]
  obtain ⟨st', gv, g, h1, h2, h3, h4, h5, h6, h7, _⟩ := parse_accept hI2 hv (by simp) (addC_cstr ht.no_nul) ht
  have hnn : ((st.addV A none).addC (b ++ [0])).nn = st.nn := rfl
  refine ⟨st', _, _, _, ?_, h2, ?_, h4, h3, ?_, ⟨rfl, ?_⟩, ?_, ?_, ?_⟩
  · unfold make
    mstep (show newValue A st = _ from newVal_run hA)
    mstep callerText_run _ _
    mstep h1
    rfl
  · exact ((hc.frame hI.ok unch_addV.1 rfl).addC hI1.ok).frame hI2.ok
      (Frame.weaken h7 (fun _ h => h) (fun _ h => h) (fun _ h => h)) h5
  · exact ⟨(baseNode G none).put gv, by simp [Graph.plant, rootOf], rfl, rfl⟩
  · show st.nn ≤ rootOf _ none
    simp [rootOf, hnn]
  · intro c gc hgc
    have hlt := hI.lt hgc
    have hne : c ≠ rootOf ((st.addV A none).addC (b ++ [0])) none := by
      simp only [rootOf, Option.getD_none, hnn]; omega
    unfold Graph.plant
    rw [Graph.set_ne _ _ hne, Graph.or_apply]
    cases hg : g c with
    | none => simpa using hgc
    | some y => have := h6 c y hg; rw [hnn] at this; omega
  · intro w hw
    rw [h7.vals w (by show w < st.nv + 1; omega) (by show w ≠ st.nv; omega)]
    simp [St.addC, St.addV, upd, show w ≠ st.nv by omega]
  · rw [h7.allocs]; rfl

/-- A proper state in which the handle `v` has the document `t`. -/
structure Example (st : St) (P : Addr → Prop) (G : Graph) (v a : Addr) (t : Json) : Prop where
  inv : Inv st P G
  cok : CacheOK st
  handle : st.vals v = some ⟨some a, 0⟩
  doc : Unf G a t
  root : ∃ gn, G a = some gn ∧ gn.par = none ∧ gn.key = none
  alloc : st.allocs 0 = true

/-- Every valid document has such a state. -/
theorem exists_example {t : Json} (ht : t.Valid) (slack : Nat → Nat) :
    ∃ st P G v a, Example st P G v a t ∧ st.vals 0 = some ⟨none, 0⟩ := by
  obtain ⟨st', P', G', a, _, hm⟩ := make_run (start_inv slack) (start_cache slack) (A := 0) rfl (print_text ht)
  exact ⟨st', P', G', _, a, ⟨hm.inv, hm.cok, hm.handle, hm.doc, hm.root, by rw [hm.allocs]; rfl⟩,
    by rw [hm.vals 0 Nat.zero_lt_one]; rfl⟩

/-- Two valid documents side by side, and an empty handle. -/
theorem exists_example2 {t t' : Json} (ht : t.Valid) (ht' : t'.Valid) (slack : Nat → Nat) :
    ∃ st P G v a v' a', Example st P G v a t ∧ Example st P G v' a' t' ∧ a ≠ a' ∧ ¬ Reach G a a' ∧ ¬ Reach G a' a ∧
      st.vals 0 = some ⟨none, 0⟩ := by
  obtain ⟨st, P, G, a, _, hm⟩ := make_run (start_inv slack) (start_cache slack) (A := 0) rfl (print_text ht)
  obtain ⟨st', P', G', a', _, hm'⟩ := make_run hm.inv hm.cok (A := 0) (by rw [hm.allocs]; rfl) (print_text ht')
  have hal : st'.allocs 0 = true := by rw [hm'.allocs, hm.allocs]; rfl
  obtain ⟨gn, hg, hp, hk⟩ := hm.root
  obtain ⟨gn', hg', hp', hk'⟩ := hm'.root
  have hlt : a < st.nn := hm.inv.lt hg
  have hr : ∀ c c', Reach G' c c' → (∀ gk, G' c' = some gk → gk.par = none) → (G' c).isSome → c = c' := by
    intro c c' h hno hc
    induction h with
    | refl => rfl
    | step ha hk hr ih =>
      obtain ⟨gk, h1, h2⟩ := (hm'.inv).kid ha hk
      have := ih hno (by simp [h1])
      subst this
      rw [hno _ h1] at h2; cases h2
  refine ⟨st', P', G', (start slack).nv, a, _, a', ⟨hm'.inv, hm'.cok, ?_, hm.doc.mono hm'.old, ⟨gn, hm'.old _ _ hg, hp, hk⟩, hal⟩,
    ⟨hm'.inv, hm'.cok, hm'.handle, hm'.doc, hm'.root, hal⟩, ?_, ?_, ?_, ?_⟩
  · rw [hm'.vals _ (hm.inv.ok.val_lt hm.handle)]; exact hm.handle
  · have := hm'.new.2; omega
  · intro h
    have := hr _ _ h (fun gk h => by rw [hg'] at h; cases h; exact hp') (by simp [hm'.old _ _ hg])
    have := hm'.new.2; omega
  · intro h
    have := hr _ _ h (fun gk h => by rw [hm'.old _ _ hg] at h; cases h; exact hp) (by simp [hg'])
    have := hm'.new.2; omega
  · rw [hm'.vals 0 (Nat.lt_of_le_of_lt (Nat.zero_le _) (hm.inv.ok.val_lt hm.handle)), hm.vals 0 Nat.zero_lt_one]; rfl

end ZJ
