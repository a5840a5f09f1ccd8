import Verif.StrSim
import Verif.Print

/-
zj_Stringify: on memory that represents a document, the loop prints the document.
-/

set_option linter.unusedSimpArgs false
set_option linter.unusedSectionVars false

namespace ZJ

/-! ### Proper descendants -/

mutual
/-- Number of values in a document. -/
def Json.count : Json → Nat
  | .arr xs => 1 + countElems xs
  | .obj ms => 1 + countMembers ms
  | _ => 1
def countElems : List Json → Nat
  | [] => 0
  | t :: ts => t.count + countElems ts
def countMembers : List (Bytes × Json) → Nat
  | [] => 0
  | (_, t) :: ts => t.count + countMembers ts
end

theorem countMembers_map : ∀ xs : List (Bytes × Json), countElems (xs.map (·.2)) = countMembers xs
  | [] => rfl
  | (_, t) :: ts => by simp [countElems, countMembers, countMembers_map ts]

theorem count_mkCon (o : Bool) (xs) : (mkCon o xs).count = 1 + countMembers xs := by
  cases o
  · simp only [mkCon, Bool.false_eq_true, if_false, Json.count]
    rw [← countMembers_map]
  · simp [mkCon, Json.count]

theorem UnfI.kid_count {G : Graph} : ∀ {o ks xs k}, UnfI G o ks xs → k ∈ ks →
    ∃ t, Unf G k t ∧ t.count ≤ countMembers xs
  | _, _, _, _, .nil, h => by cases h
  | _, _, _, _, .cons (t := t) _ _ hu hr, h => by
    rcases List.mem_cons.1 h with rfl | h
    · exact ⟨t, hu, by simp [countMembers]⟩
    · obtain ⟨t', h1, h2⟩ := UnfI.kid_count hr h
      exact ⟨t', h1, by simp [countMembers]; omega⟩

theorem Unf.kid_count {G : Graph} {a t gn k} (h : Unf G a t) (ha : G a = some gn)
    (hk : k ∈ gn.val.kids) : ∃ t', Unf G k t' ∧ t'.count < t.count := by
  cases h with
  | mk ha' hv =>
    rw [ha] at ha'; cases ha'
    generalize gn.val = gv at hv hk
    cases hv with
    | scalar hs => cases gv <;> simp [GVal.kids] at hk; cases hs
    | con hi =>
      obtain ⟨t', h1, h2⟩ := hi.kid_count hk
      exact ⟨t', h1, by rw [count_mkCon]; omega⟩

theorem Unf.reach_count {G : Graph} {a c} (hr : Reach G a c) : ∀ {t}, Unf G a t →
    ∃ t', Unf G c t' ∧ t'.count ≤ t.count := by
  induction hr with
  | refl => intro t h; exact ⟨t, h, Nat.le_refl _⟩
  | step ha hk _ ih =>
    intro t h
    obtain ⟨t1, h1, h2⟩ := h.kid_count ha hk
    obtain ⟨t2, h3, h4⟩ := ih h1
    exact ⟨t2, h3, by omega⟩

/-- A finite document contains itself only at the top. -/
theorem Unf.kid_ne {G : Graph} {a t gn k c} (h : Unf G a t) (ha : G a = some gn)
    (hk : k ∈ gn.val.kids) (hr : Reach G k c) : c ≠ a := by
  rintro rfl
  obtain ⟨t1, h1, h2⟩ := h.kid_count ha hk
  obtain ⟨t2, h3, h4⟩ := Unf.reach_count hr h1
  rw [Unf.det h3 h] at h4
  omega

/-! ### Text of a container -/

def openCh (o : Bool) : Byte := if o then 0x7B else 0x5B
def endCh (o : Bool) : Byte := if o then 0x7D else 0x5D

/-- A key with quotes and colon; nothing below an array. -/
def keyText (o : Bool) (key : Bytes) : Bytes := if o then 0x22 :: (key ++ [0x22, 0x3A]) else []

/-- The items of a container, separated by commas. -/
def printItems (o : Bool) : List (Bytes × Json) → Bytes
  | [] => []
  | [(k, t)] => keyText o k ++ t.print
  | (k, t) :: x :: xs => keyText o k ++ t.print ++ 0x2C :: printItems o (x :: xs)

theorem printItems_elems : ∀ xs : List (Bytes × Json),
    printItems false xs = Json.printElems (xs.map (·.2))
  | [] => by simp [printItems, Json.printElems]
  | [(k, t)] => by simp [printItems, Json.printElems, keyText]
  | (k, t) :: x :: xs => by
    have := printItems_elems (x :: xs)
    simp only [List.map_cons] at this
    simp [printItems, Json.printElems, keyText, this]

theorem printItems_members : ∀ xs : List (Bytes × Json),
    printItems true xs = Json.printMembers xs
  | [] => by simp [printItems, Json.printMembers]
  | [(k, t)] => by simp [printItems, Json.printMembers, keyText]
  | (k, t) :: x :: xs => by
    have := printItems_members (x :: xs)
    simp [printItems, Json.printMembers, keyText, this]

theorem print_mkCon (o : Bool) (xs) :
    (mkCon o xs).print = openCh o :: (printItems o xs ++ [endCh o]) := by
  cases o
  · simp [mkCon, Json.print, openCh, endCh, printItems_elems]
  · simp [mkCon, Json.print, openCh, endCh, printItems_members]

/-! ### One node -/

section
variable {st0 st : St} {P : Addr → Prop} {G : Graph} {z : ZStr} {cont : Bytes} {v a A root : Addr}

theorem OutS.node (h : OutS st0 st z cont) (hI : Inv st0 P G) {gn} (ha : G a = some gn) :
    ∃ n, st.nodes a = some n ∧ st0.nodes a = some n ∧ NodeOK st0 P G a gn n := by
  obtain ⟨n, h1, h2⟩ := hI.rep a gn ha
  exact ⟨n, by rw [h.unch.1.nodes a (hI.lt ha) id, h1], h1, h2⟩

theorem putValue_scalar (h : OutS st0 st z cont) (hI : Inv st0 P G) {gn} (ha : G a = some gn)
    (hs : gn.val.isCon = false) : ∃ st' z', putValue z a st = .ok ((z', none), st') ∧
      OutS st0 st' z' (cont ++ gn.val.doc.print) := by
  obtain ⟨n, hn, hn0, hok⟩ := h.node hI ha
  obtain ⟨hty, p, hp, hlen, hstr, _⟩ := (ValOK.scalar hs).1 hok.val
  unfold putValue
  by_cases hstring : ∃ raw, gn.val = .str raw
  · obtain ⟨raw, hraw⟩ := hstring
    rw [hraw] at hty hstr hlen ⊢
    obtain ⟨st1, z1, e1, h1, _⟩ := h.char 0x22
    obtain ⟨st2, z2, e2, h2⟩ := h1.strAt hI.pin hI.ok hstr
    obtain ⟨st3, z3, e3, h3, _⟩ := h2.char 0x22
    have f : ∀ {st z cont}, OutS st0 st z cont → st.nodes a = some n := fun h => by
      rw [h.unch.1.nodes a (hI.lt ha) id, hn0]
    refine ⟨st3, z3, ?_, by simpa [GVal.doc, Json.print, GVal.text] using h3⟩
    mstep nType_run hn hty
    simp only [GVal.type]
    mstep e1
    mstep nStr_run (f h1) hp
    mstep nLen_run (f h1) hlen
    mstep e2
    mstep e3
    rfl
  · obtain ⟨st2, z2, e2, h2⟩ := h.strAt hI.pin hI.ok hstr
    have hprint : gn.val.doc.print = gn.val.text := by
      revert hstring hs
      generalize gn.val = gv
      intro hs hstring
      cases gv with
      | bool b => cases b <;> rfl
      | str raw => exact absurd ⟨raw, rfl⟩ hstring
      | con => cases hs
      | null => rfl
      | num => rfl
    rw [hprint]
    refine ⟨st2, z2, ?_, h2⟩
    mstep nType_run hn hty
    revert hstring hs e2
    generalize gn.val = gv at hlen
    intro hs hstring e2
    cases gv with
    | str raw => exact absurd ⟨raw, rfl⟩ hstring
    | con => cases hs
    | _ =>
      simp only [GVal.type]
      mstep nStr_run hn hp
      mstep nLen_run hn hlen
      mstep e2
      rfl

theorem putValue_con (h : OutS st0 st z cont) (hI : Inv st0 P G) {gn o kids} (ha : G a = some gn)
    (hs : gn.val = .con o kids) : 
    ∃ st' z', putValue z a st = .ok ((z', hdOr kids none), st') ∧
      OutS st0 st' z' (cont ++ openCh o :: (if kids = [] then [endCh o] else [])) := by
  obtain ⟨n, hn, hn0, hok⟩ := h.node hI ha
  have hval := hok.val
  rw [hs] at hval
  have hval : ConOK st0 G a n o kids gn.endOK := hval
  have f : ∀ {st z cont}, OutS st0 st z cont → st.nodes a = some n := fun h => by
    rw [h.unch.1.nodes a (hI.lt ha) id, hn0]
  have hty := hval.type
  have hv := hval.value
  have hl := hval.len
  unfold putValue
  cases o with
  | false =>
    obtain ⟨st1, z1, e1, h1, _⟩ := h.char 0x5B
    cases kids with
    | nil =>
      obtain ⟨st2, z2, e2, h2, _⟩ := h1.char 0x5D
      refine ⟨st2, z2, ?_, by simpa [openCh, endCh] using h2⟩
      mstep nType_run hn hty
      simp only [conType]
      mstep e1
      mstep nNode_run (f h1) hv
      simp only [hdOr_nil]
      mstep e2
      rfl
    | cons k ks =>
      refine ⟨st1, z1, ?_, by simpa [openCh] using h1⟩
      mstep nType_run hn hty
      simp only [conType]
      mstep e1
      mstep nNode_run (f h1) hv
      simp only [hdOr_cons]
      rfl
  | true =>
    obtain ⟨st1, z1, e1, h1, _⟩ := h.char 0x7B
    cases kids with
    | nil =>
      obtain ⟨st2, z2, e2, h2, _⟩ := h1.char 0x7D
      refine ⟨st2, z2, ?_, by simpa [openCh, endCh] using h2⟩
      mstep nType_run hn hty
      simp only [conType, if_true]
      mstep e1
      mstep nLen_run (f h1) hl
      simp only [hdOr_nil, List.length_nil, ne_eq, not_true_eq_false, if_false]
      mstep e2
      rfl
    | cons k ks =>
      refine ⟨st1, z1, ?_, by simpa [openCh] using h1⟩
      mstep nType_run hn hty
      simp only [conType, if_true]
      mstep e1
      mstep nLen_run (f h1) hl
      have : (k :: ks).length ≠ 0 := by simp
      simp only [this, ne_eq, not_false_eq_true, if_true]
      mstep nNode_run (f h1) hv
      simp only [hdOr_cons]
      rfl

theorem putKey_run (h : OutS st0 st z cont) (hI : Inv st0 P G) {gn o key} (ha : G a = some gn)
    (hk : KeyIs o gn.key key) :
    ∃ st' z', putKey z a st = .ok (z', st') ∧ OutS st0 st' z' (cont ++ keyText o key) := by
  obtain ⟨n, hn, hn0, hok⟩ := h.node hI ha
  have f : ∀ {st z cont}, OutS st0 st z cont → st.nodes a = some n := fun h => by
    rw [h.unch.1.nodes a (hI.lt ha) id, hn0]
  have hkey := hok.key
  unfold putKey
  cases o with
  | false =>
    rw [show gn.key = none from hk.1] at hkey
    refine ⟨st, z, ?_, by simpa [keyText] using h⟩
    mstep nKey_run hn hkey
    rfl
  | true =>
    rw [show gn.key = some key from hk] at hkey
    obtain ⟨p, h1, h2, h3⟩ := hkey
    obtain ⟨st1, z1, e1, g1, _⟩ := h.char 0x22
    obtain ⟨st2, z2, e2, g2⟩ := g1.strAt hI.pin hI.ok h3
    obtain ⟨st3, z3, e3, g3⟩ := g2.bytes [0x22, 0x3A]
    refine ⟨st3, z3, ?_, by simpa [keyText] using g3⟩
    mstep nKey_run hn h1
    simp only
    mstep e1
    mstep nKeyLen_run (f g1) h2
    mstep e2
    exact e3

/-! ### The loop -/

theorem OutS.val (h : OutS st0 st z cont) (ho : StOK st0) {x} (hv : st0.vals v = some x) :
    st.vals v = some x := by
  rw [h.unch.1.vals v (ho.val_lt hv) id, hv]

/-- One pass through the outer loop: key and value of `a`. -/
theorem loop_head_run (h : OutS st0 st z cont) (hI : Inv st0 P G)
    (hv : st0.vals v = some ⟨some root, A⟩) {gn o key} (ha : G a = some gn)
    (hk : KeyIs o gn.key key) (hne : a ≠ root) {r out}
    (hr : ∀ {st z}, OutS st0 st z (cont ++ keyText o key) →
      ∃ st' z', putValue z a st = .ok ((z', r), st') ∧ OutS st0 st' z' out) :
    ∃ st' z', OutS st0 st' z' out ∧ ∀ F, stringifyLoop v (F + 1) .head a z st =
      (match r with
      | some n => stringifyLoop v F .head n z'
      | none => stringifyLoop v F .close a z') st' := by
  obtain ⟨st1, z1, e1, h1⟩ := putKey_run h hI ha hk
  obtain ⟨st2, z2, e2, h2⟩ := hr h1
  refine ⟨st2, z2, h2, fun F => ?_⟩
  rw [stringifyLoop]
  mstep rdVal_run (h.val hI.ok hv)
  have : ¬ some a = some root := by simpa using hne
  simp only [this, if_false]
  mstep e1
  mstep e2
  cases r <;> rfl

/-- One pass through the inner loop at a child with a next sibling. -/
theorem loop_next_run (h : OutS st0 st z cont) (hI : Inv st0 P G)
    (hv : st0.vals v = some ⟨some root, A⟩) {k n nx} (ha : st0.nodes a = some n)
    (hlt : a < st0.nn) (hne : a ≠ root) (hn : n.next = some (some nx)) (hk : k = nx) :
    ∃ st' z', OutS st0 st' z' (cont ++ [0x2C]) ∧ ∀ F, stringifyLoop v (F + 1) .close a z st =
      stringifyLoop v F .head k z' st' := by
  subst hk
  obtain ⟨st1, z1, e1, h1, _⟩ := h.char 0x2C
  refine ⟨st1, z1, h1, fun F => ?_⟩
  rw [stringifyLoop]
  mstep rdVal_run (h.val hI.ok hv)
  have : ¬ some a = some root := by simpa using hne
  simp only [this, if_false]
  mstep nNext_run (by rw [h.unch.1.nodes a hlt id, ha]) hn
  simp only
  mstep e1
  rfl

/-- One pass through the inner loop at a last child. -/
theorem loop_up_run (h : OutS st0 st z cont) (hI : Inv st0 P G)
    (hv : st0.vals v = some ⟨some root, A⟩) {n f gf o} (ha : st0.nodes a = some n)
    (hlt : a < st0.nn) (hne : a ≠ root) (hn : n.next = some none) (hfa : n.father = some (some f))
    (hf : G f = some gf) (ht : gf.val.type = conType o) :
    ∃ st' z', OutS st0 st' z' (cont ++ [endCh o]) ∧ ∀ F, stringifyLoop v (F + 1) .close a z st =
      stringifyLoop v F .close f z' st' := by
  obtain ⟨st1, z1, e1, h1, _⟩ := h.char (endCh o)
  obtain ⟨nf, hnf, _, hok⟩ := h.node hI hf
  have hty : nf.type = some (conType o) := by
    rw [← ht]
    have := hok.val
    revert this
    generalize gf.val = gv
    intro this
    cases gv with
    | con o kids => exact ConOK.type this
    | _ => exact this.1
  refine ⟨st1, z1, h1, fun F => ?_⟩
  have hna : st.nodes a = some n := by rw [h.unch.1.nodes a hlt id, ha]
  rw [stringifyLoop]
  mstep rdVal_run (h.val hI.ok hv)
  have : ¬ some a = some root := by simpa using hne
  simp only [this, if_false]
  mstep nNext_run hna hn
  simp only
  mstep nFather_run hna hfa
  simp only [deref_some]
  mstep M.pure_run _ _
  mstep nType_run hnf hty
  cases o
  · simp only [conType, Bool.false_eq_true, if_false, if_true]
    mstep e1
    rfl
  · simp only [conType, if_true, reduceCtorEq, if_false]
    mstep e1
    rfl

section
variable (hI : Inv st0 P G) (hv : st0.vals v = some ⟨some root, A⟩)
include hI hv

mutual
/-- A child: from the head of the loop to its end. -/
theorem outNode : ∀ {a t}, Unf G a t → ∀ {gn o key}, G a = some gn → KeyIs o gn.key key →
    (∀ c, Reach G a c → c ≠ root) → ∀ {st z cont}, OutS st0 st z cont →
    ∃ c st' z', OutS st0 st' z' (cont ++ keyText o key ++ t.print) ∧
      ∀ F, stringifyLoop v (F + c) .head a z st = stringifyLoop v F .close a z' st'
  | a, t, .mk (gn := gn') ha' hu => by
    rename_i gn o key
    intro ha hk hr st z cont h
    have e : gn = gn' := Option.some.inj (ha.symm.trans ha')
    exact outVal hu ha' rfl (e ▸ hk) hr h
theorem outVal : ∀ {gv t}, UnfV G gv t → ∀ {a gn o key}, G a = some gn → gn.val = gv →
    KeyIs o gn.key key →
    (∀ c, Reach G a c → c ≠ root) → ∀ {st z cont}, OutS st0 st z cont →
    ∃ c st' z', OutS st0 st' z' (cont ++ keyText o key ++ t.print) ∧
      ∀ F, stringifyLoop v (F + c) .head a z st = stringifyLoop v F .close a z' st'
  | gv, _, .scalar hs => by
    intro ha hgv hk hr st z cont h
    obtain ⟨st', z', h1, h2⟩ := loop_head_run h hI hv ha hk (hr _ .refl)
      (fun h => putValue_scalar h hI ha (by rw [hgv]; exact hs))
    exact ⟨1, st', z', by rw [hgv] at h1; exact h1, h2⟩
  | _, _, .con (o := o') (kids := kids) (xs := xs) hi => by
    rename_i a gn o key
    intro ha hgv hk hr st z cont h
    obtain ⟨n, hn, hok⟩ := hI.rep a gn ha
    obtain ⟨st1, z1, h1, e1⟩ := loop_head_run h hI hv ha hk (hr a .refl)
      (fun h => putValue_con h hI ha hgv)
    have hval := hok.val
    rw [hgv] at hval
    have hval : ConOK st0 G a n o' kids gn.endOK := hval
    by_cases hk0 : kids = []
    · have hl := hi.length
      have hx : xs = [] := by
        rw [hk0] at hl; exact List.length_eq_zero_iff.1 hl.symm
      rw [hx]
      exact ⟨1, st1, z1, by simpa [print_mkCon, printItems, hk0] using h1, fun F => by
        have := e1 F
        rw [hk0] at this
        exact this⟩
    · obtain ⟨c, st2, z2, h2, e2⟩ := outItems hi (f := a) (gf := gn)
        hk0 ha (by rw [hgv]; rfl) hval.seg
        (fun k hk => by obtain ⟨gk, a1, a2, _⟩ := hval.kid k hk; exact ⟨gk, a1, a2⟩)
        (fun k hk c hc => hr c (.step ha (by rw [hgv]; exact hk) hc)) h1
      obtain ⟨k, ks, rfl⟩ : ∃ k ks, kids = k :: ks := by
        cases kids with
        | nil => exact absurd rfl hk0
        | cons k ks => exact ⟨k, ks, rfl⟩
      refine ⟨c + 1, st2, z2, by simpa [print_mkCon] using h2, fun F => ?_⟩
      refine (e1 (F + c)).trans ?_
      exact e2 F
theorem outItems : ∀ {o ks xs}, UnfI G o ks xs → ∀ {f gf pv}, ks ≠ [] → G f = some gf →
    gf.val.type = conType o → Seg st0 G pv ks none →
    (∀ k ∈ ks, ∃ gk, G k = some gk ∧ gk.par = some f) →
    (∀ k ∈ ks, ∀ c, Reach G k c → c ≠ root) → ∀ {st z cont}, OutS st0 st z cont →
    ∃ c st' z', OutS st0 st' z' (cont ++ (printItems o xs ++ [endCh o])) ∧
      ∀ F, stringifyLoop v (F + c) .head (ks.headD 0) z st = stringifyLoop v F .close f z' st'
  | _, _, _, .nil => by intro h; exact absurd rfl h
  | o, _, _, .cons (k := k) (ks := ks) (xs := xs) (key := key) (t := t) hk hkey hu hr => by
    rename_i f gf pv gk0
    intro _ hf ht hseg hpar hne st z cont h
    obtain ⟨c1, st1, z1, h1, e1⟩ := outNode hu hk hkey (hne k (by simp)) h
    obtain ⟨⟨n, gk, hn, hgk, hnx, _⟩, hseg'⟩ := hseg
    obtain ⟨gk', hgk', hpar'⟩ := hpar k (by simp)
    rw [hgk] at hgk'; cases hgk'
    obtain ⟨n', hn', hok⟩ := hI.rep k gk hgk
    rw [hn] at hn'; cases hn'
    have hfa : n.father = some (some f) := by rw [hok.father, hpar']
    have hkr := hne k (by simp) k .refl
    have hlt := hI.lt hgk
    by_cases hk0 : ks = []
    · have hl := hr.length
      have hx : xs = [] := by
        rw [hk0] at hl; exact List.length_eq_zero_iff.1 hl.symm
      rw [hk0] at hnx
      obtain ⟨st2, z2, h2, e2⟩ := loop_up_run h1 hI hv hn hlt hkr hnx hfa hf ht
      rw [hx]
      refine ⟨c1 + 1, st2, z2, by simpa [printItems] using h2, fun F => ?_⟩
      rw [show F + (c1 + 1) = F + 1 + c1 by omega]
      exact (e1 (F + 1)).trans (e2 F)
    · have hnx' : n.next = some (some (ks.headD 0)) := by
        rw [hnx]
        cases ks with
        | nil => exact absurd rfl hk0
        | cons k ks => rfl
      obtain ⟨st2, z2, h2, e2⟩ := loop_next_run h1 hI hv hn hlt hkr hnx' rfl
      obtain ⟨c3, st3, z3, h3, e3⟩ := outItems hr hk0 hf ht hseg'
        (fun k hk => hpar k (by simp [hk])) (fun k hk => hne k (by simp [hk])) h2
      have hx : ∃ x xs', xs = x :: xs' := by
        have hl := hr.length
        cases xs with
        | nil => exact absurd (List.length_eq_zero_iff.1 hl) hk0
        | cons x xs' => exact ⟨x, xs', rfl⟩
      obtain ⟨x, xs', rfl⟩ := hx
      refine ⟨c3 + 1 + c1, st3, z3, by simpa [printItems] using h3, fun F => ?_⟩
      rw [show F + (c3 + 1 + c1) = F + c3 + 1 + c1 by omega]
      exact (e1 (F + c3 + 1)).trans ((e2 (F + c3)).trans (e3 F))
end

end

/-- zj_Stringify prints the document behind the handle: the result is a fresh C string
whose text is the compact form of the document; nothing else changes. -/
theorem stringify_run (hI : Inv st P G) (hv : st.vals v = some ⟨some root, A⟩) {t}
    (ht : Unf G root t) : ∃ c st' b, (∀ fuel, c ≤ fuel → stringify fuel v st = .ok (.buf b 0, st')) ∧
      Unchanged st st' ∧ StOK st' ∧ st.nb ≤ b ∧
      ∃ bf, st'.bufs b = some bf ∧ bf.data = t.print ++ [0] := by
  have ha := hI.ok.live _ _ hv
  obtain ⟨st1, z1, e1, hz1, ho1, hu1, ha1, hh1, hd1⟩ := newOut_run (size := (·.str)) hI.ok ha st.cfg.str_pos
  have h1 : OutS st st1 z1 [] := ⟨hu1, ho1, by rw [hh1]; exact Nat.le_refl _, by rw [hd1]; exact Nat.le_refl _, hz1⟩
  have main : ∃ c st2 z2, OutS st st2 z2 t.print ∧ ∀ F, (do
      let (z, k) ← putValue z1 root
      match k with
      | some n => stringifyLoop v (F + c) .head n z
      | none => stringifyLoop v (F + c) .head root z : M ZStr) st1 = .ok (z2, st2) := by
    have hstop : ∀ {st2 z2 cont}, OutS st st2 z2 cont → ∀ F, 
        stringifyLoop v (F + 1) .head root z2 st2 = .ok (z2, st2) := by
      intro st2 z2 cont h F
      rw [stringifyLoop]
      mstep rdVal_run (h.val hI.ok hv)
      simp
    cases ht with
    | mk hg hu =>
      rename_i gn
      obtain ⟨n, hn, hok⟩ := hI.rep root gn hg
      generalize hgv : gn.val = gv at hu
      cases hu with
      | scalar hs =>
        obtain ⟨st2, z2, e2, h2⟩ := putValue_scalar h1 hI hg (by rw [hgv]; exact hs)
        refine ⟨1, st2, z2, by simpa [hgv] using h2, fun F => ?_⟩
        mstep e2
        exact hstop h2 F
      | con hi =>
        rename_i o kids xs
        obtain ⟨st2, z2, e2, h2⟩ := putValue_con h1 hI hg hgv
        have hval := hok.val
        rw [hgv] at hval
        have hval : ConOK st G root n o kids gn.endOK := hval
        cases hi with
        | nil =>
          refine ⟨1, st2, z2, by simpa [print_mkCon, printItems] using h2, fun F => ?_⟩
          mstep e2
          exact hstop h2 F
        | cons hk hkey hu hr =>
          have hU : Unf G root _ := .mk hg (by rw [hgv]; exact .con (.cons hk hkey hu hr))
          obtain ⟨c, st3, z3, h3, e3⟩ := outItems hI hv (.cons hk hkey hu hr) (f := root) (gf := gn)
            (by simp) hg (by rw [hgv]; rfl) hval.seg
            (fun k hk => by obtain ⟨gk, a1, a2, _⟩ := hval.kid k hk; exact ⟨gk, a1, a2⟩)
            (fun k hk c hc => hU.kid_ne hg (by rw [hgv]; exact hk) hc) h2
          refine ⟨1 + 1 + c, st3, z3, by simpa [print_mkCon] using h3, fun F => ?_⟩
          mstep e2
          rw [← Nat.add_assoc]
          refine (e3 (F + 1 + 1)).trans ?_
          rw [stringifyLoop]
          mstep rdVal_run (h3.val hI.ok hv)
          simp only [if_true]
          exact hstop h3 F
  obtain ⟨c, st2, z2, h2, e2⟩ := main
  obtain ⟨st3, z3, e3, h3, bf, hb1, hb2⟩ := h2.char 0
  refine ⟨c, st3, z3.data, fun fuel hf => ?_, h3.unch, h3.ok, h3.data, bf, hb1, hb2⟩
  obtain ⟨F, rfl⟩ : ∃ F, fuel = F + c := ⟨fuel - c, by omega⟩
  unfold stringify
  mstep rdVal_run hv
  simp only
  mstep e1
  have := e2 F
  rw [M.bind_run] at this ⊢
  revert this
  cases hpv : putValue z1 root st1 with
  | ok r =>
    obtain ⟨⟨z', c'⟩, st'⟩ := r
    intro this
    cases c' <;>
    · simp only at this ⊢
      mstep this
      mstep e3
      rfl
  | ub u => intro h; cases h
  | timeout => intro h; cases h

end

end ZJ
