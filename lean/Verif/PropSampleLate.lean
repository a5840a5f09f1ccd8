import Verif.PropSampleAgain

/-!
C81, further: the second run of the C++ sample program, for all documents that have a text at all. What is
before the first text is copied without the scratch string.
-/

set_option linter.unusedSimpArgs false
set_option linter.unusedVariables false

namespace ZJ

/-! ### Adding to an array leaves the scratch string alone -/

/-- `m` does not change which string is the scratch string. -/
def Hush {α : Type} (m : M α) : Prop := ∀ st r st', m st = .ok (r, st') → st'.cache = st.cache

section
variable {α β : Type}

theorem Hush.pure (a : α) : Hush (Pure.pure a : M α) := fun st r st' h => by cases h; rfl

theorem Hush.fail (u : UB) : Hush (ZJ.fail u : M α) := fun _ _ _ h => by cases h

theorem Hush.bind {m : M α} {f : α → M β} (h : Hush m) (hf : ∀ a, Hush (f a)) : Hush (m >>= f) := fun st r st' e => by
  rw [M.bind_run] at e
  split at e
  · rename_i a st1 e1
    exact (hf a _ _ _ e).trans (h _ _ _ e1)
  · cases e
  · cases e

theorem Hush.ite {c : Prop} [Decidable c] {a b : M α} (h : Hush a) (h' : Hush b) : Hush (if c then a else b) := by
  split <;> assumption

theorem Hush.fld (x : Option α) : Hush (ZJ.fld x) := by
  cases x
  · exact fun _ _ _ h => by cases h
  · exact Hush.pure _

theorem Hush.deref (x : Option Addr) : Hush (ZJ.deref x) := by
  cases x
  · exact fun _ _ _ h => by cases h
  · exact Hush.pure _

theorem Hush.rdNode (a : Addr) : Hush (ZJ.rdNode a) := fun st r st' e => by
  unfold ZJ.rdNode at e
  split at e <;> cases e
  rfl

theorem Hush.rdVal (a : Addr) : Hush (ZJ.rdVal a) := fun st r st' e => by
  unfold ZJ.rdVal at e
  split at e <;> cases e
  rfl

theorem Hush.modNode (a : Addr) (f : Node → Node) : Hush (ZJ.modNode a f) := fun st r st' e => by
  unfold ZJ.modNode at e
  split at e <;> cases e
  rfl

theorem Hush.setValN (v : Addr) (o : Option Addr) : Hush (ZJ.setValN v o) := fun st r st' e => by
  unfold ZJ.setValN at e
  split at e <;> cases e
  rfl
end

macro "hush" : tactic => `(tactic| repeat' (first
  | assumption | with_reducible exact Hush.pure _ | with_reducible exact Hush.fail _ | with_reducible exact Hush.fld _ | with_reducible exact Hush.deref _
  | with_reducible exact Hush.rdNode _ | with_reducible exact Hush.rdVal _ | with_reducible exact Hush.modNode _ _
  | with_reducible exact Hush.setValN _ _ | with_reducible apply Hush.ite | with_reducible refine Hush.bind ?_ fun _ => ?_ | split))

theorem Hush.arrayAddFast (v w : Addr) : Hush (arrayAddFast v w) := by
  unfold ZJ.arrayAddFast ZJ.move ZJ.attach ZJ.unlinkPrev ZJ.unlinkNext ZJ.valN ZJ.nType ZJ.nFather ZJ.nNext ZJ.nPrev ZJ.nLen ZJ.nNode ZJ.nEnd
    ZJ.setKey ZJ.setFather ZJ.setNodeP ZJ.setLen ZJ.setEnd ZJ.setNext ZJ.setPrev
  hush

/-! ### Values without a text -/

mutual
/-- There is no string, no number and no key in the value. -/
def Json.quiet : Json → Bool
  | .null | .bool _ => true
  | .str _ | .num _ => false
  | .obj ms => ms.isEmpty
  | .arr xs => Json.quietL xs
/-- So of all the elements. -/
def Json.quietL : List Json → Bool
  | [] => true
  | x :: xs => x.quiet && Json.quietL xs
end

section
variable {st st' st1 st2 st0 : St} {P : Addr → Prop} {G G0 G1 G2 : Graph} {v w A B n k a src : Addr} {x : Option Addr} {t u : Json} {b d : Bytes}

/-- Between `st0` and `st` a new value with the document `t` was put at `v`, in the new node `n`; the scratch string and the texts are as they were. -/
structure QMade (st0 st : St) (P : Addr → Prop) (G0 G : Graph) (A v n : Addr) (t : Json) : Prop where
  inv : Inv st P G
  val : st.vals v = some ⟨some n, A⟩
  doc : Unf G n t
  root : ∃ g, G n = some g ∧ g.par = none
  new : st0.nn ≤ n
  low : ∀ c, c < st0.nn → G c = G0 c
  closed : ∀ c gc m, st0.nn ≤ c → G c = some gc → m ∈ gc.val.kids → st0.nn ≤ m
  vals : ∀ i, i < st0.nv → i ≠ v → st.vals i = st0.vals i
  upn : st0.nn ≤ st.nn
  upv : st0.nv ≤ st.nv
  upb : st0.nb ≤ st.nb
  cache : st.cache = st0.cache
  bufs : ∀ c, c < st0.nb → st.bufs c = st0.bufs c

/-- The node is an array elements can be added to. -/
def OpenArr (G : Graph) (n : Addr) : Prop := ∃ g kids, G n = some g ∧ g.val = .con false kids ∧ (kids = [] ∨ g.endOK = true)

theorem QMade.below (h : QMade st0 st P G0 G A v n t) {c e} (hr : Reach G c e) : st0.nn ≤ c → st0.nn ≤ e := by
  induction hr with
  | refl => exact id
  | step h1 h2 _ ih => exact fun hc => ih (h.closed _ _ _ hc h1 h2)

theorem Stored.qmade {gv : GVal} (hI : Inv st P G) (hv : st.vals v = some ⟨.none, A⟩) (hk : gv.kids = []) (hS : Stored st st' P G v .none A gv t) :
    QMade st st' P G (G.set st.nn ((baseNode G .none).put gv)) A v st.nn t where
  inv := hS.inv
  val := hS.vals
  doc := hS.doc
  root := ⟨_, Graph.set_same _ _ _, rfl⟩
  new := Nat.le_refl _
  low := fun c hc => Graph.set_ne _ _ (Nat.ne_of_lt hc)
  closed := fun c gc m hc hg hm => by
    rw [Graph.set_apply] at hg
    split at hg
    · cases hg
      have hm : m ∈ gv.kids := hm
      rw [hk] at hm; cases hm
    · exact absurd (hI.lt hg) (Nat.not_lt.2 hc)
  vals := fun i hi hne => hS.frame.vals i hi hne
  upn := hS.frame.nn
  upv := hS.frame.nv
  upb := Nat.le_of_eq hS.nb.symm
  cache := hS.cache
  bufs := fun c _ => congrFun hS.bufs c

theorem QMade.addV (h : QMade st0 st P G0 G A v n t) (hB : st.allocs B = true) : QMade st0 (st.addV B x) P G0 G A v n t where
  doc := h.doc
  inv := h.inv.unchanged unch_addV (h.inv.ok.addV hB)
  val := by
    have := h.inv.ok.val_lt h.val
    show upd st.vals st.nv _ v = _
    rw [upd_ne _ _ (by omega)]; exact h.val
  root := h.root
  new := h.new
  low := h.low
  closed := h.closed
  vals := fun i hi hne => by
    have := h.upv
    show upd st.vals st.nv _ i = _
    rw [upd_ne _ _ (by omega)]; exact h.vals i hi hne
  upn := h.upn
  upv := Nat.le_succ_of_le h.upv
  upb := h.upb
  cache := h.cache
  bufs := h.bufs

/-- A new element is added. -/
theorem QMade.add {ys : List Json} (h : QMade st0 st1 P G0 G1 A v n (.arr ys)) (ho : OpenArr G1 n) (h2 : QMade (st1.addV A .none) st2 P G1 G2 A st1.nv k u) :
    ∃ st' G', readmeAdd false v st1.nv st2 = .ok (true, st') ∧ QMade st0 st' P G0 G' A v n (.arr (ys ++ [u])) ∧ OpenArr G' n ∧
      ∀ i, i < st1.nv → st'.vals i = st1.vals i := by
  obtain ⟨gf, kids, hf1, hgf, he⟩ := ho
  obtain ⟨gx, hgx, hp⟩ := h2.root
  have hnlt : n < st1.nn := h.inv.lt hf1
  have hvlt : v < st1.nv := h.inv.ok.val_lt h.val
  have hk : st1.nn ≤ k := h2.new
  have old : ∀ i, i < st1.nv → st2.vals i = st1.vals i := fun i hi => by
    rw [h2.vals i (Nat.lt_succ_of_lt hi) (by omega)]
    show upd st1.vals st1.nv _ i = _
    rw [upd_ne _ _ (by omega)]
  have hf : G2 n = some gf := by rw [h2.low n hnlt]; exact hf1
  have hn : ¬ Reach G2 k n := fun hr => by
    have : st1.nn ≤ n := h2.below hr h2.new
    omega
  have hnk : n ≠ k := by omega
  have hv2 : st2.vals v = some ⟨some n, A⟩ := by rw [old v hvlt]; exact h.val
  obtain ⟨st', hrun, hD, hvw, hnn⟩ := arrayAddFast_run h2.inv hv2 h2.val hf hgf (.root hgx hp) hgx ⟨⟨gf, hf, hgf, he⟩, hn⟩
  have keep : ∀ i, i < st1.nv → st'.vals i = st1.vals i := fun i hi => by
    have : st1.nv + 1 ≤ st2.nv := h2.upv
    rw [hD.frame.vals i (by omega) (by omega)]; exact old i hi
  have hfn : ((G2.set k { gx with key := none }).attach n k false kids) n = some { gf with val := .con false (kids ++ [k]), endOK := true } := by
    unfold Graph.attach
    rw [if_neg hnk, if_pos rfl, Graph.set_ne _ _ hnk, hf]
    rfl
  have hdoc : Unf ((G2.set k { gx with key := none }).attach n k false kids) n (.arr (ys ++ [u])) := by
    obtain ⟨st3, _, hD2, _⟩ := clearKey_run h2.inv hgx hp
    have hle : G1.le G2 := fun c gc hc => by rw [h2.low c (h.inv.lt hc)]; exact hc
    have huf : Unf G2 n (mkCon false (ys.map fun y => ([], y))) := by
      have : mkCon false (ys.map fun y => (([] : Bytes), y)) = .arr ys := by simp [mkCon, Function.comp_def]
      rw [this]; exact h.doc.mono hle
    obtain ⟨hE, _⟩ := hD2.inv.attach_edit (f := n) (x := k) (o := false) (kids := kids)
      (by rw [Graph.set_ne _ _ hnk]; exact hf) hgf (Graph.set_same _ _ _)
      (fun h => hn (Reach.set_same (gn' := { gx with key := none }) hgx rfl h)) (key := []) ⟨rfl, rfl⟩
      (huf.set_ne (fun h => hnk (h2.inv.above_root hgx hp h))) (Unf.set_top h2.doc hgx rfl)
    have hm : mkCon false ((ys.map fun y => (([] : Bytes), y)) ++ [([], u)]) = .arr (ys ++ [u]) := by simp [mkCon, Function.comp_def]
    have := hE.doc
    rw [hm] at this
    exact this
  obtain ⟨g0, hg0, hp0⟩ := h.root
  rw [hf1] at hg0; cases hg0
  have u1 := hD.frame.nn
  have u2 := hD.frame.nv
  have u3 := hD.frame.nb
  have w1 : st1.nn ≤ st2.nn := h2.upn
  have w2 : st1.nv + 1 ≤ st2.nv := h2.upv
  have w3 : st1.nb ≤ st2.nb := h2.upb
  have x1 := h.upn
  have x2 := h.upv
  have x3 := h.upb
  have x4 := h.new
  refine ⟨st', _, hrun, ⟨hD.inv, (keep v hvlt).trans h.val, hdoc, ⟨_, hfn, hp0⟩, h.new, ?_, ?_, fun i hi hne => (keep i (by omega)).trans (h.vals i hi hne),
    by omega, by omega, by omega, ?_, ?_⟩, ⟨_, _, hfn, rfl, .inr rfl⟩, keep⟩
  · intro c hc
    unfold Graph.attach
    rw [if_neg (by omega), if_neg (by omega), Graph.set_ne _ _ (by omega), h2.low c (show c < st1.nn by omega)]
    exact h.low c hc
  · have cl : ∀ c gc m, st0.nn ≤ c → G2 c = some gc → m ∈ gc.val.kids → st0.nn ≤ m := fun c gc m hc hg hm => by
      by_cases hcl : c < st1.nn
      · rw [h2.low c hcl] at hg
        exact h.closed c gc m hc hg hm
      · have : st1.nn ≤ m := h2.closed c gc m (show st1.nn ≤ c by omega) hg hm
        omega
    intro c gc m hc hg hm
    unfold Graph.attach at hg
    split at hg
    · rename_i e; subst e
      rw [Graph.set_same] at hg
      cases hg
      exact cl _ gx m hc hgx hm
    · split at hg
      · rename_i e1 e2; subst e2
        rw [Graph.set_ne _ _ e1, hf] at hg
        cases hg
        rcases List.mem_append.1 hm with hm | hm
        · exact cl _ gf m hc hf (by rw [hgf]; exact hm)
        · rw [List.mem_singleton.1 hm]; omega
      · rename_i e1 e2
        rw [Graph.set_ne _ _ e1] at hg
        exact cl c gc m hc hg hm
  · rw [Hush.arrayAddFast _ _ _ _ _ hrun, h2.cache]; exact h.cache
  · intro c hc
    rw [hD.frame.bufs c (by omega) id, h2.bufs c (show c < st1.nb by omega)]
    exact h.bufs c hc

/-- How the copying of `t` to a new value goes: without a text (`q`) it comes to its end; else it comes to fill the scratch string.
The scratch string and the texts are as they were until then. -/
def QGoes (q : Bool) (t : Json) : Prop :=
  if q then ∀ {st : St} {P : Addr → Prop} {G : Graph} {A B v src a : Addr}, Inv st P G →
    st.vals src = some ⟨some a, B⟩ → Unf G a t → st.vals v = some ⟨.none, A⟩ →
    ∃ c st' G' n, (∀ F, c ≤ F → sampleSet A F src v st = .ok ((), st')) ∧ QMade st st' P G G' A v n t
  else FillsIn t

theorem QGoes.fills (h : QGoes false t) : FillsIn t := by
  unfold QGoes at h
  rw [if_neg (by decide)] at h
  exact @h

/-- The loop over the elements `rest` of the array `a`. -/
theorem late_kids {ga : GNode} (hlt : ∀ c gc, G0 c = some gc → c < st0.nn) (ha : G0 a = some ga) :
    ∀ {rest : List Addr} {xs : List (Bytes × Json)} {l : List Addr} {st1 : St} {G1 : Graph} {nxt : Option Addr} {ys : List Json},
    QMade st0 st1 P G0 G1 A v n (.arr ys) → OpenArr G1 n → ga.val = .con false (l ++ rest) → UnfI G0 false rest xs → (∀ m ∈ xs, QGoes m.2.quiet m.2) →
    (∀ k, rest.head? = some k → ∃ r, nxt = some r ∧ st1.vals r = some ⟨some k, B⟩) → (rest = [] → nxt = none) →
    if Json.quietL (xs.map (·.2)) then
      ∃ c st' G', (∀ F F', c ≤ F → c ≤ F' → sampleKids false (sampleSet A F) A v F' nxt st1 = .ok ((), st')) ∧
        QMade st0 st' P G0 G' A v n (.arr (ys ++ xs.map (·.2)))
    else ∃ c st2 p n, st2.cache = st0.cache ∧ (∀ b, b < st0.nb → st2.bufs b = st0.bufs b) ∧
      ∀ F F', c ≤ F → c ≤ F' → Fills A (sampleKids false (sampleSet A F) A v F' nxt) st1 st2 p n
  | [], xs, l, st1, G1, nxt, ys, h, ho, hg, hI, hC, hn, hn0 => by
    cases hI
    obtain rfl := hn0 rfl
    simp only [List.map_nil, Json.quietL, if_true]
    refine ⟨1, st1, G1, fun F F' _ hF => ?_, by simpa using h⟩
    obtain ⟨F', rfl⟩ : ∃ k, F' = k + 1 := ⟨F' - 1, by omega⟩
    rfl
  | k :: ks, xs0, l, st1, G1, nxt, ys, h, ho, hg, hI, hC, hn, _ => by
    obtain ⟨gk, key, t, xs, rfl, hk, hkey, hu, hr⟩ := hI.cons_inv
    obtain ⟨r, rfl, hnr⟩ := hn k rfl
    have hle : G0.le G1 := fun c gc hc => by rw [h.low c (hlt c gc hc)]; exact hc
    have hrl := h.inv.ok.val_lt hnr
    have hA : st1.allocs A = true := h.inv.ok.live _ _ h.val
    have hw := h.addV (x := .none) hA
    have hnr1 : (st1.addV A .none).vals r = some ⟨some k, B⟩ := by
      show upd st1.vals st1.nv _ r = _
      rw [upd_ne _ _ (by omega)]; exact hnr
    have hnw : (st1.addV A .none).vals st1.nv = some ⟨.none, A⟩ := upd_same _ _ _
    have hC1 := hC (key, t) (by simp)
    simp only [List.map_cons, Json.quietL]
    cases hq : t.quiet with
    | false =>
      have hC0 : QGoes false t := by rw [← hq]; exact hC1
      have hC1 : FillsIn t := hC0.fills
      simp only [Bool.false_and, Bool.false_eq_true, if_false]
      obtain ⟨c, s2, p, n', c2, b2, hf⟩ := hC1 hw.inv hnr1 (hu.mono hle) hnw
      refine ⟨c + 1, s2, p, n', c2.trans h.cache, fun b hb => (b2 b (Nat.lt_of_lt_of_le hb h.upb)).trans (h.bufs b hb), fun F F' hF hF' => ?_⟩
      obtain ⟨F', rfl⟩ : ∃ k, F' = k + 1 := ⟨F' - 1, by omega⟩
      simp only [sampleKids]
      refine Fills.pre (newVal_run hA) (Fills.pre (show sampleKey false _ _ _ = .ok (true, _) from rfl) ?_)
      refine Fills.bind (hf F (by omega)) fun _ => tr_bind (readmeAdd_tr _ _ _) fun _ => ?_
      split
      · exact tr_pure _
      · exact tr_bind (next__tr _) fun _ => sampleKids_tr _ (sampleSet_tr _ _) _ _ _ _
    | true =>
      simp only [Bool.true_and]
      rw [hq] at hC1
      simp only [QGoes, if_true] at hC1
      obtain ⟨c1, s2, G2, m, e2, h2⟩ := hC1 hw.inv hnr1 (hu.mono hle) hnw
      obtain ⟨s3, G3, e3, h3, o3, k3⟩ := h.add ho h2
      have hnr3 : s3.vals r = some ⟨some k, B⟩ := by rw [k3 r hrl]; exact hnr
      have ha3 : G3 a = some ga := by rw [h3.low a (hlt a ga ha)]; exact ha
      have enext := next_run h3.inv hnr3 ha3 hg
      have tail : ∃ nxt5 st5, next_ r s3 = .ok (nxt5, st5) ∧ QMade st0 st5 P G0 G3 A v n (.arr (ys ++ [t])) ∧
          (∀ k, ks.head? = some k → ∃ r, nxt5 = some r ∧ st5.vals r = some ⟨some k, B⟩) ∧ (ks = [] → nxt5 = none) := by
        cases ks with
        | nil => exact ⟨none, s3, enext, h3, fun _ h => (nomatch h), fun _ => rfl⟩
        | cons k' ks' =>
          refine ⟨some s3.nv, _, enext, h3.addV (h3.inv.ok.live _ _ hnr3), fun k e => ?_, fun h => (nomatch h)⟩
          cases e; exact ⟨_, rfl, upd_same _ _ _⟩
      obtain ⟨nxt5, st5, e5, h5, hnx, hnx0⟩ := tail
      have ih := late_kids hlt ha (l := l ++ [k]) (xs := xs) h5 o3 (by rw [hg]; simp) hr
        (fun m hm => hC m (List.mem_cons_of_mem _ hm)) hnx hnx0
      have erun : ∀ F F', c1 ≤ F → sampleKids false (sampleSet A F) A v (F' + 1) (some r) st1 = sampleKids false (sampleSet A F) A v F' nxt5 st5 :=
        fun F F' hF => by
          simp only [sampleKids]
          refine (M.bind_ok (show newValue A st1 = _ from newVal_run hA)).trans ?_
          refine (M.bind_ok (show sampleKey false _ _ _ = .ok (true, _) from rfl)).trans ?_
          refine (M.bind_ok (e2 F hF)).trans ?_
          exact (M.bind_ok e3).trans (M.bind_ok e5)
      cases hqs : Json.quietL (xs.map (·.2)) with
      | true =>
        rw [hqs] at ih
        simp only [if_true] at ih ⊢
        obtain ⟨c, s', G', e, hM⟩ := ih
        refine ⟨max c1 c + 1, s', G', fun F F' hF hF' => ?_, by simpa using hM⟩
        obtain ⟨F', rfl⟩ : ∃ k, F' = k + 1 := ⟨F' - 1, by omega⟩
        rw [erun F F' (by omega)]
        exact e F F' (by omega) (by omega)
      | false =>
        rw [hqs] at ih
        simp only [Bool.false_eq_true, if_false] at ih ⊢
        obtain ⟨c, s', p, n', e1, e2', e⟩ := ih
        refine ⟨max c1 c + 1, s', p, n', e1, e2', fun F F' hF hF' => ?_⟩
        obtain ⟨F', rfl⟩ : ∃ k, F' = k + 1 := ⟨F' - 1, by omega⟩
        obtain ⟨f, g1, g2⟩ := e F F' (by omega) (by omega)
        exact ⟨f, g1, (erun F F' (by omega)).trans g2⟩

theorem goes_null : QGoes true .null := by
  simp only [QGoes, if_true]
  intro st P G A B v src a hI hs hu hv
  obtain ⟨ha, hu⟩ := hu
  have hn := hu.eq_null.2 rfl
  obtain ⟨st', e, hS⟩ := setNull_run hI hv (fun _ h => (nomatch h))
  have hty := getType_run hI hs ha
  have hin := isNull_run hI hs ha
  rw [hn] at hty hin
  refine ⟨1, st', _, _, fun F hF => ?_, hS.qmade hI hv rfl⟩
  obtain ⟨F, rfl⟩ : ∃ k, F = k + 1 := ⟨F - 1, by omega⟩
  simp only [sampleSet]
  exact (M.bind_ok hty).trans ((M.bind_ok hin).trans e)

theorem goes_bool {y : Bool} : QGoes true (.bool y) := by
  simp only [QGoes, if_true]
  intro st P G A B v src a hI hs hu hv
  obtain ⟨ha, hu⟩ := hu
  have hn := hu.bool_inv.2 y rfl
  obtain ⟨st', e, hS⟩ := setBool_run hI hv (fun _ h => (nomatch h)) y
  have hty := getType_run hI hs ha
  have hin := getBool_run hI hs ha
  rw [hn] at hty hin
  refine ⟨1, st', _, _, fun F hF => ?_, hS.qmade hI hv rfl⟩
  obtain ⟨F, rfl⟩ : ∃ k, F = k + 1 := ⟨F - 1, by omega⟩
  simp only [sampleSet]
  exact (M.bind_ok hty).trans ((M.bind_ok hin).trans e)

theorem goes_nothing : QGoes true (.obj []) := by
  simp only [QGoes, if_true]
  intro st P G A B v src a hI hs hu hv
  obtain ⟨ha, hu⟩ := hu
  obtain ⟨ks, hga, hK⟩ := hu.obj_inv
  cases hK
  obtain ⟨st2, e2, hS⟩ := setObj_run hI hv (fun _ h => (nomatch h))
  have hM := hS.qmade hI hv rfl
  have hty := getType_run hI hs ha
  have hne : src ≠ v := fun e => by subst e; rw [hs] at hv; cases hv
  have hs2 : st2.vals src = some ⟨some a, B⟩ := by rw [hM.vals src (hI.ok.val_lt hs) hne]; exact hs
  have eb := begin_run hM.inv hs2 ((hM.low a (hI.lt ha)).trans ha)
  rw [hga] at hty eb
  refine ⟨2, st2, _, _, fun F hF => ?_, hM⟩
  obtain ⟨F, rfl⟩ : ∃ k, F = k + 2 := ⟨F - 2, by omega⟩
  unfold sampleSet
  exact (M.bind_ok hty).trans ((M.bind_ok e2).trans ((M.bind_ok eb).trans rfl))

theorem goes_arr {xs : List Json} (hC : ∀ x ∈ xs, QGoes x.quiet x) : QGoes (Json.quietL xs) (.arr xs) := by
  have key : ∀ {st : St} {P : Addr → Prop} {G : Graph} {A B v src a : Addr}, Inv st P G →
      st.vals src = some ⟨some a, B⟩ → Unf G a (.arr xs) → st.vals v = some ⟨.none, A⟩ →
      if Json.quietL xs then ∃ c st' G' n, (∀ F, c ≤ F → sampleSet A F src v st = .ok ((), st')) ∧ QMade st st' P G G' A v n (.arr xs)
      else ∃ c st2 p n, st2.cache = st.cache ∧ (∀ b, b < st.nb → st2.bufs b = st.bufs b) ∧ ∀ F, c ≤ F → Fills A (sampleSet A F src v) st st2 p n := by
    intro st P G A B v src a hI hs hu hv
    obtain ⟨ha, hu⟩ := hu
    obtain ⟨ks, hga, hK⟩ := hu.arr_inv
    obtain ⟨st2, e2, hS⟩ := setArray_run hI hv (fun _ h => (nomatch h))
    have hM := hS.qmade hI hv rfl
    have hty := getType_run hI hs ha
    have hne : src ≠ v := fun e => by subst e; rw [hs] at hv; cases hv
    have hs2 : st2.vals src = some ⟨some a, B⟩ := by rw [hM.vals src (hI.ok.val_lt hs) hne]; exact hs
    have eb := begin_run hM.inv hs2 ((hM.low a (hI.lt ha)).trans ha)
    rw [hga] at hty eb
    have head : ∃ nxt st3, begin_ src st2 = .ok (nxt, st3) ∧ QMade st st3 P G (G.set st.nn ((baseNode G .none).put (.con false []))) A v st.nn (.arr []) ∧
        (∀ k, ks.head? = some k → ∃ r, nxt = some r ∧ st3.vals r = some ⟨some k, B⟩) ∧ (ks = [] → nxt = none) := by
      cases ks with
      | nil => exact ⟨none, st2, eb, hM, fun _ h => (nomatch h), fun _ => rfl⟩
      | cons k' ks' =>
        refine ⟨some st2.nv, _, eb, hM.addV (hM.inv.ok.live _ _ hs2), fun k e => ?_, fun h => (nomatch h)⟩
        cases e; exact ⟨_, rfl, upd_same _ _ _⟩
    obtain ⟨nxt, st3, e3, h3, hn, hn0⟩ := head
    have ih := late_kids (l := []) (fun c gc hc => hI.lt hc) ha h3 ⟨_, _, Graph.set_same _ _ _, rfl, .inl rfl⟩ hga hK
      (fun m hm => by obtain ⟨y, hy, rfl⟩ := List.mem_map.1 hm; exact hC y hy) hn hn0
    have hmap : (xs.map fun x => (([] : Bytes), x)).map (·.2) = xs := by simp [Function.comp_def]
    rw [hmap] at ih
    have erun : ∀ F, sampleSet A (F + 1) src v st = sampleKids false (sampleSet A F) A v F nxt st3 := fun F => by
      rw [sampleSet]
      exact (M.bind_ok hty).trans ((M.bind_ok e2).trans (M.bind_ok e3))
    cases hq : Json.quietL xs with
    | true =>
      rw [hq] at ih
      simp only [if_true] at ih ⊢
      obtain ⟨c, s', G', e, h'⟩ := ih
      refine ⟨c + 1, s', G', _, fun F hF => ?_, by simpa using h'⟩
      obtain ⟨F, rfl⟩ : ∃ k, F = k + 1 := ⟨F - 1, by omega⟩
      exact (erun F).trans (e F F (by omega) (by omega))
    | false =>
      rw [hq] at ih
      simp only [Bool.false_eq_true, if_false] at ih ⊢
      obtain ⟨c, s', p, n', d1, d2, e⟩ := ih
      refine ⟨c + 1, s', p, n', d1, d2, fun F hF => ?_⟩
      obtain ⟨F, rfl⟩ : ∃ k, F = k + 1 := ⟨F - 1, by omega⟩
      obtain ⟨f, g1, g2⟩ := e F F (by omega) (by omega)
      exact ⟨f, g1, (erun F).trans g2⟩
  cases hq : Json.quietL xs with
  | true =>
    rw [hq] at key
    simp only [QGoes, if_true] at key ⊢
    exact @key
  | false =>
    rw [hq] at key
    simp only [Bool.false_eq_true, if_false] at key
    unfold QGoes
    rw [if_neg (by decide)]
    exact @key

mutual
theorem goes_json : ∀ t : Json, QGoes t.quiet t
  | .null => goes_null
  | .bool _ => goes_bool
  | .str s => early_fills (.str s) rfl
  | .num s => early_fills (.num s) rfl
  | .obj [] => goes_nothing
  | .obj (m :: ms) => early_fills (.obj (m :: ms)) rfl
  | .arr xs => goes_arr (goes_elems xs)
theorem goes_elems : ∀ xs : List Json, ∀ x ∈ xs, QGoes x.quiet x
  | y :: ys, x, h => by
    rcases List.mem_cons.1 h with e | h
    · rw [e]; exact goes_json y
    · exact goes_elems ys x h
end

theorem loud_fills (h : t.quiet = false) : FillsIn t := by
  have hg := goes_json t
  rw [h] at hg
  exact @QGoes.fills _ hg

/-! ### A run after anything else -/

/-- Whatever else happened before: as long as the scratch string is usable, `main` prints what `cut` says. -/
theorem sampleMain_any (hok : StOK st) (hc : CacheOK st) (ht : JText t b) :
    ∃ c st', (∀ F, c ≤ F → sampleMain F b st = .ok (some ((t.cut.map Json.print).getD []), st')) ∧ StOK st' ∧
      (t.quiet = true → st'.cache = st.cache) ∧ (st.cache = .none → t.quiet = false → CacheGone st') := by
  have o0 := hok.addA
  have a0 : st.addA.allocs st.na = true := upd_same _ _ _
  have o1 := o0.addV (x := .none) a0
  have o2 := o1.addV (A := st.na) (x := .none) a0
  generalize hs : ((st.addA.addV st.na .none).addV st.na .none) = s2 at o2
  have hi := (Inv.none o2).addC_pin (d := b ++ [0])
  have hnv2 : s2.nv = st.nv + 2 := by rw [← hs]; rfl
  have hcs : s2.cache = st.cache := by rw [← hs]; rfl
  have hval : (s2.addC (b ++ [0])).vals st.nv = some ⟨.none, st.na⟩ := by
    rw [← hs]
    show upd (upd st.vals st.nv _) (st.nv + 1) _ st.nv = _
    rw [upd_ne _ _ (by omega), upd_same]
  have hval' : (s2.addC (b ++ [0])).vals (st.nv + 1) = some ⟨.none, st.na⟩ := by
    rw [← hs]
    show upd (upd st.vals st.nv _) (st.nv + 1) _ (st.nv + 1) = _
    rw [upd_same]
  have hcok : CacheOK (s2.addC (b ++ [0])) := fun z hz => by
    obtain ⟨cont, h⟩ := hc z (hcs.symm.trans hz)
    have hzb := hok.cache z (hcs.symm.trans hz)
    have hbuf : ∀ i, i < st.nb → (s2.addC (b ++ [0])).bufs i = st.bufs i := fun i hi => by
      rw [← hs]
      show upd st.bufs st.nb _ i = _
      rw [upd_ne _ _ (by omega)]
    refine ⟨cont, ?_, by rw [hbuf _ hzb.1]; exact h.hdr, by rw [hbuf _ hzb.2]; exact h.buf, h.room⟩
    rw [← hs]
    show upd st.allocs st.na true z.a = true
    by_cases e : z.a = st.na
    · rw [e, upd_same]
    · rw [upd_ne _ _ e]; exact h.live
  have hR : Ready (s2.addC (b ++ [0])) (fun c => False ∨ c = s2.nb) (fun _ => .none) st.nv .none st.na := ⟨hi, hcok, hval, fun _ h => (nomatch h)⟩
  have hP : InP (fun c => False ∨ c = s2.nb) (.buf s2.nb 0) := fun c off h => .inr (by cases h; rfl)
  obtain ⟨s4, G4, e4, h4, hT, hu, f4⟩ := parseFast_tidy hR (fun _ _ h => (nomatch h)) (addC_cstr ht.no_nul) hP ht
  have c4 : s4.cache = st.cache := by
    obtain ⟨s4', _, _, e4', _, _, _, c4, _⟩ := parseFast_accept hi hval (fun _ h => (nomatch h)) (addC_cstr ht.no_nul) hP ht
    rw [e4] at e4'
    cases e4'
    exact c4.trans hcs
  have hv1 : s4.vals (st.nv + 1) = some ⟨.none, st.na⟩ := by
    rw [f4.vals (st.nv + 1) (by show st.nv + 1 < s2.nv; omega) (by omega)]; exact hval'
  have hnv : st.nv + 2 ≤ s4.nv := by
    have : s2.nv ≤ s4.nv := f4.nv
    omega
  have hS : Slot { s4 with nv := st.nv + 1 } s4 G4 (fun c => False ∨ c = s2.nb) G4 st.na (st.nv + 1) .none :=
    { ready := ⟨h4.inv, h4.cok, hv1, fun _ h => (nomatch h)⟩
      tidy := hT
      root := fun _ h => (nomatch h)
      nv := Nat.le_refl _
      low := fun _ _ => rfl
      closed := fun c gc k hc hg _ => absurd (h4.inv.lt hg) (Nat.not_lt.2 hc)
      vals := fun _ _ => rfl
      upn := Nat.le_refl _
      upv := by show st.nv + 1 ≤ s4.nv; omega }
  obtain ⟨c5, s5, P5, e5, hR5⟩ := into (t.held + 1) t (by omega) ht.valid (st := { s4 with nv := st.nv + 1 }) (fun c gc hc => h4.inv.lt hc) hS
    (show st.nv < st.nv + 1 by omega) h4.val hu
  have q5 : t.quiet = true → s5.cache = st.cache := fun hq => by
    have hg := goes_json t
    rw [hq] at hg
    simp only [QGoes, if_true] at hg
    obtain ⟨c, s5', G', n, e, hM⟩ := hg h4.inv h4.val hu hv1
    have e' := e5 (max c c5) (by omega)
    rw [e (max c c5) (by omega)] at e'
    cases e'
    exact hM.cache.trans c4
  have l5 : st.cache = .none → t.quiet = false → ∃ z bf, s5.cache = some z ∧ s5.bufs z.hdr = some bf ∧ bf.owner = some st.na := fun hn hq => by
    obtain ⟨c0, s', p, n, _, _, hf⟩ := loud_fills hq h4.inv h4.val hu hv1
    have hsome : s5.cache.isSome = true := (hf _ (Nat.le_max_left c0 c5)).scratch (e5 _ (Nat.le_max_right c0 c5))
    obtain ⟨z, hz⟩ := Option.isSome_iff_exists.1 hsome
    have hh : ∀ v y, st.nv ≤ v → (s2.addC (b ++ [0])).vals v = some y → y.a = st.na := fun v y hv h => by
      rw [← hs] at h
      have h : upd (upd st.vals st.nv (some ⟨.none, st.na⟩)) (st.nv + 1) (some ⟨.none, st.na⟩) v = some y := h
      unfold upd at h
      split at h
      · cases h; rfl
      · split at h
        · cases h; rfl
        · rw [hok.vals v hv] at h; cases h
    obtain ⟨bf, hb, ho⟩ := sample_owned hi.ok (hcs.trans hn) (show st.nv ≤ s2.nv by omega) hh (Nat.le_refl _) (Nat.le_succ _) e4 (e5 _ (Nat.le_refl _)) hz
    exact ⟨z, bf, hz, hb, ho⟩
  have e : withText (b ++ [0]) true (parseFast st.nv) s2 = .ok (true, s4) :=
    (M.bind_ok (callerText_run _ _)).trans ((M.bind_ok e4).trans rfl)
  have erun : ∀ F, sampleMain F b st = (do
      sampleSet st.na F st.nv (st.nv + 1)
      let out ← readC (some (← stringify F (st.nv + 1)))
      releaseAllocator st.na
      return out : M (Option Bytes)) s4 := fun F => by
    unfold sampleMain
    refine (M.bind_ok (show newAllocator st = .ok (st.na, st.addA) from rfl)).trans ?_
    refine (M.bind_ok (show newValue st.na st.addA = .ok (st.nv, st.addA.addV st.na .none) from newVal_run a0)).trans ?_
    refine (M.bind_ok (show newValue st.na (st.addA.addV st.na .none) = .ok (st.nv + 1, s2) from hs ▸ newVal_run (st := st.addA.addV st.na .none) a0)).trans ?_
    exact (M.bind_ok e).trans rfl
  rcases hR5 with ⟨u, G5, n, hcut, h5, _⟩ | ⟨hcut, h5⟩
  · obtain ⟨c6, p, s6, e6, hp, _, hun, h6⟩ := C09_stringify h5.ready h5.shows
    have hprint : u.print.takeWhile (· ≠ 0) = u.print := takeWhile_self (print_text (Json.cut_valid ht.valid hcut)).no_nul
    have e7 := readC_holds hp
    rw [hprint] at e7
    refine ⟨max c5 c6, s6.without st.na, fun F hF => ?_, h6.inv.ok.without, fun hq => hun.2.trans (q5 hq), fun hn hq => ?_⟩
    rotate_left
    · obtain ⟨z, bf, hz, hb, ho⟩ := l5 hn hq
      have hb6 : s6.bufs z.hdr = some bf := (hun.1.bufs _ (h5.ready.inv.ok.cache z hz).1 id).trans hb
      exact ⟨z, hun.2.trans hz, by simp [St.without, hb6, ho]⟩
    rw [erun, hcut]
    mstep e5 F (by omega)
    mstep e6 F (by omega)
    mstep e7
    mstep release_run h6.alloc
    rfl
  · refine ⟨c5, s5.without st.na, fun F hF => ?_, h5.ready.inv.ok.without, q5, fun hn hq => ?_⟩
    rotate_left
    · obtain ⟨z, bf, hz, hb, ho⟩ := l5 hn hq
      exact ⟨z, hz, by simp [St.without, hb, ho]⟩
    rw [erun, hcut]
    mstep e5 F (by omega)
    mstep (show stringify F (st.nv + 1) s5 = .ok (.lit { bytes := [] }, s5) from (M.bind_ok (rdVal_run h5.ready.val)).trans rfl)
    mstep (show readC (some (.lit { bytes := [] })) s5 = .ok (some [], s5) from rfl)
    mstep release_run h5.ready.alloc
    rfl

/-- C81, as the program is, after anything else: in every state in which the scratch string is usable or was not made yet, for
every JSON text the program prints the document `cut` says. (`C81_prints` is the case of a fresh process.) -/
theorem C81_prints_any (hok : StOK st) (hc : CacheOK st) (ht : JText t b) :
    ∃ c, ∀ F, c ≤ F → (sampleMain F b st).out = .ok (some ((t.cut.map Json.print).getD [])) := by
  obtain ⟨c, st', e, _⟩ := sampleMain_any hok hc ht
  exact ⟨c, fun F hF => by rw [e F hF]; rfl⟩

/-- Without a text in the document the scratch string does not matter. -/
theorem sampleMain_quiet (hok : StOK st) (ht : JText t b) (hq : t.quiet = true) :
    ∃ c st', (∀ F, c ≤ F → sampleMain F b st = .ok (some t.print, st')) ∧ StOK st' ∧ st'.cache = st.cache ∧
      (CacheGone st → CacheGone st') := by
  have o0 := hok.addA
  have a0 : st.addA.allocs st.na = true := upd_same _ _ _
  have o1 := o0.addV (x := .none) a0
  have o2 := o1.addV (A := st.na) (x := .none) a0
  generalize hs : ((st.addA.addV st.na .none).addV st.na .none) = s2 at o2
  have hi := (Inv.none o2).addC_pin (d := b ++ [0])
  have hnv2 : s2.nv = st.nv + 2 := by rw [← hs]; rfl
  have hcs : s2.cache = st.cache := by rw [← hs]; rfl
  have hval : (s2.addC (b ++ [0])).vals st.nv = some ⟨.none, st.na⟩ := by
    rw [← hs]
    show upd (upd st.vals st.nv _) (st.nv + 1) _ st.nv = _
    rw [upd_ne _ _ (by omega), upd_same]
  have hval' : (s2.addC (b ++ [0])).vals (st.nv + 1) = some ⟨.none, st.na⟩ := by
    rw [← hs]
    show upd (upd st.vals st.nv _) (st.nv + 1) _ (st.nv + 1) = _
    rw [upd_same]
  obtain ⟨s4, gv, g, e4, i4, u4, v4, c4, h6, f4, _⟩ := parseFast_accept hi hval (fun _ h => (nomatch h))
    (addC_cstr ht.no_nul) (fun c off h => .inr (by cases h; rfl)) ht
  have hv1 : s4.vals (st.nv + 1) = some ⟨.none, st.na⟩ := by
    rw [f4.vals (st.nv + 1) (by show st.nv + 1 < s2.nv; omega) (by omega)]; exact hval'
  have hg := goes_json t
  rw [hq] at hg
  simp only [QGoes, if_true] at hg
  obtain ⟨c5, s5, G5, n, e5, h5⟩ := hg i4 v4 u4 hv1
  obtain ⟨c6, s6, k, e6, hun, ok6, _, bf, hb, hd⟩ := stringify_run h5.inv h5.val h5.doc
  have e7 := readC_holds (⟨k, bf, rfl, hb, hd⟩ : HoldsText s6 (.buf k 0) t.print)
  rw [takeWhile_self (print_text ht.valid).no_nul] at e7
  have hal : s6.allocs st.na = true := by rw [hun.1.allocs]; exact h5.inv.ok.live _ _ h5.val
  have e : withText (b ++ [0]) true (parseFast st.nv) s2 = .ok (true, s4) :=
    (M.bind_ok (callerText_run _ _)).trans ((M.bind_ok e4).trans rfl)
  have c6' : s6.cache = st.cache := hun.2.trans (h5.cache.trans (c4.trans hcs))
  have hgone : CacheGone st → CacheGone (s6.without st.na) := fun ⟨z, z1, z2⟩ => by
    refine ⟨z, c6'.trans z1, ?_⟩
    have hz := (hok.cache z z1).1
    have hnb : s2.nb = st.nb := by rw [← hs]; rfl
    have b2 : (s2.addC (b ++ [0])).bufs z.hdr = none := by
      show upd s2.bufs s2.nb _ z.hdr = _
      rw [upd_ne _ _ (by omega), ← hs]; exact z2
    have b4 : s4.bufs z.hdr = none := (f4.bufs z.hdr (by show z.hdr < s2.nb + 1; omega) id).trans b2
    have n4 : s2.nb + 1 ≤ s4.nb := f4.nb
    have b5 : s5.bufs z.hdr = none := (h5.bufs z.hdr (by omega)).trans b4
    have n5 := h5.upb
    have b6 : s6.bufs z.hdr = none := (hun.1.bufs z.hdr (by omega) id).trans b5
    simp [St.without, b6]
  refine ⟨max c5 c6, s6.without st.na, fun F hF => ?_, ok6.without, c6', hgone⟩
  unfold sampleMain
  refine (M.bind_ok (show newAllocator st = .ok (st.na, st.addA) from rfl)).trans ?_
  refine (M.bind_ok (show newValue st.na st.addA = .ok (st.nv, st.addA.addV st.na .none) from newVal_run a0)).trans ?_
  refine (M.bind_ok (show newValue st.na (st.addA.addV st.na .none) = .ok (st.nv + 1, s2) from hs ▸ newVal_run (st := st.addA.addV st.na .none) a0)).trans ?_
  refine (M.bind_ok e).trans ?_
  refine (M.bind_ok (e5 F (by omega))).trans ?_
  refine (M.bind_ok (e6 F (by omega))).trans ?_
  exact (M.bind_ok e7).trans ((M.bind_ok (release_run hal)).trans rfl)

/-- C81: a text without strings, numbers and keys is printed whatever else happened before, also when the memory of the scratch
string was released. -/
theorem C81_prints_quiet (hok : StOK st) (ht : JText t b) (hq : t.quiet = true) :
    ∃ c, ∀ F, c ≤ F → (sampleMain F b st).out = .ok (some t.print) := by
  obtain ⟨c, st', e, _⟩ := sampleMain_quiet hok ht hq
  exact ⟨c, fun F hF => by rw [e F hF]; rfl⟩

/-- The program's `main` once for each text. -/
def sampleRuns (F : Nat) : List Bytes → M (List (Option Bytes))
  | [] => return []
  | d :: ds => do
    let x ← sampleMain F d
    let xs ← sampleRuns F ds
    return x :: xs

theorem StOK.init (slack : Nat → Nat) (cfg : Cfg) : StOK (St.init slack cfg) :=
  ⟨fun _ _ => rfl, fun _ _ => rfl, fun _ _ => rfl, fun _ _ h => (nomatch h), fun _ _ h => (nomatch h), fun _ h => (nomatch h)⟩

theorem runs_quiet : ∀ (ds : List (Json × Bytes)), (∀ x ∈ ds, JText x.1 x.2 ∧ x.1.quiet = true) → ∀ (st : St), StOK st →
    ∃ c st', (∀ F, c ≤ F → sampleRuns F (ds.map (·.2)) st = .ok (ds.map fun x => some x.1.print, st')) ∧ StOK st' ∧ st'.cache = st.cache ∧
      (CacheGone st → CacheGone st')
  | [], _, st, hok => ⟨0, st, fun _ _ => rfl, hok, rfl, id⟩
  | x :: xs, hd, st, hok => by
    obtain ⟨h1, h2⟩ := hd x (by simp)
    obtain ⟨c, st1, e, ok1, c1, g1⟩ := sampleMain_quiet hok h1 h2
    obtain ⟨c', st', e', ok', c2, g2⟩ := runs_quiet xs (fun y hy => hd y (List.mem_cons_of_mem _ hy)) st1 ok1
    exact ⟨max c c', st', fun F hF => (M.bind_ok (e F (by omega))).trans ((M.bind_ok (e' F (by omega))).trans rfl), ok', c2.trans c1, g2 ∘ g1⟩

theorem runs_append {F : Nat} {ys : List (Option Bytes)} : ∀ {ds es : List Bytes} {st st1 st2 : St} {xs : List (Option Bytes)},
    sampleRuns F ds st = .ok (xs, st1) → sampleRuns F es st1 = .ok (ys, st2) → sampleRuns F (ds ++ es) st = .ok (xs ++ ys, st2)
  | [], es, st, st1, st2, xs, h, h' => by cases h; exact h'
  | d :: ds, es, st, st1, st2, xs, h, h' => by
    obtain ⟨x, s1, e1, h⟩ := ok_bind h
    obtain ⟨zs, s2, e2, h⟩ := ok_bind h
    cases h
    exact (M.bind_ok e1).trans ((M.bind_ok (runs_append e2 h')).trans rfl)

/-- C81, when the code can be used again: before and after a run with any text, any number of runs with texts without strings,
numbers and keys. Each prints what it prints in a fresh process. -/
theorem C81_again_partial (slack : Nat → Nat) {cfg : Cfg} (ds es : List (Json × Bytes)) (hd : ∀ x ∈ ds, JText x.1 x.2 ∧ x.1.quiet = true)
    (he : ∀ x ∈ es, JText x.1 x.2 ∧ x.1.quiet = true) (ht : JText t b) :
    ∃ c, ∀ F, c ≤ F → (sampleRuns F (ds.map (·.2) ++ b :: es.map (·.2)) (St.init slack cfg)).out =
      .ok ((ds.map fun x => some x.1.print) ++ some ((t.cut.map Json.print).getD []) :: es.map fun x => some x.1.print) := by
  obtain ⟨c1, st1, e1, ok1, n1, _⟩ := runs_quiet ds hd _ (StOK.init slack cfg)
  obtain ⟨c2, st2, e2, ok2, _⟩ := sampleMain_any ok1 (fun z hz => by rw [n1] at hz; cases hz) ht
  obtain ⟨c3, st3, e3, _⟩ := runs_quiet es he _ ok2
  refine ⟨max c1 (max c2 c3), fun F hF => ?_⟩
  have h2 : sampleRuns F (b :: es.map (·.2)) st1 = .ok (some ((t.cut.map Json.print).getD []) :: es.map fun x => some x.1.print, st3) :=
    (M.bind_ok (e2 F (by omega))).trans ((M.bind_ok (e3 F (by omega))).trans rfl)
  rw [runs_append (e1 F (by omega)) h2]
  rfl

/-- Four runs, computed: only the third text has a string. -/
example : (sampleRuns 99 [b!"[true,null]", b!"{}", b!"[[],\"a\"]", b!"[false]"] (St.init fun _ => 0)).out =
    .ok [some b!"[true,null]", some b!"{}", some b!"[[],\"a\"]", some b!"[false]"] := by decide +kernel
example : (Json.arr [.bool true, .null]).quiet = true ∧ (Json.obj []).quiet = true := by decide

/-! ### Two runs -/

/-- C81, the code of the sample cannot be used again, for all documents: if there is a string, a number or a key
in each of two texts, the program run for the second time in a process reads freed memory. -/
theorem C81_again_all_false (slack : Nat → Nat) {cfg : Cfg} (ht : JText t b) (hx : t.quiet = false) (hu : JText u d) (hy : u.quiet = false) :
    ∃ c, ∀ F, c ≤ F → ((do
      let first ← sampleMain F b
      let second ← sampleMain F d
      return (first, second) : M _) (St.init slack cfg)).out = .ub .wild := by
  obtain ⟨c, st', e, ho, hg⟩ := sampleMain_leaves slack (cfg := cfg) ht (loud_fills hx)
  obtain ⟨c', e'⟩ := sampleMain_gone ho hg hu (loud_fills hy)
  refine ⟨max c c', fun F hF => ?_⟩
  have : (do
      let first ← sampleMain F b
      let second ← sampleMain F d
      return (first, second) : M _) (St.init slack cfg) = .ub .wild :=
    (M.bind_ok (e F (by omega))).trans (M.bind_ub (e' F (by omega)))
  rw [this]
  rfl

/-- C81: nor do runs with texts without strings, numbers and keys in between help. -/
theorem C81_again_between_false (slack : Nat → Nat) {cfg : Cfg} (ht : JText t b) (hx : t.quiet = false) (ds : List (Json × Bytes))
    (hd : ∀ x ∈ ds, JText x.1 x.2 ∧ x.1.quiet = true) (hu : JText u d) (hy : u.quiet = false) (es : List Bytes) :
    ∃ c, ∀ F, c ≤ F → (sampleRuns F (b :: ds.map (·.2) ++ d :: es) (St.init slack cfg)).out = .ub .wild := by
  obtain ⟨c, st1, e, ok1, hg⟩ := sampleMain_leaves slack (cfg := cfg) ht (loud_fills hx)
  obtain ⟨c1, st2, e1, ok2, _, g2⟩ := runs_quiet ds hd st1 ok1
  obtain ⟨c2, e2⟩ := sampleMain_gone ok2 (g2 hg) hu (loud_fills hy)
  refine ⟨max c (max c1 c2), fun F hF => ?_⟩
  have main : ∀ (ds : List Bytes) (st st2 : St) (xs : List (Option Bytes)), sampleRuns F ds st = .ok (xs, st2) → sampleMain F d st2 = .ub .wild →
      sampleRuns F (ds ++ d :: es) st = .ub .wild := by
    intro ds
    induction ds with
    | nil => intro st st2 xs h h'; cases h; exact M.bind_ub h'
    | cons y ys ih =>
      intro st st2 xs h h'
      obtain ⟨x, s1, q1, h⟩ := ok_bind h
      obtain ⟨zs, s2, q2, h⟩ := ok_bind h
      cases h
      exact (M.bind_ok q1).trans (M.bind_ub (ih _ _ _ q2 h'))
  have hr : sampleRuns F (b :: ds.map (·.2) ++ d :: es) (St.init slack cfg) = .ub .wild :=
    (M.bind_ok (e F (by omega))).trans (M.bind_ub (main _ _ _ _ (e1 F (by omega)) (e2 F (by omega))))
  rw [hr]
  rfl

/-- With such a run in between, computed. -/
example : (sampleRuns 99 [b!"[1]", b!"[true,{}]", b!"{\"k\":null}"] (St.init fun _ => 0)).out = .ub .wild := by decide +kernel

theorem gone_runs : ∀ (ds : List (Json × Bytes)), (∀ x ∈ ds, JText x.1 x.2) → ∀ (st : St), StOK st → CacheGone st →
    if ds.countP (fun x => !x.1.quiet) = 0 then ∃ c r, ∀ F, c ≤ F → sampleRuns F (ds.map (·.2)) st = .ok r
    else ∃ c, ∀ F, c ≤ F → sampleRuns F (ds.map (·.2)) st = .ub .wild
  | [], _, st, _, _ => ⟨0, ([], st), fun _ _ => rfl⟩
  | x :: xs, hd, st, hok, hg => by
    have h1 := hd x (by simp)
    cases hq : x.1.quiet with
    | false =>
      obtain ⟨c, e⟩ := sampleMain_gone hok hg h1 (loud_fills hq)
      rw [if_neg (by simp [List.countP_cons, hq])]
      exact ⟨c, fun F hF => M.bind_ub (e F hF)⟩
    | true =>
      obtain ⟨c, st1, e, ok1, _, g1⟩ := sampleMain_quiet hok h1 hq
      have ih := gone_runs xs (fun y hy => hd y (List.mem_cons_of_mem _ hy)) st1 ok1 (g1 hg)
      have hcount : (x :: xs).countP (fun x => !x.1.quiet) = xs.countP (fun x => !x.1.quiet) := by simp [List.countP_cons, hq]
      rw [hcount]
      split at ih
      · rename_i h0
        obtain ⟨c', r, e'⟩ := ih
        rw [if_pos h0]
        exact ⟨max c c', _, fun F hF => (M.bind_ok (e F (by omega))).trans ((M.bind_ok (show _ = Res.ok (r.1, r.2) from e' F (by omega))).trans rfl)⟩
      · rename_i h0
        obtain ⟨c', e'⟩ := ih
        rw [if_neg h0]
        exact ⟨max c c', fun F hF => (M.bind_ok (e F (by omega))).trans (M.bind_ub (e' F (by omega)))⟩

theorem fresh_runs : ∀ (ds : List (Json × Bytes)), (∀ x ∈ ds, JText x.1 x.2) → ∀ (st : St), StOK st → st.cache = .none →
    if ds.countP (fun x => !x.1.quiet) ≤ 1 then ∃ c r, ∀ F, c ≤ F → sampleRuns F (ds.map (·.2)) st = .ok r
    else ∃ c, ∀ F, c ≤ F → sampleRuns F (ds.map (·.2)) st = .ub .wild
  | [], _, st, _, _ => ⟨0, ([], st), fun _ _ => rfl⟩
  | x :: xs, hd, st, hok, hn => by
    have h1 := hd x (by simp)
    have hxs : ∀ y ∈ xs, JText y.1 y.2 := fun y hy => hd y (List.mem_cons_of_mem _ hy)
    obtain ⟨c, st1, e, ok1, q1, g1⟩ := sampleMain_any hok (fun z hz => by rw [hn] at hz; cases hz) h1
    have step : ∀ {p q : Prop} [Decidable p] [Decidable q], (p ↔ q) →
        (if p then ∃ c r, ∀ F, c ≤ F → sampleRuns F (xs.map (·.2)) st1 = .ok r else ∃ c, ∀ F, c ≤ F → sampleRuns F (xs.map (·.2)) st1 = .ub .wild) →
        if q then ∃ c r, ∀ F, c ≤ F → sampleRuns F ((x :: xs).map (·.2)) st = .ok r
        else ∃ c, ∀ F, c ≤ F → sampleRuns F ((x :: xs).map (·.2)) st = .ub .wild := fun {p q} _ _ hpq ih => by
      split at ih
      · rename_i h0
        obtain ⟨c', r, e'⟩ := ih
        rw [if_pos (hpq.1 h0)]
        exact ⟨max c c', _, fun F hF => (M.bind_ok (e F (by omega))).trans ((M.bind_ok (show _ = Res.ok (r.1, r.2) from e' F (by omega))).trans rfl)⟩
      · rename_i h0
        obtain ⟨c', e'⟩ := ih
        rw [if_neg (fun h => h0 (hpq.2 h))]
        exact ⟨max c c', fun F hF => (M.bind_ok (e F (by omega))).trans (M.bind_ub (e' F (by omega)))⟩
    cases hq : x.1.quiet with
    | true => exact step (by simp [List.countP_cons, hq]) (fresh_runs xs hxs st1 ok1 ((q1 hq).trans hn))
    | false => exact step (by simp [List.countP_cons, hq]) (gone_runs xs hxs st1 ok1 (g1 hn hq))

/-- C81, exactly when the code of the sample can be used several times in a process: at most one of the texts has a string, a
number or a key. Otherwise it reads freed memory. -/
theorem C81_runs (slack : Nat → Nat) {cfg : Cfg} (ds : List (Json × Bytes)) (hd : ∀ x ∈ ds, JText x.1 x.2) :
    if ds.countP (fun x => !x.1.quiet) ≤ 1 then ∃ c r, ∀ F, c ≤ F → (sampleRuns F (ds.map (·.2)) (St.init slack cfg)).out = .ok r
    else ∃ c, ∀ F, c ≤ F → (sampleRuns F (ds.map (·.2)) (St.init slack cfg)).out = .ub .wild := by
  have h := fresh_runs ds hd _ (StOK.init slack cfg) rfl
  split at h
  · rename_i h0
    obtain ⟨c, r, e⟩ := h
    rw [if_pos h0]
    exact ⟨c, r.1, fun F hF => by rw [e F hF]; rfl⟩
  · rename_i h0
    obtain ⟨c, e⟩ := h
    rw [if_neg h0]
    exact ⟨c, fun F hF => by rw [e F hF]; rfl⟩

example : (sampleRuns 99 [b!"[]", b!"[1]", b!"[true,{}]", b!"{\"k\":null}"] (St.init fun _ => 0)).out = .ub .wild := by decide +kernel

/-- C81, exactly when the code of the sample can be used a second time in a process: one of the two texts has no string, no
number and no key. -/
theorem C81_again_iff (slack : Nat → Nat) {cfg : Cfg} (ht : JText t b) (hu : JText u d) :
    (∃ c x y, ∀ F, c ≤ F → (sampleRuns F [b, d] (St.init slack cfg)).out = .ok [x, y]) ↔ (t.quiet = true ∨ u.quiet = true) := by
  constructor
  · intro ⟨c, x, y, h⟩
    cases hq : t.quiet with
    | true => exact .inl rfl
    | false =>
      cases hq' : u.quiet with
      | true => exact .inr rfl
      | false =>
        obtain ⟨c1, st', e, ho, hg⟩ := sampleMain_leaves slack (cfg := cfg) ht (loud_fills hq)
        obtain ⟨c2, e'⟩ := sampleMain_gone ho hg hu (loud_fills hq')
        have h := h (max c (max c1 c2)) (by omega)
        have hw : sampleRuns (max c (max c1 c2)) [b, d] (St.init slack cfg) = .ub .wild :=
          (M.bind_ok (e _ (by omega))).trans (M.bind_ub (M.bind_ub (e' _ (by omega))))
        rw [hw] at h
        cases h
  · rintro (hq | hq)
    · obtain ⟨c, h⟩ := C81_again_partial slack (cfg := cfg) [(t, b)] [] (fun x hx => by cases List.mem_singleton.1 hx; exact ⟨ht, hq⟩) (by simp) hu
      exact ⟨c, _, _, h⟩
    · obtain ⟨c, h⟩ := C81_again_partial slack (cfg := cfg) [] [(u, d)] (by simp) (fun x hx => by cases List.mem_singleton.1 hx; exact ⟨hu, hq⟩) ht
      exact ⟨c, _, _, h⟩

/-- The second text has none, computed. -/
example : (sampleRuns 99 [b!"[1]", b!"[true,{}]"] (St.init fun _ => 0)).out = .ok [some b!"[1]", some b!"[true,{}]"] := by decide +kernel

/-- A text that comes after values without one. -/
example : (Json.arr [.bool true, .arr [.null], .obj [], .num b!"1"]).quiet = false := by decide
example : (Json.arr [.bool true, .arr [.null], .obj [], .num b!"1"]).early = false := by decide

/-- Such runs, computed. -/
example : ((do
      let _ ← sampleMain 99 b!"[true,[null],{},1]"
      sampleMain 99 b!"[[],2]" : M _) (St.init fun _ => 0)).out = .ub .wild := by decide +kernel

/-- C81: the program prints a document exactly for the JSON texts. -/
theorem C81_accepts_iff (slack : Nat → Nat) {cfg : Cfg} (h0 : (0 : Byte) ∉ b) :
    (∃ c x, ∀ F, c ≤ F → (sampleMain F b (St.init slack cfg)).out = .ok (some x)) ↔ ∃ t, JText t b := by
  refine ⟨fun ⟨c, x, h⟩ => ?_, fun ⟨t, ht⟩ => ?_⟩
  · refine Classical.byContradiction fun hb => ?_
    have h := h c (Nat.le_refl _)
    rcases C81_rejects slack (cfg := cfg) hb h0 c with h' | h' <;> rw [h] at h' <;> cases h'
  · obtain ⟨c, h⟩ := C81_prints slack (cfg := cfg) ht
    exact ⟨c, _, h⟩

/-- A JSON text and another text, both without a NUL byte, computed. -/
example : (0 : Byte) ∉ b!"[[],{}]" ∧ (sampleMain 99 b!"[[],{}]" (St.init fun _ => 0)).out = .ok (some b!"[[],{}]") := by
  constructor <;> decide +kernel
example : (0 : Byte) ∉ b!"[[],{]" ∧ (sampleMain 99 b!"[[],{]" (St.init fun _ => 0)).out = .ok none := by
  constructor <;> decide +kernel

end

end ZJ
