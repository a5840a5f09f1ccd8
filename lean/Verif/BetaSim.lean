import Verif.Beta

/-
The parser of the older header does what the parser of `zzzjson.h` does, except that some `Next`
fields that are still unset there are set already. `fill` writes such fields; the parser never reads
them, and a `Next` field that was set is not touched.
-/

set_option linter.unusedSimpArgs false

namespace ZJ.Beta

/-- `Next` gets the value `q`, if it has none. -/
def fillN (q : Option (Option Addr)) (n : Node) : Node := { n with next := n.next.or q }

def fill (φ : Addr → Option (Option Addr)) (st : St) : St :=
  { st with nodes := fun a => (st.nodes a).map (fillN (φ a)) }

theorem fillN_none (n : Node) : fillN none n = n := by simp [fillN]

theorem fill_none (st : St) : fill (fun _ => none) st = st := by
  have : (fillN none : Node → Node) = id := funext fillN_none
  simp [fill, this]

/-- `y` does, with some more `Next` fields set, what `x` does; not below `K`. -/
def FillR {α : Type} (K : Nat) (x y : Res (α × St)) : Prop :=
  match x with
  | .ok (r, s) => ∃ φ, (∀ a, a < K → φ a = none) ∧ K ≤ s.nn ∧ y = .ok (r, fill φ s)
  | .ub u => y = .ub u
  | .timeout => y = .timeout

def Fills {α : Type} (K : Nat) (x y : M α) : Prop :=
  ∀ st φ, K ≤ st.nn → (∀ a, a < K → φ a = none) → FillR K (x st) (y (fill φ st))

section
variable {α β : Type} {K : Nat}

theorem Fills.pure (a : α) : Fills K (Pure.pure a) (Pure.pure a) := fun _ φ hK hφ => ⟨φ, hφ, hK, rfl⟩

theorem Fills.lift (r : Res α) : Fills K (lift r) (lift r) := fun _ φ hK hφ => by
  cases r with
  | ok a => exact ⟨φ, hφ, hK, rfl⟩
  | ub u => exact (rfl : ZJ.lift (.ub u) _ = _)
  | timeout => exact (rfl : ZJ.lift .timeout _ = _)

theorem Fills.bind {x y : M α} {f g : α → M β} (h : Fills K x y) (hf : ∀ a, Fills K (f a) (g a)) :
    Fills K (x >>= f) (y >>= g) := fun st φ hK hφ => by
  have h := h st φ hK hφ
  rw [M.bind_run, M.bind_run]
  cases e : x st with
  | ok r =>
    obtain ⟨a, s⟩ := r
    rw [e] at h
    obtain ⟨φ', h1, h2, h3⟩ := h
    rw [h3]
    exact hf a s φ' h2 h1
  | ub u => rw [e] at h; simp only [FillR] at h ⊢; rw [h]
  | timeout => rw [e] at h; simp only [FillR] at h ⊢; rw [h]

theorem Fills.ite {c : Prop} [Decidable c] {x y x' y' : M α} (h : Fills K x y) (h' : Fills K x' y') :
    Fills K (if c then x else x') (if c then y else y') := by split <;> assumption

theorem Fills.rdVal (v : Addr) : Fills K (rdVal v) (rdVal v) := fun st φ hK hφ => by
  unfold ZJ.rdVal
  rw [show (fill φ st).vals v = st.vals v from rfl]
  cases st.vals v with
  | none => exact (rfl : Res.ub _ = _)
  | some x => exact ⟨φ, hφ, hK, rfl⟩

theorem Fills.setValN (v : Addr) (p) : Fills K (setValN v p) (setValN v p) := fun st φ hK hφ => by
  unfold ZJ.setValN
  rw [show (fill φ st).vals v = st.vals v from rfl]
  cases st.vals v with
  | none => exact (rfl : Res.ub _ = _)
  | some x => exact ⟨φ, hφ, hK, rfl⟩

theorem Fills.deref (p) : Fills K (deref p) (deref p) := fun _ φ hK hφ => by
  cases p with
  | none => exact (rfl : Res.ub _ = _)
  | some x => exact ⟨φ, hφ, hK, rfl⟩

theorem Fills.fld (p : Option α) : Fills K (fld p) (fld p) := fun _ φ hK hφ => by
  cases p with
  | none => exact (rfl : Res.ub _ = _)
  | some x => exact ⟨φ, hφ, hK, rfl⟩

theorem Fills.read (a : Addr) {F : Node → Option α} (hF : ∀ q n, F (fillN q n) = F n) :
    Fills K (do ZJ.fld (F (← rdNode a))) (do ZJ.fld (F (← rdNode a))) := fun st φ hK hφ => by
  rw [M.bind_run, M.bind_run]
  have e : (fill φ st).nodes a = (st.nodes a).map (fillN (φ a)) := rfl
  unfold rdNode
  rw [e]
  cases st.nodes a with
  | none => exact (rfl : Res.ub _ = _)
  | some n =>
    simp only [Option.map_some, hF]
    exact Fills.fld _ st φ hK hφ

theorem Fills.nFather (a : Addr) : Fills K (nFather a) (nFather a) := Fills.read a fun _ _ => rfl
theorem Fills.nType (a : Addr) : Fills K (nType a) (nType a) := Fills.read a fun _ _ => rfl
theorem Fills.nLen (a : Addr) : Fills K (nLen a) (nLen a) := Fills.read a fun _ _ => rfl

theorem fill_upd {φ : Addr → Option (Option Addr)} {st : St} {a : Addr} {n : Node} {q} :
    fill (upd φ a q) { st with nodes := upd st.nodes a (some n) } =
      { fill φ st with nodes := upd (fill φ st).nodes a (some (fillN q n)) } := by
  simp only [fill, St.mk.injEq, and_true]
  funext b
  by_cases hb : b = a
  · subst hb; simp
  · simp [upd_ne, hb]

theorem upd_self {α : Type} (m : Nat → α) (a : Nat) : upd m a (m a) = m := by
  funext b; by_cases hb : b = a
  · subst hb; simp
  · simp [upd_ne, hb]

theorem Fills.mod (a : Addr) {f : Node → Node} (hf : ∀ q n, f (fillN q n) = fillN q (f n)) :
    Fills K (modNode a f) (modNode a f) := fun st φ hK hφ => by
  have e : (fill φ st).nodes a = (st.nodes a).map (fillN (φ a)) := rfl
  unfold modNode
  rw [e]
  cases st.nodes a with
  | none => exact (rfl : Res.ub _ = _)
  | some n =>
    refine ⟨φ, hφ, hK, ?_⟩
    have := @fill_upd φ st a (f n) (φ a)
    rw [upd_self] at this
    simp only [Option.map_some, this, hf]

theorem Fills.setType (a x) : Fills K (setType a x) (setType a x) := Fills.mod a fun _ _ => rfl
theorem Fills.setKey (a x) : Fills K (ZJ.setKey a x) (ZJ.setKey a x) := Fills.mod a fun _ _ => rfl
theorem Fills.setKeyLen (a x) : Fills K (setKeyLen a x) (setKeyLen a x) := Fills.mod a fun _ _ => rfl
theorem Fills.setNodeP (a x) : Fills K (setNodeP a x) (setNodeP a x) := Fills.mod a fun _ _ => rfl
theorem Fills.setStrP (a x) : Fills K (setStrP a x) (setStrP a x) := Fills.mod a fun _ _ => rfl
theorem Fills.setLen (a x) : Fills K (setLen a x) (setLen a x) := Fills.mod a fun _ _ => rfl
theorem Fills.setNext (a x) : Fills K (setNext a x) (setNext a x) := Fills.mod a fun _ _ => rfl
theorem Fills.setPrev (a x) : Fills K (setPrev a x) (setPrev a x) := Fills.mod a fun _ _ => rfl
theorem Fills.setFather (a x) : Fills K (setFather a x) (setFather a x) := Fills.mod a fun _ _ => rfl
theorem Fills.setEnd (a x) : Fills K (setEnd a x) (setEnd a x) := Fills.mod a fun _ _ => rfl

theorem newNode_eq (A : Nat) (st : St) : newNode A st = if st.allocs A then
    .ok (st.nn, { st with
      log := .alloc A 72 :: st.log
      nodes := upd st.nodes st.nn (some { owner := A })
      nn := st.nn + 1 }) else .ub .wild := by
  cases h : st.allocs A with
  | true =>
    have e : request A 72 st = .ok ((), { st with log := .alloc A 72 :: st.log }) := by
      unfold request; rw [h]; rfl
    exact (M.bind_ok e).trans rfl
  | false =>
    have e : request A 72 st = .ub .wild := by unfold request; rw [h]; rfl
    exact (M.bind_ub e).trans rfl

theorem Fills.newNode (A : Nat) : Fills K (newNode A) (newNode A) := fun st φ hK hφ => by
  rw [newNode_eq, newNode_eq]
  rw [show (fill φ st).allocs A = st.allocs A from rfl]
  cases st.allocs A with
  | false => exact (rfl : Res.ub _ = _)
  | true =>
    refine ⟨upd φ st.nn none, fun a ha => ?_, by show K ≤ st.nn + 1; omega, ?_⟩
    · rw [upd_ne _ _ (by omega)]; exact hφ a ha
    · have := @fill_upd φ { st with log := .alloc A 72 :: st.log, nn := st.nn + 1 } st.nn { owner := A } none
      rw [fillN_none] at this
      exact congrArg (fun s => Res.ok (st.nn, s)) this.symm

end

macro "fills" : tactic => `(tactic| repeat' (first
  | with_reducible exact Fills.pure _
  | with_reducible exact Fills.lift _
  | with_reducible exact Fills.rdVal _
  | with_reducible exact Fills.deref _
  | with_reducible exact Fills.setValN _ _
  | with_reducible exact Fills.nFather _
  | with_reducible exact Fills.nType _
  | with_reducible exact Fills.nLen _
  | with_reducible exact Fills.setType _ _
  | with_reducible exact Fills.setKey _ _
  | with_reducible exact Fills.setKeyLen _ _
  | with_reducible exact Fills.setNodeP _ _
  | with_reducible exact Fills.setStrP _ _
  | with_reducible exact Fills.setLen _ _
  | with_reducible exact Fills.setNext _ _
  | with_reducible exact Fills.setPrev _ _
  | with_reducible exact Fills.setFather _ _
  | with_reducible exact Fills.setEnd _ _
  | with_reducible exact Fills.newNode _
  | with_reducible apply Fills.ite
  | with_reducible refine Fills.bind ?_ fun _ => ?_))

section
variable {K : Nat} {v A lim : Nat} {p : SPtr} {s : Bytes} {src : Option Addr}

theorem parseKey_fills (node i) : Fills K (parseKey p s node i) (parseKey p s node i) := by
  unfold parseKey
  fills

theorem restore_fills (hs : ∀ a, src = some a → a < K) : Fills K (restore v src) (restore v src) := by
  unfold restore
  cases src with
  | none => fills
  | some sn =>
    have hsn := hs sn rfl
    intro st φ hK hφ
    have e : ∀ a, (fill φ st).nodes a = (st.nodes a).map (fillN (φ a)) := fun _ => rfl
    simp only [M.bind_run, rdNode, e, hφ sn hsn]
    cases st.nodes sn with
    | none => exact (rfl : Res.ub _ = _)
    | some x =>
      simp only [Option.map_some, fillN_none, ZJ.rdVal]
      rw [show (fill φ st).vals v = st.vals v from rfl]
      cases st.vals v with
      | none => exact (rfl : Res.ub _ = _)
      | some w =>
        obtain ⟨_ | a, B⟩ := w
        · exact (rfl : Res.ub _ = _)
        · simp only [ZJ.deref, M.pure_run, modNode, e]
          cases st.nodes a with
          | none => exact (rfl : Res.ub _ = _)
          | some n =>
            refine ⟨upd φ a none, fun b hb => ?_, hK, ?_⟩
            · by_cases h : b = a
              · subst h; simp
              · rw [upd_ne _ _ h]; exact hφ b hb
            · have := @fill_upd φ st a { x with owner := n.owner } none
              rw [fillN_none] at this
              simp only [Option.map_some, M.pure_run, this]
              rfl

/-- The first child: `Next` of the new node is set in one program only. -/
theorem first_fills {α : Type} {A : Nat} {f : Option Addr} {k k' : Addr → M α} (o : Prop) [Decidable o]
    (h : ∀ n, Fills K (k n) (k' n)) :
    Fills K (do let n ← newNode A; setFather n f; setPrev n none; k n)
      (do let n ← newNode A; setFather n f; setPrev n none; if o then (do setNext n none; k' n) else k' n) := by
  intro st φ hK hφ
  rw [M.bind_run, M.bind_run, newNode_eq, newNode_eq]
  rw [show (fill φ st).allocs A = st.allocs A from rfl]
  cases st.allocs A with
  | false => exact (rfl : Res.ub _ = _)
  | true =>
    simp only [if_true, M.bind_run, setFather, setPrev, modNode, upd_same]
    have hn : K ≤ st.nn := hK
    have key : ∀ q : Option (Option Addr),
        FillR K (k st.nn { st with
          log := .alloc A 72 :: st.log, nn := st.nn + 1
          nodes := upd st.nodes st.nn (some { owner := A, father := some f, prev := some none }) })
        (k' st.nn { fill φ st with
          log := .alloc A 72 :: st.log, nn := st.nn + 1
          nodes := upd (fill φ st).nodes st.nn
            (some { owner := A, father := some f, prev := some none, next := q }) }) := by
      intro q
      have e := @fill_upd φ { st with log := .alloc A 72 :: st.log, nn := st.nn + 1 } st.nn
        { owner := A, father := some f, prev := some none } q
      have := h st.nn { st with
          log := .alloc A 72 :: st.log, nn := st.nn + 1
          nodes := upd st.nodes st.nn (some { owner := A, father := some f, prev := some none }) }
        (upd φ st.nn q) (by show K ≤ st.nn + 1; omega)
        (fun a ha => by rw [upd_ne _ _ (by omega)]; exact hφ a ha)
      rw [e] at this
      exact this
    have uu : ∀ (m : Nat → Option Node) a x y, upd (upd m a x) a y = upd m a y := by
      intro m a x y; funext b; by_cases hb : b = a
      · subst hb; simp
      · simp [upd_ne, hb]
    have hnn : (fill φ st).nn = st.nn := rfl
    have hlog : (fill φ st).log = st.log := rfl
    by_cases ho : o
    · simp only [ho, if_true, M.bind_run, setNext, modNode, upd_same, uu, hnn, hlog]
      exact key (some none)
    · simp only [ho, if_false, M.pure_run, uu, hnn, hlog, upd_same]
      exact key none

theorem openContainer_fills (ty close node i) :
    Fills K (ZJ.openContainer A s ty close node i) (openContainer A s ty close node i) := by
  unfold ZJ.openContainer openContainer
  refine Fills.bind (Fills.setType _ _) fun _ => Fills.bind (Fills.lift _) fun r => ?_
  obtain ⟨ok, i⟩ := r
  cases ok with
  | true => simp only [if_true]; fills
  | false =>
    simp only [Bool.false_eq_true, if_false]
    refine first_fills (k := fun n => _) (k' := fun n => _) (ty = .object) fun n => ?_
    fills

theorem switchValue_refl (node i) (c : Byte) (j : Nat) (hp : peek s i = .ok (c, j)) (h1 : c ≠ 0x5B)
    (h2 : c ≠ 0x7B) : Fills K (ZJ.switchValue A p s lim node i) (ZJ.switchValue A p s lim node i) := by
  unfold ZJ.switchValue
  rw [hp]
  intro st φ hK hφ
  have e : ∀ st' : St, (ZJ.lift (Res.ok (c, j)) : M _) st' = .ok ((c, j), st') := fun _ => rfl
  rw [M.bind_ok (e _), M.bind_ok (e _)]
  simp only [h1, h2, if_false]
  revert st φ
  show Fills K _ _
  fills
  all_goals (split <;> fills)

theorem switchValue_fills (node i) :
    Fills K (ZJ.switchValue A p s lim node i) (switchValue A p s lim node i) := by
  intro st φ hK hφ
  unfold switchValue
  cases hp : peek s i with
  | ub u => unfold ZJ.switchValue; rw [hp]; exact (rfl : Res.ub _ = _)
  | timeout => unfold ZJ.switchValue; rw [hp]; exact (rfl : Res.timeout = _)
  | ok r =>
    obtain ⟨c, j⟩ := r
    have e : ∀ st' : St, (ZJ.lift (Res.ok (c, j)) : M _) st' = .ok ((c, j), st') := fun _ => rfl
    rw [M.bind_ok (e _)]
    by_cases h1 : c = 0x5B
    · unfold ZJ.switchValue
      rw [hp, M.bind_ok (e _)]
      simp only [h1, if_true]
      exact openContainer_fills _ _ _ _ st φ hK hφ
    by_cases h2 : c = 0x7B
    · unfold ZJ.switchValue
      rw [hp, M.bind_ok (e _)]
      simp only [h1, h2, if_true, if_false]
      exact openContainer_fills _ _ _ _ st φ hK hφ
    simp only [h1, h2, if_false]
    exact switchValue_refl node i c j hp h1 h2 st φ hK hφ

theorem parseLoop_fills (hs : ∀ a, src = some a → a < K) : ∀ (fuel : Nat) (pc : PC) (node i),
    Fills K (ZJ.parseLoop v A p s lim src fuel pc node i) (parseLoop v A p s lim src fuel pc node i)
  | 0, _, _, _ => Fills.lift _
  | fuel + 1, .head, node, i => by
    have IH := parseLoop_fills hs fuel
    unfold ZJ.parseLoop parseLoop
    refine Fills.bind (Fills.rdVal _) fun _ => Fills.ite ?_ ?_
    · fills
      exact restore_fills hs
    · refine Fills.bind (parseKey_fills _ _) fun r => ?_
      cases r with
      | none => exact restore_fills hs
      | some i =>
        refine Fills.bind (switchValue_fills _ _) fun r => ?_
        cases r with
        | bad => exact restore_fills hs
        | desc n i => exact IH _ _ _
        | leaf i => exact IH _ _ _
  | fuel + 1, .close, node, i => by
    have IH := parseLoop_fills hs fuel
    unfold ZJ.parseLoop parseLoop
    fills
    all_goals first | exact IH _ _ _ | exact restore_fills hs

end

theorem saveNode_src {v : Addr} {val : Val} {st st1 : St} {src}
    (h : saveNode v val st = .ok (src, st1)) : st.nn ≤ st1.nn ∧ ∀ a, src = some a → a < st1.nn := by
  unfold saveNode at h
  obtain ⟨_ | a, B⟩ := val
  · simp only [M.bind_run, newNode_eq] at h
    cases hA : st.allocs B with
    | false => rw [hA] at h; cases h
    | true =>
      rw [hA] at h
      simp only [if_true, setValN] at h
      cases hv : st.vals v with
      | none => simp only [hv] at h; cases h
      | some w =>
        simp only [hv, setPrev, setNext, setFather, ZJ.setKey, modNode, upd_same, M.pure_run] at h
        cases h
        exact ⟨by show st.nn ≤ st.nn + 1; omega, fun _ h => nomatch h⟩
  · simp only [M.bind_run, newNode_eq] at h
    cases hA : st.allocs B with
    | false => rw [hA] at h; cases h
    | true =>
      rw [hA] at h
      simp only [if_true, rdNode] at h
      cases hn : upd st.nodes st.nn (some ({ owner := B } : Node)) a with
      | none => simp only [hn] at h; cases h
      | some w =>
        simp only [hn, modNode, upd_same, M.pure_run] at h
        cases h
        exact ⟨by show st.nn ≤ st.nn + 1; omega, fun _ h => by cases h; show st.nn < st.nn + 1; omega⟩

theorem FillR.mono {α : Type} {K K' : Nat} {x y : Res (α × St)} (h : FillR K x y) (hK : K' ≤ K) :
    FillR K' x y := by
  cases x with
  | ub u => exact h
  | timeout => exact h
  | ok r =>
    obtain ⟨φ, h1, h2, h3⟩ := h
    exact ⟨φ, fun a ha => h1 a (by omega), by omega, h3⟩

theorem parseNodes_sim (v : Addr) (p : SPtr) (st : St) :
    FillR st.nn (ZJ.parseFast v p st) (parseNodes v p st) := by
  have e : ZJ.parseFast v p = (do
    let val ← rdVal v
    let src ← saveNode v val
    let (s, lim) ← view p
    let root ← deref (← rdVal v).n
    match ← ZJ.switchValue val.a p s lim root 0 with
    | .bad => restore v src
    | .desc n i => ZJ.parseLoop v val.a p s lim src (parseFuel s.length) .head n i
    | .leaf i => ZJ.parseLoop v val.a p s lim src (parseFuel s.length) .head root i) := rfl
  rw [e]
  unfold parseNodes
  cases hv : rdVal v st with
  | ub u => rw [M.bind_ub hv, M.bind_ub hv]; exact (rfl : Res.ub _ = _)
  | timeout => simp only [M.bind_run, hv]; exact (rfl : Res.timeout = _)
  | ok r =>
    obtain ⟨val, st0⟩ := r
    have h0 : st0 = st := by
      unfold rdVal at hv; cases hq : st.vals v <;> rw [hq] at hv <;> cases hv; rfl
    subst h0
    rw [M.bind_ok hv, M.bind_ok hv]
    cases hs : saveNode v val st0 with
    | ub u => rw [M.bind_ub hs, M.bind_ub hs]; exact (rfl : Res.ub _ = _)
    | timeout => simp only [M.bind_run, hs]; exact (rfl : Res.timeout = _)
    | ok r =>
      obtain ⟨src, st1⟩ := r
      obtain ⟨hle, hsrc⟩ := saveNode_src hs
      rw [M.bind_ok hs, M.bind_ok hs]
      cases hw : view p st1 with
      | ub u => rw [M.bind_ub hw, M.bind_ub hw]; exact (rfl : Res.ub _ = _)
      | timeout => simp only [M.bind_run, hw]; exact (rfl : Res.timeout = _)
      | ok r =>
        obtain ⟨⟨s, lim⟩, st2⟩ := r
        have h2 : st2 = st1 := by
          unfold view at hw
          cases p with
          | lit t => cases hw; rfl
          | buf b off => cases hb : st1.bufs b <;> simp only [hb] at hw <;> cases hw; rfl
        subst h2
        rw [M.bind_ok hw, M.bind_ok hw]
        have main : Fills st2.nn (do
            let root ← deref (← rdVal v).n
            match ← ZJ.switchValue val.a p s lim root 0 with
            | .bad => restore v src
            | .desc n i => ZJ.parseLoop v val.a p s lim src (parseFuel s.length) .head n i
            | .leaf i => ZJ.parseLoop v val.a p s lim src (parseFuel s.length) .head root i) (do
            let root ← deref (← rdVal v).n
            match ← switchValue val.a p s lim root 0 with
            | .bad => restore v src
            | .desc n i => parseLoop v val.a p s lim src (parseFuel s.length) .head n i
            | .leaf i => parseLoop v val.a p s lim src (parseFuel s.length) .head root i) := by
          refine Fills.bind (Fills.rdVal _) fun _ => Fills.bind (Fills.deref _) fun root =>
            Fills.bind (switchValue_fills _ _) fun r => ?_
          cases r with
          | bad => exact restore_fills hsrc
          | desc n i => exact parseLoop_fills hsrc _ _ _ _
          | leaf i => exact parseLoop_fills hsrc _ _ _ _
        have := main st2 (fun _ => none) (Nat.le_refl _) (fun _ _ => rfl)
        rw [fill_none] at this
        exact this.mono hle

/-! ### What more `Next` fields do not change -/

section
variable {φ : Addr → Option (Option Addr)} {st : St} {P : Addr → Prop} {G : Graph}

theorem fill_nodes {a n} (h : st.nodes a = some n) : (fill φ st).nodes a = some (fillN (φ a) n) := by
  show (st.nodes a).map _ = _
  rw [h]; rfl

theorem fillN_next {q x} {n : Node} (h : n.next = some x) : (fillN q n).next = some x := by
  show n.next.or q = _
  rw [h]; rfl

mutual
theorem fill_doc {a t} : MDoc st a t → MDoc (fill φ st) a t
  | .null h h1 => .null (fill_nodes h) h1
  | .bool b h h1 h2 h3 h4 => .bool b (fill_nodes h) h1 h2 h3 h4
  | .num h h1 h2 h3 h4 => .num (fill_nodes h) h1 h2 h3 h4
  | .str h h1 h2 h3 h4 => .str (fill_nodes h) h1 h2 h3 h4
  | .arr h h1 h2 h3 h4 => .arr (fill_nodes h) h1 h2 h3 (fill_kids h4)
  | .obj h h1 h2 h3 h4 => .obj (fill_nodes h) h1 h2 h3 (fill_kids h4)
theorem fill_kids {o x xs} : MKids st o x xs → MKids (fill φ st) o x xs
  | .nil => .nil
  | .cons h h1 h2 h3 h4 => .cons (fill_nodes h) h1 (fillN_next h2) (fill_doc h3) (fill_kids h4)
end

theorem fill_shows {v t} (h : Shows st v t) : Shows (fill φ st) v t := by
  obtain ⟨a, A, h1, h2⟩ := h
  exact ⟨a, A, h1, fill_doc h2⟩

theorem fill_seg : ∀ {pv ks nx}, Seg st G pv ks nx → Seg (fill φ st) G pv ks nx
  | _, [], _, _ => trivial
  | _, _ :: _, _, ⟨⟨_, gk, h1, h2, h3, h4⟩, hr⟩ =>
    ⟨⟨_, gk, fill_nodes h1, h2, fillN_next h3, h4⟩, fill_seg hr⟩

theorem fill_inv (h : Inv st P G) : Inv (fill φ st) P G where
  ok := { h.ok with nodes := fun a ha => by show (st.nodes a).map _ = _; rw [h.ok.nodes a ha]; rfl }
  pin := h.pin
  fin := h.fin
  rep := fun a gn hg => by
    obtain ⟨n, hn, hk⟩ := h.rep a gn hg
    refine ⟨_, fill_nodes hn, ⟨?_, hk.father, fun hr => ⟨fillN_next (hk.root hr).1, (hk.root hr).2⟩, ?_⟩⟩
    · have := hk.key
      revert this
      cases gn.key <;> exact id
    · have := hk.val
      revert this
      unfold ValOK
      cases gn.val with
      | con o kids => exact fun h => { h with seg := fill_seg h.seg }
      | _ => exact id

theorem fill_cok (h : CacheOK st) : CacheOK (fill φ st) := fun z hz => by
  obtain ⟨c, h1⟩ := h z hz
  exact ⟨c, ⟨h1.live, h1.hdr, h1.buf, h1.room⟩⟩

theorem fill_ready {v x A} (h : Ready st P G v x A) : Ready (fill φ st) P G v x A :=
  ⟨fill_inv h.inv, fill_cok h.cok, h.val, h.node⟩

/-- Nodes that were there before the call are the same. -/
theorem fill_old {K a : Nat} (hφ : ∀ a, a < K → φ a = none) (ha : a < K) :
    (fill φ st).nodes a = st.nodes a := by
  show (st.nodes a).map _ = _
  rw [hφ a ha]
  cases st.nodes a with
  | none => rfl
  | some n => simp [fillN_none]

end

end ZJ.Beta
