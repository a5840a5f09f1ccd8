import Verif.PropBuild
import Verif.PropTimeApi

/-!
C80: building a document value by value takes time linear in its size.
-/

namespace ZJ

/-! ### What is claimed -/

mutual
/-- How many values the plan has, itself included. -/
def Plan.values : Plan → Nat
  | arr xs => 1 + Plan.valuesAll xs
  | obj ms => 1 + Plan.valuesMembers ms
  | _ => 1
def Plan.valuesAll : List Plan → Nat
  | [] => 0
  | x :: xs => x.values + Plan.valuesAll xs
def Plan.valuesMembers : List (Word × Plan) → Nat
  | [] => 0
  | (_, x) :: ms => x.values + Plan.valuesMembers ms
end

/-- How many bytes the word has. -/
def Word.bytes : Word → Nat
  | raw s | text s => s.length

mutual
/-- How many bytes of strings, keys and numbers the program passes. -/
def Plan.bytes : Plan → Nat
  | num s => s.length
  | str w => w.bytes
  | arr xs => Plan.bytesAll xs
  | obj ms => Plan.bytesMembers ms
  | _ => 0
def Plan.bytesAll : List Plan → Nat
  | [] => 0
  | x :: xs => x.bytes + Plan.bytesAll xs
def Plan.bytesMembers : List (Word × Plan) → Nat
  | [] => 0
  | (k, x) :: ms => k.bytes + x.bytes + Plan.bytesMembers ms
end

/-! ### The program, counting the steps of the calls -/

/-- `Word.setStr`, counting. Putting the caller's text into memory is not counted. -/
def Word.setStrT (w : Word) (v : Addr) : TM Bool :=
  match w with
  | raw s => do
    let p ← ZJ.steps 0 (callerText (s ++ [0]))
    ZJ.setStrT v p
  | text s => do
    let p ← ZJ.steps 0 (callerText (s ++ [0]))
    setStrEscapeT v p

def Word.setKeyT (w : Word) (v : Addr) : TM Bool :=
  match w with
  | raw s => do
    let p ← ZJ.steps 0 (callerText (s ++ [0]))
    setKeyCT v p
  | text s => do
    let p ← ZJ.steps 0 (callerText (s ++ [0]))
    setKeyEscapeT v p

mutual
/-- `Plan.build`, counting. -/
def Plan.buildT (A : Nat) : Plan → TM (Addr × Bool)
  | null => do
    let v ← one (newValue A)
    setNullT v
    return (v, true)
  | bool b => do
    let v ← one (newValue A)
    setBoolT v b
    return (v, true)
  | num s => do
    let v ← one (newValue A)
    let p ← ZJ.steps 0 (callerText (s ++ [0]))
    let r ← setNumStrT v p
    return (v, r)
  | int n => do
    let v ← one (newValue A)
    let r ← setLongLongT v n
    return (v, r)
  | str w => do
    let v ← one (newValue A)
    let r ← w.setStrT v
    return (v, r)
  | arr xs => do
    let v ← one (newValue A)
    setArrayT v
    let r ← Plan.elemsT A v xs
    return (v, r)
  | obj ms => do
    let v ← one (newValue A)
    setObjT v
    let r ← Plan.membersT A v ms
    return (v, r)
def Plan.elemsT (A : Nat) (v : Addr) : List Plan → TM Bool
  | [] => return true
  | x :: xs => do
    let (w, r1) ← x.buildT A
    let r2 ← arrayAddFastT v w
    let r3 ← Plan.elemsT A v xs
    return r1 && r2 && r3
def Plan.membersT (A : Nat) (v : Addr) : List (Word × Plan) → TM Bool
  | [] => return true
  | (k, x) :: ms => do
    let (w, r1) ← x.buildT A
    let r2 ← k.setKeyT w
    let r3 ← objAddFastT v w
    let r4 ← Plan.membersT A v ms
    return r1 && r2 && r3 && r4
end

/-! ### The proof -/

section
variable {st st' : St} {P : Addr → Prop} {G : Graph} {v A : Addr}

@[simp] theorem Word.setStrT_val (w : Word) (v : Addr) : (w.setStrT v).val = w.setStr v := by
  cases w <;> simp [Word.setStrT, Word.setStr]
@[simp] theorem Word.setKeyT_val (w : Word) (v : Addr) : (w.setKeyT v).val = w.setKey v := by
  cases w <;> simp [Word.setKeyT, Word.setKey]

mutual
theorem Plan.buildT_val (A : Nat) : ∀ q : Plan, (q.buildT A).val = q.build A
  | .null | .bool _ | .num _ | .int _ | .str _ => by simp [Plan.buildT, Plan.build]
  | .arr xs => by simp [Plan.buildT, Plan.build, Plan.elemsT_val A _ xs]
  | .obj ms => by simp [Plan.buildT, Plan.build, Plan.membersT_val A _ ms]
theorem Plan.elemsT_val (A : Nat) (v : Addr) : ∀ xs : List Plan, (Plan.elemsT A v xs).val = Plan.elems A v xs
  | [] => by simp [Plan.elemsT, Plan.elems]
  | x :: xs => by simp [Plan.elemsT, Plan.elems, Plan.buildT_val A x, Plan.elemsT_val A v xs]
theorem Plan.membersT_val (A : Nat) (v : Addr) : ∀ ms : List (Word × Plan), (Plan.membersT A v ms).val = Plan.members A v ms
  | [] => by simp [Plan.membersT, Plan.members]
  | (k, x) :: ms => by simp [Plan.membersT, Plan.members, Plan.buildT_val A x, Plan.membersT_val A v ms]
end

theorem fee_text {α : Type} {s : Bytes} {c : Nat} {g : SPtr → TM α}
    (h : ∀ (st : St) (p : SPtr) (lim n : Nat), n ≤ s.length → Stops (s ++ [0]) n → view p st = .ok ((s ++ [0], lim), st) → Run (g p) st fun _ k _ => k ≤ c) :
    Fee 0 c (do let p ← ZJ.steps 0 (callerText (s ++ [0])); g p) := by
  refine Run.fee fun st a k st' e => ?_
  obtain ⟨p, m, st1, m', h1, e1, rfl⟩ := TM.bind_inv e
  obtain ⟨rfl, h2⟩ := TM.steps_inv h1
  rw [callerText_run _ st] at h2
  cases h2
  obtain ⟨n, hn, hs⟩ := exists_stops s []
  have := h _ _ _ n hn hs (by simp [view, St.addC]; rfl) _ _ _ e1
  omega

theorem fee_setStrW (w : Word) : Fee 0 (16 * w.bytes + 30) (w.setStrT v) := by
  cases w with
  | raw s => exact fee_text fun st p lim n hn hs hv => (setStrT_run hv hs).mono fun _ _ _ h => by simp only [Word.bytes]; omega
  | text s => exact fee_text fun st p lim n hn hs hv => (setStrEscapeT_run hv hs).mono fun _ _ _ h => by simp only [Word.bytes]; omega

theorem fee_setKeyW (w : Word) : Fee 0 (16 * w.bytes + 31) (w.setKeyT v) := by
  cases w with
  | raw s => exact fee_text fun st p lim n hn hs hv => (setKeyCT_run hv hs).mono fun _ _ _ h => by simp only [Word.bytes]; omega
  | text s => exact fee_text fun st p lim n hn hs hv => (setKeyEscapeT_run hv hs).mono fun _ _ _ h => by simp only [Word.bytes]; omega

theorem fee_new {α : Type} {A c : Nat} {f : Addr → TM α} (h : ∀ v, Fee 0 c (f v)) : Fee 0 (c + 1) (do let v ← one (newValue A); f v) :=
  Fee.one_bind0 h

theorem Plan.values_pos (q : Plan) : 0 < q.values := by cases q <;> simp [Plan.values] <;> omega

mutual
theorem fee_build (A : Nat) : ∀ q : Plan, Fee 0 (76 + 136 * (q.values - 1) + 16 * q.bytes) (q.buildT A)
  | .null => by
    unfold Plan.buildT
    exact (fee_new fun v => Fee.bind (c' := 0) fee_null (fun _ => Fee.pure) (Nat.le_refl _)).mono (by omega)
  | .bool b => by
    unfold Plan.buildT
    exact (fee_new fun v => Fee.bind (c' := 0) fee_bool (fun _ => Fee.pure) (Nat.le_refl _)).mono (by omega)
  | .int n => by
    unfold Plan.buildT
    exact (fee_new fun v => Fee.bind (c' := 0) fee_longLong (fun _ => Fee.pure) (Nat.le_refl _)).mono (by omega)
  | .num s => by
    unfold Plan.buildT
    refine (fee_new (c := 2 * s.length + 26) fun v => ?_).mono (by simp only [Plan.bytes]; omega)
    exact fee_text fun st p lim n hn hs hv => Run.bind (setNumStrT_run hv hs) fun _ _ _ h => Run.pure (by omega)
  | .str w => by
    unfold Plan.buildT
    exact (fee_new fun v => Fee.bind (c' := 0) (fee_setStrW w) (fun _ => Fee.pure) (Nat.le_refl _)).mono (by simp only [Plan.bytes]; omega)
  | .arr xs => by
    unfold Plan.buildT
    exact (fee_new fun v => Fee.bind (c' := 136 * Plan.valuesAll xs + 16 * Plan.bytesAll xs) fee_array (fun _ =>
      Fee.bind (c' := 0) (fee_elems A v xs) (fun _ => Fee.pure) (Nat.le_refl _)) (Nat.le_refl _)).mono (by simp only [Plan.bytes, Plan.values]; omega)
  | .obj ms => by
    unfold Plan.buildT
    exact (fee_new fun v => Fee.bind (c' := 136 * Plan.valuesMembers ms + 16 * Plan.bytesMembers ms) fee_obj (fun _ =>
      Fee.bind (c' := 0) (fee_members A v ms) (fun _ => Fee.pure) (Nat.le_refl _)) (Nat.le_refl _)).mono (by simp only [Plan.bytes, Plan.values]; omega)
theorem fee_elems (A : Nat) (v : Addr) : ∀ xs : List Plan, Fee 0 (136 * Plan.valuesAll xs + 16 * Plan.bytesAll xs) (Plan.elemsT A v xs)
  | [] => by unfold Plan.elemsT; exact Fee.pure
  | x :: xs => by
    unfold Plan.elemsT
    have hp := x.values_pos
    refine Fee.bind (c' := 30 + (136 * Plan.valuesAll xs + 16 * Plan.bytesAll xs)) (fee_build A x) (fun (w, r1) => ?_)
      (by simp only [Plan.valuesAll, Plan.bytesAll]; omega)
    exact Fee.bind fee_arrayAddFast (fun _ => Fee.bind (c' := 0) (fee_elems A v xs) (fun _ => Fee.pure) (Nat.le_refl _)) (Nat.le_refl _)
theorem fee_members (A : Nat) (v : Addr) : ∀ ms : List (Word × Plan),
    Fee 0 (136 * Plan.valuesMembers ms + 16 * Plan.bytesMembers ms) (Plan.membersT A v ms)
  | [] => by unfold Plan.membersT; exact Fee.pure
  | (k, x) :: ms => by
    unfold Plan.membersT
    have hp := x.values_pos
    refine Fee.bind (c' := 16 * k.bytes + 31 + (29 + (136 * Plan.valuesMembers ms + 16 * Plan.bytesMembers ms))) (fee_build A x) (fun (w, r1) => ?_)
      (by simp only [Plan.valuesMembers, Plan.bytesMembers]; omega)
    exact Fee.bind (fee_setKeyW k) (fun _ => Fee.bind fee_objAddFast (fun _ => Fee.bind (c' := 0) (fee_members A v ms) (fun _ => Fee.pure)
      (Nat.le_refl _)) (Nat.le_refl _)) (Nat.le_refl _)
end

/-- C80: building a document takes at most 136 steps for every value of it and 16 for every byte of
text, from any state, whatever the calls answer. -/
theorem C80_steps {q : Plan} {r : Addr × Bool} (h : q.build A st = .ok (r, st')) :
    ∃ k, q.buildT A st = .ok ((r, k), st') ∧ k ≤ 136 * q.values + 16 * q.bytes := by
  obtain ⟨k, e⟩ := TM.of_val (Plan.buildT_val A q) h
  have := fee_build A q _ _ _ _ e
  have := q.values_pos
  exact ⟨k, e, by omega⟩

/-- C80, C79: wherever it is built, every document of valid parts is built in that time, and it is
the document that was wanted. -/
theorem C80_build {q : Plan} (h : Site st P G A) (hq : q.OK) :
    ∃ v k st' t, q.buildT A st = .ok (((v, true), k), st') ∧ k ≤ 136 * q.values + 16 * q.bytes ∧ q.Is t ∧ Shows st' v t := by
  obtain ⟨v, n, st', P', G', t, e1, e2, e3⟩ := C79_build h hq
  obtain ⟨k, f1, f2⟩ := C80_steps e1
  exact ⟨v, k, st', t, f1, f2, e2, e3.shows⟩

end

/-- The example of C79 has seven values and eight bytes of text. -/
example : somePlan.values = 7 ∧ somePlan.bytes = 8 := by decide +kernel

/-- Building it takes 313 steps; the bound is 1080. -/
example : ((do
    let A ← newAllocator
    let (_, k) ← somePlan.buildT A
    return k : M _) (St.init fun _ => 0)).out = .ok 313 := by decide +kernel

end ZJ
