import Verif.PropEdit
/-!
C35, C36, C42 and C44: what several handles on the same node, handles on nodes that
were replaced, the shared scratch string and unchecked number texts can do.
-/
namespace ZJ
set_option linter.unusedVariables false
set_option linter.unusedSimpArgs false

/-! ### C35: a document that contains itself -/

/-- `m` keeps the state well formed. -/
structure Pres {α : Type} (m : M α) : Prop where
  keep : ∀ st r st', StOK st → m st = .ok (r, st') → StOK st'

theorem Pres.pure {α : Type} (a : α) : Pres (pure a : M α) := by
  refine ⟨fun st r st' h e => ?_⟩; cases e; exact h

theorem Pres.bind {α β : Type} {m : M α} {f : α → M β} (h1 : Pres m) (h2 : ∀ a, Pres (f a)) : Pres (m >>= f) := by
  refine ⟨fun st r st' h e => ?_⟩
  rw [M.bind_run] at e
  cases hm : m st with
  | ok p => rw [hm] at e; exact (h2 p.1).keep p.2 r st' (h1.keep st p.1 p.2 h hm) e
  | ub u => rw [hm] at e; cases e
  | timeout => rw [hm] at e; cases e

theorem M.bind_timeout {α β : Type} {x : M α} {f : α → M β} {st : St} (h : x st = .timeout) : (x >>= f) st = .timeout := by
  rw [M.bind_run, h]

theorem Pres.fail {α : Type} (u : UB) : Pres (fail u : M α) := by
  refine ⟨fun st r st' h e => ?_⟩; cases e

theorem Pres.lift {α : Type} (r : Res α) : Pres (lift r : M α) := by
  refine ⟨fun st x st' h e => ?_⟩
  cases r <;> cases e
  exact h

theorem Pres.fld {α : Type} (r : Option α) : Pres (fld r) := by cases r <;> first | exact .pure _ | exact .fail _
theorem Pres.deref (r : Option Addr) : Pres (deref r) := by cases r <;> first | exact .pure _ | exact .fail _

theorem Pres.rdNode (a : Addr) : Pres (rdNode a) := by
  refine ⟨fun st r st' h e => ?_⟩
  unfold ZJ.rdNode at e
  cases hm : st.nodes a <;> rw [hm] at e <;> cases e
  exact h

theorem Pres.rdVal (a : Addr) : Pres (rdVal a) := by
  refine ⟨fun st r st' h e => ?_⟩
  unfold ZJ.rdVal at e
  cases hm : st.vals a <;> rw [hm] at e <;> cases e
  exact h

theorem Pres.modNode (a : Addr) (f : Node → Node) : Pres (modNode a f) := by
  refine ⟨fun st r st' h e => ?_⟩
  cases hm : st.nodes a with
  | none => simp [ZJ.modNode, hm] at e
  | some n =>
    rw [modNode_run hm] at e; cases e
    exact { h with
      nodes := fun b hb => by
        have : b ≠ a := fun e => by subst e; rw [h.nodes _ hb] at hm; cases hm
        simpa [this] using h.nodes b hb }

theorem Pres.setValN (v : Addr) (p : Option Addr) : Pres (setValN v p) := by
  refine ⟨fun st r st' h e => ?_⟩
  cases hm : st.vals v with
  | none => simp [ZJ.setValN, hm] at e
  | some x =>
    rw [setValN_run hm] at e; cases e
    exact { h with
      vals := fun b hb => by
        have : b ≠ v := fun e => by subst e; rw [h.vals _ hb] at hm; cases hm
        simpa [this] using h.vals b hb
      live := fun w y hy => by
        simp only [setV_vals, setV_allocs] at hy ⊢
        split at hy
        · cases hy; exact h.live v x hm
        · exact h.live w y hy }

theorem Pres.newVal (A : Nat) (p : Option Addr) : Pres (newVal A p) := by
  refine ⟨fun st r st' h e => ?_⟩
  by_cases ha : st.allocs A = true
  · rw [newVal_run ha] at e; cases e
    exact { h with
      vals := fun b hb => by
        have : b ≠ st.nv := by simp at hb; omega
        simpa [this] using h.vals b (by simp at hb; omega)
      live := fun w y hy => by
        simp only [addV_vals, addV_allocs] at hy ⊢
        split at hy
        · cases hy; exact ha
        · exact h.live w y hy }
  · have : ZJ.newVal A p st = .ub .wild := by
      unfold ZJ.newVal
      exact M.bind_ub (by simp [request, ha])
    rw [this] at e; cases e

theorem Pres.nNode (a : Addr) : Pres (nNode a) := by
  unfold ZJ.nNode
  refine .bind (.rdNode _) fun n => .bind (.fld _) fun u => ?_
  cases u <;> first | exact .fail _ | exact .pure _

macro "pres" : tactic => `(tactic| repeat' (first
  | assumption | exact Pres.pure _ | exact Pres.fail _ | exact Pres.lift _ | exact Pres.fld _ | exact Pres.deref _
  | exact Pres.rdNode _ | exact Pres.rdVal _ | exact Pres.modNode _ _ | exact Pres.setValN _ _ | exact Pres.newVal _ _ | exact Pres.nNode _
  | apply Pres.bind | intro _ | split))

theorem Pres.move (v : Addr) : Pres (move v) := by
  unfold ZJ.move unlinkPrev unlinkNext nFather nPrev nNext nLen setNodeP setNext setPrev setEnd setLen setFather
  pres
theorem Pres.adopt (f : Addr) : ∀ fuel o, Pres (adopt f fuel o)
  | 0, _ => .lift _
  | _ + 1, none => .pure _
  | fuel + 1, some n => by
    unfold ZJ.adopt setFather nNext
    have := Pres.adopt f fuel
    repeat' (first | exact this _ | pres)
theorem Pres.graft (fuel : Nat) (a x e : Addr) : Pres (graft fuel a x e) := by
  unfold ZJ.graft nType nLen setType setLen
  repeat' (first | exact Pres.adopt _ _ _ | pres)
theorem Pres.setFast (fuel : Nat) (v w : Addr) : Pres (setFast fuel v w) := by
  unfold ZJ.setFast
  refine .bind (.move _) fun b => ?_
  cases b
  · exact .pure _
  refine .bind (.rdVal _) fun x => .bind (.rdVal _) fun y => ?_
  rcases y with ⟨_ | a, A⟩
  · exact .bind (.setValN _ _) fun _ => .bind (.setValN _ _) fun _ => .pure _
  · exact .bind (.deref _) fun _ => .bind (.graft _ _ _ _) fun _ => .bind (.setValN _ _) fun _ => .pure _

theorem Pres.arrayGetLoop (i : Nat) : ∀ fuel j o, Pres (arrayGetLoop i fuel j o)
  | 0, _, _ => .lift _
  | _ + 1, _, none => .pure _
  | fuel + 1, j, some n => by
    unfold ZJ.arrayGetLoop nNext
    split
    · exact .pure _
    · exact .bind (.bind (.rdNode _) fun _ => .fld _) fun _ => Pres.arrayGetLoop i fuel _ _

theorem Pres.arrayGet (fuel : Nat) (v : Addr) (i : Nat) : Pres (arrayGet fuel v i) := by
  unfold ZJ.arrayGet nType
  refine .bind (.rdVal _) fun x => ?_
  rcases x with ⟨_ | a, A⟩
  · exact .pure _
  refine .bind (.bind (.rdNode _) fun _ => .fld _) fun _ => ?_
  split
  · exact .pure _
  refine .bind (.nNode _) fun _ => .bind (.arrayGetLoop _ _ _ _) fun r => ?_
  cases r
  · exact .pure _
  · exact .bind (.newVal _ _) fun _ => .pure _

/-- A handle `v` on an array whose first element is an array that is its own first element. -/
structure Knot (st : St) (v a b A : Addr) : Prop where
  ok : StOK st
  val : st.vals v = some ⟨some a, A⟩
  ne : a ≠ b
  top : ∃ n, st.nodes a = some n ∧ n.type = some .array ∧ n.value = some (.node (some b)) ∧ n.key = some none ∧ n.len = some 1
  loop : ∃ n, st.nodes b = some n ∧ n.type = some .array ∧ n.value = some (.node (some b)) ∧ n.key = some none ∧ n.len = some 1

variable {st st' : St} {v w a b c A : Addr}

theorem Knot.open (h : Knot st v a b A) {st1 z cont} (hz : OutS st st1 z cont) {c : Addr}
    (hc : ∃ n, st.nodes c = some n ∧ n.type = some .array ∧ n.value = some (.node (some b)) ∧ n.key = some none ∧ n.len = some 1) :
    ∃ st2 z2, putValue z c st1 = .ok ((z2, some b), st2) ∧ OutS st st2 z2 (cont ++ [0x5B]) ∧ nKey c st1 = .ok (none, st1) := by
  obtain ⟨n, h1, h2, h3, h4, _⟩ := hc
  have f : ∀ {s}, Unchanged st s → s.nodes c = some n := fun hu => by
    rw [hu.1.nodes c (by
      refine Nat.lt_of_not_le fun hle => ?_
      rw [h.ok.nodes c hle] at h1; cases h1) id]; exact h1
  obtain ⟨st2, z2, q1, q2, _⟩ := hz.char 0x5B
  refine ⟨st2, z2, ?_, q2, nKey_run (f hz.unch) h4⟩
  unfold putValue
  mstep nType_run (f hz.unch) h2
  mstep q1
  mstep nNode_run (f q2.unch) h3
  rfl

theorem Knot.forever (h : Knot st v a b A) : ∀ fuel {st1 z cont}, OutS st st1 z cont →
    stringifyLoop v fuel .head b z st1 = .timeout
  | 0, _, _, _, _ => rfl
  | fuel + 1, st1, z, cont, hz => by
    obtain ⟨st2, z2, q1, q2, q3⟩ := h.open hz h.loop
    have hv : st1.vals v = some ⟨some a, A⟩ := by
      rw [hz.unch.1.vals v (by
        refine Nat.lt_of_not_le fun hle => ?_
        have := h.val; rw [h.ok.vals v hle] at this; cases this) id]; exact h.val
    unfold stringifyLoop
    mstep rdVal_run hv
    have hne : ¬ some b = some a := fun e => h.ne (Option.some.inj e).symm
    rw [if_neg hne]
    have hk : putKey z b st1 = .ok (z, st1) := by
      unfold putKey
      mstep q3
      rfl
    mstep hk
    mstep q1
    exact h.forever fuel q2

theorem Knot.stringify (h : Knot st v a b A) (fuel : Nat) : stringify fuel v st = .timeout := by
  obtain ⟨st1, z, q1, q2, q3, q4, q5, q6, q7⟩ := newOut_run (size := (·.str)) h.ok (h.ok.live v _ h.val) st.cfg.str_pos
  have hz : OutS st st1 z [] := ⟨q4, q3, by rw [q6]; exact Nat.le_refl _, by rw [q7]; exact Nat.le_refl _, q2⟩
  obtain ⟨st2, z2, r1, r2, _⟩ := h.open hz h.top
  unfold ZJ.stringify
  mstep rdVal_run h.val
  mstep q1
  mstep r1
  exact M.bind_timeout (h.forever fuel r2)

/-- What `zj_Copy` needs to run on a knot. -/
structure Copying (s : St) (v a b A : Addr) : Prop where
  val : s.vals v = some ⟨some a, A⟩
  ne : a ≠ b
  loop : ∃ n, s.nodes b = some n ∧ n.type = some .array ∧ n.value = some (.node (some b)) ∧ n.key = some none ∧ n.len = some 1
  lt : b < s.nn
  live : s.allocs A = true

theorem Copying.mod {s : St} (h : Copying s v a b A) {c : Addr} (hc : (s.nodes c).isSome) (hb : c ≠ b) (f : Node → Node) :
    ∃ s', modNode c f s = .ok ((), s') ∧ Copying s' v a b A ∧ ∀ d, (s.nodes d).isSome → (s'.nodes d).isSome := by
  obtain ⟨n, hn⟩ := Option.isSome_iff_exists.mp hc
  refine ⟨_, modNode_run hn, ⟨h.val, h.ne, ?_, h.lt, h.live⟩, fun d hd => ?_⟩
  · rw [setN_nodes, if_neg (Ne.symm hb)]; exact h.loop
  · rw [setN_nodes]; split <;> simp_all

theorem Copying.new {s : St} (h : Copying s v a b A) :
    ∃ s' m, newNode A s = .ok (m, s') ∧ Copying s' v a b A ∧ (s'.nodes m).isSome ∧ m ≠ b ∧
      ∀ d, (s.nodes d).isSome → (s'.nodes d).isSome := by
  have hne : s.nn ≠ b := Nat.ne_of_gt h.lt
  refine ⟨_, _, newNode_run h.live, ⟨h.val, h.ne, ?_, Nat.lt_succ_of_lt h.lt, h.live⟩, by simp, hne, fun d hd => ?_⟩
  · rw [addN_nodes, if_neg (Ne.symm hne)]; exact h.loop
  · rw [addN_nodes]; split <;> simp_all

theorem Copying.node {s : St} (h : Copying s v a b A) {c d : Addr}
    (hc : ∃ n, s.nodes c = some n ∧ n.type = some .array ∧ n.value = some (.node (some b)) ∧ n.key = some none ∧ n.len = some 1)
    (hcd : c ≠ d) (hd : (s.nodes d).isSome) (hb : d ≠ b) :
    ∃ s' m, copyNode A c d s = .ok (some (b, m), s') ∧ Copying s' v a b A ∧ (s'.nodes m).isSome ∧ m ≠ b := by
  obtain ⟨n, h1, h2, h3, h4, h5⟩ := hc
  obtain ⟨nd, hnd⟩ := Option.isSome_iff_exists.mp hd
  have key : ∀ s2, (∃ m, s2 = s.setN d m) → Copying s2 v a b A ∧ (s2.nodes d).isSome ∧ s2.nodes c = some n := by
    rintro _ ⟨m, rfl⟩
    refine ⟨⟨h.val, h.ne, ?_, h.lt, h.live⟩, by simp, by simp [hcd, h1]⟩
    rw [setN_nodes, if_neg (Ne.symm hb)]; exact h.loop
  obtain ⟨m1, e1⟩ : ∃ m1, setType d .array s = .ok ((), s.setN d m1) := ⟨_, modNode_run hnd⟩
  obtain ⟨k1, k2, k3⟩ := key _ ⟨m1, rfl⟩
  obtain ⟨m2, e2⟩ : ∃ m2, setKey d none (s.setN d m1) = .ok ((), s.setN d m2) :=
    ⟨_, (modNode_run (n := m1) (by simp)).trans (by rw [setN_setN])⟩
  obtain ⟨k4, k5, k6⟩ := key _ ⟨m2, rfl⟩
  obtain ⟨m3, e3⟩ : ∃ m3, setLen d 1 (s.setN d m2) = .ok ((), s.setN d m3) :=
    ⟨_, (modNode_run (n := m2) (by simp)).trans (by rw [setN_setN])⟩
  obtain ⟨k7, k8, k9⟩ := key _ ⟨m3, rfl⟩
  obtain ⟨s4, x, e4, p1, p2, p3, p4⟩ := k7.new
  obtain ⟨s5, e5, p5, p6⟩ := p1.mod p2 p3 fun n => { n with father := some (some d) }
  obtain ⟨s6, e6, p7, p8⟩ := p5.mod (p6 _ p2) p3 fun n => { n with prev := some none }
  obtain ⟨s7, e7, p9, p10⟩ := p7.mod (p8 _ (p6 _ (p4 _ k8))) hb fun n => { n with value := some (.node (some x)) }
  obtain ⟨s8, e8, p11, p12⟩ := p9.mod (p10 _ (p8 _ (p6 _ (p4 _ k8)))) hb fun n => { n with end_ := some (some x) }
  refine ⟨s8, x, ?_, p11, p12 _ (p10 _ (p8 _ (p6 _ p2))), p3⟩
  unfold copyNode
  mstep nType_run h1 h2
  mstep e1
  have hk : copyKey A c d (s.setN d m1) = .ok ((), s.setN d m2) := by
    unfold copyKey
    mstep nKey_run k3 h4
    exact e2
  mstep hk
  unfold copyBody
  mstep nLen_run k6 h5
  mstep e3
  mstep nNode_run k9 h3
  mstep e4
  mstep e5
  mstep e6
  mstep e7
  mstep e8
  rfl

theorem Copying.forever : ∀ fuel {s : St} {d : Addr}, Copying s v a b A → (s.nodes d).isSome → d ≠ b →
    copyLoop A v fuel .test b d s = .timeout ∧ copyLoop A v fuel .body b d s = .timeout
  | 0, _, _, _, _, _ => ⟨rfl, rfl⟩
  | fuel + 1, s, d, h, hd, hb => by
    have hne : ¬ some b = some a := fun e => h.ne (Option.some.inj e).symm
    constructor
    · unfold copyLoop
      mstep rdVal_run h.val
      rw [if_neg hne]
      exact (Copying.forever fuel h hd hb).2
    · obtain ⟨s', m, e, h1, h2, h3⟩ := h.node h.loop (Ne.symm hb) hd hb
      unfold copyLoop
      mstep e
      exact (Copying.forever fuel h1 h2 h3).1

theorem Knot.copy (h : Knot st v a b A) (fuel : Nat) : copy fuel v st = .timeout := by
  have hA := h.ok.live v _ h.val
  have hlt : ∀ c, (∃ n, st.nodes c = some n ∧ n.type = some .array ∧ n.value = some (.node (some b)) ∧
      n.key = some none ∧ n.len = some 1) → c < st.nn := by
    rintro c ⟨n, hn, _⟩
    refine Nat.lt_of_not_le fun hle => ?_
    rw [h.ok.nodes c hle] at hn; cases hn
  have hvlt : v ≠ st.nv := fun e => by
    have := h.val; rw [h.ok.vals v (by omega)] at this; cases this
  have hv1 : (st.addV A none).vals v = some ⟨some a, A⟩ := by simp [hvlt, h.val]
  have hn1 : (st.addV A none).vals st.nv = some ⟨none, A⟩ := by simp
  have hb1 := hlt b h.loop
  have ha1 := hlt a h.top
  let s1 := ((st.addV A none).addN A).setV st.nv ⟨some st.nn, A⟩
  have c1 : Copying s1 v a b A := by
    refine ⟨by simp [s1, hvlt, h.val], h.ne, ?_, by simp [s1]; omega, by simp [s1, hA]⟩
    obtain ⟨n, q⟩ := h.loop
    exact ⟨n, by simp [s1, Nat.ne_of_lt hb1, q.1], q.2⟩
  have hd : (s1.nodes st.nn).isSome := by simp [s1]
  have hdb : st.nn ≠ b := Nat.ne_of_gt hb1
  obtain ⟨n, t⟩ := h.top
  have top : s1.nodes a = some n := by simp [s1, Nat.ne_of_lt ha1, t.1]
  obtain ⟨m0, hm0⟩ := Option.isSome_iff_exists.mp hd
  let s2 := s1.setN st.nn { { { m0 with prev := some none } with next := some none } with father := some none }
  have c2 : Copying s2 v a b A := by
    refine ⟨c1.val, c1.ne, ?_, c1.lt, c1.live⟩
    obtain ⟨n, q⟩ := c1.loop
    exact ⟨n, by simp [s2, Ne.symm hdb, q.1], q.2⟩
  obtain ⟨s', m, e, h1, h2, h3⟩ := c2.node (c := a) (d := st.nn)
    ⟨n, by simp [s2, Nat.ne_of_lt ha1, top], t.2⟩ (Nat.ne_of_lt ha1) (by simp [s2]) hdb
  have loop : copyLoop A v fuel .body a st.nn s2 = .timeout := by
    cases fuel with
    | zero => rfl
    | succ fuel =>
      unfold copyLoop
      mstep e
      exact (Copying.forever fuel h1 h2 h3).1
  unfold ZJ.copy
  mstep rdVal_run h.val
  mstep newVal_run hA
  refine M.bind_timeout ?_
  unfold valueCopyFrom
  mstep rdVal_run hv1
  mstep rdVal_run hn1
  mstep newNode_run (A := A) (st := st.addV A none) (by simpa using hA)
  mstep setValN_run (st := (st.addV A none).addN A) (v := st.nv) (x := ⟨none, A⟩) (by simp)
  have w1 : setPrev st.nn none s1 = .ok ((), s1.setN st.nn { m0 with prev := some none }) := modNode_run hm0
  have w2 : setNext st.nn none (s1.setN st.nn { m0 with prev := some none }) =
      .ok ((), s1.setN st.nn { { m0 with prev := some none } with next := some none }) :=
    (modNode_run (n := { m0 with prev := some none }) (by simp)).trans (by rw [setN_setN])
  have w3 : setFather st.nn none (s1.setN st.nn { { m0 with prev := some none } with next := some none }) = .ok ((), s2) :=
    (modNode_run (n := { { m0 with prev := some none } with next := some none }) (by simp)).trans (by rw [setN_setN])
  mstep w1
  mstep w2
  mstep w3
  exact M.bind_timeout loop

/-- Set the only element of an array to the array itself, through one of two handles
on that array; the other handle is returned. -/
def knotProgram : M (Addr × Bool) := do
  let (r, _) ← make 0 b!"[[[]]]"
  let v ← deref (← arrayGet 9 r 0)
  let w ← deref (← arrayGet 9 r 0)
  let e ← deref (← arrayGet 9 v 0)
  return (w, ← setFast 9 e v)

theorem knot_made : ∃ st w a b, knotProgram (start fun _ => 0) = .ok ((w, true), st) ∧ Knot st w a b 0 := by
  have facts : ((do
      let (w, r) ← knotProgram
      fun st => .ok ((w, r, st.vals w, st.nodes 1, st.nodes 2), st) : M _) (start fun _ => 0)).out =
      .ok (3, true, some ⟨some 1, 0⟩,
        some { owner := 0, type := some .array, key := some none, value := some (.node (some 2)), len := some 1,
               next := some none, prev := some none, father := some none, end_ := some (some 2) },
        some { owner := 0, type := some .array, key := some none, value := some (.node (some 2)), len := some 1,
               next := some none, prev := some none, father := some (some 2), end_ := some (some 2) }) := by
    decide +kernel
  obtain ⟨st, e⟩ := Res.out_ok facts
  have pres : ∀ {w r st1}, knotProgram (start fun _ => 0) = .ok ((w, r), st1) → StOK st1 := by
    intro w r st1 hk
    have hj : JText (.arr [.arr [.arr []]]) b!"[[[]]]" := by
      have : (Json.arr [.arr [.arr []]]).Valid := by simp [Json.Valid, Json.ValidElems]
      exact print_text this
    obtain ⟨s0, P', G', a, e0, hm⟩ := make_run (start_inv fun _ => 0) (start_cache _) (A := 0) rfl hj
    unfold knotProgram at hk
    rw [M.bind_run, e0] at hk
    refine Pres.keep (m := do
      let v ← deref (← arrayGet 9 (start fun _ => 0).nv 0)
      let w ← deref (← arrayGet 9 (start fun _ => 0).nv 0)
      let e ← deref (← arrayGet 9 v 0)
      return (w, ← setFast 9 e v)) ?_ s0 (w, r) st1 hm.inv.ok hk
    exact .bind (.arrayGet _ _ _) fun _ => .bind (.deref _) fun _ => .bind (.arrayGet _ _ _) fun _ => .bind (.deref _) fun _ =>
      .bind (.arrayGet _ _ _) fun _ => .bind (.deref _) fun _ => .bind (.setFast _ _ _) fun _ => .pure _
  rw [M.bind_run] at e
  cases hk : knotProgram (start fun _ => 0) with
  | ub u => rw [hk] at e; cases e
  | timeout => rw [hk] at e; cases e
  | ok x =>
    obtain ⟨⟨w, r⟩, st1⟩ := x
    rw [hk] at e
    have e := Prod.mk.inj (Res.ok.inj e)
    have e := e.1
    simp only [Prod.mk.injEq] at e
    obtain ⟨rfl, rfl, e1, e2, e3⟩ := e
    exact ⟨st1, 3, 1, 2, rfl, pres hk, e1, by decide, ⟨_, e2, rfl, rfl, rfl, rfl⟩, ⟨_, e3, rfl, rfl, rfl, rfl⟩⟩

/-- C35 is false: after `zj_SetFast(e, v)` where `e` is the only element of `v`, a second
handle on `v` denotes an array that contains itself, and neither `zj_Stringify` nor
`zj_Copy` ever returns on it. -/
theorem C35_false : ∃ st w, knotProgram (start fun _ => 0) = .ok ((w, true), st) ∧
    ∀ fuel, stringify fuel w st = .timeout ∧ copy fuel w st = .timeout := by
  obtain ⟨st, w, a, b, h1, h2⟩ := knot_made
  exact ⟨st, w, h1, fun fuel => ⟨h2.stringify fuel, h2.copy fuel⟩⟩

/-- Moving an array into its own element, and moving an element into itself: the value no
longer prints as JSON. -/
theorem C35_false_print :
    ((do
      let (v, _) ← make 0 b!"[[]]"
      let e ← deref (← arrayGet 9 v 0)
      let f ← deref (← arrayGet 9 v 0)
      let r ← arrayAddFast e f
      return (r, ← readN (← stringify 99 e) 2) : M _) (start fun _ => 0)).out = .ok (true, b!"[" ++ [0]) := by decide +kernel

variable {P P' : Addr → Prop} {G G' : Graph} {x y : Option Addr} {f B : Addr} {t T : Json} {p q : SPtr} {s : Bytes}

/-- C35, the part that holds: in every state the other theorems lead to (`Ready`), every
value is a finite document, no node is below itself, and `zj_Stringify` and `zj_Copy` return.
Missing for the full property: calls that put a value below itself (`C35_false`) do not
lead to such a state. -/
theorem C35_partial (h : Ready st P G v (some a) A) :
    (∃ t, Shows st v t) ∧ (∀ c k g, Reach G a c → G c = some g → k ∈ g.val.kids → ¬ Reach G k c) ∧
    (∃ c, ∀ fuel, c ≤ fuel → ∃ p st', stringify fuel v st = .ok (p, st')) ∧
    (∃ c, ∀ fuel, c ≤ fuel → ∃ w st', copy fuel v st = .ok (some w, st')) := by
  obtain ⟨t, ht⟩ := h.shows_some
  refine ⟨⟨t, ht⟩, fun c k g _ hc hk hr => ?_, ?_, ?_⟩
  · obtain ⟨u, hu⟩ := h.inv.fin c g hc
    exact hu.kid_ne hc hk hr rfl
  · obtain ⟨c, p, st', q, _⟩ := C09_stringify h ht
    exact ⟨c, fun fuel hf => ⟨p, st', q fuel hf⟩⟩
  · obtain ⟨c, st', n, P', G', q, _⟩ := C28_copy h ht
    exact ⟨c, fun fuel hf => ⟨st.nv, st', by have := q (fuel - c); rwa [Nat.sub_add_cancel hf] at this⟩⟩

/-- The hypothesis is met by every valid document. -/
example {t : Json} (ht : t.Valid) (slack : Nat → Nat) : ∃ st P G v a, Ready st P G v (some a) 0 ∧ Shows st v t := by
  obtain ⟨st, P, G, v, a, h, _⟩ := exists_example ht slack
  exact ⟨st, P, G, v, a, h.ready, h.ready.shows h.doc⟩

/-! ### C36: handles on replaced children -/

/-- C36 is false. `v` is `[1]` and `h` is a handle on the element; `v` is replaced and then
`zj_Move(h)` is called. After `zj_SetArray` and adding `[5,6]` the added element is lost;
after `zj_Parse("[5,6]")` both elements are lost although the size says 1; after `zj_SetNull`
printing `v` reads a pointer to a node as a pointer to text. -/
theorem C36_false :
    ((do
      let (v, _) ← make 0 b!"[1]"
      let h ← deref (← arrayGet 9 v 0)
      let (w, _) ← make 0 b!"[5,6]"
      setArray v
      let _ ← arrayAdd 99 v w
      let s ← readN (← stringify 99 v) 7
      let r ← move h
      return (s, r, ← sizeOf v, ← readN (← stringify 99 v) 2) : M _) (start fun _ => 0)).out =
      .ok (b!"[[5,6]]", true, 0, b!"[]") ∧
    ((do
      let (v, _) ← make 0 b!"[1]"
      let h ← deref (← arrayGet 9 v 0)
      let p ← callerText (b!"[5,6]" ++ [0])
      let r ← parse v p
      let r' ← move h
      return (r, r', ← sizeOf v, ← readN (← stringify 99 v) 2) : M _) (start fun _ => 0)).out =
      .ok (true, true, 1, b!"[]") ∧
    ((do
      let (v, _) ← make 0 b!"[1]"
      let h ← deref (← arrayGet 9 v 0)
      setNull v
      let _ ← move h
      stringify 99 v : M _) (start fun _ => 0)).out = .ub .badUnion := by
  refine ⟨?_, ?_, ?_⟩ <;> decide +kernel

/-- C36, the part that holds: `a` is a node that is not below `f` (a former child, say).
Setting it through its handle `v`, giving it a key, parsing into it, adding to it or
setting it to a copy of a value does not change what `w`, a handle on `f`, denotes.
Missing for the full property: `zj_Move` and what calls it (`C36_false`). -/
theorem C36_partial (hv : Ready st P G v (some a) A) (hw : Ready st P G w (some f) B) (hne : w ≠ v)
    (hn : ¬ Reach G f a) (hs : Shows st w T) :
    (setNull v st = .ok ((), st') → Shows st' w T) ∧
    (∀ b, setBool v b st = .ok ((), st') → Shows st' w T) ∧
    (setArray v st = .ok ((), st') → Shows st' w T) ∧
    (setObj v st = .ok ((), st') → Shows st' w T) ∧
    (∀ r, CStr st p s → setStr v p st = .ok (r, st') → Shows st' w T) ∧
    (∀ r, CStr st p s → setNumStr v p st = .ok (r, st') → Shows st' w T) ∧
    (∀ r, CStr st p s → parse v p st = .ok (r, st') → Shows st' w T) ∧
    (∀ vv x A' t ts fuel, Ready st P G vv (some x) A' → Shows st vv t → Shows st v (.arr ts) → EndRight G a →
      arrayAdd fuel v vv st = .ok (true, st') → Shows st' w T) ∧
    (∀ vv x A' t fuel, Ready st P G vv (some x) A' → Shows st vv t →
      set fuel v vv st = .ok (true, st') → Shows st' w T) := by
  have hroot : rootOf st (some a) = a := rfl
  have bec : ∀ {P' t}, Becomes st st' P P' G v (some a) A t → Shows st' w T := fun h =>
    (h.elsewhere hv hw hne hs).1 hn
  obtain ⟨c1, c2, c3, c4⟩ := C19_set hv
  refine ⟨?_, ?_, ?_, ?_, ?_, ?_, ?_, ?_, ?_⟩
  · obtain ⟨s1, e, hb⟩ := c1
    intro h; rw [e] at h; cases h; exact bec hb
  · intro b
    obtain ⟨s1, e, hb⟩ := c2 b
    intro h; rw [e] at h; cases h; exact bec hb
  · obtain ⟨s1, e, hb⟩ := c3
    intro h; rw [e] at h; cases h; exact bec hb
  · obtain ⟨s1, e, hb⟩ := c4
    intro h; rw [e] at h; cases h; exact bec hb
  · intro r hp h
    rcases C15_setStr hv hp with ⟨_, s1, e, hb⟩ | ⟨_, e⟩
    · rw [e] at h; cases h; exact bec hb
    · rw [e] at h; cases h; exact hs
  · intro r hp h
    rcases C16_setNumStr hv hp with ⟨_, s1, e, hb⟩ | ⟨_, e⟩
    · rw [e] at h; cases h; exact bec hb
    · rw [e] at h; cases h; exact hs
  · intro r hp h
    cases r with
    | true =>
      obtain ⟨hf, P', G', hr', hG, _⟩ := C02_parse_frame hv hp h
      have hu := hw.unf hs
      have hw' : st'.vals w = some ⟨some f, B⟩ := by
        rw [hf.vals w (hw.inv.ok.val_lt hw.val) hne]; exact hw.val
      refine hr'.inv.shows hw' (hu.same ⟨fun c gc hc hg => ⟨gc, hG c gc (fun e => hn (by have e : c = a := e; exact e ▸ hc)) hg, rfl⟩,
        fun c gc k gk hc hg hk hgk => ⟨gk, hG k gk (fun e => hn ?_) hgk, rfl⟩⟩)
      have e : k = a := e
      exact e ▸ hc.trans (.step hg hk .refl)
    | false =>
      obtain ⟨h1, _, h3, _⟩ := C04_parse_failed hv hp h
      refine h1.inv.shows (v := w) (a := f) (A := B) ?_ (hw.unf hs)
      rw [h3 w (hw.inv.ok.val_lt hw.val)]; exact hw.val
  · intro vv x A' t ts fuel hx ht hts he h
    obtain ⟨c, s1, P', G', e, hd, hed, _⟩ := C29_arrayAdd hv hx hts ht he
    have h := (arrayAdd_mono (Nat.le_add_right fuel c)).ok h
    rw [e fuel] at h; cases h
    exact hd.inv.shows (by rw [hd.frame.vals w (hw.inv.ok.val_lt hw.val) id]; exact hw.val) (hed.other (hw.unf hs) hn)
  · intro vv x A' t fuel hx ht h
    obtain ⟨c, s1, P', G', e, hd, hed, _⟩ := C33_set_partial hv hx ht
    have h := (set_mono (Nat.le_add_right fuel c)).ok h
    rw [e fuel] at h; cases h
    exact hd.inv.shows (by rw [hd.frame.vals w (hw.inv.ok.val_lt hw.val) id]; exact hw.val) (hed.other (hw.unf hs) hn)

/-- The hypotheses are met by an array that was overwritten by `zj_SetArray`, with a
handle on a former element. -/
example {t : Json} (ht : (Json.arr [t]).Valid) (slack : Nat → Nat) :
    ∃ st P G v w a f, Ready st P G v (some a) 0 ∧ Ready st P G w (some f) 0 ∧ w ≠ v ∧ ¬ Reach G f a ∧ Shows st w (.arr []) ∧
      Shows st v t ∧ ∃ g, G a = some g ∧ g.par = some f := by
  obtain ⟨st, P, G, w, f, h, _⟩ := exists_example ht slack
  have hw := h.ready
  rcases C26_arrayGet hw (hw.shows h.doc) (fuel := 2) (by simp) 0 with ⟨h, _⟩ | ⟨u, v, a, st1, h1, h2, h3, h4, h5, h6, f', gf, h7, h8, h9⟩
  · simp at h
  simp only [List.getElem?_cons_zero, Option.some.injEq] at h1 h7
  subst h1 h7
  obtain ⟨st2, e, hb⟩ := (C19_set h6).2.2.1
  obtain ⟨ga, hga⟩ := Option.isSome_iff_exists.mp (h5.node a rfl)
  have hpar : ga.par = some f := by
    obtain ⟨gk, e1, e2⟩ := h6.inv.kid h8 (List.mem_of_getElem? h9)
    rw [hga] at e1; cases e1; exact e2
  have hne : w ≠ v := by
    rintro rfl
    have := h5.val; rw [h6.val] at this
    have e : f = a := by simpa using this
    obtain ⟨u, hu⟩ := h5.inv.fin f gf h8
    exact hu.kid_ne h8 (List.mem_of_getElem? h9) (e ▸ .refl) rfl
  have hfa : f ≠ a := fun e => by
    obtain ⟨u, hu⟩ := h5.inv.fin f gf h8
    exact hu.kid_ne h8 (List.mem_of_getElem? h9) (e ▸ .refl) rfl
  obtain ⟨gn, q1, q2, _⟩ := hb.keep h5 (Ne.symm hne)
  have hroot : rootOf st1 (some f) = f := rfl
  have hgn : gn.val.kids = [] := by
    have := q2.unf hb.shows
    cases this with
    | mk ha hv =>
      rw [hroot, Graph.set_same] at ha; cases ha
      generalize gn.val = gv at hv
      generalize hj : Json.arr [] = j at hv
      cases hv with
      | scalar hs => cases gv <;> simp_all [GVal.isCon, GVal.kids]
      | con hi =>
        rename_i o kids xs
        cases o
        · cases hi
          · rfl
          · simp [mkCon] at hj
        · simp [mkCon] at hj
  have hr : ¬ Reach (G.set f gn) f a := by
    intro hr
    cases hr with
    | refl => exact hfa rfl
    | step hg hk _ => rw [Graph.set_same] at hg; cases hg; rw [hgn] at hk; cases hk
  have hnr : ¬ Reach G a f := fun hr => by
    obtain ⟨u, hu⟩ := h5.inv.fin f gf h8
    exact hu.kid_ne h8 (List.mem_of_getElem? h9) hr rfl
  exact ⟨st2, P, G.set f gn, v, w, a, f, q1, q2, hne, hr, hb.shows, (hb.elsewhere h6 h5 (Ne.symm hne) h4).1 hnr,
    ga, by rw [Graph.set_ne _ _ (Ne.symm hfa)]; exact hga, hpar⟩

/-! ### C42: the scratch string -/

/-- Memory of the scratch string is gone. -/
def CacheGone (st : St) : Prop := ∃ z, st.cache = some z ∧ st.bufs z.hdr = none

theorem CacheGone.fill (h : CacheGone st) (A : Nat) (p : SPtr) (n : Nat) : fillCache A p n st = .ub .wild := by
  obtain ⟨z, h1, h2⟩ := h
  have : touchStr z st = .ub .wild := by simp [touchStr, h2]
  have h0 : (fun st => .ok (st.cache, st) : M (Option ZStr)) st = .ok (some z, st) := by
    show Res.ok (st.cache, st) = _
    rw [h1]
  unfold fillCache
  mstep h0
  exact M.bind_ub (M.bind_ub this)

/-- C42 is false: once the allocator that served the first Len-setter of the program has
been released, every Len-setter on every value of every allocator reads freed memory. -/
theorem C42_false {z : ZStr} {bf : Buf} {R : Nat} (hc : st.cache = some z) (hz : st.bufs z.hdr = some bf) (ho : bf.owner = some R)
    (hr : releaseAllocator R st = .ok ((), st')) (hv : st'.vals v = some ⟨x, A⟩) (p : SPtr) (n : Nat) :
    setStrLen v p n st' = .ub .wild ∧ setStrLenFast v p n st' = .ub .wild ∧
    setNumStrLen v p n st' = .ub .wild ∧ setNumStrLenFast v p n st' = .ub .wild ∧
    setKeyLenC v p n st' = .ub .wild ∧ setKeyLenFast v p n st' = .ub .wild := by
  have hg : CacheGone st' := by
    unfold releaseAllocator at hr
    split at hr
    · cases hr
      exact ⟨z, hc, by simp [hz, ho]⟩
    · cases hr
  have h1 : checkStrLenAt A p n st' = .ub .wild := M.bind_ub (hg.fill A p n)
  have h2 : checkNumLenAt A p n st' = .ub .wild := M.bind_ub (hg.fill A p n)
  refine ⟨?_, ?_, ?_, ?_, ?_, ?_⟩ <;>
    exact (M.bind_ok (rdVal_run hv)).trans (M.bind_ub (by first | exact h1 | exact h2))

/-- Two allocators; the first Len-setter uses the one that is released. -/
theorem C42_false_program : ((do
      let B ← newAllocator
      let u ← newValue B
      let p ← callerText b!"a"
      let _ ← setStrLen u p 1
      releaseAllocator B
      setStrLen 0 p 1 : M _) (start fun _ => 0)).out = .ub .wild := by decide +kernel

/-- Releasing an allocator other than the one that served the first Len-setter keeps the
scratch string. -/
theorem CacheOK.release {R : Nat} (h : CacheOK st) (hr : releaseAllocator R st = .ok ((), st'))
    (ho : ∀ z, st.cache = some z → z.a ≠ R ∧ (∀ b bf, b = z.hdr ∨ b = z.data → st.bufs b = some bf → bf.owner ≠ some R)) :
    CacheOK st' := by
  unfold releaseAllocator at hr
  split at hr
  · cases hr
    intro z hz
    obtain ⟨cont, hk⟩ := h z hz
    obtain ⟨h1, h2⟩ := ho z hz
    refine ⟨cont, ⟨?_, ?_, ?_, hk.room⟩⟩
    · simp only [upd]; rw [if_neg h1]; exact hk.live
    · obtain ⟨bf, hb⟩ := Option.isSome_iff_exists.mp hk.hdr
      have := h2 _ bf (.inl rfl) hb
      simp [hb, this]
    · obtain ⟨bf, hb, q⟩ := hk.buf
      have := h2 _ bf (.inr rfl) hb
      exact ⟨bf, by simp [hb, this], q⟩
  · cases hr

/-- Nothing the node `a` consists of or points to belongs to allocator `R`. -/
def Clean (st : St) (R : Nat) (a : Addr) : Prop :=
  ∀ n, st.nodes a = some n → n.owner ≠ R ∧
    ∀ b off, n.key = some (some (.buf b off)) ∨ n.value = some (.str (.buf b off)) →
      ∀ bf, st.bufs b = some bf → bf.owner ≠ some R

/-- What is left after the release of `R`. -/
def St.without (st : St) (R : Nat) : St :=
  { st with
    allocs := upd st.allocs R false
    nodes := fun a => (st.nodes a).bind fun n => if n.owner = R then none else some n
    vals := fun a => (st.vals a).bind fun v => if v.a = R then none else some v
    bufs := fun a => (st.bufs a).bind fun b => if b.owner = some R then none else some b
    log := .release R :: st.log }

theorem release_run {R : Nat} (h : st.allocs R = true) : releaseAllocator R st = .ok ((), st.without R) := by
  simp [releaseAllocator, h, St.without]

theorem StrAt.without {R : Nat} {p : SPtr} {s : Bytes} (h : StrAt st P p s)
    (hp : ∀ b off, p = .buf b off → ∀ bf, st.bufs b = some bf → bf.owner ≠ some R) :
    StrAt (st.without R) (fun b => P b ∧ ∀ bf, st.bufs b = some bf → bf.owner ≠ some R) p s := by
  cases p with
  | lit l => exact h
  | buf b off =>
    obtain ⟨h1, bf, r, h2, h3⟩ := h
    have := hp b off rfl bf h2
    exact ⟨⟨h1, fun bf' h' => by rw [h2] at h'; cases h'; exact this⟩, bf, r, by simp [St.without, h2, this], h3⟩

theorem StOK.without {R : Nat} (h : StOK st) : StOK (st.without R) where
  nodes a ha := by simp [St.without, h.nodes a ha]
  vals a ha := by simp [St.without, h.vals a ha]
  bufs a ha := by simp [St.without, h.bufs a ha]
  size b bf hb := by
    cases hs : st.bufs b with
    | none => simp [St.without, hs] at hb
    | some bf' =>
      have : bf' = bf := by
        by_cases ho : bf'.owner = some R <;> simp [St.without, hs, ho] at hb
        exact hb
      exact this ▸ h.size b bf' hs
  live v x hx := by
    cases hs : st.vals v with
    | none => simp [St.without, hs] at hx
    | some y =>
      by_cases ho : y.a = R
      · simp [St.without, hs, ho] at hx
      · have : y = x := by simpa [St.without, hs, ho] using hx
        subst this
        simp [St.without, upd, ho, h.live v y hs]
  cache z hz := h.cache z hz

/-- Releasing `R` keeps every document none of whose nodes and texts belong to `R`. -/
theorem Inv.without {R : Nat} {S : Addr → Prop} (h : Inv st P G)
    (hS : ∀ a gn, S a → G a = some gn → ∀ k ∈ gn.val.kids, S k) (hc : ∀ a, S a → Clean st R a) :
    Inv (st.without R) (fun b => P b ∧ ∀ bf, st.bufs b = some bf → bf.owner ≠ some R) (G.only S) where
  ok := h.ok.without
  pin b hb := by
    obtain ⟨h1, h2⟩ := h.pin b hb.1
    obtain ⟨bf, hbf⟩ := Option.isSome_iff_exists.mp h1
    exact ⟨by simp [St.without, hbf, hb.2 bf hbf], h2⟩
  rep a gn ha := by
    have hI := h.only hS
    obtain ⟨hs, _⟩ := Graph.only_some.1 ha
    obtain ⟨n, hn, hk⟩ := hI.rep a gn ha
    obtain ⟨ho, hp⟩ := hc a hs n hn
    have hnode : ∀ c, (G.only S c).isSome → (st.without R).nodes c = st.nodes c := by
      intro c hcs
      obtain ⟨gc, hgc⟩ := Option.isSome_iff_exists.mp hcs
      obtain ⟨hcS, _⟩ := Graph.only_some.1 hgc
      obtain ⟨m, hm, _⟩ := hI.rep c gc hgc
      have := (hc c hcS m hm).1
      simp [St.without, hm, this]
    refine ⟨n, by rw [hnode a (by simp [ha])]; exact hn, ?_, hk.father, hk.root, ?_⟩
    · have hkey := hk.key
      cases hg : gn.key with
      | none => rw [hg] at hkey; exact hkey
      | some k =>
        rw [hg] at hkey
        obtain ⟨p, e1, e2, e3⟩ := hkey
        exact ⟨p, e1, e2, e3.without fun b off e => hp b off (.inl (e ▸ e1))⟩
    · have hval := hk.val
      cases hg : gn.val with
      | con o kids =>
        rw [hg] at hval
        exact ConOK.mono hval (fun _ _ h => h) hnode
      | _ =>
        rw [hg] at hval
        obtain ⟨e0, p, e1, e2, e3, e4⟩ := hval
        exact ⟨e0, p, e1, e2, e3.without fun b off e => hp b off (.inr (e ▸ e1)), e4⟩
  fin := (h.only hS).fin

/-- C42, the part that holds: after the release of any allocator `R` except the one the
scratch string lives in, the Len-setters work on every value `v` that has nothing to do
with `R`. Missing for the full property: the release of the allocator the scratch string
lives in (`C42_false`). -/
theorem C42_partial {R : Nat} {S : Addr → Prop} (hv : Ready st P G v x A) (hR : st.allocs R = true) (hA : A ≠ R)
    (hS : ∀ a gn, S a → G a = some gn → ∀ k ∈ gn.val.kids, S k) (hc : ∀ a, S a → Clean st R a)
    (hx : ∀ a, x = some a → S a)
    (ho : ∀ z, st.cache = some z → z.a ≠ R ∧ (∀ b bf, b = z.hdr ∨ b = z.data → st.bufs b = some bf → bf.owner ≠ some R)) :
    ∃ st' P' G', releaseAllocator R st = .ok ((), st') ∧ Ready st' P' G' v x A ∧
      (∀ T, Shows st v T → Shows st' v T) ∧
      ∀ p s, Reads st' p s → Lent st' p →
        ((∃ st'', setStrLen v p s.length st' = .ok (true, st'') ∧ Shows st'' v (.str s)) ↔ IsSetBody s) ∧
        ((∃ st'', setStrLenFast v p s.length st' = .ok (true, st'') ∧ Shows st'' v (.str s)) ↔ IsSetBody s) ∧
        ((∃ st'', setNumStrLen v p s.length st' = .ok (true, st'') ∧ Shows st'' v (.num s)) ↔ IsNum s) ∧
        ((∃ st'', setNumStrLenFast v p s.length st' = .ok (true, st'') ∧ Shows st'' v (.num s)) ↔ IsNum s) := by
  have hr := release_run hR
  have hv' : (st.without R).vals v = some ⟨x, A⟩ := by simp [St.without, hv.val, hA]
  have ready : Ready (st.without R) _ (G.only S) v x A :=
    ⟨hv.inv.without hS hc, hv.cok.release hr ho, hv', fun a e => by
      obtain ⟨g, hg⟩ := Option.isSome_iff_exists.mp (hv.node a e)
      rw [Graph.only_some.2 ⟨hx a e, hg⟩]; rfl⟩
  refine ⟨_, _, _, hr, ready, fun T hT => ?_, fun p s hs hl => ?_⟩
  · obtain ⟨a, A', e1, e2⟩ := hT
    rw [hv.val] at e1; cases e1
    refine ready.shows ((hv.unf ⟨a, A, hv.val, e2⟩).only fun c hr => ?_)
    have : ∀ {a c}, Reach G a c → S a → S c := by
      intro a c hr
      induction hr with
      | refl => exact id
      | step h1 h2 _ ih => exact fun h => ih (hS _ _ h h1 _ h2)
    exact this hr (hx a rfl)
  · obtain ⟨a1, a2⟩ := C17_setStrLen ready hs hl
    obtain ⟨a3, a4⟩ := C17_setNumStrLen ready hs hl
    refine ⟨?_, ?_, ?_, ?_⟩
    · rcases a1 with ⟨hb, s1, P1, e, hbe⟩ | ⟨hb, s1, e, _⟩
      · exact ⟨fun _ => hb, fun _ => ⟨s1, e, hbe.shows⟩⟩
      · exact ⟨fun ⟨s2, e2, _⟩ => (by rw [e] at e2; cases e2), fun h => absurd h hb⟩
    · rcases a2 with ⟨hb, s1, e, hbe⟩ | ⟨hb, s1, e, _⟩
      · exact ⟨fun _ => hb, fun _ => ⟨s1, e, hbe.shows⟩⟩
      · exact ⟨fun ⟨s2, e2, _⟩ => (by rw [e] at e2; cases e2), fun h => absurd h hb⟩
    · rcases a3 with ⟨hb, s1, P1, e, hbe⟩ | ⟨hb, s1, e, _⟩
      · exact ⟨fun _ => hb, fun _ => ⟨s1, e, hbe.shows⟩⟩
      · exact ⟨fun ⟨s2, e2, _⟩ => (by rw [e] at e2; cases e2), fun h => absurd h hb⟩
    · rcases a4 with ⟨hb, s1, e, hbe⟩ | ⟨hb, s1, e, _⟩
      · exact ⟨fun _ => hb, fun _ => ⟨s1, e, hbe.shows⟩⟩
      · exact ⟨fun ⟨s2, e2, _⟩ => (by rw [e] at e2; cases e2), fun h => absurd h hb⟩

/-- The hypotheses of `C42_partial` can be met (a second allocator, created and released). -/
example (slack : Nat → Nat) : ∃ st : St, st.allocs 1 = true ∧ Ready st (fun _ => False) (fun _ => none) 0 none 0 ∧
    st.cache = none ∧ newAllocator (start slack) = .ok (1, st) := by
  refine ⟨_, ?_, ?_, ?_, rfl⟩
  · rfl
  · have h := start_ready slack
    refine ⟨⟨?_, ?_, ?_, ?_⟩, ?_, h.val, fun _ h => by cases h⟩
    · exact { h.inv.ok with live := fun v x hx => by
                              have := h.inv.ok.live v x hx
                              simp only [upd]; split <;> simp_all }
    · intro b hb; exact hb.elim
    · intro a g hg; cases hg
    · intro a g hg; cases hg
    · intro z hz; cases hz
  · rfl

/-! ### C44: what is printed is JSON -/

/-- The texts stored in the nodes are well formed. -/
structure GValid (G : Graph) : Prop where
  key : ∀ a g k, G a = some g → g.key = some k → IsStrBody k
  num : ∀ a g s, G a = some g → g.val = .num s → IsNum s
  str : ∀ a g s, G a = some g → g.val = .str s → IsStrBody s

theorem validElems_map : ∀ {ms : List (Bytes × Json)}, (∀ m ∈ ms, m.2.Valid) → Json.ValidElems (ms.map (·.2))
  | [], _ => trivial
  | m :: ms, h => ⟨h m (by simp), validElems_map fun x hx => h x (by simp [hx])⟩

theorem validMembers_of : ∀ {ms : List (Bytes × Json)}, (∀ m ∈ ms, IsStrBody m.1 ∧ m.2.Valid) → Json.ValidMembers ms
  | [], _ => trivial
  | (k, t) :: ms, h => ⟨(h (k, t) (by simp)).1, (h (k, t) (by simp)).2, validMembers_of fun x hx => h x (by simp [hx])⟩

mutual
theorem Unf.valid (hG : GValid G) : ∀ {a t}, Unf G a t → t.Valid
  | a, _, .mk (gn := gn) ha hv => UnfV.valid hG hv (fun s e => hG.num a gn s ha e) (fun s e => hG.str a gn s ha e)
theorem UnfV.valid (hG : GValid G) : ∀ {gv t}, UnfV G gv t → (∀ s, gv = .num s → IsNum s) → (∀ s, gv = .str s → IsStrBody s) →
    t.Valid
  | gv, _, .scalar hs, h1, h2 => by
    cases gv <;> simp [GVal.doc, Json.Valid, GVal.isCon] at hs ⊢
    · exact h1 _ rfl
    · exact h2 _ rfl
  | _, _, .con (o := o) hi, _, _ => by
    have := UnfI.valid hG hi
    cases o
    · exact validElems_map fun m hm => (this m hm).2
    · exact validMembers_of fun m hm => ⟨(this m hm).1 rfl, (this m hm).2⟩
theorem UnfI.valid (hG : GValid G) : ∀ {o ks xs}, UnfI G o ks xs → ∀ m ∈ xs, (o = true → IsStrBody m.1) ∧ m.2.Valid
  | _, _, _, .nil, m, hm => by cases hm
  | _, _, _, .cons (gk := gk) hk hkey hu hr, m, hm => by
    rcases List.mem_cons.1 hm with rfl | hm
    · refine ⟨fun ho => ?_, Unf.valid hG hu⟩
      subst ho
      exact hG.key _ gk _ hk hkey
    · exact UnfI.valid hG hr m hm
end

theorem not_ok {r : Res (Bool × St)} (h : r.out = .ok false ∨ ∃ u, r.out = .ub u) : ¬ ∃ st, r = .ok (true, st) := by
  rintro ⟨st, rfl⟩
  rcases h with h | ⟨u, h⟩ <;> cases h

/-- C44 is false: `zj_SetDouble(NaN)` succeeds and `zj_Stringify` then returns `nan`; a
value added to itself prints as a lone bracket. Neither is a JSON text. -/
theorem C44_false :
    ((do
      let r ← setDouble (⟨fun _ => b!"nan", fun _ => ()⟩ : FP Unit) 0 ()
      let s ← stringify 9 0
      return (r, ← readN s 4) : M _) (start fun _ => 0)).out = .ok (true, b!"nan" ++ [0]) ∧
    (¬ ∃ t, JText t b!"nan") ∧
    ((do
      let (v, _) ← make 0 b!"[[]]"
      let e ← deref (← arrayGet 9 v 0)
      let f ← deref (← arrayGet 9 v 0)
      let r ← arrayAddFast e f
      return (r, ← readN (← stringify 99 e) 2) : M _) (start fun _ => 0)).out = .ok (true, b!"[" ++ [0]) ∧
    (¬ ∃ t, JText t b!"[") := by
  refine ⟨by decide +kernel, ?_, by decide +kernel, ?_⟩
  · rw [← C01_program (cfg := {}) (fun _ => 0) b!"nan" (by decide)]
    exact not_ok (.inl (by decide +kernel))
  · rw [← C01_program (cfg := {}) (fun _ => 0) b!"[" (by decide)]
    exact not_ok (.inl (by decide +kernel))

/-- C44, the part that holds: in every state the other theorems lead to (`Ready`), if the
texts stored in the nodes are well formed (`GValid`), the text `zj_Stringify` returns is a
JSON text, and it is the text of the document. Missing for the full property: numbers set
by `zj_SetDouble` from NaN or an infinity are not well formed, and calls that put a value
below itself leave `Ready` (`C44_false`). -/
theorem C44_partial (h : Ready st P G v (some a) A) (hG : GValid G) {fuel : Nat} (hr : stringify fuel v st = .ok (p, st')) :
    ∃ t s, Shows st v t ∧ HoldsText st' p s ∧ JText t s := by
  obtain ⟨t, ht⟩ := h.shows_some
  exact ⟨t, t.print, ht, (C09_result h ht hr).1, print_text ((h.unf ht).valid hG)⟩

/-- The hypotheses of C44 can be met: a string set by `zj_SetStr`. -/
example (slack : Nat → Nat) : ∃ st P G v a, Ready st P G v (some a) 0 ∧ GValid G ∧ Shows st v (.str b!"a") := by
  have h := (start_ready slack).addC (d := b!"a" ++ [0])
  have hb : IsSetBody b!"a" := isSetBody_iff.2 ⟨.plain (by decide) (by decide) (by decide) .nil, trivial⟩
  rcases setStr_run (p := .buf (start slack).nb 0) (s := b!"a") h.inv h.val h.node (addC_cstr (by decide)) with ⟨_, st', e, q⟩ | ⟨q, _⟩
  · have hr := (q.becomes h fun _ h => h.elim)
    obtain ⟨gn, h1, _⟩ := hr.store
    refine ⟨st', _, _, 0, _, ⟨q.inv, h1.cok, q.vals, fun a ha => ?_⟩, ⟨fun a g k hg hk => ?_, fun a g s hg hs => ?_, fun a g s hg hs => ?_⟩, hr.shows⟩
    · cases ha; simp
    all_goals
      rw [Graph.set_apply] at hg
      split at hg <;> cases hg
    · cases hk
    · cases hs
    · cases hs; exact (isSetBody_iff.1 hb).1
  · exact absurd hb q
end ZJ
