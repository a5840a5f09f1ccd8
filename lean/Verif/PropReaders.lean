import Verif.PropThread
import Verif.PropAlloc

/-
C62: several threads read one document.

The functions that look at a document take a `const zj_Value *`. Most of them allocate all the
same: `zj_Begin`, `zj_Next`, `zj_ArrayGet`, `zj_ObjGet` make a handle, `zj_GetStr` and the like a
copy of a text, `zj_Stringify` a string, all of them with the allocator of the value. Two threads
that do so at the same time can get the same memory (`C62_false`). The seven getters that do not
allocate can be called by any number of threads (`C62_quiet_partial`).
-/

set_option linter.unusedSimpArgs false
set_option linter.unusedVariables false

namespace ZJ

/-! ### The allocator in steps -/

namespace Alloc

/-- What is left of a call of the allocator: its result, an error, or a step and what follows. -/
inductive Act (α : Type) : Type 1
  | ret (a : α)
  | stop (u : Option UB)
  | op {β : Type} (m : Mem → Res (β × Mem)) (k : β → Act α)

def Act.bind {α β : Type} : Act α → (α → Act β) → Act β
  | .ret a, f => f a
  | .stop u, _ => .stop u
  | .op m k, f => .op m fun b => (k b).bind f

instance : Monad Act where
  pure := .ret
  bind := .bind

/-- The call without interruption. -/
def Act.go {α : Type} : Act α → Mem → Res (α × Mem)
  | .ret a, m => .ok (a, m)
  | .stop (some u), _ => .ub u
  | .stop none, _ => .timeout
  | .op s k, m => (s m).bind fun r => (k r.1).go r.2

/-- A read. -/
def get {β : Type} (f : Mem → Res β) : Act β := .op (fun m => (f m).bind fun b => .ok (b, m)) .ret
/-- A write. -/
def put (f : Mem → Res Mem) : Act Unit := .op (fun m => (f m).bind fun m => .ok ((), m)) .ret
def lift {β : Type} : Res β → Act β
  | .ok b => .ret b
  | .ub u => .stop (some u)
  | .timeout => .stop none

variable [Knobs]

/-- zzzjson.h:511-524 `zj_allocatorAppendChild`, in steps. The four writes to the new node are one
step: nobody else has its address. -/
def appendChildS (E : Env) (a size : Nat) : Act Unit := do
  let p ← .op (fun m => .ok (zjNew E m (24 + size))) .ret
  put fun m => wrAN m p ⟨p + 24, size, 0, 0⟩
  let al ← get fun m => rdAl m a
  put fun m => do wrAN m al.end_ { ← rdAN m al.end_ with next := p }
  put fun m => wrAl m a { al with end_ := p }

/-- zzzjson.h:527-542 `zj_allocatorAlloc`, in steps. -/
def allocS (E : Env) (fuel a size : Nat) : Act Nat := do
  let al ← get fun m => rdAl m a
  let c1 ← get fun m => rdAN m al.end_
  let c2 ← get fun m => rdAN m al.end_
  let p ← (if w32 (c2.pos + size) > c1.sizeOf then do
      let s ← lift (growTo fuel (w32 (c1.sizeOf * delta)) size)
      appendChildS E a s
      let al ← get fun m => rdAl m a
      pure al.end_
    else pure al.end_)
  let c3 ← get fun m => rdAN m p
  let c4 ← get fun m => rdAN m p
  put fun m => do wrAN m p { ← rdAN m p with pos := w32 (c4.pos + size) }
  pure (c3.data + c3.pos)

/-- zzzjson.h:756-762 `zj_innerNewValue`: memory for a handle, then the fields of the handle, here
as the 16 bytes `b`. -/
def handleS (E : Env) (fuel a : Nat) (b : Bytes) : Act Nat := do
  let p ← allocS E fuel a 16
  put fun m => poke m p b
  pure p

/-! ### Without interruption -/

omit [Knobs] in
theorem go_bind {α β : Type} {x : Act α} {f : α → Act β} : ∀ {m : Mem}, (x >>= f).go m = (x.go m).bind fun r => (f r.1).go r.2 := by
  induction x with
  | ret a => intro m; rfl
  | stop u => intro m; cases u <;> rfl
  | op s k ih =>
    intro m
    show (s m).bind (fun r => ((k r.1) >>= f).go r.2) = ((s m).bind fun r => (k r.1).go r.2).bind _
    cases s m with
    | ok r => exact ih r.1
    | ub u => rfl
    | timeout => rfl

omit [Knobs] in
theorem go_get {β : Type} {f : Mem → Res β} {m : Mem} : (get f).go m = (f m).bind fun b => .ok (b, m) := by
  show ((f m).bind _).bind _ = _
  cases f m <;> rfl
omit [Knobs] in
theorem go_put {f : Mem → Res Mem} {m : Mem} : (put f).go m = (f m).bind fun m => .ok ((), m) := by
  show ((f m).bind _).bind _ = _
  cases f m <;> rfl
omit [Knobs] in
theorem go_lift {β : Type} {r : Res β} {m : Mem} : (lift r).go m = r.bind fun b => .ok (b, m) := by cases r <;> rfl
omit [Knobs] in
theorem go_pure {α : Type} {a : α} {m : Mem} : (pure a : Act α).go m = .ok (a, m) := rfl

omit [Knobs] in
theorem res_assoc {α β γ : Type} {x : Res α} {f : α → Res β} {g : β → Res γ} : (x.bind f).bind g = x.bind fun a => (f a).bind g := by cases x <;> rfl
omit [Knobs] in
theorem res_ok {α β : Type} {a : α} {f : α → Res β} : (Res.ok a).bind f = f a := rfl
omit [Knobs] in
theorem res_twice {α β : Type} {x : Res α} {f : α → α → Res β} : (x.bind fun a => x.bind fun b => f a b) = x.bind fun a => f a a := by cases x <;> rfl
omit [Knobs] in
theorem res_bind {α β : Type} {x : Res α} {f : α → Res β} : x >>= f = x.bind f := rfl
omit [Knobs] in
theorem res_pure {α : Type} {a : α} : (pure a : Res α) = .ok a := rfl

omit [Knobs] in
theorem appendChildS_go {E : Env} {a size : Nat} {m : Mem} : (appendChildS E a size).go m = (appendChild E m a size).bind fun m => .ok ((), m) := by
  unfold appendChildS appendChild
  simp only [go_bind, go_get, go_put, res_assoc, res_ok, res_bind, res_twice, Act.go]

/-- The allocator in steps, not interrupted, is the allocator. -/
theorem allocS_go {E : Env} {fuel a size : Nat} {m : Mem} : (allocS E fuel a size).go m = alloc E fuel m a size := by
  unfold allocS alloc
  simp only [go_bind, go_get, go_put, go_pure, res_assoc, res_ok, res_bind, res_twice, res_pure]
  congr 1; funext al
  congr 1; funext c
  by_cases hc : w32 (c.pos + size) > c.sizeOf
  · simp only [if_pos hc, go_bind, go_get, go_put, go_pure, go_lift, appendChildS_go, res_assoc, res_ok, res_bind, res_twice, res_pure]
  · simp only [if_neg hc, go_bind, go_get, go_put, go_pure, go_lift, appendChildS_go, res_assoc, res_ok, res_bind, res_twice, res_pure]

/-! ### Two threads, one allocator -/

/-- The threads `X` take steps in the order `τ`. -/
def race {α : Type} : List Bool → (Bool → Act α) → Mem → Res ((Bool → Act α) × Mem)
  | [], X, m => .ok (X, m)
  | t :: τ, X, m =>
    match X t with
    | .ret _ => race τ X m
    | .stop (some u) => .ub u
    | .stop none => .timeout
    | .op s k =>
      match s m with
      | .ok (b, m) => race τ (fun u => if u = t then k b else X u) m
      | .ub u => .ub u
      | .timeout => .timeout

/-- What the two threads have in the end, and the bytes at the address the first has got. -/
def raced (r : Res ((Bool → Act Nat) × Mem)) : Option (Nat × Nat × Bytes) :=
  match r with
  | .ok (X, m) =>
    match X false, X true with
    | .ret p, .ret q =>
      match peek m p 16 with
      | .ok b => some (p, q, b)
      | _ => none
    | _, _ => none
  | _ => none

/-- The second thread asks for memory after the first has read `Pos` (zzzjson.h:539) and before it
has written it (:540). -/
theorem race_same {E : Env} {m m1 m2 : Mem} {fuel a n1 n2 : Nat} {al : Alc} {c c1 : ANode} (h1 : rdAl m a = .ok al)
    (h2 : rdAN m al.end_ = .ok c) (f1 : ¬ w32 (c.pos + n1) > c.sizeOf) (f2 : ¬ w32 (c.pos + n2) > c.sizeOf)
    (w1 : wrAN m al.end_ { c with pos := w32 (c.pos + n2) } = .ok m1) (h3 : rdAN m1 al.end_ = .ok c1)
    (w2 : wrAN m1 al.end_ { c1 with pos := w32 (c1.pos + n1) } = .ok m2) :
    ∃ X, race (List.replicate 4 false ++ List.replicate 6 true ++ List.replicate 2 false) (fun t => allocS E fuel a (if t then n2 else n1)) m
      = .ok (X, m2) ∧ ∀ t, X t = .ret (c.data + c.pos) := by
  refine ⟨fun _ => .ret (c.data + c.pos), ?_, fun _ => rfl⟩
  have hb : ∀ {α β : Type} (x : Act α) (f : α → Act β), x >>= f = x.bind f := fun _ _ => rfl
  have hp : ∀ {α : Type} (x : α), (pure x : Act α) = .ret x := fun _ => rfl
  simp only [List.replicate, List.cons_append, List.nil_append, race, allocS, hb, hp, get, put, Act.bind, h1, h2, f1, f2, h3, w1, w2, if_true, if_false,
    res_ok, res_bind, Bool.false_eq_true, Bool.true_eq_false, reduceCtorEq]
  congr 2
  funext t
  cases t <;> rfl

end Alloc

section
open Alloc
attribute [local instance] Knobs.default

/-- C62 is false: two threads ask for a child of values of one document (`zj_Begin`, `zj_Next`,
`zj_ArrayGet`, `zj_ObjGet`; what is left is to make the handle, `handleS`). One after the other
they get two handles. When the second runs after the first has read `Pos` (zzzjson.h:539) and
before it has written it (:540), both get the same handle, and the first thread is given the
value the second asked for. -/
theorem C62_false : ∃ E a m b c, Sound E ∧ Alloc.newAllocator E Mem.init = .ok (a, m) ∧ b.length = 16 ∧ c.length = 16 ∧ b ≠ c ∧
    (∃ p q, p ≠ q ∧ raced (Alloc.race (List.replicate 9 false ++ List.replicate 9 true) (fun t => handleS E 9 a (if t then c else b)) m) = some (p, q, b)) ∧
    (∃ p, raced (Alloc.race (List.replicate 4 false ++ List.replicate 6 true ++ List.replicate 4 false ++ [true]) (fun t => handleS E 9 a (if t then c else b)) m) = some (p, p, c)) := by
  refine ⟨bump, 16, (match Alloc.newAllocator bump Mem.init with | .ok (_, m) => m | _ => Mem.init), List.replicate 16 1, List.replicate 16 2, bump_sound, rfl, rfl, rfl, by decide, ⟨56, 72, by decide, ?_⟩, 56, ?_⟩
  · decide +kernel
  · decide +kernel

/-- C62 is false of every allocator: whatever was asked of it before, if the memory for the two
requests is there, the two threads can be given the same address. -/
theorem C62_false_any {E : Env} {m : Mem} {o : Own} {fuel n1 n2 : Nat} (h : Alloc.Good m o) (hs : Sep m.live)
    (f1 : o.last.pos + n1 ≤ o.last.cap) (f2 : o.last.pos + n2 ≤ o.last.cap) :
    ∃ τ X m' p, Alloc.race τ (fun t => allocS E fuel o.a (if t then n2 else n1)) m = .ok (X, m') ∧ ∀ t, X t = .ret p := by
  obtain ⟨k, hk, hcap, _⟩ := h.lay.cap
  have hw : ∀ {n}, o.last.pos + n ≤ o.last.cap → w32 (o.last.pos + n) = o.last.pos + n := fun {n} hn => by
    unfold w32; rw [Nat.mod_eq_of_lt]; omega
  have hl := h.shape.chain.last
  have hnz := h.node_nz hs o.last_mem
  have hlive := h.live _ (Own.chunk_mem o.last_mem)
  obtain ⟨m1, e1, e2, _, e4, _⟩ := wrAN_run (m := m) (p := o.last.node)
    (n := ⟨o.last.data, o.last.cap, w32 (o.last.pos + n2), 0⟩) hnz hlive o.last.hdr_in
  obtain ⟨m2, g1, _⟩ := wrAN_run (m := m1) (p := o.last.node)
    (n := ⟨o.last.data, o.last.cap, w32 (w32 (o.last.pos + n2) + n1), 0⟩) hnz (by rw [e2]; exact hlive) o.last.hdr_in
  obtain ⟨X, x1, x2⟩ := race_same (E := E) (fuel := fuel) (rdAl_some h.lay.nz h.shape.al) (rdAN_some hnz hl)
    (n1 := n1) (n2 := n2) (by rw [hw f1]; simpa using f1) (by rw [hw f2]; simpa using f2) e1 (rdAN_some hnz e4) g1
  exact ⟨_, X, m2, _, x1, x2⟩

/-- An allocator that was just made. -/
example (E : Env) (hE : Sound E) (p : Nat) (he : E Mem.init.calls Mem.init.live (40 + chunk) = some p) :
    ∃ a m' τ X q, Alloc.newAllocator E Mem.init = .ok (a, m') ∧ ∃ m2, Alloc.race τ (fun _ => allocS E 9 a 16) m' = .ok (X, m2) ∧ ∀ t, X t = .ret q := by
  obtain ⟨m', e1, _, e3, _, e4, _⟩ := newAllocator_fits (by decide) hE (m := Mem.init) ⟨.nil, fun _ h => (by cases h), fun _ h => (by cases h)⟩ he
  obtain ⟨τ, X, m2, q, g1, g2⟩ := C62_false_any (E := E) (fuel := 9) (n1 := 16) (n2 := 16) e4 e3 (show 0 + 16 ≤ chunk by decide) (show 0 + 16 ≤ chunk by decide)
  exact ⟨p, m', τ, X, q, e1, m2, by simpa [Own.fresh] using g1, g2⟩

end

/-! ### Getters that do not allocate -/

variable {N : Nat} {D : Type} {fp : FP D} {F : Nat}

/-- The calls that only read. -/
def Call.quiet : Call D → Bool
  | .get f _ => match f with
    | .type | .size | .null | .bool | .strFast | .numFast | .keyFast => true
    | _ => false
  | _ => false

/-- The client as a thread, on handles it shares with others. -/
def Thr.runShared (fp : FP D) (F : Nat) : Prog D → Act (List (Ans D))
  | .done => return []
  | .call c k => do
    let r ← Thr.exec fp F c
    let rs ← Thr.runShared fp F (k r)
    return r :: rs

/-- The threads `X` take steps in the order `τ` in the memory `st`. -/
def race {α : Type} : List (Fin N) → (Fin N → Act α) → St → Res ((Fin N → Act α) × St)
  | [], X, st => .ok (X, st)
  | t :: τ, X, st =>
    match X t with
    | .ret _ => race τ X st
    | .stop (some u) => .ub u
    | .stop none => .timeout
    | .op m k =>
      match m st with
      | .ok (b, st) => race τ (fun u => if u = t then k b else X u) st
      | .ub u => .ub u
      | .timeout => .timeout

/-- `x` comes to its end in `n` steps with the result `a`; none of them changes the memory. -/
inductive OnlyReads (st : St) {α : Type} : Nat → Act α → α → Prop
  | ret {a} : OnlyReads st 0 (.ret a) a
  | op {β : Type} {n : Nat} {m : M β} {k : β → Act α} {b a} : m st = .ok (b, st) → OnlyReads st n (k b) a → OnlyReads st (n + 1) (.op m k) a

/-- `m` only reads, and so does `x`, with the same result. -/
def Inert {α : Type} (m : M α) (x : Act α) : Prop := ∀ st r st', m st = .ok (r, st') → st' = st ∧ ∃ n, OnlyReads st n x r

section
variable {α β : Type} {st : St}

theorem OnlyReads.bind {n k : Nat} {x : Act α} {f : α → Act β} {a : α} {b : β} (h : OnlyReads st n x a) (hf : OnlyReads st k (f a) b) : OnlyReads st (n + k) (x >>= f) b := by
  induction h with
  | ret => rw [Nat.zero_add]; exact hf
  | @op β' n m k' b' a h1 h2 ih =>
    rw [show n + 1 + k = n + k + 1 by omega]
    exact .op h1 (ih hf)

theorem Inert.bind {m : M α} {x : Act α} {g : α → M β} {f : α → Act β} (h : Inert m x) (hf : ∀ a, Inert (g a) (f a)) : Inert (m >>= g) (x >>= f) := by
  intro st r st' e
  obtain ⟨a, st1, e1, e2⟩ := M.bind_split e
  obtain ⟨rfl, n, h1⟩ := h _ _ _ e1
  obtain ⟨rfl, k, h2⟩ := hf _ _ _ _ e2
  exact ⟨rfl, _, h1.bind h2⟩

theorem Inert.pure {a : α} : Inert (Pure.pure a) (Pure.pure a) := fun st r st' e => by cases e; exact ⟨rfl, 0, .ret⟩
theorem Inert.ite {p : Prop} [Decidable p] {m1 m2 : M α} {x1 x2 : Act α} (h1 : Inert m1 x1) (h2 : Inert m2 x2) : Inert (if p then m1 else m2) (if p then x1 else x2) := by
  split <;> assumption
theorem Inert.lift {r : Res α} : Inert (ZJ.lift r) (Thr.lift r) := fun st a st' e => by
  cases r with
  | ok b => cases e; exact ⟨rfl, 0, .ret⟩
  | ub u => cases e
  | timeout => cases e
theorem Inert.act {m : M α} (h : ∀ st r st', m st = .ok (r, st') → st' = st) : Inert m (act m) := fun st r st' e => by
  have := h _ _ _ e
  subst this
  exact ⟨rfl, 1, .op e .ret⟩
theorem Inert.fld {x : Option α} : Inert (ZJ.fld x) (Thr.fld x) := fun st r st' e => by
  cases x with
  | none => cases e
  | some a => cases e; exact ⟨rfl, 0, .ret⟩
theorem Inert.rdVal {v : Addr} : Inert (ZJ.rdVal v) (Thr.rdVal v) := .act fun st r st' e => by
  unfold ZJ.rdVal at e; split at e <;> cases e; rfl
theorem Inert.rdNode {v : Addr} : Inert (ZJ.rdNode v) (Thr.rdNode v) := .act fun st r st' e => by
  unfold ZJ.rdNode at e; split at e <;> cases e; rfl
theorem Inert.view {p : SPtr} : Inert (ZJ.view p) (Thr.view p) := .act fun st r st' e => by
  unfold ZJ.view at e; repeat' split at e
  all_goals cases e
  all_goals rfl
theorem Inert.readN {p : SPtr} {n : Nat} : Inert (ZJ.readN p n) (Thr.readN p n) := .act fun st r st' e => by
  unfold ZJ.readN at e; repeat' split at e
  all_goals cases e
  all_goals rfl

/-- One read. -/
macro "still" : tactic => `(tactic| repeat' first
  | exact Inert.pure
  | exact Inert.lift
  | exact Inert.fld
  | exact Inert.view
  | exact Inert.readN
  | exact Inert.rdNode
  | exact Inert.rdVal
  | refine Inert.bind Inert.rdVal fun _ => ?_
  | refine Inert.bind Inert.rdNode fun _ => ?_
  | refine Inert.bind Inert.view fun _ => ?_
  | refine Inert.bind Inert.readN fun _ => ?_
  | refine Inert.bind Inert.lift fun _ => ?_
  | refine Inert.bind Inert.fld fun _ => ?_
  | refine Inert.ite ?_ ?_)

theorem Inert.nType {a : Addr} : Inert (ZJ.nType a) (Thr.nType a) := by unfold ZJ.nType Thr.nType; still
theorem Inert.nLen {a : Addr} : Inert (ZJ.nLen a) (Thr.nLen a) := by unfold ZJ.nLen Thr.nLen; still
theorem Inert.nKey {a : Addr} : Inert (ZJ.nKey a) (Thr.nKey a) := by unfold ZJ.nKey Thr.nKey; still
theorem Inert.nKeyLen {a : Addr} : Inert (ZJ.nKeyLen a) (Thr.nKeyLen a) := by unfold ZJ.nKeyLen Thr.nKeyLen; still
theorem Inert.nStr {a : Addr} : Inert (ZJ.nStr a) (Thr.nStr a) := by
  unfold ZJ.nStr Thr.nStr
  still
  rename_i x
  cases x <;> first | exact Inert.pure | (intro st r st' e; cases e)

theorem Inert.getType {v : Addr} : Inert (ZJ.getType v) (Thr.getType v) := by
  unfold ZJ.getType Thr.getType
  refine Inert.bind Inert.rdVal fun x => ?_
  cases x.n with
  | none => still
  | some a => exact Inert.bind Inert.nType fun _ => Inert.pure

theorem Inert.sizeOf {v : Addr} : Inert (ZJ.sizeOf v) (Thr.sizeOf v) := by
  unfold ZJ.sizeOf Thr.sizeOf
  refine Inert.bind Inert.rdVal fun x => ?_
  cases x.n with
  | none => still
  | some a => exact Inert.bind Inert.nType fun _ => Inert.ite Inert.pure Inert.nLen

theorem Inert.isNull {v : Addr} : Inert (ZJ.isNull v) (Thr.isNull v) := by
  unfold ZJ.isNull Thr.isNull
  refine Inert.bind Inert.rdVal fun x => ?_
  cases x.n with
  | none => still
  | some a => exact Inert.bind Inert.nType fun _ => by still

theorem Inert.getBool {v : Addr} : Inert (ZJ.getBool v) (Thr.getBool v) := by
  unfold ZJ.getBool Thr.getBool
  refine Inert.bind Inert.rdVal fun x => ?_
  cases x.n with
  | none => still
  | some a => exact Inert.bind Inert.nType fun _ => Inert.ite Inert.pure (Inert.bind Inert.nStr fun _ => by still)

theorem Inert.getStrFast {v : Addr} : Inert (ZJ.getStrFast v) (Thr.getStrFast v) := by
  unfold ZJ.getStrFast Thr.getStrFast
  refine Inert.bind Inert.rdVal fun x => ?_
  cases x.n with
  | none => still
  | some a => exact Inert.bind Inert.nType fun _ => Inert.ite Inert.pure (Inert.bind Inert.nStr fun _ => Inert.bind Inert.nLen fun _ => Inert.pure)

theorem Inert.getNumFast {v : Addr} : Inert (ZJ.getNumFast v) (Thr.getNumFast v) := by
  unfold ZJ.getNumFast Thr.getNumFast
  refine Inert.bind Inert.rdVal fun x => ?_
  cases x.n with
  | none => still
  | some a => exact Inert.bind Inert.nType fun _ => Inert.ite Inert.pure (Inert.bind Inert.nStr fun _ => Inert.bind Inert.nLen fun _ => Inert.pure)

theorem Inert.getKeyFast {v : Addr} : Inert (ZJ.getKeyFast v) (Thr.getKeyFast v) := by
  unfold ZJ.getKeyFast Thr.getKeyFast
  refine Inert.bind Inert.rdVal fun x => ?_
  cases x.n with
  | none => still
  | some a =>
    refine Inert.bind Inert.nKey fun k => ?_
    cases k with
    | none => exact Inert.pure
    | some k => exact Inert.bind Inert.nKeyLen fun _ => Inert.pure

theorem Inert.readL {x : Option (SPtr × Nat)} : Inert (ZJ.readL x) (Thr.readL x) := by
  cases x with
  | none => exact Inert.pure
  | some x => exact Inert.bind Inert.readN fun _ => Inert.pure

theorem Inert.exec {c : Call D} (h : c.quiet = true) : Inert (ZJ.exec fp F c) (Thr.exec fp F c) := by
  cases c with
  | get f v =>
    cases f <;> first | (cases h; done) | skip
    · exact Inert.bind Inert.getType fun _ => Inert.pure
    · exact Inert.bind Inert.sizeOf fun _ => Inert.pure
    · exact Inert.bind Inert.isNull fun _ => Inert.pure
    · exact Inert.bind Inert.getBool fun _ => Inert.pure
    · exact Inert.bind Inert.getStrFast fun _ => Inert.bind Inert.readL fun _ => Inert.pure
    · exact Inert.bind Inert.getNumFast fun _ => Inert.bind Inert.readL fun _ => Inert.pure
    · exact Inert.bind Inert.getKeyFast fun _ => Inert.bind Inert.readL fun _ => Inert.pure
  | _ => cases h

theorem Inert.run {p : Prog D} : p.Never (fun c => !c.quiet) → Inert (p.run fp F) (Thr.runShared fp F p) := by
  induction p with
  | done => exact fun _ => Inert.pure
  | call c k ih =>
    intro h
    exact Inert.bind (Inert.exec (by have := h.1; simpa using this)) fun r => Inert.bind (ih r (h.2 r)) fun _ => Inert.pure

theorem race_goes : ∀ (τ : List (Fin N)) {X : Fin N → Act α} {st : St} {n : Fin N → Nat} {R : Fin N → α},
    (∀ t, OnlyReads st (n t) (X t) (R t)) →
    ∃ X', race τ X st = .ok (X', st) ∧ ∀ t, (∀ a, (X' t).result = some a → a = R t) ∧ (n t ≤ τ.count t → (X' t).result = some (R t))
  | [], X, st, n, R, h => by
    refine ⟨X, rfl, fun t => ⟨fun a e => ?_, fun e => ?_⟩⟩
    · have := h t
      generalize X t = x at this e
      generalize n t = m at this
      generalize R t = r at this ⊢
      cases this with
      | ret => cases e; rfl
      | op => cases e
    · have := h t
      have e : n t = 0 := by simpa using e
      rw [e] at this
      generalize X t = x at this ⊢
      generalize R t = r at this ⊢
      cases this; rfl
  | t :: τ, X, st, n, R, h => by
    have ht := h t
    generalize hx : X t = x at ht
    generalize hm : n t = m at ht
    generalize hr : R t = r at ht
    cases ht with
    | ret =>
      obtain ⟨X', h1, h2⟩ := race_goes τ h
      refine ⟨X', by unfold race; rw [hx]; exact h1, fun u => ⟨(h2 u).1, fun hu => (h2 u).2 ?_⟩⟩
      by_cases hut : u = t
      · subst hut; omega
      · rw [List.count_cons_of_ne (Ne.symm hut)] at hu; exact hu
    | @op β n' m k b a hM hR =>
      obtain ⟨X', h1, h2⟩ := race_goes τ (X := fun u => if u = t then k b else X u) (n := fun u => if u = t then n' else n u) (R := R) (st := st) (fun u => by
        by_cases hut : u = t
        · subst hut; simp only [if_true]; rw [hr]; exact hR
        · simp only [hut, if_false]; exact h u)
      refine ⟨X', by unfold race; rw [hx]; dsimp only; rw [hM]; exact h1, fun u => ⟨(h2 u).1, fun hu => (h2 u).2 ?_⟩⟩
      by_cases hut : u = t
      · subst hut; rw [List.count_cons_self] at hu; simp only [if_true]; omega
      · rw [List.count_cons_of_ne (Ne.symm hut)] at hu; simp only [hut, if_false]; exact hu

end

/-- C62 (getters that do not allocate): after any allowed client `p0`, any number of threads look
at its documents at the same time, with `zj_Type`, `zj_SizeOf`, `zj_IsNull`, `zj_GetBool`,
`zj_GetStrFast`, `zj_GetNumFast` and `zj_GetKeyFast`, in any order `τ` of their memory accesses.
There is no undefined behaviour, the memory stays as it is, and every thread is told what it is
told when it is alone (`ra t`) and comes to its end. Missing for the full property: all other
functions that look at a document allocate (`C62_false`). -/
theorem C62_quiet_partial {pad : Bool} {slack : Nat → Nat} {cfg : Cfg} (hp : pad = true → ∀ b, 3 ≤ slack b) (p0 : Prog D)
    (h0 : p0.Safe fp (Store.init pad)) (P : List (Ans D) → Fin N → Prog D)
    (hs : ∀ rs s, p0.Gives fp (Store.init pad) rs s → ∀ t, (P rs t).Safe fp s) (hq : ∀ rs t, (P rs t).Never fun c => !c.quiet) :
    ∃ (c : Nat) (rs : List (Ans D)) (st : St) (ra : Fin N → List (Ans D)), ∀ F, c ≤ F →
      p0.run fp F (St.init slack cfg) = .ok (rs, st) ∧
      (∀ t, (P rs t).run fp F st = .ok (ra t, st)) ∧
      ∃ n : Fin N → Nat, ∀ τ : List (Fin N), ∃ X, race τ (fun t => Thr.runShared fp F (P rs t)) st = .ok (X, st) ∧
        ∀ t, (∀ a, (X t).result = some a → a = ra t) ∧ (n t ≤ τ.count t → (X t).result = some (ra t)) := by
  obtain ⟨c0, rs, st, s, _, e0, hG, hW⟩ := p0.goes (WP.init (cfg := cfg) hp) h0
  have h1 : ∀ t : Fin N, ∃ c ra, ∀ F, c ≤ F → (P rs t).run fp F st = .ok (ra, st) ∧ ∃ n, OnlyReads st n (Thr.runShared fp F (P rs t)) ra := by
    intro t
    obtain ⟨c, ra, st', s', _, e, _, _⟩ := (P rs t).goes hW (hs rs s hG t)
    refine ⟨c, ra, fun F hF => ?_⟩
    obtain ⟨rfl, n, h⟩ := Inert.run (hq rs t) _ _ _ (e F hF)
    exact ⟨e F hF, n, h⟩
  obtain ⟨c, h2⟩ := Classical.axiomOfChoice h1
  obtain ⟨ra, h3⟩ := Classical.axiomOfChoice h2
  obtain ⟨cm, hcm⟩ := exists_bound c
  refine ⟨max c0 cm, rs, st, ra, fun F hF => ⟨e0 F (by omega), fun t => (h3 t F (by have := hcm t; omega)).1, ?_⟩⟩
  obtain ⟨n, h4⟩ := Classical.axiomOfChoice fun t => (h3 t F (by have := hcm t; omega)).2
  exact ⟨n, fun τ => race_goes τ h4⟩

/-! ### Threads that meet the hypotheses -/

/-- Makes a string. -/
def owner : Prog D := .call .newAlloc fun
  | .alloc A => .call (.newValue A) fun
    | .handle (some v) => .call (.text .str v b!"abc") fun _ => .done
    | _ => .done
  | _ => .done

/-- Look at the string. -/
def lookers (rs : List (Ans D)) (t : Fin N) : Prog D :=
  match rs with
  | [_, .handle (some v), _] => .seq [.get .type v, .get .strFast v, .get .null v]
  | _ => .done

theorem owner_safe : (owner : Prog D).Safe fp (Store.init false) := by
  refine ⟨trivial, fun r s1 h1 _ => ?_⟩
  cases h1 with | @newAlloc A hA => ?_
  refine ⟨by simp [Legit, upd], fun r s2 h2 _ => ?_⟩
  cases h2 with | @newValue _ v hl hn => ?_
  exact ⟨⟨by simp [Store.alive, Store.handle, upd], .inr (by decide), nofun⟩, fun r s3 h3 _ => trivial⟩

theorem lookers_safe {rs : List (Ans D)} {s : Store} (h : owner.Gives fp (Store.init false) rs s) (t : Fin N) : (lookers rs t).Safe fp s := by
  cases h with | call h1 _ h => ?_
  cases h1 with | @newAlloc A hA => ?_
  cases h with | call h2 _ h => ?_
  cases h2 with | @newValue _ v hl hn => ?_
  cases h with | @call _ _ _ _ s3 rs3 _ h3 _ h => ?_
  have e : s3 = s := by cases h; rfl
  subst e
  have e2 : rs3 = [] := by cases h; rfl
  subst e2
  have hv : s3.alive v := by
    cases h3 with
    | text _ hT =>
      cases hT with
      | old e _ => simp [Store.handle, upd] at e
      | new e _ => simp [Store.alive, Store.put, Store.use, TextFn.scratch, Store.handle, upd]
    | textNo => simp [Store.alive, Store.use, TextFn.scratch, Store.handle, upd]
  refine ⟨⟨hv, fun _ _ _ _ _ _ _ => trivial⟩, fun r s4 h4 _ => ?_⟩
  have h5 : s3 = s4 := by cases h4; rfl
  subst h5
  refine ⟨⟨hv, fun _ _ _ _ _ _ _ => trivial⟩, fun r s4 h4 _ => ?_⟩
  have h5 : s3 = s4 := by cases h4; rfl
  subst h5
  exact ⟨⟨hv, fun _ _ _ _ _ _ _ => trivial⟩, fun r s4 h4 _ => trivial⟩

/-- Five threads look at the string. -/
example (τ : List (Fin 5)) : ∃ (c : Nat) (rs : List (Ans D)) (st : St) (ra : Fin 5 → List (Ans D)), ∀ F, c ≤ F →
      owner.run fp F (St.init fun _ => 0) = .ok (rs, st) ∧
      ∃ X, race τ (fun t => Thr.runShared fp F (lookers rs t)) st = .ok (X, st) ∧ ∀ t a, (X t).result = some a → a = ra t := by
  obtain ⟨c, rs, st, ra, h⟩ := C62_quiet_partial (N := 5) (fp := fp) (pad := false) (slack := fun _ => 0) (cfg := {}) nofun owner owner_safe lookers
    (fun rs s h t => lookers_safe h t) (fun rs t => by unfold lookers; split <;> simp [Prog.Never, Prog.seq, Call.quiet])
  refine ⟨c, rs, st, ra, fun F hF => ?_⟩
  obtain ⟨h1, _, n, h3⟩ := h F hF
  obtain ⟨X, h4, h5⟩ := h3 τ
  exact ⟨h1, X, h4, fun t => (h5 t).1⟩

/-- What two of them are told, in turns. -/
example : (match owner.run (⟨fun _ => [], fun _ => ()⟩ : FP Unit) 9 (St.init fun _ => 0) with
    | .ok (rs, st) => match race (N := 2) (List.replicate 30 [0, 1]).flatten (fun t => Thr.runShared (⟨fun _ => [], fun _ => ()⟩ : FP Unit) 9 (lookers rs t)) st with
      | .ok (X, _) => some ((X 0).result, (X 1).result)
      | _ => none
    | _ => none) = some (some [.type (some .string), .bytes (some b!"abc"), .bool false], some [.type (some .string), .bytes (some b!"abc"), .bool false]) := by decide +kernel

end ZJ
