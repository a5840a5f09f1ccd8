import Verif.Api

/-
Symbolic execution of the model: normal forms for states and for single steps.
-/

namespace ZJ

/-- The state with node `a` replaced. -/
def St.setN (st : St) (a : Addr) (n : Node) : St := { st with nodes := upd st.nodes a (some n) }

/-- The state with handle `v` replaced. -/
def St.setV (st : St) (v : Addr) (x : Val) : St := { st with vals := upd st.vals v (some x) }

/-- The state after a node was allocated. -/
def St.addN (st : St) (A : Nat) : St :=
  { st with nodes := upd st.nodes st.nn (some { owner := A }), nn := st.nn + 1,
            log := .alloc A 72 :: st.log }

/-- The state after a handle was allocated. -/
def St.addV (st : St) (A : Nat) (n : Option Addr) : St :=
  { st with vals := upd st.vals st.nv (some ⟨n, A⟩), nv := st.nv + 1, log := .alloc A 16 :: st.log }

/-- The state after a byte block was allocated and filled. -/
def St.addB (st : St) (A size : Nat) (data : Bytes) : St :=
  { st with bufs := upd st.bufs st.nb (some ⟨some A, size, st.slack st.nb, data⟩), nb := st.nb + 1,
            log := .alloc A size :: st.log }

section
variable (st : St) (a A b v : Nat) (n : Node) (x : Val) (o : Option Addr) (d : Bytes) (sz : Nat)

@[simp] theorem setN_nodes (c : Addr) :
    (st.setN a n).nodes c = if c = a then some n else st.nodes c := rfl
@[simp] theorem setN_vals : (st.setN a n).vals = st.vals := rfl
@[simp] theorem setN_bufs : (st.setN a n).bufs = st.bufs := rfl
@[simp] theorem setN_nn : (st.setN a n).nn = st.nn := rfl
@[simp] theorem setN_nv : (st.setN a n).nv = st.nv := rfl
@[simp] theorem setN_nb : (st.setN a n).nb = st.nb := rfl
@[simp] theorem setN_na : (st.setN a n).na = st.na := rfl
@[simp] theorem setN_allocs : (st.setN a n).allocs = st.allocs := rfl
@[simp] theorem setN_cache : (st.setN a n).cache = st.cache := rfl
@[simp] theorem setN_log : (st.setN a n).log = st.log := rfl
@[simp] theorem setN_slack : (st.setN a n).slack = st.slack := rfl
@[simp] theorem setN_setN (m : Node) : (st.setN a n).setN a m = st.setN a m := by
  unfold St.setN
  congr 1
  funext c
  simp only [upd]
  split <;> rfl

@[simp] theorem setV_nodes : (st.setV v x).nodes = st.nodes := rfl
@[simp] theorem setV_vals (c : Addr) :
    (st.setV v x).vals c = if c = v then some x else st.vals c := rfl
@[simp] theorem setV_bufs : (st.setV v x).bufs = st.bufs := rfl
@[simp] theorem setV_nn : (st.setV v x).nn = st.nn := rfl
@[simp] theorem setV_nv : (st.setV v x).nv = st.nv := rfl
@[simp] theorem setV_nb : (st.setV v x).nb = st.nb := rfl
@[simp] theorem setV_na : (st.setV v x).na = st.na := rfl
@[simp] theorem setV_allocs : (st.setV v x).allocs = st.allocs := rfl
@[simp] theorem setV_cache : (st.setV v x).cache = st.cache := rfl
@[simp] theorem setV_log : (st.setV v x).log = st.log := rfl
@[simp] theorem setV_slack : (st.setV v x).slack = st.slack := rfl

@[simp] theorem addN_nodes (c : Addr) :
    (st.addN A).nodes c = if c = st.nn then some { owner := A } else st.nodes c := rfl
@[simp] theorem addN_vals : (st.addN A).vals = st.vals := rfl
@[simp] theorem addN_bufs : (st.addN A).bufs = st.bufs := rfl
@[simp] theorem addN_nn : (st.addN A).nn = st.nn + 1 := rfl
@[simp] theorem addN_nv : (st.addN A).nv = st.nv := rfl
@[simp] theorem addN_nb : (st.addN A).nb = st.nb := rfl
@[simp] theorem addN_na : (st.addN A).na = st.na := rfl
@[simp] theorem addN_allocs : (st.addN A).allocs = st.allocs := rfl
@[simp] theorem addN_cache : (st.addN A).cache = st.cache := rfl
@[simp] theorem addN_log : (st.addN A).log = .alloc A 72 :: st.log := rfl
@[simp] theorem addN_slack : (st.addN A).slack = st.slack := rfl

@[simp] theorem addV_nodes : (st.addV A o).nodes = st.nodes := rfl
@[simp] theorem addV_vals (c : Addr) :
    (st.addV A o).vals c = if c = st.nv then some ⟨o, A⟩ else st.vals c := rfl
@[simp] theorem addV_bufs : (st.addV A o).bufs = st.bufs := rfl
@[simp] theorem addV_nn : (st.addV A o).nn = st.nn := rfl
@[simp] theorem addV_nv : (st.addV A o).nv = st.nv + 1 := rfl
@[simp] theorem addV_nb : (st.addV A o).nb = st.nb := rfl
@[simp] theorem addV_na : (st.addV A o).na = st.na := rfl
@[simp] theorem addV_allocs : (st.addV A o).allocs = st.allocs := rfl
@[simp] theorem addV_cache : (st.addV A o).cache = st.cache := rfl
@[simp] theorem addV_log : (st.addV A o).log = .alloc A 16 :: st.log := rfl
@[simp] theorem addV_slack : (st.addV A o).slack = st.slack := rfl

@[simp] theorem addB_nodes : (st.addB A sz d).nodes = st.nodes := rfl
@[simp] theorem addB_vals : (st.addB A sz d).vals = st.vals := rfl
@[simp] theorem addB_bufs (c : Addr) : (st.addB A sz d).bufs c =
    if c = st.nb then some ⟨some A, sz, st.slack st.nb, d⟩ else st.bufs c := rfl
@[simp] theorem addB_nn : (st.addB A sz d).nn = st.nn := rfl
@[simp] theorem addB_nv : (st.addB A sz d).nv = st.nv := rfl
@[simp] theorem addB_nb : (st.addB A sz d).nb = st.nb + 1 := rfl
@[simp] theorem addB_na : (st.addB A sz d).na = st.na := rfl
@[simp] theorem addB_allocs : (st.addB A sz d).allocs = st.allocs := rfl
@[simp] theorem addB_cache : (st.addB A sz d).cache = st.cache := rfl
@[simp] theorem addB_log : (st.addB A sz d).log = .alloc A sz :: st.log := rfl
@[simp] theorem addB_slack : (st.addB A sz d).slack = st.slack := rfl
end

/-- One step of a computation: `mstep h` with `h : x st = .ok (a, st')` turns a goal
`(x >>= f) st = r` into `f a st' = r`. -/
macro "mstep " h:term : tactic => `(tactic| refine (M.bind_ok $h).trans ?_)

/-! ### Single steps -/

section
variable {st : St} {a v A : Nat} {n : Node} {x : Val}

theorem modNode_run {f : Node → Node} (h : st.nodes a = some n) :
    modNode a f st = .ok ((), st.setN a (f n)) := by simp [modNode, h, St.setN]

theorem rdNode_run (h : st.nodes a = some n) : rdNode a st = .ok (n, st) := by simp [rdNode, h]

theorem rdVal_run (h : st.vals v = some x) : rdVal v st = .ok (x, st) := by simp [rdVal, h]

theorem setValN_run {p : Option Addr} (h : st.vals v = some x) :
    setValN v p st = .ok ((), st.setV v { x with n := p }) := by simp [setValN, h, St.setV]

@[simp] theorem lift_ok {α} (r : α) : lift (.ok r) st = .ok (r, st) := rfl
@[simp] theorem lift_ub {α} (u : UB) : (lift (.ub u) : M α) st = .ub u := rfl
@[simp] theorem lift_timeout {α} : (lift .timeout : M α) st = .timeout := rfl
@[simp] theorem fld_some {α} (r : α) : fld (some r) = pure r := rfl
@[simp] theorem deref_some (r : Addr) : deref (some r) = pure r := rfl
@[simp] theorem deref_none : deref none st = .ub .nullDeref := rfl
@[simp] theorem fail_run {α} (u : UB) : (fail u : M α) st = .ub u := rfl

theorem request_run {k : Nat} (h : st.allocs A = true) :
    request A k st = .ok ((), { st with log := .alloc A k :: st.log }) := by simp [request, h]

theorem newNode_run (h : st.allocs A = true) : newNode A st = .ok (st.nn, st.addN A) := by
  exact M.bind_ok (request_run h)

theorem newVal_run {p : Option Addr} (h : st.allocs A = true) :
    newVal A p st = .ok (st.nv, st.addV A p) := by
  exact M.bind_ok (request_run h)

theorem newBuf_run {sz : Nat} {d : Bytes} (h : st.allocs A = true) (hd : d.length ≤ sz) :
    newBuf A sz d st = .ok (st.nb, st.addB A sz d) := by
  refine (M.bind_ok (request_run h)).trans ?_
  simp only [hd, if_true]
  rfl

theorem nType_run {r} (h : st.nodes a = some n) (hf : n.type = some r) :
    nType a st = .ok (r, st) := by simp [nType, M.bind_run, rdNode_run h, hf]
theorem nKey_run {r} (h : st.nodes a = some n) (hf : n.key = some r) :
    nKey a st = .ok (r, st) := by simp [nKey, M.bind_run, rdNode_run h, hf]
theorem nKeyLen_run {r} (h : st.nodes a = some n) (hf : n.keyLen = some r) :
    nKeyLen a st = .ok (r, st) := by simp [nKeyLen, M.bind_run, rdNode_run h, hf]
theorem nLen_run {r} (h : st.nodes a = some n) (hf : n.len = some r) :
    nLen a st = .ok (r, st) := by simp [nLen, M.bind_run, rdNode_run h, hf]
theorem nNext_run {r} (h : st.nodes a = some n) (hf : n.next = some r) :
    nNext a st = .ok (r, st) := by simp [nNext, M.bind_run, rdNode_run h, hf]
theorem nPrev_run {r} (h : st.nodes a = some n) (hf : n.prev = some r) :
    nPrev a st = .ok (r, st) := by simp [nPrev, M.bind_run, rdNode_run h, hf]
theorem nFather_run {r} (h : st.nodes a = some n) (hf : n.father = some r) :
    nFather a st = .ok (r, st) := by simp [nFather, M.bind_run, rdNode_run h, hf]
theorem nEnd_run {r} (h : st.nodes a = some n) (hf : n.end_ = some r) :
    nEnd a st = .ok (r, st) := by simp [nEnd, M.bind_run, rdNode_run h, hf]
theorem nNode_run {r} (h : st.nodes a = some n) (hf : n.value = some (.node r)) :
    nNode a st = .ok (r, st) := by simp [nNode, M.bind_run, rdNode_run h, hf]
theorem nStr_run {r} (h : st.nodes a = some n) (hf : n.value = some (.str r)) :
    nStr a st = .ok (r, st) := by simp [nStr, M.bind_run, rdNode_run h, hf]

end

end ZJ
