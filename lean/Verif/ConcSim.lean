import Verif.Conc
import Verif.PropMix

/-
Threads, the memory: any number of threads share one memory (`Shared`) in which each step of either is
made. The addresses of what a thread allocates are those that are its number modulo `N`, so that the part of
the shared memory that a thread has made is the memory it would have alone, renamed (`Joined`).

`Sim` says: whenever a function runs alone without error, the same function in steps does the
same in the shared memory, whatever the other threads do between the steps.
-/

set_option linter.unusedSimpArgs false
set_option linter.unusedVariables false

namespace ZJ

variable {N : Nat}

/-- The next addresses of a thread. -/
structure Ctr where
  nn : Nat
  nv : Nat
  nb : Nat
  na : Nat

/-- The memory of `N` threads. -/
structure Shared (N : Nat) where
  mem : St
  next : Fin N → Ctr

/-- The memory as thread `t` finds it: what it allocates is at the next addresses of this thread. -/
def Shared.seenBy (sh : Shared N) (t : Fin N) : St :=
  { sh.mem with nn := (sh.next t).nn, nv := (sh.next t).nv, nb := (sh.next t).nb, na := (sh.next t).na }

/-- The next address, `N` further for each one used. -/
def further (N old new : Nat) : Nat := old + N * (new - old)

/-- The memory as thread `t` leaves it: if it has used an address, the next one is `N` further. -/
def Shared.leftBy (sh : Shared N) (t : Fin N) (st : St) : Shared N :=
  ⟨st, fun u => if u = t then ⟨further N (sh.next t).nn st.nn, further N (sh.next t).nv st.nv, further N (sh.next t).nb st.nb,
    further N (sh.next t).na st.na⟩ else sh.next u⟩

/-- Thread `t` makes the step `m`. -/
def Shared.step {β : Type} (t : Fin N) (m : M β) (sh : Shared N) : Res (β × Shared N) :=
  match m (sh.seenBy t) with
  | .ok (b, st) => .ok (b, sh.leftBy t st)
  | .ub u => .ub u
  | .timeout => .timeout

/-- The start of the program. -/
def Shared.init (slack : Nat → Nat) (cfg : Cfg := {}) : Shared N :=
  ⟨St.init slack cfg, fun t => ⟨t.val, t.val, t.val, t.val⟩⟩

/-! ### Names -/


/-- The address in the shared memory of what thread `t` alone has at `a`. -/
def tag (t : Fin N) (a : Nat) : Nat := N * a + t.val

theorem tag_inj {t u : Fin N} {a b : Nat} : tag u b = tag t a ↔ u = t ∧ b = a := by
  constructor
  · intro h
    have h1 : (tag u b) % N = (tag t a) % N := by rw [h]
    simp only [tag, Nat.mul_add_mod, Nat.mod_eq_of_lt t.isLt, Nat.mod_eq_of_lt u.isLt] at h1
    simp only [tag] at h
    rw [h1] at h
    have h2 : N * b = N * a := by omega
    exact ⟨Fin.ext h1, Nat.eq_of_mul_eq_mul_left (by have := t.isLt; omega) h2⟩
  · rintro ⟨rfl, rfl⟩; rfl
@[simp] theorem tag_self {t : Fin N} {a b : Nat} : tag t b = tag t a ↔ b = a := by simp [tag_inj]

def SPtr.tag (t : Fin N) : SPtr → SPtr
  | .buf b off => .buf (ZJ.tag t b) off
  | .lit s => .lit s

def UVal.tag (t : Fin N) : UVal → UVal
  | .node p => .node (p.map (ZJ.tag t))
  | .str p => .str (p.tag t)

def Node.tag (t : Fin N) (n : Node) : Node where
  owner := ZJ.tag t n.owner
  type := n.type
  key := n.key.map fun k => k.map (·.tag t)
  keyLen := n.keyLen
  value := n.value.map (·.tag t)
  len := n.len
  next := n.next.map fun p => p.map (ZJ.tag t)
  prev := n.prev.map fun p => p.map (ZJ.tag t)
  father := n.father.map fun p => p.map (ZJ.tag t)
  end_ := n.end_.map fun p => p.map (ZJ.tag t)

def Val.tag (t : Fin N) (x : Val) : Val := ⟨x.n.map (ZJ.tag t), ZJ.tag t x.a⟩

def Buf.tag (t : Fin N) (b : Buf) : Buf := { b with owner := b.owner.map (ZJ.tag t) }

def ZStr.tag (t : Fin N) (z : ZStr) : ZStr := { z with a := ZJ.tag t z.a, hdr := ZJ.tag t z.hdr, data := ZJ.tag t z.data }

/-! ### The shared memory -/

/-- The shared memory consists of what the threads have alone. Thread `who` may use the
scratch string. -/
structure Joined (who : Fin N) (sh : Shared N) (S : Fin N → St) : Prop where
  nodes : ∀ u a, sh.mem.nodes (tag u a) = ((S u).nodes a).map (·.tag u)
  vals : ∀ u a, sh.mem.vals (tag u a) = ((S u).vals a).map (·.tag u)
  bufs : ∀ u a, sh.mem.bufs (tag u a) = ((S u).bufs a).map (·.tag u)
  allocs : ∀ u a, sh.mem.allocs (tag u a) = (S u).allocs a
  slack : ∀ u a, sh.mem.slack (tag u a) = (S u).slack a
  next : ∀ u, sh.next u = ⟨tag u (S u).nn, tag u (S u).nv, tag u (S u).nb, tag u (S u).na⟩
  cfg : ∀ u, sh.mem.cfg = (S u).cfg
  cache : sh.mem.cache = (S who).cache.map (·.tag who)

/-- The memories of the threads after one of them has gone on. -/
def turn (t : Fin N) (S : Fin N → St) (s : St) : Fin N → St := fun u => if u = t then s else S u

/-- The step `m` takes thread `t` alone from `s` to `s'`; in the shared memory it has the result
`b`. -/
def Steps (who t : Fin N) {β : Type} (m : M β) (s : St) (b : β) (s' : St) : Prop :=
  ∀ sh S, S t = s → Joined who sh S → ∃ sh', sh.step t m = .ok (b, sh') ∧ Joined who sh' (turn t S s')

/-- Thread `t` comes to the end of `x` after `n` steps, with the result `a`, in the memory `s'`. -/
inductive Runs (who t : Fin N) {α : Type} : Nat → Act α → St → α → St → Prop
  | ret {a s} : Runs who t 0 (.ret a) s a s
  | op {β : Type} {n : Nat} {m : M β} {k : β → Act α} {s s' b a s''} : Steps who t m s b s' → Runs who t n (k b) s' a s'' →
      Runs who t (n + 1) (.op m k) s a s''

/-- `x` does in steps, in the shared memory, what `m` does alone. -/
def Sim (who t : Fin N) {α β : Type} (m : M α) (x : Act β) (e : α → β) : Prop :=
  ∀ s r s', m s = .ok (r, s') → ∃ n, Runs who t n x s (e r) s'

section
variable {who t : Fin N} {α β γ δ : Type}

theorem M.bind_split {x : M α} {f : α → M β} {st : St} {r : β × St} (h : (x >>= f) st = .ok r) :
    ∃ a st1, x st = .ok (a, st1) ∧ f a st1 = .ok r := by
  rw [M.bind_run] at h
  split at h
  · rename_i a st' e; exact ⟨a, st', e, h⟩
  · cases h
  · cases h

theorem Runs.bind {n k : Nat} {x : Act α} {f : α → Act β} {s s1 s2 : St} {a : α} {b : β} (h : Runs who t n x s a s1)
    (hf : Runs who t k (f a) s1 b s2) : Runs who t (n + k) (x >>= f) s b s2 := by
  induction h with
  | ret => rw [Nat.zero_add]; exact hf
  | @op β' n m k' s s' b' a s'' h1 h2 ih =>
    rw [show n + 1 + k = n + k + 1 by omega]
    exact .op h1 (ih hf)

theorem Sim.bind {m : M α} {g : α → M γ} {x : Act β} {f : β → Act δ} {e : α → β} {e' : γ → δ} (h : Sim who t m x e)
    (hf : ∀ r, Sim who t (g r) (f (e r)) e') : Sim who t (m >>= g) (x >>= f) e' := by
  intro s r s' h1
  obtain ⟨a, s1, h2, h3⟩ := M.bind_split h1
  obtain ⟨n, hn⟩ := h _ _ _ h2
  obtain ⟨k, hk⟩ := hf _ _ _ _ h3
  exact ⟨_, hn.bind hk⟩

theorem Sim.pure {a : α} {b : β} {e : α → β} (h : b = e a) : Sim who t (Pure.pure a) (Pure.pure b) e := by
  intro s r s' h1
  cases h1
  subst h
  exact ⟨0, .ret⟩

theorem Sim.fail {m : M α} {x : Act β} {e : α → β} (h : ∀ s r s', m s ≠ .ok (r, s')) : Sim who t m x e :=
  fun s r s' h1 => absurd h1 (h s r s')

theorem Sim.act {m : M α} {m' : M β} {e : α → β} (h : ∀ s r s', m s = .ok (r, s') → Steps who t m' s (e r) s') :
    Sim who t m (act m') e := fun s r s' h1 => ⟨1, .op (h _ _ _ h1) .ret⟩

theorem Sim.ite {p q : Prop} [Decidable p] [Decidable q] {m1 m2 : M α} {x1 x2 : Act β} {e : α → β} (hpq : p ↔ q)
    (h1 : Sim who t m1 x1 e) (h2 : Sim who t m2 x2 e) : Sim who t (if p then m1 else m2) (if q then x1 else x2) e := by
  by_cases hp : p
  · rw [if_pos hp, if_pos (hpq.1 hp)]; exact h1
  · rw [if_neg hp, if_neg (mt hpq.2 hp)]; exact h2

theorem Sim.lift {r : Res α} : Sim who t (ZJ.lift r) (Thr.lift r) id := by
  cases r with
  | ok a => exact Sim.pure rfl
  | ub u => exact Sim.fail fun _ _ _ h => (nomatch h)
  | timeout => exact Sim.fail fun _ _ _ h => (nomatch h)

theorem Sim.never {u : UB} {x : Act β} {e : α → β} : Sim who t (ZJ.fail u) x e := Sim.fail fun _ _ _ h => (nomatch h)
theorem Sim.late {x : Act β} {e : α → β} : Sim who t (ZJ.lift .timeout) x e := Sim.fail fun _ _ _ h => (nomatch h)

theorem Sim.fld {x : Option α} {e : α → β} : Sim who t (ZJ.fld x) (Thr.fld (x.map e)) e := by
  cases x with
  | none => exact Sim.never
  | some a => exact Sim.pure rfl

theorem Sim.deref {x : Option Addr} : Sim who t (ZJ.deref x) (Thr.deref (x.map (tag t))) (tag t) := by
  cases x with
  | none => exact Sim.never
  | some a => exact Sim.pure rfl

/-! ### The steps -/

theorem Steps.of {m : M β} {s s' : St} {b : β} (h : ∀ sh S, S t = s → Joined who sh S →
    ∃ st', m (sh.seenBy t) = .ok (b, st') ∧ Joined who (sh.leftBy t st') (turn t S s')) : Steps who t m s b s' := by
  intro sh S e J
  obtain ⟨st', h1, h2⟩ := h sh S e J
  exact ⟨_, by unfold Shared.step; rw [h1], h2⟩

theorem further_tag {t : Fin N} {a a' x : Nat} (h : x = tag t a ∧ a' = a ∨ x = tag t a + 1 ∧ a' = a + 1) : further N (tag t a) x = tag t a' := by
  rcases h with ⟨rfl, rfl⟩ | ⟨rfl, rfl⟩
  · simp [further]
  · simp only [further, tag, Nat.add_sub_cancel_left, Nat.mul_add, Nat.mul_one]; omega

/-- How a step changes the memory of its thread. -/
theorem Joined.put {sh : Shared N} {S : Fin N → St} (J : Joined who sh S) {s' st' : St}
    (nodes : ∀ u a, st'.nodes (tag u a) = if u = t then (s'.nodes a).map (·.tag t) else sh.mem.nodes (tag u a))
    (vals : ∀ u a, st'.vals (tag u a) = if u = t then (s'.vals a).map (·.tag t) else sh.mem.vals (tag u a))
    (bufs : ∀ u a, st'.bufs (tag u a) = if u = t then (s'.bufs a).map (·.tag t) else sh.mem.bufs (tag u a))
    (allocs : ∀ u a, st'.allocs (tag u a) = if u = t then s'.allocs a else sh.mem.allocs (tag u a))
    (slack : st'.slack = sh.mem.slack) (slack' : s'.slack = (S t).slack)
    (nn : st'.nn = (sh.next t).nn ∧ s'.nn = (S t).nn ∨ st'.nn = (sh.next t).nn + 1 ∧ s'.nn = (S t).nn + 1)
    (nv : st'.nv = (sh.next t).nv ∧ s'.nv = (S t).nv ∨ st'.nv = (sh.next t).nv + 1 ∧ s'.nv = (S t).nv + 1)
    (nb : st'.nb = (sh.next t).nb ∧ s'.nb = (S t).nb ∨ st'.nb = (sh.next t).nb + 1 ∧ s'.nb = (S t).nb + 1)
    (na : st'.na = (sh.next t).na ∧ s'.na = (S t).na ∨ st'.na = (sh.next t).na + 1 ∧ s'.na = (S t).na + 1)
    (cfg : st'.cfg = sh.mem.cfg) (cfg' : s'.cfg = (S t).cfg)
    (cache : st'.cache = sh.mem.cache ∧ s'.cache = (S t).cache ∨ t = who ∧ st'.cache = s'.cache.map (·.tag who)) :
    Joined who (sh.leftBy t st') (turn t S s') where
  nodes u a := by
    have h1 := nodes u a
    have h2 := J.nodes u a
    unfold turn
    by_cases h : u = t
    · subst h; simp only [if_true] at h1 ⊢; exact h1
    · simp only [h, if_false] at h1 ⊢; rw [← h2]; exact h1
  vals u a := by
    have h1 := vals u a
    have h2 := J.vals u a
    unfold turn
    by_cases h : u = t
    · subst h; simp only [if_true] at h1 ⊢; exact h1
    · simp only [h, if_false] at h1 ⊢; rw [← h2]; exact h1
  bufs u a := by
    have h1 := bufs u a
    have h2 := J.bufs u a
    unfold turn
    by_cases h : u = t
    · subst h; simp only [if_true] at h1 ⊢; exact h1
    · simp only [h, if_false] at h1 ⊢; rw [← h2]; exact h1
  allocs u a := by
    have h1 := allocs u a
    have h2 := J.allocs u a
    unfold turn
    by_cases h : u = t
    · subst h; simp only [if_true] at h1 ⊢; exact h1
    · simp only [h, if_false] at h1 ⊢; rw [← h2]; exact h1
  slack u a := by
    have h2 := J.slack u a
    show st'.slack (tag u a) = _
    rw [slack, h2]
    unfold turn
    by_cases h : u = t
    · subst h; simp [slack']
    · simp [h]
  next u := by
    have h2 := J.next u
    unfold turn Shared.leftBy
    by_cases h : u = t
    · subst h
      simp only [if_true]
      rw [h2] at nn nv nb na ⊢
      simp only [Ctr.mk.injEq]
      exact ⟨further_tag nn, further_tag nv, further_tag nb, further_tag na⟩
    · simp [h, h2]
  cfg u := by
    have h2 := J.cfg u
    show st'.cfg = _
    rw [cfg, h2]
    unfold turn
    by_cases h : u = t
    · subst h; simp [cfg']
    · simp [h]
  cache := by
    show st'.cache = _
    unfold turn
    rcases cache with ⟨h1, h2⟩ | ⟨h1, h2⟩
    · rw [h1, J.cache]
      by_cases h : who = t
      · subst h; simp [h2]
      · simp [h]
    · subst h1; simpa using h2

section
variable {sh : Shared N} {S : Fin N → St}

theorem Joined.sameN (J : Joined who sh S) (u : Fin N) (a : Nat) :
    sh.mem.nodes (tag u a) = if u = t then ((S t).nodes a).map (·.tag t) else sh.mem.nodes (tag u a) := by
  split
  · rename_i h; subst h; exact J.nodes u a
  · rfl
theorem Joined.sameV (J : Joined who sh S) (u : Fin N) (a : Nat) :
    sh.mem.vals (tag u a) = if u = t then ((S t).vals a).map (·.tag t) else sh.mem.vals (tag u a) := by
  split
  · rename_i h; subst h; exact J.vals u a
  · rfl
theorem Joined.sameB (J : Joined who sh S) (u : Fin N) (a : Nat) :
    sh.mem.bufs (tag u a) = if u = t then ((S t).bufs a).map (·.tag t) else sh.mem.bufs (tag u a) := by
  split
  · rename_i h; subst h; exact J.bufs u a
  · rfl
theorem Joined.sameA (J : Joined who sh S) (u : Fin N) (a : Nat) :
    sh.mem.allocs (tag u a) = if u = t then (S t).allocs a else sh.mem.allocs (tag u a) := by
  split
  · rename_i h; subst h; exact J.allocs u a
  · rfl

/-- A map of the shared memory in which a cell of thread `t` is written. -/
theorem upd_tag {X : Type} {f : Nat → Option X} {g : Nat → Option X} {tg : X → X} {b : Nat} {x : Option X} {y : Option X}
    (h : ∀ a, f (tag t a) = (g a).map tg) (hx : x = y.map tg) (u : Fin N) (a : Nat) :
    upd f (tag t b) x (tag u a) = if u = t then (upd g b y a).map tg else f (tag u a) := by
  unfold upd
  by_cases hu : u = t
  · subst hu
    by_cases ha : a = b
    · subst ha; simp [hx]
    · simp [ha, h]
  · simp [tag_inj, hu]
end

/-- A step that does not change the memory. -/
theorem Steps.read {m : M β} {s : St} {b : β} (h : ∀ sh S, S t = s → Joined who sh S → m (sh.seenBy t) = .ok (b, sh.seenBy t)) :
    Steps who t m s b s := by
  refine .of fun sh S e J => ⟨_, h sh S e J, ?_⟩
  subst e
  exact J.put J.sameN J.sameV J.sameB J.sameA rfl rfl (.inl ⟨rfl, rfl⟩) (.inl ⟨rfl, rfl⟩) (.inl ⟨rfl, rfl⟩) (.inl ⟨rfl, rfl⟩) rfl rfl (.inl ⟨rfl, rfl⟩)

theorem Sim.rdNode {a : Addr} : Sim who t (ZJ.rdNode a) (Thr.rdNode (tag t a)) (·.tag t) := .act fun s r s' h => by
  unfold ZJ.rdNode at h
  split at h <;> cases h
  rename_i n hn
  exact .read fun sh S e J => by
    have := J.nodes t a
    rw [e, hn] at this
    unfold ZJ.rdNode Shared.seenBy
    rw [this]; rfl

theorem Sim.rdVal {a : Addr} : Sim who t (ZJ.rdVal a) (Thr.rdVal (tag t a)) (·.tag t) := .act fun s r s' h => by
  unfold ZJ.rdVal at h
  split at h <;> cases h
  rename_i n hn
  exact .read fun sh S e J => by
    have := J.vals t a
    rw [e, hn] at this
    unfold ZJ.rdVal Shared.seenBy
    rw [this]; rfl

theorem Sim.modNode {a : Addr} {f g : Node → Node} (hf : ∀ n, (f n).tag t = g (n.tag t)) :
    Sim who t (ZJ.modNode a f) (Thr.modNode (tag t a) g) id := .act fun s r s' h => by
  unfold ZJ.modNode at h
  split at h <;> cases h
  rename_i n hn
  refine .of fun sh S e J => ?_
  subst e
  have := J.nodes t a
  rw [hn] at this
  refine ⟨{ sh.seenBy t with nodes := upd sh.mem.nodes (tag t a) (some (g (n.tag t))) }, ?_, ?_⟩
  · unfold ZJ.modNode
    rw [show (sh.seenBy t).nodes (tag t a) = _ from this]; rfl
  · exact J.put (upd_tag (J.nodes t) (by simp [hf])) J.sameV J.sameB J.sameA rfl rfl (.inl ⟨rfl, rfl⟩) (.inl ⟨rfl, rfl⟩) (.inl ⟨rfl, rfl⟩) (.inl ⟨rfl, rfl⟩) rfl rfl (.inl ⟨rfl, rfl⟩)

theorem Sim.setValN {a : Addr} {x : Option Addr} : Sim who t (ZJ.setValN a x) (Thr.setValN (tag t a) (x.map (tag t))) id := .act fun s r s' h => by
  unfold ZJ.setValN at h
  split at h <;> cases h
  rename_i n hn
  refine .of fun sh S e J => ?_
  subst e
  have := J.vals t a
  rw [hn] at this
  refine ⟨{ sh.seenBy t with vals := upd sh.mem.vals (tag t a) (some { n.tag t with n := x.map (tag t) }) }, ?_, ?_⟩
  · unfold ZJ.setValN
    rw [show (sh.seenBy t).vals (tag t a) = _ from this]; rfl
  · exact J.put J.sameN (upd_tag (J.vals t) (by simp [Val.tag])) J.sameB J.sameA rfl rfl (.inl ⟨rfl, rfl⟩) (.inl ⟨rfl, rfl⟩) (.inl ⟨rfl, rfl⟩) (.inl ⟨rfl, rfl⟩) rfl rfl (.inl ⟨rfl, rfl⟩)

theorem request_inv {A n : Nat} {s s' : St} {r : Unit} (h : ZJ.request A n s = .ok (r, s')) :
    s.allocs A = true ∧ s' = { s with log := .alloc A n :: s.log } := by
  unfold ZJ.request at h
  split at h <;> cases h
  rename_i hA
  exact ⟨hA, rfl⟩

theorem Joined.live {sh : Shared N} {S : Fin N → St} (J : Joined who sh S) {A : Nat} (h : (S t).allocs A = true) : (sh.seenBy t).allocs (tag t A) = true :=
  (J.allocs t A).trans h

theorem Sim.request {A n : Nat} : Sim who t (ZJ.request A n) (Thr.request (tag t A) n) id := .act fun s r s' h => by
  obtain ⟨hA, rfl⟩ := request_inv h
  refine .of fun sh S e J => ?_
  subst e
  exact ⟨_, request_run (J.live hA), J.put J.sameN J.sameV J.sameB J.sameA rfl rfl (.inl ⟨rfl, rfl⟩) (.inl ⟨rfl, rfl⟩) (.inl ⟨rfl, rfl⟩) (.inl ⟨rfl, rfl⟩) rfl rfl (.inl ⟨rfl, rfl⟩)⟩

theorem Joined.nn {sh : Shared N} {S : Fin N → St} (J : Joined who sh S) : (sh.next t).nn = tag t (S t).nn := by rw [J.next t]
theorem Joined.nv {sh : Shared N} {S : Fin N → St} (J : Joined who sh S) : (sh.next t).nv = tag t (S t).nv := by rw [J.next t]
theorem Joined.nb {sh : Shared N} {S : Fin N → St} (J : Joined who sh S) : (sh.next t).nb = tag t (S t).nb := by rw [J.next t]
theorem Joined.na {sh : Shared N} {S : Fin N → St} (J : Joined who sh S) : (sh.next t).na = tag t (S t).na := by rw [J.next t]

theorem Sim.newNode {A : Nat} : Sim who t (ZJ.newNode A) (Thr.newNode (tag t A)) (tag t) := .act fun s r s' h => by
  obtain ⟨_, s1, h1, h2⟩ := M.bind_split h
  obtain ⟨hA, rfl⟩ := request_inv h1
  cases h2
  refine .of fun sh S e J => ?_
  subst e
  refine ⟨(sh.seenBy t).addN (tag t A), ?_, ?_⟩
  · rw [newNode_run (J.live hA)]; simp only [Shared.seenBy, J.nn]
  · refine J.put ?_ J.sameV J.sameB J.sameA rfl rfl (.inr ⟨rfl, rfl⟩) (.inl ⟨rfl, rfl⟩) (.inl ⟨rfl, rfl⟩) (.inl ⟨rfl, rfl⟩) rfl rfl (.inl ⟨rfl, rfl⟩)
    show ∀ u a, upd sh.mem.nodes (sh.next t).nn _ (tag u a) = _
    rw [J.nn]
    exact upd_tag (J.nodes t) (by simp [Node.tag])

theorem Sim.newVal {A : Nat} {x : Option Addr} : Sim who t (ZJ.newVal A x) (Thr.newVal (tag t A) (x.map (tag t))) (tag t) := .act fun s r s' h => by
  obtain ⟨_, s1, h1, h2⟩ := M.bind_split h
  obtain ⟨hA, rfl⟩ := request_inv h1
  cases h2
  refine .of fun sh S e J => ?_
  subst e
  refine ⟨(sh.seenBy t).addV (tag t A) (x.map (tag t)), ?_, ?_⟩
  · rw [newVal_run (J.live hA)]; simp only [Shared.seenBy, J.nv]
  · refine J.put J.sameN ?_ J.sameB J.sameA rfl rfl (.inl ⟨rfl, rfl⟩) (.inr ⟨rfl, rfl⟩) (.inl ⟨rfl, rfl⟩) (.inl ⟨rfl, rfl⟩) rfl rfl (.inl ⟨rfl, rfl⟩)
    show ∀ u a, upd sh.mem.vals (sh.next t).nv _ (tag u a) = _
    rw [J.nv]
    exact upd_tag (J.vals t) (by simp [Val.tag])

theorem Sim.newBuf {A n : Nat} {d : Bytes} : Sim who t (ZJ.newBuf A n d) (Thr.newBuf (tag t A) n d) (tag t) := .act fun s r s' h => by
  obtain ⟨_, s1, h1, h2⟩ := M.bind_split h
  obtain ⟨hA, rfl⟩ := request_inv h1
  split at h2 <;> cases h2
  rename_i hd
  refine .of fun sh S e J => ?_
  subst e
  refine ⟨(sh.seenBy t).addB (tag t A) n d, ?_, ?_⟩
  · rw [newBuf_run (J.live hA) hd]; simp only [Shared.seenBy, J.nb]
  · refine J.put J.sameN J.sameV ?_ J.sameA rfl rfl (.inl ⟨rfl, rfl⟩) (.inl ⟨rfl, rfl⟩) (.inr ⟨rfl, rfl⟩) (.inl ⟨rfl, rfl⟩) rfl rfl (.inl ⟨rfl, rfl⟩)
    show ∀ u a, upd sh.mem.bufs (sh.next t).nb (some ⟨_, _, sh.mem.slack (sh.next t).nb, _⟩) (tag u a) = _
    rw [J.nb, J.slack]
    exact upd_tag (J.bufs t) (by simp [Buf.tag])

/-- The state after a string was allocated. -/
def St.addZ (st : St) (A n : Nat) : St :=
  { st with bufs := upd st.bufs st.nb (some ⟨some A, n, st.slack st.nb, []⟩), nb := st.nb + 1, log := .alloc A (24 + n) :: st.log }

theorem Sim.newString {A n : Nat} : Sim who t (ZJ.newString A n) (Thr.newString (tag t A) n) (·.tag t) := .act fun s r s' h => by
  obtain ⟨_, s1, h1, h2⟩ := M.bind_split h
  obtain ⟨hA, rfl⟩ := request_inv h1
  cases h2
  refine .of fun sh S e J => ?_
  subst e
  refine ⟨(sh.seenBy t).addZ (tag t A) n, ?_, ?_⟩
  · refine (M.bind_ok (request_run (J.live hA))).trans ?_
    simp only [Shared.seenBy, J.nb, St.addZ]; rfl
  · refine J.put J.sameN J.sameV ?_ J.sameA rfl rfl (.inl ⟨rfl, rfl⟩) (.inl ⟨rfl, rfl⟩) (.inr ⟨rfl, rfl⟩) (.inl ⟨rfl, rfl⟩) rfl rfl (.inl ⟨rfl, rfl⟩)
    show ∀ u a, upd sh.mem.bufs (sh.next t).nb (some ⟨_, _, sh.mem.slack (sh.next t).nb, _⟩) (tag u a) = _
    rw [J.nb, J.slack]
    exact upd_tag (J.bufs t) (by simp [Buf.tag])

theorem Sim.newAllocator : Sim who t ZJ.newAllocator Thr.newAllocator (tag t) := .act fun s r s' h => by
  cases h
  refine .of fun sh S e J => ?_
  subst e
  refine ⟨?_, ?_, ?_⟩
  rotate_left
  · unfold ZJ.newAllocator; simp only [Shared.seenBy, J.na]; rfl
  · refine J.put J.sameN J.sameV J.sameB ?_ rfl rfl (.inl ⟨rfl, rfl⟩) (.inl ⟨rfl, rfl⟩) (.inl ⟨rfl, rfl⟩) (.inr ⟨by rw [J.na], rfl⟩) rfl rfl (.inl ⟨rfl, rfl⟩)
    intro u a
    have := J.allocs u a
    dsimp only
    unfold upd
    by_cases hu : u = t
    · subst hu
      by_cases ha : a = (S u).na
      · subst ha; simp
      · simp [ha, this]
    · simp [tag_inj, hu]

theorem Sim.releaseAllocator {A : Nat} : Sim who t (ZJ.releaseAllocator A) (Thr.releaseAllocator (tag t A)) id := .act fun s r s' h => by
  unfold ZJ.releaseAllocator at h
  split at h <;> cases h
  rename_i hA
  refine .of fun sh S e J => ?_
  subst e
  refine ⟨?_, ?_, ?_⟩
  rotate_left
  · unfold ZJ.releaseAllocator; rw [if_pos (J.live hA)]
  · refine J.put ?_ ?_ ?_ ?_ rfl rfl (.inl ⟨rfl, rfl⟩) (.inl ⟨rfl, rfl⟩) (.inl ⟨rfl, rfl⟩) (.inl ⟨rfl, rfl⟩) rfl rfl (.inl ⟨rfl, rfl⟩)
    · intro u a
      show (sh.mem.nodes (tag u a)).bind _ = if u = t then (((S t).nodes a).bind _).map _ else _
      rw [J.nodes u a]
      by_cases hu : u = t
      · subst hu
        rw [if_pos rfl]
        cases h : (S u).nodes a with
        | none => rfl
        | some n =>
          simp only [Option.map_some, Option.bind_some]
          by_cases hn : n.owner = A
          · rw [if_pos hn, if_pos]
            · rfl
            · simp [Node.tag, hn]
          · rw [if_neg hn, if_neg]
            · rfl
            · simpa [Node.tag] using hn
      · rw [if_neg hu]
        cases h : (S u).nodes a with
        | none => rfl
        | some n =>
          simp only [Option.map_some, Option.bind_some]
          rw [if_neg]
          simp [Node.tag, tag_inj, hu]
    · intro u a
      show (sh.mem.vals (tag u a)).bind _ = if u = t then (((S t).vals a).bind _).map _ else _
      rw [J.vals u a]
      by_cases hu : u = t
      · subst hu
        rw [if_pos rfl]
        cases h : (S u).vals a with
        | none => rfl
        | some n =>
          simp only [Option.map_some, Option.bind_some]
          by_cases hn : n.a = A
          · rw [if_pos hn, if_pos]
            · rfl
            · simp [Val.tag, hn]
          · rw [if_neg hn, if_neg]
            · rfl
            · simpa [Val.tag] using hn
      · rw [if_neg hu]
        cases h : (S u).vals a with
        | none => rfl
        | some n =>
          simp only [Option.map_some, Option.bind_some]
          rw [if_neg]
          simp [Val.tag, tag_inj, hu]
    · intro u a
      show (sh.mem.bufs (tag u a)).bind _ = if u = t then (((S t).bufs a).bind _).map _ else _
      rw [J.bufs u a]
      by_cases hu : u = t
      · subst hu
        rw [if_pos rfl]
        cases h : (S u).bufs a with
        | none => rfl
        | some n =>
          simp only [Option.map_some, Option.bind_some]
          by_cases hn : n.owner = some A
          · rw [if_pos hn, if_pos]
            · rfl
            · simp [Buf.tag, hn]
          · rw [if_neg hn, if_neg]
            · rfl
            · simpa [Buf.tag] using hn
      · rw [if_neg hu]
        cases h : (S u).bufs a with
        | none => rfl
        | some n =>
          simp only [Option.map_some, Option.bind_some]
          rw [if_neg]
          simp [Buf.tag, tag_inj, hu]
    · intro u a
      have := J.allocs u a
      show upd sh.mem.allocs (tag t A) false (tag u a) = _
      unfold upd
      by_cases hu : u = t
      · subst hu
        by_cases ha : a = A
        · subst ha; simp
        · simp [ha, this]
      · simp [tag_inj, hu]

theorem Sim.view {p : SPtr} : Sim who t (ZJ.view p) (Thr.view (p.tag t)) id := .act fun s r s' h => by
  cases p with
  | lit l => cases h; exact .read fun sh S e J => rfl
  | buf b off =>
    unfold ZJ.view at h
    dsimp only at h
    split at h <;> cases h
    rename_i bf hb
    exact .read fun sh S e J => by
      have := J.bufs t b
      rw [e, hb] at this
      unfold ZJ.view Shared.seenBy
      simp only [SPtr.tag, this]; rfl

theorem Sim.readN {p : SPtr} {n : Nat} : Sim who t (ZJ.readN p n) (Thr.readN (p.tag t) n) id := .act fun s r s' h => by
  cases p with
  | lit l =>
    unfold ZJ.readN at h
    dsimp only at h
    split at h <;> cases h
    rename_i hn
    exact .read fun sh S e J => by unfold ZJ.readN; simp only [SPtr.tag, hn, if_true]; rfl
  | buf b off =>
    unfold ZJ.readN at h
    dsimp only at h
    cases hb : s.bufs b with
    | none => rw [hb] at h; cases h
    | some bf =>
      rw [hb] at h
      dsimp only at h
      have hs : s' = s := by split at h <;> first | (cases h; rfl) | (split at h <;> first | (cases h; rfl) | (cases h; done) | (split at h <;> cases h; rfl))
      subst hs
      exact .read fun sh S e J => by
        have := J.bufs t b
        rw [e, hb] at this
        unfold ZJ.readN
        simp only [SPtr.tag]
        rw [show (sh.seenBy t).bufs (tag t b) = _ from this]
        simp only [Option.map_some, Buf.tag]
        split at h
        · cases h; rename_i hn; simp [hn]
        · split at h
          · cases h
          · split at h
            · cases h
            · cases h; simp [*]

theorem Sim.getCfg : Sim who t ZJ.getCfg Thr.getCfg id := .act fun s r s' h => by
  cases h
  exact .read fun sh S e J => by
    have := J.cfg t
    rw [e] at this
    unfold ZJ.getCfg
    rw [show (sh.seenBy t).cfg = _ from this]; rfl

theorem Sim.touchStr {z : ZStr} : Sim who t (ZJ.touchStr z) (Thr.touchStr (z.tag t)) id := .act fun s r s' h => by
  unfold ZJ.touchStr at h
  split at h <;> cases h
  rename_i bf hb
  exact .read fun sh S e J => by
    have := J.bufs t z.hdr
    rw [e, hb] at this
    unfold ZJ.touchStr
    simp only [ZStr.tag]
    rw [show (sh.seenBy t).bufs (tag t z.hdr) = _ from this]; rfl

theorem Sim.oldData {z : ZStr} : Sim who t (fun st => match st.bufs z.data with
        | some b => .ok (b.data.take z.pos, st)
        | none => .ub .wild : M Bytes) (Thr.oldData (z.tag t)) id := .act fun s r s' h => by
  split at h <;> cases h
  rename_i bf hb
  exact .read fun sh S e J => by
    have := J.bufs t z.data
    rw [e, hb] at this
    simp only [ZStr.tag]
    rw [show (sh.seenBy t).bufs (tag t z.data) = _ from this]; rfl

theorem Sim.pokeStr {z : ZStr} {d : Bytes} : Sim who t (ZJ.pokeStr z d) (Thr.pokeStr (z.tag t) d) id := .act fun s r s' h => by
  unfold ZJ.pokeStr at h
  split at h
  rotate_left
  · cases h
  split at h <;> cases h
  rename_i bf hb hd
  refine .of fun sh S e J => ?_
  subst e
  have := J.bufs t z.data
  rw [hb] at this
  refine ⟨(sh.seenBy t).clobber (tag t z.data) (some { bf.tag t with data := bf.data.take z.pos ++ d }), ?_, ?_⟩
  · unfold ZJ.pokeStr
    simp only [ZStr.tag]
    rw [show (sh.seenBy t).bufs (tag t z.data) = _ from this]
    simp only [Option.map_some, Buf.tag]
    exact if_pos hd
  · exact J.put J.sameN J.sameV (upd_tag (J.bufs t) (by simp [Buf.tag])) J.sameA rfl rfl (.inl ⟨rfl, rfl⟩) (.inl ⟨rfl, rfl⟩) (.inl ⟨rfl, rfl⟩) (.inl ⟨rfl, rfl⟩) rfl rfl (.inl ⟨rfl, rfl⟩)

theorem Sim.getCache (hw : t = who) : Sim who t (fun st => .ok (st.cache, st) : M (Option ZStr)) Thr.getCache fun c => c.map (·.tag t) :=
  .act fun s r s' h => by
    subst hw
    cases h
    exact .read fun sh S e J => by
      have := J.cache
      rw [e] at this
      rw [show (sh.seenBy t).cache = _ from this]

theorem Sim.setCache (hw : t = who) {z : ZStr} : Sim who t (fun st => .ok ((), { st with cache := some z }) : M Unit) (Thr.setCache (z.tag t)) id :=
  .act fun s r s' h => by
    subst hw
    cases h
    refine .of fun sh S e J => ?_
    subst e
    exact ⟨_, rfl, J.put J.sameN J.sameV J.sameB J.sameA rfl rfl (.inl ⟨rfl, rfl⟩) (.inl ⟨rfl, rfl⟩) (.inl ⟨rfl, rfl⟩) (.inl ⟨rfl, rfl⟩) rfl rfl (.inr ⟨rfl, rfl⟩)⟩

theorem Sim.callerText {d : Bytes} : Sim who t (ZJ.callerText d) (Thr.callerText d) (·.tag t) := .act fun s r s' h => by
  cases h
  refine .of fun sh S e J => ?_
  subst e
  refine ⟨?_, ?_, ?_⟩
  rotate_left
  · unfold ZJ.callerText; simp only [Shared.seenBy, J.nb]; rfl
  · refine J.put J.sameN J.sameV ?_ J.sameA rfl rfl (.inl ⟨rfl, rfl⟩) (.inl ⟨rfl, rfl⟩) (.inr ⟨by rw [J.nb]; rfl, rfl⟩) (.inl ⟨rfl, rfl⟩) rfl rfl (.inl ⟨rfl, rfl⟩)
    have := J.slack t (S t).nb
    refine upd_tag (J.bufs t) ?_
    simp [Buf.tag, this]

theorem Sim.freeText {p : SPtr} : Sim who t (ZJ.freeText p) (Thr.freeText (p.tag t)) id := .act fun s r s' h => by
  cases p with
  | lit l => cases h; exact .read fun sh S e J => rfl
  | buf b off =>
    cases h
    refine .of fun sh S e J => ?_
    subst e
    exact ⟨_, rfl, J.put J.sameN J.sameV (upd_tag (J.bufs t) rfl) J.sameA rfl rfl (.inl ⟨rfl, rfl⟩) (.inl ⟨rfl, rfl⟩) (.inl ⟨rfl, rfl⟩) (.inl ⟨rfl, rfl⟩) rfl rfl (.inl ⟨rfl, rfl⟩)⟩

end

end ZJ
