import Verif.ConcSim

/-
Threads, the functions: every function of the library in steps does in the shared memory what it
does alone (`Sim`).
-/

set_option linter.unusedSimpArgs false
set_option linter.unusedVariables false

namespace ZJ

variable {N : Nat}

def Step.tag (t : Fin N) : Step → Step
  | .desc n i => .desc (ZJ.tag t n) i
  | .leaf i => .leaf i
  | .bad => .bad

section
variable {who t : Fin N} {α β : Type}

theorem SPtr.tag_add (p : SPtr) (i : Nat) : (p.tag t).add i = (p.add i).tag t := by cases p <;> rfl

@[simp] theorem some_tag {a : Nat} {x : Option Nat} : some (tag t a) = x.map (tag t) ↔ some a = x := by
  cases x <;> simp

@[simp] theorem Val.tag_n {x : Val} : (x.tag t).n = x.n.map (ZJ.tag t) := rfl

/-- One statement that is known. -/
syntax "sim1" : tactic
macro_rules | `(tactic| sim1) => `(tactic| fail)

/-- The arguments correspond. -/
macro "args" : tactic => `(tactic| first | rfl | (simp [SPtr.tag_add]; done))

/-- Compares a function with its version in steps, statement by statement. -/
macro "sim" : tactic => `(tactic| repeat' first
  | sim1
  | exact Sim.pure rfl
  | exact Sim.never
  | exact Sim.late
  | exact Sim.lift
  | refine Sim.bind (by sim1) fun _ => ?_
  | refine Sim.bind Sim.lift fun _ => ?_
  | refine Sim.ite (by first | exact Iff.rfl | (simp; done)) ?_ ?_)

/-- Case distinction on the pointer in the handle read last. -/
macro "hnd" : tactic => `(tactic| (rename_i x; obtain ⟨n, A⟩ := x; cases n <;> dsimp only [Val.tag, Option.map_some, Option.map_none]))
/-- Case distinction on the pointer read last. -/
macro "opt" : tactic => `(tactic| (rename_i x; cases x <;> dsimp only [Option.map_some, Option.map_none, id]))

/-- Case distinction on the pointer in the handle read last. -/
macro "hnd" : tactic => `(tactic| (rename_i x; obtain ⟨n, A⟩ := x; cases n <;> dsimp only [Val.tag, Option.map_some, Option.map_none]))
/-- Case distinction on the pointer read last. -/
macro "opt" : tactic => `(tactic| (rename_i x; cases x <;> dsimp only [Option.map_some, Option.map_none, id]))

theorem Sim.fld' {x : Option α} {y : Option β} {e : α → β} (h : y = x.map e) : Sim who t (ZJ.fld x) (Thr.fld y) e := by subst h; exact Sim.fld

theorem Sim.rdNode' {a a' : Addr} (h : a' = tag t a) : Sim who t (ZJ.rdNode a) (Thr.rdNode a') (·.tag t) := by subst h; exact Sim.rdNode
theorem Sim.rdVal' {a a' : Addr} (h : a' = tag t a) : Sim who t (ZJ.rdVal a) (Thr.rdVal a') (·.tag t) := by subst h; exact Sim.rdVal
theorem Sim.setValN' {a a' : Addr} {x x'} (h : a' = tag t a) (hx : x' = x.map (tag t)) : Sim who t (ZJ.setValN a x) (Thr.setValN a' x') id := by subst h hx; exact Sim.setValN
theorem Sim.request' {a a' n : Nat} (h : a' = tag t a) : Sim who t (ZJ.request a n) (Thr.request a' n) id := by subst h; exact Sim.request
theorem Sim.newNode' {a a' : Nat} (h : a' = tag t a) : Sim who t (ZJ.newNode a) (Thr.newNode a') (tag t) := by subst h; exact Sim.newNode
theorem Sim.newVal' {a a' : Nat} {x x'} (h : a' = tag t a) (hx : x' = x.map (tag t)) : Sim who t (ZJ.newVal a x) (Thr.newVal a' x') (tag t) := by subst h hx; exact Sim.newVal
theorem Sim.newBuf' {a a' n n' : Nat} {d d'} (h : a' = tag t a) (hn : n' = n) (hd : d' = d) : Sim who t (ZJ.newBuf a n d) (Thr.newBuf a' n' d') (tag t) := by subst h hn hd; exact Sim.newBuf
theorem Sim.modNode' {a a' : Addr} {f g : Node → Node} (h : a' = tag t a) (hf : ∀ n, (f n).tag t = g (n.tag t)) : Sim who t (ZJ.modNode a f) (Thr.modNode a' g) id := by subst h; exact Sim.modNode hf
theorem Sim.view' {p p' : SPtr} (h : p' = p.tag t) : Sim who t (ZJ.view p) (Thr.view p') id := by subst h; exact Sim.view
theorem Sim.readN' {p p' : SPtr} {n n' : Nat} (h : p' = p.tag t) (hn : n' = n) : Sim who t (ZJ.readN p n) (Thr.readN p' n') id := by subst h hn; exact Sim.readN
theorem Sim.deref' {x x' : Option Addr} (h : x' = x.map (tag t)) : Sim who t (ZJ.deref x) (Thr.deref x') (tag t) := by subst h; exact Sim.deref
theorem Sim.releaseAllocator' {a a' : Nat} (h : a' = tag t a) : Sim who t (ZJ.releaseAllocator a) (Thr.releaseAllocator a') id := by subst h; exact Sim.releaseAllocator

macro_rules | `(tactic| sim1) => `(tactic| ((with_reducible refine Sim.rdNode' ?_) <;> args))
macro_rules | `(tactic| sim1) => `(tactic| ((with_reducible refine Sim.rdVal' ?_) <;> args))
macro_rules | `(tactic| sim1) => `(tactic| ((with_reducible refine Sim.setValN' ?_ ?_) <;> args))
macro_rules | `(tactic| sim1) => `(tactic| ((with_reducible refine Sim.request' ?_) <;> args))
macro_rules | `(tactic| sim1) => `(tactic| ((with_reducible refine Sim.newNode' ?_) <;> args))
macro_rules | `(tactic| sim1) => `(tactic| ((with_reducible refine Sim.newVal' ?_ ?_) <;> args))
macro_rules | `(tactic| sim1) => `(tactic| ((with_reducible refine Sim.newBuf' ?_ ?_ ?_) <;> args))
macro_rules | `(tactic| sim1) => `(tactic| ((with_reducible refine Sim.view' ?_) <;> args))
macro_rules | `(tactic| sim1) => `(tactic| ((with_reducible refine Sim.readN' ?_ ?_) <;> args))
macro_rules | `(tactic| sim1) => `(tactic| ((with_reducible refine Sim.deref' ?_) <;> args))

/-! ### Fields -/

section
variable {a a' : Addr} (h : a' = tag t a)
include h

theorem Sim.nType : Sim who t (ZJ.nType a) (Thr.nType a') id :=
  Sim.bind (Sim.rdNode' h) fun n => Sim.fld' (by simp [Node.tag])
theorem Sim.nKey : Sim who t (ZJ.nKey a) (Thr.nKey a') fun k => k.map (·.tag t) :=
  Sim.bind (Sim.rdNode' h) fun n => Sim.fld' rfl
theorem Sim.nKeyLen : Sim who t (ZJ.nKeyLen a) (Thr.nKeyLen a') id :=
  Sim.bind (Sim.rdNode' h) fun n => Sim.fld' (by simp [Node.tag])
theorem Sim.nLen : Sim who t (ZJ.nLen a) (Thr.nLen a') id :=
  Sim.bind (Sim.rdNode' h) fun n => Sim.fld' (by simp [Node.tag])
theorem Sim.nNext : Sim who t (ZJ.nNext a) (Thr.nNext a') fun k => k.map (tag t) :=
  Sim.bind (Sim.rdNode' h) fun n => Sim.fld' rfl
theorem Sim.nPrev : Sim who t (ZJ.nPrev a) (Thr.nPrev a') fun k => k.map (tag t) :=
  Sim.bind (Sim.rdNode' h) fun n => Sim.fld' rfl
theorem Sim.nFather : Sim who t (ZJ.nFather a) (Thr.nFather a') fun k => k.map (tag t) :=
  Sim.bind (Sim.rdNode' h) fun n => Sim.fld' rfl
theorem Sim.nEnd : Sim who t (ZJ.nEnd a) (Thr.nEnd a') fun k => k.map (tag t) :=
  Sim.bind (Sim.rdNode' h) fun n => Sim.fld' rfl
theorem Sim.nNode : Sim who t (ZJ.nNode a) (Thr.nNode a') fun k => k.map (tag t) :=
  Sim.bind (Sim.rdNode' h) fun n => Sim.bind (e := (·.tag t)) (Sim.fld' rfl) fun u => by
    cases u with
    | node p => exact Sim.pure rfl
    | str p => exact Sim.never
theorem Sim.nStr : Sim who t (ZJ.nStr a) (Thr.nStr a') (·.tag t) :=
  Sim.bind (Sim.rdNode' h) fun n => Sim.bind (e := (·.tag t)) (Sim.fld' rfl) fun u => by
    cases u with
    | node p => exact Sim.never
    | str p => exact Sim.pure rfl

theorem Sim.setType {x y} (hx : y = x) : Sim who t (ZJ.setType a x) (Thr.setType a' y) id := by subst h hx; exact Sim.modNode fun n => rfl
theorem Sim.setKey {x y} (hx : y = x.map (·.tag t)) : Sim who t (ZJ.setKey a x) (Thr.setKey a' y) id := by subst h hx; exact Sim.modNode fun n => rfl
theorem Sim.setKeyLen {x y} (hx : y = x) : Sim who t (ZJ.setKeyLen a x) (Thr.setKeyLen a' y) id := by subst h hx; exact Sim.modNode fun n => rfl
theorem Sim.setNodeP {x y} (hx : y = x.map (tag t)) : Sim who t (ZJ.setNodeP a x) (Thr.setNodeP a' y) id := by subst h hx; exact Sim.modNode fun n => rfl
theorem Sim.setStrP {x y} (hx : y = x.tag t) : Sim who t (ZJ.setStrP a x) (Thr.setStrP a' y) id := by subst h hx; exact Sim.modNode fun n => rfl
theorem Sim.setLen {x y} (hx : y = x) : Sim who t (ZJ.setLen a x) (Thr.setLen a' y) id := by subst h hx; exact Sim.modNode fun n => rfl
theorem Sim.setNext {x y} (hx : y = x.map (tag t)) : Sim who t (ZJ.setNext a x) (Thr.setNext a' y) id := by subst h hx; exact Sim.modNode fun n => rfl
theorem Sim.setPrev {x y} (hx : y = x.map (tag t)) : Sim who t (ZJ.setPrev a x) (Thr.setPrev a' y) id := by subst h hx; exact Sim.modNode fun n => rfl
theorem Sim.setFather {x y} (hx : y = x.map (tag t)) : Sim who t (ZJ.setFather a x) (Thr.setFather a' y) id := by subst h hx; exact Sim.modNode fun n => rfl
theorem Sim.setEnd {x y} (hx : y = x.map (tag t)) : Sim who t (ZJ.setEnd a x) (Thr.setEnd a' y) id := by subst h hx; exact Sim.modNode fun n => rfl
end

macro_rules | `(tactic| sim1) => `(tactic| ((with_reducible refine Sim.nType ?_) <;> args))
macro_rules | `(tactic| sim1) => `(tactic| ((with_reducible refine Sim.nKey ?_) <;> args))
macro_rules | `(tactic| sim1) => `(tactic| ((with_reducible refine Sim.nKeyLen ?_) <;> args))
macro_rules | `(tactic| sim1) => `(tactic| ((with_reducible refine Sim.nLen ?_) <;> args))
macro_rules | `(tactic| sim1) => `(tactic| ((with_reducible refine Sim.nNext ?_) <;> args))
macro_rules | `(tactic| sim1) => `(tactic| ((with_reducible refine Sim.nPrev ?_) <;> args))
macro_rules | `(tactic| sim1) => `(tactic| ((with_reducible refine Sim.nFather ?_) <;> args))
macro_rules | `(tactic| sim1) => `(tactic| ((with_reducible refine Sim.nEnd ?_) <;> args))
macro_rules | `(tactic| sim1) => `(tactic| ((with_reducible refine Sim.nNode ?_) <;> args))
macro_rules | `(tactic| sim1) => `(tactic| ((with_reducible refine Sim.nStr ?_) <;> args))
macro_rules | `(tactic| sim1) => `(tactic| ((with_reducible refine Sim.setType ?_ ?_) <;> args))
macro_rules | `(tactic| sim1) => `(tactic| ((with_reducible refine Sim.setKey ?_ ?_) <;> args))
macro_rules | `(tactic| sim1) => `(tactic| ((with_reducible refine Sim.setKeyLen ?_ ?_) <;> args))
macro_rules | `(tactic| sim1) => `(tactic| ((with_reducible refine Sim.setNodeP ?_ ?_) <;> args))
macro_rules | `(tactic| sim1) => `(tactic| ((with_reducible refine Sim.setStrP ?_ ?_) <;> args))
macro_rules | `(tactic| sim1) => `(tactic| ((with_reducible refine Sim.setLen ?_ ?_) <;> args))
macro_rules | `(tactic| sim1) => `(tactic| ((with_reducible refine Sim.setNext ?_ ?_) <;> args))
macro_rules | `(tactic| sim1) => `(tactic| ((with_reducible refine Sim.setPrev ?_ ?_) <;> args))
macro_rules | `(tactic| sim1) => `(tactic| ((with_reducible refine Sim.setFather ?_ ?_) <;> args))
macro_rules | `(tactic| sim1) => `(tactic| ((with_reducible refine Sim.setEnd ?_ ?_) <;> args))

/-! ### Strings -/

theorem Sim.newOut {A A' : Nat} {f : Cfg → Nat} (h : A' = tag t A) : Sim who t (ZJ.newOut A f) (Thr.newOut A' f) (·.tag t) := by
  subst h; exact Sim.bind Sim.getCfg fun c => Sim.newString

theorem Sim.appendBytes {z z' : ZStr} {s s' : Bytes} (h : z' = z.tag t) (hs : s' = s) : Sim who t (ZJ.appendBytes z s) (Thr.appendBytes z' s') (·.tag t) := by
  subst h hs
  refine Sim.bind Sim.touchStr fun _ => Sim.bind (e := (·.tag t)) ?_ fun z => Sim.bind Sim.pokeStr fun _ => Sim.pure rfl
  refine Sim.ite Iff.rfl ?_ (Sim.pure rfl)
  refine Sim.bind Sim.getCfg fun c => ?_
  refine Sim.bind Sim.lift fun n => ?_
  refine Sim.bind Sim.oldData fun d => ?_
  refine Sim.bind Sim.newBuf fun b => ?_
  exact Sim.pure rfl

theorem Sim.appendStr {z z' : ZStr} {p p' : SPtr} {n n' : Nat} (h : z' = z.tag t) (hp : p' = p.tag t) (hn : n' = n) :
    Sim who t (ZJ.appendStr z p n) (Thr.appendStr z' p' n') (·.tag t) := by
  subst h hp hn; exact Sim.bind Sim.readN fun s => Sim.appendBytes rfl rfl

theorem Sim.appendChar {z z' : ZStr} {c c' : Byte} (h : z' = z.tag t) (hc : c' = c) : Sim who t (ZJ.appendChar z c) (Thr.appendChar z' c') (·.tag t) := by
  subst h hc
  refine Sim.bind Sim.touchStr fun _ => Sim.bind (e := (·.tag t)) ?_ fun z => Sim.bind Sim.pokeStr fun _ => Sim.pure rfl
  refine Sim.ite Iff.rfl ?_ (Sim.pure rfl)
  refine Sim.bind Sim.getCfg fun c => ?_
  refine Sim.bind Sim.oldData fun d => ?_
  refine Sim.bind Sim.newBuf fun b => ?_
  exact Sim.pure rfl

macro_rules | `(tactic| sim1) => `(tactic| ((with_reducible refine Sim.newOut ?_) <;> args))
macro_rules | `(tactic| sim1) => `(tactic| ((with_reducible refine Sim.appendBytes ?_ ?_) <;> args))
macro_rules | `(tactic| sim1) => `(tactic| ((with_reducible refine Sim.appendStr ?_ ?_ ?_) <;> args))
macro_rules | `(tactic| sim1) => `(tactic| ((with_reducible refine Sim.appendChar ?_ ?_) <;> args))

/-! ### Parsing -/

theorem Sim.openContainer {A A' : Nat} {s : Bytes} {ty : JType} {c : Byte} {a a' : Addr} {i : Nat} (hA : A' = tag t A) (ha : a' = tag t a) :
    Sim who t (ZJ.openContainer A s ty c a i) (Thr.openContainer A' s ty c a' i) (·.tag t) := by
  subst hA ha
  unfold ZJ.openContainer Thr.openContainer
  sim

macro_rules | `(tactic| sim1) => `(tactic| ((with_reducible refine Sim.openContainer ?_ ?_) <;> args))

theorem Sim.switchValue {A A' : Nat} {p p' : SPtr} {s : Bytes} {lim : Nat} {a a' : Addr} {i : Nat} (hA : A' = tag t A) (hp : p' = p.tag t) (ha : a' = tag t a) :
    Sim who t (ZJ.switchValue A p s lim a i) (Thr.switchValue A' p' s lim a' i) (·.tag t) := by
  subst hA hp ha
  unfold ZJ.switchValue Thr.switchValue
  refine Sim.bind Sim.lift fun x => ?_
  obtain ⟨c, i⟩ := x
  sim
  rename_i x
  cases x with
  | none => exact Sim.pure rfl
  | some j => sim

macro_rules | `(tactic| sim1) => `(tactic| ((with_reducible refine Sim.switchValue ?_ ?_ ?_) <;> args))

theorem Sim.parseKey {p p' : SPtr} {s : Bytes} {a a' : Addr} {i : Nat} (hp : p' = p.tag t) (ha : a' = tag t a) :
    Sim who t (ZJ.parseKey p s a i) (Thr.parseKey p' s a' i) id := by
  subst hp ha
  unfold ZJ.parseKey Thr.parseKey
  sim

macro_rules | `(tactic| sim1) => `(tactic| ((with_reducible refine Sim.parseKey ?_ ?_) <;> args))

theorem Sim.restore {v v' : Addr} {x x' : Option Addr} (hv : v' = tag t v) (hx : x' = x.map (tag t)) :
    Sim who t (ZJ.restore v x) (Thr.restore v' x') id := by
  subst hv hx
  unfold ZJ.restore Thr.restore
  cases x with
  | none => sim
  | some n =>
    sim
    refine Sim.bind (Sim.modNode' rfl fun m => rfl) fun _ => Sim.pure rfl

macro_rules | `(tactic| sim1) => `(tactic| ((with_reducible refine Sim.restore ?_ ?_) <;> args))

/-! ### The rest -/

theorem Sim.parseLoop {v A : Nat} {p : SPtr} {s : Bytes} {lim : Nat} {src : Option Addr} : ∀ (fuel : Nat) (pc : PC) (a i : Nat),
    Sim who t (ZJ.parseLoop v A p s lim src fuel pc a i) (Thr.parseLoop (tag t v) (tag t A) (p.tag t) s lim (src.map (tag t)) fuel pc (tag t a) i) id
  | 0, _, _, _ => by unfold ZJ.parseLoop Thr.parseLoop; exact Sim.late
  | fuel + 1, .head, a, i => by
    unfold ZJ.parseLoop Thr.parseLoop
    sim
    · rename_i x
      cases x with
      | none => dsimp only [id]; sim
      | some j =>
        dsimp only [id]
        sim
        rename_i x
        cases x with
        | desc n k => exact Sim.parseLoop fuel _ n k
        | leaf k => exact Sim.parseLoop fuel _ a k
        | bad => dsimp only [Step.tag]; sim
  | fuel + 1, .close, a, i => by
    unfold ZJ.parseLoop Thr.parseLoop
    sim
    · exact Sim.parseLoop fuel _ a i
    · exact Sim.parseLoop fuel _ _ _
    · exact Sim.parseLoop fuel _ _ _

theorem Sim.parseFast {v v' : Addr} {p p' : SPtr} (hv : v' = tag t v) (hp : p' = p.tag t) :
    Sim who t (ZJ.parseFast v p) (Thr.parseFast v' p') id := by
  subst hv hp
  unfold ZJ.parseFast Thr.parseFast
  refine Sim.bind Sim.rdVal fun x => ?_
  refine Sim.bind (e := fun o => o.map (tag t)) ?_ fun src => ?_
  · obtain ⟨n, A⟩ := x
    cases n <;> dsimp only [Val.tag, Option.map_some, Option.map_none]
    · sim
    · sim
      refine Sim.bind (Sim.modNode' rfl fun m => rfl) fun _ => Sim.pure rfl
  · sim
    rename_i y
    cases y with
    | bad => dsimp only [Step.tag]; sim
    | desc n k => exact Sim.parseLoop _ _ _ _
    | leaf k => exact Sim.parseLoop _ _ _ _

macro_rules | `(tactic| sim1) => `(tactic| ((with_reducible refine Sim.parseFast ?_ ?_) <;> args))

theorem Sim.parseLen {v v' : Addr} {p p' : SPtr} {n : Nat}  (hv : v' = tag t v) (hp : p' = p.tag t) :
    Sim who t (ZJ.parseLen v p n) (Thr.parseLen v' p' n) id := by
  subst hv hp
  unfold ZJ.parseLen Thr.parseLen
  sim

macro_rules | `(tactic| sim1) => `(tactic| ((with_reducible refine Sim.parseLen ?_ ?_) <;> args))

theorem Sim.parse {v v' : Addr} {p p' : SPtr}  (hv : v' = tag t v) (hp : p' = p.tag t) :
    Sim who t (ZJ.parse v p) (Thr.parse v' p') id := by
  subst hv hp
  unfold ZJ.parse Thr.parse
  sim

macro_rules | `(tactic| sim1) => `(tactic| ((with_reducible refine Sim.parse ?_ ?_) <;> args))

theorem Sim.strToInt {p p' : SPtr} {n n' : Nat}  (hp : p' = p.tag t) (hn : n' = n) :
    Sim who t (ZJ.strToInt p n) (Thr.strToInt p' n') id := by
  subst hp hn
  unfold ZJ.strToInt Thr.strToInt
  sim

macro_rules | `(tactic| sim1) => `(tactic| ((with_reducible refine Sim.strToInt ?_ ?_) <;> args))

theorem Sim.strToLong {p p' : SPtr} {n n' : Nat}  (hp : p' = p.tag t) (hn : n' = n) :
    Sim who t (ZJ.strToLong p n) (Thr.strToLong p' n') id := by
  subst hp hn
  unfold ZJ.strToLong Thr.strToLong
  sim

macro_rules | `(tactic| sim1) => `(tactic| ((with_reducible refine Sim.strToLong ?_ ?_) <;> args))

theorem Sim.strToLongLong {p p' : SPtr} {n n' : Nat}  (hp : p' = p.tag t) (hn : n' = n) :
    Sim who t (ZJ.strToLongLong p n) (Thr.strToLongLong p' n') id := by
  subst hp hn
  unfold ZJ.strToLongLong Thr.strToLongLong
  sim

macro_rules | `(tactic| sim1) => `(tactic| ((with_reducible refine Sim.strToLongLong ?_ ?_) <;> args))

theorem Sim.strToDouble {D : Type} {fp : FP D} {p p' : SPtr} {n n' : Nat}  (hp : p' = p.tag t) (hn : n' = n) :
    Sim who t (ZJ.strToDouble fp p n) (Thr.strToDouble fp p' n') id := by
  subst hp hn
  unfold ZJ.strToDouble Thr.strToDouble
  sim

macro_rules | `(tactic| sim1) => `(tactic| ((with_reducible refine Sim.strToDouble ?_ ?_) <;> args))

theorem Sim.newValue {A A' : Nat}  (hA : A' = tag t A) :
    Sim who t (ZJ.newValue A) (Thr.newValue A') (tag t) := by
  subst hA
  unfold ZJ.newValue Thr.newValue
  sim

macro_rules | `(tactic| sim1) => `(tactic| ((with_reducible refine Sim.newValue ?_) <;> args))

/-! ### Printing -/

theorem Sim.putValue {z z' : ZStr} {a a' : Addr}  (hz : z' = z.tag t) (ha : a' = tag t a) :
    Sim who t (ZJ.putValue z a) (Thr.putValue z' a') fun x => (x.1.tag t, x.2.map (tag t)) := by
  subst hz ha
  unfold ZJ.putValue Thr.putValue
  refine Sim.bind (Sim.nType rfl) fun ty => ?_
  cases ty <;> dsimp only [id] <;> sim
  opt <;> sim

macro_rules | `(tactic| sim1) => `(tactic| ((with_reducible refine Sim.putValue ?_ ?_) <;> args))

theorem Sim.putKey {z z' : ZStr} {a a' : Addr}  (hz : z' = z.tag t) (ha : a' = tag t a) :
    Sim who t (ZJ.putKey z a) (Thr.putKey z' a') (·.tag t) := by
  subst hz ha
  unfold ZJ.putKey Thr.putKey
  sim
  opt <;> sim

macro_rules | `(tactic| sim1) => `(tactic| ((with_reducible refine Sim.putKey ?_ ?_) <;> args))

theorem Sim.stringifyLoop {v : Addr} : ∀ (fuel : Nat) (pc : PC) (a : Addr) (z : ZStr),
    Sim who t (ZJ.stringifyLoop v fuel pc a z) (Thr.stringifyLoop (tag t v) fuel pc (tag t a) (z.tag t)) (·.tag t)
  | 0, _, _, _ => by unfold ZJ.stringifyLoop Thr.stringifyLoop; exact Sim.late
  | fuel + 1, .head, a, z => by
    unfold ZJ.stringifyLoop Thr.stringifyLoop
    sim
    · rename_i x
      obtain ⟨z, o⟩ := x
      cases o with
      | none => exact Sim.stringifyLoop fuel _ _ _
      | some n => exact Sim.stringifyLoop fuel _ _ _
  | fuel + 1, .close, a, z => by
    unfold ZJ.stringifyLoop Thr.stringifyLoop
    sim
    · exact Sim.stringifyLoop fuel _ _ _
    · rename_i o
      cases o with
      | none =>
        dsimp only [Option.map_none]
        sim
        · exact Sim.stringifyLoop fuel _ _ _
        · exact Sim.stringifyLoop fuel _ _ _
      | some n =>
        dsimp only [Option.map_some]
        sim
        exact Sim.stringifyLoop fuel _ _ _

theorem Sim.stringify {v v' : Addr} {F : Nat}  (hv : v' = tag t v) :
    Sim who t (ZJ.stringify F v) (Thr.stringify F v') (·.tag t) := by
  subst hv
  unfold ZJ.stringify Thr.stringify
  refine Sim.bind Sim.rdVal fun x => ?_
  obtain ⟨n, A⟩ := x
  cases n <;> dsimp only [Val.tag, Option.map_some, Option.map_none]
  · exact Sim.pure rfl
  · sim
    rename_i y
    obtain ⟨z, o⟩ := y
    cases o with
    | none => dsimp only [Option.map_none]; exact Sim.bind (Sim.stringifyLoop _ _ _ _) fun z => by sim
    | some n => dsimp only [Option.map_some]; exact Sim.bind (Sim.stringifyLoop _ _ _ _) fun z => by sim

macro_rules | `(tactic| sim1) => `(tactic| ((with_reducible refine Sim.stringify ?_) <;> args))

/-! ### Getters -/

theorem Sim.copyOut {A A' : Nat} {p p' : SPtr} {n n' : Nat}  (hA : A' = tag t A) (hp : p' = p.tag t) (hn : n' = n) :
    Sim who t (ZJ.copyOut A p n) (Thr.copyOut A' p' n') (·.tag t) := by
  subst hA hp hn
  unfold ZJ.copyOut Thr.copyOut
  sim

macro_rules | `(tactic| sim1) => `(tactic| ((with_reducible refine Sim.copyOut ?_ ?_ ?_) <;> args))

theorem Sim.getStrFast {v v' : Addr}  (hv : v' = tag t v) :
    Sim who t (ZJ.getStrFast v) (Thr.getStrFast v') fun o => o.map fun x => (x.1.tag t, x.2) := by
  subst hv
  unfold ZJ.getStrFast Thr.getStrFast
  sim
  hnd <;> sim

macro_rules | `(tactic| sim1) => `(tactic| ((with_reducible refine Sim.getStrFast ?_) <;> args))

theorem Sim.getNumFast {v v' : Addr}  (hv : v' = tag t v) :
    Sim who t (ZJ.getNumFast v) (Thr.getNumFast v') fun o => o.map fun x => (x.1.tag t, x.2) := by
  subst hv
  unfold ZJ.getNumFast Thr.getNumFast
  sim
  hnd <;> sim

macro_rules | `(tactic| sim1) => `(tactic| ((with_reducible refine Sim.getNumFast ?_) <;> args))

theorem Sim.getKeyFast {v v' : Addr}  (hv : v' = tag t v) :
    Sim who t (ZJ.getKeyFast v) (Thr.getKeyFast v') fun o => o.map fun x => (x.1.tag t, x.2) := by
  subst hv
  unfold ZJ.getKeyFast Thr.getKeyFast
  sim
  hnd <;> sim
  opt <;> sim

macro_rules | `(tactic| sim1) => `(tactic| ((with_reducible refine Sim.getKeyFast ?_) <;> args))

theorem Sim.getStr {v v' : Addr}  (hv : v' = tag t v) :
    Sim who t (ZJ.getStr v) (Thr.getStr v') fun k => k.map (·.tag t) := by
  subst hv
  unfold ZJ.getStr Thr.getStr
  sim
  hnd <;> sim

macro_rules | `(tactic| sim1) => `(tactic| ((with_reducible refine Sim.getStr ?_) <;> args))

theorem Sim.getUnEscapeStr {v v' : Addr}  (hv : v' = tag t v) :
    Sim who t (ZJ.getUnEscapeStr v) (Thr.getUnEscapeStr v') fun k => k.map (·.tag t) := by
  subst hv
  unfold ZJ.getUnEscapeStr Thr.getUnEscapeStr
  sim
  hnd <;> sim

macro_rules | `(tactic| sim1) => `(tactic| ((with_reducible refine Sim.getUnEscapeStr ?_) <;> args))

theorem Sim.getNumStr {v v' : Addr}  (hv : v' = tag t v) :
    Sim who t (ZJ.getNumStr v) (Thr.getNumStr v') fun k => k.map (·.tag t) := by
  subst hv
  unfold ZJ.getNumStr Thr.getNumStr
  sim
  hnd <;> sim

macro_rules | `(tactic| sim1) => `(tactic| ((with_reducible refine Sim.getNumStr ?_) <;> args))

theorem Sim.getKey {v v' : Addr}  (hv : v' = tag t v) :
    Sim who t (ZJ.getKey v) (Thr.getKey v') fun k => k.map (·.tag t) := by
  subst hv
  unfold ZJ.getKey Thr.getKey
  sim
  hnd <;> sim
  opt <;> sim

macro_rules | `(tactic| sim1) => `(tactic| ((with_reducible refine Sim.getKey ?_) <;> args))

theorem Sim.getUnEscapeKey {v v' : Addr}  (hv : v' = tag t v) :
    Sim who t (ZJ.getUnEscapeKey v) (Thr.getUnEscapeKey v') fun k => k.map (·.tag t) := by
  subst hv
  unfold ZJ.getUnEscapeKey Thr.getUnEscapeKey
  sim
  hnd <;> sim
  opt <;> sim

macro_rules | `(tactic| sim1) => `(tactic| ((with_reducible refine Sim.getUnEscapeKey ?_) <;> args))

theorem Sim.getInt {v v' : Addr}  (hv : v' = tag t v) :
    Sim who t (ZJ.getInt v) (Thr.getInt v') id := by
  subst hv
  unfold ZJ.getInt Thr.getInt
  sim
  hnd <;> sim

macro_rules | `(tactic| sim1) => `(tactic| ((with_reducible refine Sim.getInt ?_) <;> args))

theorem Sim.getLong {v v' : Addr}  (hv : v' = tag t v) :
    Sim who t (ZJ.getLong v) (Thr.getLong v') id := by
  subst hv
  unfold ZJ.getLong Thr.getLong
  sim
  hnd <;> sim

macro_rules | `(tactic| sim1) => `(tactic| ((with_reducible refine Sim.getLong ?_) <;> args))

theorem Sim.getLongLong {v v' : Addr}  (hv : v' = tag t v) :
    Sim who t (ZJ.getLongLong v) (Thr.getLongLong v') id := by
  subst hv
  unfold ZJ.getLongLong Thr.getLongLong
  sim
  hnd <;> sim

macro_rules | `(tactic| sim1) => `(tactic| ((with_reducible refine Sim.getLongLong ?_) <;> args))

theorem Sim.getBool {v v' : Addr}  (hv : v' = tag t v) :
    Sim who t (ZJ.getBool v) (Thr.getBool v') id := by
  subst hv
  unfold ZJ.getBool Thr.getBool
  sim
  hnd <;> sim

macro_rules | `(tactic| sim1) => `(tactic| ((with_reducible refine Sim.getBool ?_) <;> args))

theorem Sim.isNull {v v' : Addr}  (hv : v' = tag t v) :
    Sim who t (ZJ.isNull v) (Thr.isNull v') id := by
  subst hv
  unfold ZJ.isNull Thr.isNull
  sim
  hnd <;> sim

macro_rules | `(tactic| sim1) => `(tactic| ((with_reducible refine Sim.isNull ?_) <;> args))

theorem Sim.getType {v v' : Addr}  (hv : v' = tag t v) :
    Sim who t (ZJ.getType v) (Thr.getType v') id := by
  subst hv
  unfold ZJ.getType Thr.getType
  sim
  hnd <;> sim

macro_rules | `(tactic| sim1) => `(tactic| ((with_reducible refine Sim.getType ?_) <;> args))

theorem Sim.sizeOf {v v' : Addr}  (hv : v' = tag t v) :
    Sim who t (ZJ.sizeOf v) (Thr.sizeOf v') id := by
  subst hv
  unfold ZJ.sizeOf Thr.sizeOf
  sim
  hnd <;> sim

macro_rules | `(tactic| sim1) => `(tactic| ((with_reducible refine Sim.sizeOf ?_) <;> args))

theorem Sim.getDouble {D : Type} {fp : FP D} {v v' : Addr}  (hv : v' = tag t v) :
    Sim who t (ZJ.getDouble fp v) (Thr.getDouble fp v') id := by
  subst hv
  unfold ZJ.getDouble Thr.getDouble
  sim
  hnd <;> sim

macro_rules | `(tactic| sim1) => `(tactic| ((with_reducible refine Sim.getDouble ?_) <;> args))

theorem Sim.keyPtr {x x' : Option SPtr} (h : x' = x.map (·.tag t)) : Sim who t (ZJ.objGetLoop.deref' x) (Thr.objGetLoop.deref' x') (·.tag t) := by
  subst h
  cases x with
  | none => exact Sim.never
  | some p => exact Sim.pure rfl

macro_rules | `(tactic| sim1) => `(tactic| ((with_reducible refine Sim.keyPtr ?_) <;> args))

theorem Sim.objGetLoop {k : SPtr} : ∀ (fuel : Nat) (o : Option Addr),
    Sim who t (ZJ.objGetLoop k fuel o) (Thr.objGetLoop (k.tag t) fuel (o.map (tag t))) fun k => k.map (tag t)
  | 0, _ => by unfold ZJ.objGetLoop; exact Sim.late
  | fuel + 1, none => Sim.pure rfl
  | fuel + 1, some n => by
    rw [Option.map_some]
    unfold ZJ.objGetLoop Thr.objGetLoop
    sim
    exact Sim.objGetLoop fuel _

theorem Sim.objGetLenLoop {k : SPtr} {len : Nat} : ∀ (fuel : Nat) (o : Option Addr),
    Sim who t (ZJ.objGetLenLoop k len fuel o) (Thr.objGetLenLoop (k.tag t) len fuel (o.map (tag t))) fun k => k.map (tag t)
  | 0, _ => by unfold ZJ.objGetLenLoop; exact Sim.late
  | fuel + 1, none => Sim.pure rfl
  | fuel + 1, some n => by
    rw [Option.map_some]
    unfold ZJ.objGetLenLoop Thr.objGetLenLoop
    sim
    exact Sim.objGetLenLoop fuel _

theorem Sim.arrayGetLoop {k : Nat} : ∀ (fuel i : Nat) (o : Option Addr),
    Sim who t (ZJ.arrayGetLoop k fuel i o) (Thr.arrayGetLoop k fuel i (o.map (tag t))) fun k => k.map (tag t)
  | 0, _, _ => by unfold ZJ.arrayGetLoop; exact Sim.late
  | fuel + 1, _, none => Sim.pure rfl
  | fuel + 1, i, some n => by
    rw [Option.map_some]
    unfold ZJ.arrayGetLoop Thr.arrayGetLoop
    sim
    exact Sim.arrayGetLoop fuel _ _

theorem Sim.objGet {v v' : Addr} {p p' : SPtr} {F : Nat}  (hv : v' = tag t v) (hp : p' = p.tag t) :
    Sim who t (ZJ.objGet F v p) (Thr.objGet F v' p') fun k => k.map (tag t) := by
  subst hv hp
  unfold ZJ.objGet Thr.objGet
  sim
  hnd <;> sim
  refine Sim.bind (Sim.objGetLoop _ _) fun _ => ?_
  opt <;> sim

macro_rules | `(tactic| sim1) => `(tactic| ((with_reducible refine Sim.objGet ?_ ?_) <;> args))

theorem Sim.objGetLen {v v' : Addr} {p p' : SPtr} {F n : Nat}  (hv : v' = tag t v) (hp : p' = p.tag t) :
    Sim who t (ZJ.objGetLen F v p n) (Thr.objGetLen F v' p' n) fun k => k.map (tag t) := by
  subst hv hp
  unfold ZJ.objGetLen Thr.objGetLen
  sim
  hnd <;> sim
  refine Sim.bind (Sim.objGetLenLoop _ _) fun _ => ?_
  opt <;> sim

macro_rules | `(tactic| sim1) => `(tactic| ((with_reducible refine Sim.objGetLen ?_ ?_) <;> args))

theorem Sim.arrayGet {v v' : Addr} {F n : Nat}  (hv : v' = tag t v) :
    Sim who t (ZJ.arrayGet F v n) (Thr.arrayGet F v' n) fun k => k.map (tag t) := by
  subst hv
  unfold ZJ.arrayGet Thr.arrayGet
  sim
  hnd <;> sim
  refine Sim.bind (Sim.arrayGetLoop _ _ _) fun _ => ?_
  opt <;> sim

macro_rules | `(tactic| sim1) => `(tactic| ((with_reducible refine Sim.arrayGet ?_) <;> args))

theorem Sim.begin_ {v v' : Addr}  (hv : v' = tag t v) :
    Sim who t (ZJ.begin_ v) (Thr.begin_ v') fun k => k.map (tag t) := by
  subst hv
  unfold ZJ.begin_ Thr.begin_
  sim
  hnd <;> sim
  opt <;> sim

macro_rules | `(tactic| sim1) => `(tactic| ((with_reducible refine Sim.begin_ ?_) <;> args))

theorem Sim.next_ {v v' : Addr}  (hv : v' = tag t v) :
    Sim who t (ZJ.next_ v) (Thr.next_ v') fun k => k.map (tag t) := by
  subst hv
  unfold ZJ.next_ Thr.next_
  sim
  hnd <;> sim
  opt <;> sim

macro_rules | `(tactic| sim1) => `(tactic| ((with_reducible refine Sim.next_ ?_) <;> args))

/-! ### Copies -/

theorem Sim.copyKey {A A' : Nat} {n n' d d' : Addr}  (hA : A' = tag t A) (hn : n' = tag t n) (hd : d' = tag t d) :
    Sim who t (ZJ.copyKey A n d) (Thr.copyKey A' n' d') id := by
  subst hA hn hd
  unfold ZJ.copyKey Thr.copyKey
  sim
  opt <;> sim

macro_rules | `(tactic| sim1) => `(tactic| ((with_reducible refine Sim.copyKey ?_ ?_ ?_) <;> args))

theorem Sim.copyBody {A A' : Nat} {n n' d d' : Addr} {ty ty' : JType}  (hA : A' = tag t A) (hn : n' = tag t n) (hd : d' = tag t d) (hy : ty' = ty) :
    Sim who t (ZJ.copyBody A n d ty) (Thr.copyBody A' n' d' ty') fun o => o.map fun x => (tag t x.1, tag t x.2) := by
  subst hA hn hd hy
  unfold ZJ.copyBody Thr.copyBody
  cases ty' <;> dsimp only <;> sim
  all_goals opt <;> sim

macro_rules | `(tactic| sim1) => `(tactic| ((with_reducible refine Sim.copyBody ?_ ?_ ?_ ?_) <;> args))

theorem Sim.copyNode {A A' : Nat} {n n' d d' : Addr}  (hA : A' = tag t A) (hn : n' = tag t n) (hd : d' = tag t d) :
    Sim who t (ZJ.copyNode A n d) (Thr.copyNode A' n' d') fun o => o.map fun x => (tag t x.1, tag t x.2) := by
  subst hA hn hd
  unfold ZJ.copyNode Thr.copyNode
  sim

macro_rules | `(tactic| sim1) => `(tactic| ((with_reducible refine Sim.copyNode ?_ ?_ ?_) <;> args))

theorem Sim.copyLoop {A v : Nat} : ∀ (fuel : Nat) (pc : CPC) (n d : Addr),
    Sim who t (ZJ.copyLoop A v fuel pc n d) (Thr.copyLoop (tag t A) (tag t v) fuel pc (tag t n) (tag t d)) id
  | 0, _, _, _ => by unfold ZJ.copyLoop; exact Sim.late
  | fuel + 1, .body, n, d => by
    unfold ZJ.copyLoop Thr.copyLoop
    sim
    rename_i o
    cases o with
    | none => exact Sim.copyLoop fuel _ _ _
    | some x => exact Sim.copyLoop fuel _ _ _
  | fuel + 1, .test, n, d => by
    unfold ZJ.copyLoop Thr.copyLoop
    sim
    exact Sim.copyLoop fuel _ _ _
  | fuel + 1, .inner, n, d => by
    unfold ZJ.copyLoop Thr.copyLoop
    sim
    · exact Sim.copyLoop fuel _ _ _
    · rename_i o
      cases o <;> dsimp only [Option.map_some, Option.map_none]
      · sim
        exact Sim.copyLoop fuel _ _ _
      · sim
        exact Sim.copyLoop fuel _ _ _

theorem Sim.valueCopyFrom {v v' w w' : Addr} {F : Nat}  (hv : v' = tag t v) (hw : w' = tag t w) :
    Sim who t (ZJ.valueCopyFrom F v w) (Thr.valueCopyFrom F v' w') id := by
  subst hv hw
  unfold ZJ.valueCopyFrom Thr.valueCopyFrom
  sim
  hnd
  · sim
  · sim
    exact Sim.bind (Sim.copyLoop _ _ _ _) fun _ => Sim.pure rfl

macro_rules | `(tactic| sim1) => `(tactic| ((with_reducible refine Sim.valueCopyFrom ?_ ?_) <;> args))

theorem Sim.copy {v v' : Addr} {F : Nat}  (hv : v' = tag t v) :
    Sim who t (ZJ.copy F v) (Thr.copy F v') fun k => k.map (tag t) := by
  subst hv
  unfold ZJ.copy Thr.copy
  sim

macro_rules | `(tactic| sim1) => `(tactic| ((with_reducible refine Sim.copy ?_) <;> args))

theorem Sim.valN {v v' : Addr}  (hv : v' = tag t v) :
    Sim who t (ZJ.valN v) (Thr.valN v') (tag t) := by
  subst hv
  unfold ZJ.valN Thr.valN
  sim

macro_rules | `(tactic| sim1) => `(tactic| ((with_reducible refine Sim.valN ?_) <;> args))

theorem Sim.unlinkPrev {f f' a a' : Addr}  (hf : f' = tag t f) (ha : a' = tag t a) :
    Sim who t (ZJ.unlinkPrev f a) (Thr.unlinkPrev f' a') id := by
  subst hf ha
  unfold ZJ.unlinkPrev Thr.unlinkPrev
  sim
  opt <;> sim

macro_rules | `(tactic| sim1) => `(tactic| ((with_reducible refine Sim.unlinkPrev ?_ ?_) <;> args))

theorem Sim.unlinkNext {f f' a a' : Addr}  (hf : f' = tag t f) (ha : a' = tag t a) :
    Sim who t (ZJ.unlinkNext f a) (Thr.unlinkNext f' a') id := by
  subst hf ha
  unfold ZJ.unlinkNext Thr.unlinkNext
  sim
  opt <;> sim

macro_rules | `(tactic| sim1) => `(tactic| ((with_reducible refine Sim.unlinkNext ?_ ?_) <;> args))

theorem Sim.move {v v' : Addr}  (hv : v' = tag t v) :
    Sim who t (ZJ.move v) (Thr.move v') id := by
  subst hv
  unfold ZJ.move Thr.move
  sim
  hnd <;> sim
  opt <;> sim

macro_rules | `(tactic| sim1) => `(tactic| ((with_reducible refine Sim.move ?_) <;> args))

/-! ### Setters -/

theorem Sim.ensureNode {v v' : Addr}  (hv : v' = tag t v) :
    Sim who t (ZJ.ensureNode v) (Thr.ensureNode v') (tag t) := by
  subst hv
  unfold ZJ.ensureNode Thr.ensureNode
  sim
  hnd <;> sim

macro_rules | `(tactic| sim1) => `(tactic| ((with_reducible refine Sim.ensureNode ?_) <;> args))

theorem Sim.setScalar {v v' : Addr} {p p' : SPtr} {ty ty' : JType} {n n' : Nat}  (hv : v' = tag t v) (hy : ty' = ty) (hp : p' = p.tag t) (hn : n' = n) :
    Sim who t (ZJ.setScalar v ty p n) (Thr.setScalar v' ty' p' n') id := by
  subst hv hy hp hn
  unfold ZJ.setScalar Thr.setScalar
  sim

macro_rules | `(tactic| sim1) => `(tactic| ((with_reducible refine Sim.setScalar ?_ ?_ ?_ ?_) <;> args))

theorem Sim.setNull {v v' : Addr}  (hv : v' = tag t v) :
    Sim who t (ZJ.setNull v) (Thr.setNull v') id := by
  subst hv
  unfold ZJ.setNull Thr.setNull
  sim

macro_rules | `(tactic| sim1) => `(tactic| ((with_reducible refine Sim.setNull ?_) <;> args))

theorem Sim.setBool {v v' : Addr} {b : Bool}  (hv : v' = tag t v) :
    Sim who t (ZJ.setBool v b) (Thr.setBool v' b) id := by
  subst hv
  unfold ZJ.setBool Thr.setBool
  sim

macro_rules | `(tactic| sim1) => `(tactic| ((with_reducible refine Sim.setBool ?_) <;> args))

theorem Sim.checkNumAt {p p' : SPtr}  (hp : p' = p.tag t) :
    Sim who t (ZJ.checkNumAt p) (Thr.checkNumAt p') id := by
  subst hp
  unfold ZJ.checkNumAt Thr.checkNumAt
  sim

macro_rules | `(tactic| sim1) => `(tactic| ((with_reducible refine Sim.checkNumAt ?_) <;> args))

theorem Sim.checkStrAt {p p' : SPtr}  (hp : p' = p.tag t) :
    Sim who t (ZJ.checkStrAt p) (Thr.checkStrAt p') id := by
  subst hp
  unfold ZJ.checkStrAt Thr.checkStrAt
  sim

macro_rules | `(tactic| sim1) => `(tactic| ((with_reducible refine Sim.checkStrAt ?_) <;> args))

theorem Sim.fillCache {A A' : Nat} {p p' : SPtr} {n n' : Nat} (ht : t = who) (hA : A' = tag t A) (hp : p' = p.tag t) (hn : n' = n) :
    Sim who t (ZJ.fillCache A p n) (Thr.fillCache A' p' n') (·.tag t) := by
  subst hA hp hn
  unfold ZJ.fillCache Thr.fillCache
  refine Sim.bind (Sim.getCache ht) fun c => ?_
  refine Sim.bind (e := (·.tag t)) ?_ fun z => ?_
  · cases c <;> dsimp only [Option.map_some, Option.map_none]
    · sim
    · exact Sim.bind Sim.touchStr fun _ => Sim.pure rfl
  · sim
    exact Sim.bind (Sim.setCache ht) fun _ => Sim.pure rfl

macro_rules | `(tactic| sim1) => `(tactic| ((with_reducible refine Sim.fillCache ?_ ?_ ?_ ?_) <;> (first | assumption | args)))

theorem Sim.checkStrLenAt {A A' : Nat} {p p' : SPtr} {n n' : Nat} (ht : t = who) (hA : A' = tag t A) (hp : p' = p.tag t) (hn : n' = n) :
    Sim who t (ZJ.checkStrLenAt A p n) (Thr.checkStrLenAt A' p' n') id := by
  subst hA hp hn
  unfold ZJ.checkStrLenAt Thr.checkStrLenAt
  sim
  opt <;> sim

macro_rules | `(tactic| sim1) => `(tactic| ((with_reducible refine Sim.checkStrLenAt ?_ ?_ ?_ ?_) <;> (first | assumption | args)))

theorem Sim.checkNumLenAt {A A' : Nat} {p p' : SPtr} {n n' : Nat} (ht : t = who) (hA : A' = tag t A) (hp : p' = p.tag t) (hn : n' = n) :
    Sim who t (ZJ.checkNumLenAt A p n) (Thr.checkNumLenAt A' p' n') id := by
  subst hA hp hn
  unfold ZJ.checkNumLenAt Thr.checkNumLenAt
  sim
  opt <;> sim

macro_rules | `(tactic| sim1) => `(tactic| ((with_reducible refine Sim.checkNumLenAt ?_ ?_ ?_ ?_) <;> (first | assumption | args)))

theorem Sim.dup {A A' : Nat} {p p' : SPtr} {n n' : Nat}  (hA : A' = tag t A) (hp : p' = p.tag t) (hn : n' = n) :
    Sim who t (ZJ.dup A p n) (Thr.dup A' p' n') (·.tag t) := by
  subst hA hp hn
  unfold ZJ.dup Thr.dup
  sim

macro_rules | `(tactic| sim1) => `(tactic| ((with_reducible refine Sim.dup ?_ ?_ ?_) <;> args))

theorem Sim.setNumStrFast {v v' : Addr} {p p' : SPtr}  (hv : v' = tag t v) (hp : p' = p.tag t) :
    Sim who t (ZJ.setNumStrFast v p) (Thr.setNumStrFast v' p') id := by
  subst hv hp
  unfold ZJ.setNumStrFast Thr.setNumStrFast
  sim
  opt <;> sim

macro_rules | `(tactic| sim1) => `(tactic| ((with_reducible refine Sim.setNumStrFast ?_ ?_) <;> args))

theorem Sim.setNumStr {v v' : Addr} {p p' : SPtr}  (hv : v' = tag t v) (hp : p' = p.tag t) :
    Sim who t (ZJ.setNumStr v p) (Thr.setNumStr v' p') id := by
  subst hv hp
  unfold ZJ.setNumStr Thr.setNumStr
  sim
  opt <;> sim

macro_rules | `(tactic| sim1) => `(tactic| ((with_reducible refine Sim.setNumStr ?_ ?_) <;> args))

theorem Sim.setStrFast {v v' : Addr} {p p' : SPtr}  (hv : v' = tag t v) (hp : p' = p.tag t) :
    Sim who t (ZJ.setStrFast v p) (Thr.setStrFast v' p') id := by
  subst hv hp
  unfold ZJ.setStrFast Thr.setStrFast
  sim
  opt <;> sim

macro_rules | `(tactic| sim1) => `(tactic| ((with_reducible refine Sim.setStrFast ?_ ?_) <;> args))

theorem Sim.setStr {v v' : Addr} {p p' : SPtr}  (hv : v' = tag t v) (hp : p' = p.tag t) :
    Sim who t (ZJ.setStr v p) (Thr.setStr v' p') id := by
  subst hv hp
  unfold ZJ.setStr Thr.setStr
  sim
  opt <;> sim

macro_rules | `(tactic| sim1) => `(tactic| ((with_reducible refine Sim.setStr ?_ ?_) <;> args))

theorem Sim.setNumStrLenFast {v v' : Addr} {p p' : SPtr} {n : Nat} (ht : t = who) (hv : v' = tag t v) (hp : p' = p.tag t) :
    Sim who t (ZJ.setNumStrLenFast v p n) (Thr.setNumStrLenFast v' p' n) id := by
  subst hv hp
  unfold ZJ.setNumStrLenFast Thr.setNumStrLenFast
  sim

macro_rules | `(tactic| sim1) => `(tactic| ((with_reducible refine Sim.setNumStrLenFast ?_ ?_ ?_) <;> (first | assumption | args)))

theorem Sim.setNumStrLen {v v' : Addr} {p p' : SPtr} {n : Nat} (ht : t = who) (hv : v' = tag t v) (hp : p' = p.tag t) :
    Sim who t (ZJ.setNumStrLen v p n) (Thr.setNumStrLen v' p' n) id := by
  subst hv hp
  unfold ZJ.setNumStrLen Thr.setNumStrLen
  sim

macro_rules | `(tactic| sim1) => `(tactic| ((with_reducible refine Sim.setNumStrLen ?_ ?_ ?_) <;> (first | assumption | args)))

theorem Sim.setStrLenFast {v v' : Addr} {p p' : SPtr} {n : Nat} (ht : t = who) (hv : v' = tag t v) (hp : p' = p.tag t) :
    Sim who t (ZJ.setStrLenFast v p n) (Thr.setStrLenFast v' p' n) id := by
  subst hv hp
  unfold ZJ.setStrLenFast Thr.setStrLenFast
  sim

macro_rules | `(tactic| sim1) => `(tactic| ((with_reducible refine Sim.setStrLenFast ?_ ?_ ?_) <;> (first | assumption | args)))

theorem Sim.setStrLen {v v' : Addr} {p p' : SPtr} {n : Nat} (ht : t = who) (hv : v' = tag t v) (hp : p' = p.tag t) :
    Sim who t (ZJ.setStrLen v p n) (Thr.setStrLen v' p' n) id := by
  subst hv hp
  unfold ZJ.setStrLen Thr.setStrLen
  sim

macro_rules | `(tactic| sim1) => `(tactic| ((with_reducible refine Sim.setStrLen ?_ ?_ ?_) <;> (first | assumption | args)))

theorem Sim.setDouble {D : Type} {fp : FP D} {d : D} {v v' : Addr}  (hv : v' = tag t v) :
    Sim who t (ZJ.setDouble fp v d) (Thr.setDouble fp v' d) id := by
  subst hv
  unfold ZJ.setDouble Thr.setDouble
  sim

macro_rules | `(tactic| sim1) => `(tactic| ((with_reducible refine Sim.setDouble ?_) <;> args))

theorem Sim.setInt {v v' : Addr} {n : Int}  (hv : v' = tag t v) :
    Sim who t (ZJ.setInt v n) (Thr.setInt v' n) id := by
  subst hv
  unfold ZJ.setInt Thr.setInt
  sim

macro_rules | `(tactic| sim1) => `(tactic| ((with_reducible refine Sim.setInt ?_) <;> args))

theorem Sim.setLong {v v' : Addr} {n : Int}  (hv : v' = tag t v) :
    Sim who t (ZJ.setLong v n) (Thr.setLong v' n) id := by
  subst hv
  unfold ZJ.setLong Thr.setLong
  sim

macro_rules | `(tactic| sim1) => `(tactic| ((with_reducible refine Sim.setLong ?_) <;> args))

theorem Sim.setLongLong {v v' : Addr} {n : Int}  (hv : v' = tag t v) :
    Sim who t (ZJ.setLongLong v n) (Thr.setLongLong v' n) id := by
  subst hv
  unfold ZJ.setLongLong Thr.setLongLong
  sim

macro_rules | `(tactic| sim1) => `(tactic| ((with_reducible refine Sim.setLongLong ?_) <;> args))

theorem Sim.escapeAt {A A' : Nat} {p p' : SPtr}  (hA : A' = tag t A) (hp : p' = p.tag t) :
    Sim who t (ZJ.escapeAt A p) (Thr.escapeAt A' p') (·.tag t) := by
  subst hA hp
  unfold ZJ.escapeAt Thr.escapeAt
  sim

macro_rules | `(tactic| sim1) => `(tactic| ((with_reducible refine Sim.escapeAt ?_ ?_) <;> args))

theorem Sim.escapeLenAt {A A' : Nat} {p p' : SPtr} {n : Nat}  (hA : A' = tag t A) (hp : p' = p.tag t) :
    Sim who t (ZJ.escapeLenAt A p n) (Thr.escapeLenAt A' p' n) (·.tag t) := by
  subst hA hp
  unfold ZJ.escapeLenAt Thr.escapeLenAt
  sim

macro_rules | `(tactic| sim1) => `(tactic| ((with_reducible refine Sim.escapeLenAt ?_ ?_) <;> args))

theorem Sim.setStrEscape {v v' : Addr} {p p' : SPtr}  (hv : v' = tag t v) (hp : p' = p.tag t) :
    Sim who t (ZJ.setStrEscape v p) (Thr.setStrEscape v' p') id := by
  subst hv hp
  unfold ZJ.setStrEscape Thr.setStrEscape
  sim

macro_rules | `(tactic| sim1) => `(tactic| ((with_reducible refine Sim.setStrEscape ?_ ?_) <;> args))

theorem Sim.setStrLenEscape {v v' : Addr} {p p' : SPtr} {n : Nat}  (hv : v' = tag t v) (hp : p' = p.tag t) :
    Sim who t (ZJ.setStrLenEscape v p n) (Thr.setStrLenEscape v' p' n) id := by
  subst hv hp
  unfold ZJ.setStrLenEscape Thr.setStrLenEscape
  sim

macro_rules | `(tactic| sim1) => `(tactic| ((with_reducible refine Sim.setStrLenEscape ?_ ?_) <;> args))

theorem Sim.keyTarget {v v' : Addr}  (hv : v' = tag t v) :
    Sim who t (ZJ.keyTarget v) (Thr.keyTarget v') fun k => k.map (tag t) := by
  subst hv
  unfold ZJ.keyTarget Thr.keyTarget
  sim
  hnd <;> sim
  opt <;> sim

macro_rules | `(tactic| sim1) => `(tactic| ((with_reducible refine Sim.keyTarget ?_) <;> args))

theorem Sim.setKeyFast {v v' : Addr} {p p' : SPtr}  (hv : v' = tag t v) (hp : p' = p.tag t) :
    Sim who t (ZJ.setKeyFast v p) (Thr.setKeyFast v' p') id := by
  subst hv hp
  unfold ZJ.setKeyFast Thr.setKeyFast
  sim
  opt <;> sim
  opt <;> sim

macro_rules | `(tactic| sim1) => `(tactic| ((with_reducible refine Sim.setKeyFast ?_ ?_) <;> args))

theorem Sim.setKeyC {v v' : Addr} {p p' : SPtr}  (hv : v' = tag t v) (hp : p' = p.tag t) :
    Sim who t (ZJ.setKeyC v p) (Thr.setKeyC v' p') id := by
  subst hv hp
  unfold ZJ.setKeyC Thr.setKeyC
  sim
  opt <;> sim
  opt <;> sim

macro_rules | `(tactic| sim1) => `(tactic| ((with_reducible refine Sim.setKeyC ?_ ?_) <;> args))

theorem Sim.setKeyEscape {v v' : Addr} {p p' : SPtr}  (hv : v' = tag t v) (hp : p' = p.tag t) :
    Sim who t (ZJ.setKeyEscape v p) (Thr.setKeyEscape v' p') id := by
  subst hv hp
  unfold ZJ.setKeyEscape Thr.setKeyEscape
  sim

macro_rules | `(tactic| sim1) => `(tactic| ((with_reducible refine Sim.setKeyEscape ?_ ?_) <;> args))

theorem Sim.setKeyLenEscape {v v' : Addr} {p p' : SPtr} {n : Nat}  (hv : v' = tag t v) (hp : p' = p.tag t) :
    Sim who t (ZJ.setKeyLenEscape v p n) (Thr.setKeyLenEscape v' p' n) id := by
  subst hv hp
  unfold ZJ.setKeyLenEscape Thr.setKeyLenEscape
  sim

macro_rules | `(tactic| sim1) => `(tactic| ((with_reducible refine Sim.setKeyLenEscape ?_ ?_) <;> args))

theorem Sim.setKeyLenFast {v v' : Addr} {p p' : SPtr} {n : Nat} (ht : t = who) (hv : v' = tag t v) (hp : p' = p.tag t) :
    Sim who t (ZJ.setKeyLenFast v p n) (Thr.setKeyLenFast v' p' n) id := by
  subst hv hp
  unfold ZJ.setKeyLenFast Thr.setKeyLenFast
  sim
  opt <;> sim

macro_rules | `(tactic| sim1) => `(tactic| ((with_reducible refine Sim.setKeyLenFast ?_ ?_ ?_) <;> (first | assumption | args)))

theorem Sim.setKeyLenC {v v' : Addr} {p p' : SPtr} {n : Nat} (ht : t = who) (hv : v' = tag t v) (hp : p' = p.tag t) :
    Sim who t (ZJ.setKeyLenC v p n) (Thr.setKeyLenC v' p' n) id := by
  subst hv hp
  unfold ZJ.setKeyLenC Thr.setKeyLenC
  sim
  opt <;> sim

macro_rules | `(tactic| sim1) => `(tactic| ((with_reducible refine Sim.setKeyLenC ?_ ?_ ?_) <;> (first | assumption | args)))

theorem Sim.setArray {v v' : Addr}  (hv : v' = tag t v) :
    Sim who t (ZJ.setArray v) (Thr.setArray v') id := by
  subst hv
  unfold ZJ.setArray Thr.setArray
  sim

macro_rules | `(tactic| sim1) => `(tactic| ((with_reducible refine Sim.setArray ?_) <;> args))

theorem Sim.setObj {v v' : Addr}  (hv : v' = tag t v) :
    Sim who t (ZJ.setObj v) (Thr.setObj v') id := by
  subst hv
  unfold ZJ.setObj Thr.setObj
  sim

macro_rules | `(tactic| sim1) => `(tactic| ((with_reducible refine Sim.setObj ?_) <;> args))

theorem Sim.adopt {f : Addr} : ∀ (fuel : Nat) (o : Option Addr),
    Sim who t (ZJ.adopt f fuel o) (Thr.adopt (tag t f) fuel (o.map (tag t))) id
  | 0, _ => by unfold ZJ.adopt; exact Sim.late
  | fuel + 1, none => Sim.pure rfl
  | fuel + 1, some n => by
    rw [Option.map_some]
    unfold ZJ.adopt Thr.adopt
    sim
    exact Sim.adopt fuel _

theorem Sim.graft {F a a' x x' e e' : Nat}  (ha : a' = tag t a) (hx : x' = tag t x) (he : e' = tag t e) :
    Sim who t (ZJ.graft F a x e) (Thr.graft F a' x' e') id := by
  subst ha hx he
  unfold ZJ.graft Thr.graft
  sim
  refine Sim.bind (Sim.modNode' rfl fun m => rfl) fun _ => ?_
  sim
  refine Sim.bind (Sim.modNode' rfl fun m => rfl) fun _ => ?_
  sim
  exact Sim.adopt _ _

macro_rules | `(tactic| sim1) => `(tactic| ((with_reducible refine Sim.graft ?_ ?_ ?_) <;> args))

theorem Sim.setFast {v v' w w' F : Nat}  (hv : v' = tag t v) (hw : w' = tag t w) :
    Sim who t (ZJ.setFast F v w) (Thr.setFast F v' w') id := by
  subst hv hw
  unfold ZJ.setFast Thr.setFast
  sim
  hnd <;> sim

macro_rules | `(tactic| sim1) => `(tactic| ((with_reducible refine Sim.setFast ?_ ?_) <;> args))

theorem Sim.set {v v' w w' F : Nat}  (hv : v' = tag t v) (hw : w' = tag t w) :
    Sim who t (ZJ.set F v w) (Thr.set F v' w') id := by
  subst hv hw
  unfold ZJ.set Thr.set
  sim
  opt <;> sim
  hnd <;> sim

macro_rules | `(tactic| sim1) => `(tactic| ((with_reducible refine Sim.set ?_ ?_) <;> args))

theorem Sim.attach {f f' x x' : Addr}  (hf : f' = tag t f) (hx : x' = tag t x) :
    Sim who t (ZJ.attach f x) (Thr.attach f' x') id := by
  subst hf hx
  unfold ZJ.attach Thr.attach
  sim
  opt <;> sim

macro_rules | `(tactic| sim1) => `(tactic| ((with_reducible refine Sim.attach ?_ ?_) <;> args))

theorem Sim.objAddFast {v v' w w' : Addr}  (hv : v' = tag t v) (hw : w' = tag t w) :
    Sim who t (ZJ.objAddFast v w) (Thr.objAddFast v' w') id := by
  subst hv hw
  unfold ZJ.objAddFast Thr.objAddFast
  sim
  hnd <;> sim
  hnd <;> sim

macro_rules | `(tactic| sim1) => `(tactic| ((with_reducible refine Sim.objAddFast ?_ ?_) <;> args))

theorem Sim.objAdd {v v' w w' F : Addr}  (hv : v' = tag t v) (hw : w' = tag t w) :
    Sim who t (ZJ.objAdd F v w) (Thr.objAdd F v' w') id := by
  subst hv hw
  unfold ZJ.objAdd Thr.objAdd
  sim
  hnd <;> sim
  hnd <;> sim
  opt <;> sim

macro_rules | `(tactic| sim1) => `(tactic| ((with_reducible refine Sim.objAdd ?_ ?_) <;> args))

theorem Sim.arrayAddFast {v v' w w' : Addr}  (hv : v' = tag t v) (hw : w' = tag t w) :
    Sim who t (ZJ.arrayAddFast v w) (Thr.arrayAddFast v' w') id := by
  subst hv hw
  unfold ZJ.arrayAddFast Thr.arrayAddFast
  sim
  hnd <;> sim

macro_rules | `(tactic| sim1) => `(tactic| ((with_reducible refine Sim.arrayAddFast ?_ ?_) <;> args))

theorem Sim.arrayAdd {v v' w w' F : Addr}  (hv : v' = tag t v) (hw : w' = tag t w) :
    Sim who t (ZJ.arrayAdd F v w) (Thr.arrayAdd F v' w') id := by
  subst hv hw
  unfold ZJ.arrayAdd Thr.arrayAdd
  sim
  hnd <;> sim
  opt <;> sim

macro_rules | `(tactic| sim1) => `(tactic| ((with_reducible refine Sim.arrayAdd ?_ ?_) <;> args))

theorem Sim.arrayDel {v v' : Addr} {F i : Nat}  (hv : v' = tag t v) :
    Sim who t (ZJ.arrayDel F v i) (Thr.arrayDel F v' i) id := by
  subst hv
  unfold ZJ.arrayDel Thr.arrayDel
  sim
  opt <;> sim

macro_rules | `(tactic| sim1) => `(tactic| ((with_reducible refine Sim.arrayDel ?_) <;> args))

theorem Sim.objDel {v v' : Addr} {p p' : SPtr} {F : Nat}  (hv : v' = tag t v) (hp : p' = p.tag t) :
    Sim who t (ZJ.objDel F v p) (Thr.objDel F v' p') id := by
  subst hv hp
  unfold ZJ.objDel Thr.objDel
  sim
  opt <;> sim

macro_rules | `(tactic| sim1) => `(tactic| ((with_reducible refine Sim.objDel ?_ ?_) <;> args))

end

end ZJ
