import Verif.PropAlias
import Verif.PropNum

/-
The abstract machine of C34: a store of documents, the calls of the API on it, which calls
are allowed in which store, and client programs.

Nothing here mentions memory. A store maps node names to nodes (type and value, key, ordered
list of children, parent) and handle names to nodes. `AStep s c r s'` says that the call `c`
may answer `r` and change the store `s` to `s'`; the names of new nodes, handles and
allocators may be any names not given before (`seen`). The two flags of a node (`prevOK`,
`endOK`) and the set `tail` do not influence any answer; they record where a defect of the
code forbids some later calls (`Legit`). `dep` and `scr` say which nodes, and
whether the scratch string, are gone when an allocator is released.
-/

namespace ZJ

/-! ### Calls -/

/-- The three parse functions. -/
inductive ParseFn | parse | parseLen | parseFast
deriving DecidableEq, Repr

/-- The setters that take a text. -/
inductive TextFn | str | strLen | strFast | strLenFast | strEsc | strLenEsc | num | numLen | numFast | numLenFast
deriving DecidableEq, Repr

/-- The setters of the key. -/
inductive KeyFn | key | keyLen | keyFast | keyLenFast | keyEsc | keyLenEsc
deriving DecidableEq, Repr

inductive IntFn | int | long | longLong
deriving DecidableEq, Repr

/-- The functions that only look at a value. -/
inductive GetFn | type | size | null | bool | str | strFast | unStr | numStr | numFast | int | long | longLong
  | double | key | keyFast | unKey | print
deriving DecidableEq, Repr

/-- The functions that return a handle to another node of the document. -/
inductive NavFn | begin | next | array (i : Nat) | obj (k : Bytes) | objLen (k : Bytes)
deriving DecidableEq, Repr

/-- A call of the API. Texts are given by their bytes. -/
inductive Call (D : Type)
  | newAlloc
  | release (A : Nat)
  | newValue (A : Nat)
  | parse (f : ParseFn) (v : Addr) (b : Bytes)
  | text (f : TextFn) (v : Addr) (b : Bytes)
  | null (v : Addr)
  | bool (v : Addr) (b : Bool)
  | array (v : Addr)
  | object (v : Addr)
  | int (f : IntFn) (v : Addr) (n : Int)
  | double (v : Addr) (d : D)
  | key (f : KeyFn) (v : Addr) (b : Bytes)
  | get (f : GetFn) (v : Addr)
  | nav (f : NavFn) (v : Addr)
  | copy (v : Addr)
  | move (v : Addr)
  /-- `zj_ObjAdd`, `zj_ArrayAdd` and their Fast variants -/
  | add (obj fast : Bool) (v w : Addr)
  | delAt (v : Addr) (i : Nat)
  | delKey (v : Addr) (k : Bytes)
  /-- `zj_Set`, `zj_SetFast` -/
  | set (fast : Bool) (v w : Addr)

/-- What a call returns. -/
inductive Ans (D : Type)
  | unit
  | bool (b : Bool)
  | alloc (A : Nat)
  | handle (v : Option Addr)
  | bytes (b : Option Bytes)
  | type (t : Option JType)
  | nat (n : Nat)
  | truth (b : Option Bool)
  | int (n : Option Int)
  | double (d : Option D)
deriving DecidableEq

/-! ### Stores -/

/-- Names that have been given to nodes, handles and allocators; none of them is given again. -/
structure Seen where
  node : Addr → Prop
  hnd : Addr → Prop
  alloc : Nat → Prop

/-- All nodes of `g` have new names. -/
def Seen.newTo (q : Seen) (g : Graph) : Prop := ∀ a y, g a = some y → ¬ q.node a

def Seen.nodes (q : Seen) (S : Addr → Prop) : Seen := { q with node := fun a => q.node a ∨ S a }
def Seen.hnds (q : Seen) (v : Addr) : Seen := { q with hnd := fun w => q.hnd w ∨ w = v }
def Seen.allocs (q : Seen) (A : Nat) : Seen := { q with alloc := fun B => q.alloc B ∨ B = A }

structure Store where
  node : Graph
  /-- handles that may be used -/
  hnd : Addr → Option Val
  /-- allocators that have not been released -/
  live : Nat → Bool
  /-- number nodes whose text is known to be followed by a byte that ends the number -/
  tail : Addr → Bool
  /-- whether three bytes behind every block of memory may be read -/
  pad : Bool
  /-- allocators the node or its texts may be part of -/
  dep : Addr → Nat → Bool
  /-- the allocator of the scratch string, if there is a scratch string -/
  scr : Option Nat
  /-- the names given so far, in use or not -/
  seen : Seen

def Store.init (pad : Bool) : Store :=
  ⟨fun _ => none, fun _ => none, fun _ => false, fun _ => false, pad, fun _ _ => false, none,
    ⟨fun _ => False, fun _ => False, fun _ => False⟩⟩

/-- Allocators the node `a` uses; a node that is not there uses none. -/
def Store.uses (s : Store) (a : Addr) (R : Nat) : Bool := (s.node a).isSome && s.dep a R

/-- The scratch string is used (`b`), and is made in `A` when it is not there. -/
def Store.use (s : Store) (b : Bool) (A : Nat) : Store := if b then { s with scr := some (s.scr.getD A) } else s

/-- The node of a value nothing was put into yet. -/
def blank : GNode := ⟨none, .null, none, true, true⟩

/-- The node a setter called with the handle `v` writes: the node of the handle, or a new
one. -/
inductive Target (s : Store) (v : Addr) (A : Nat) : Addr → GNode → Prop
  | old {a gn} : s.hnd v = some ⟨some a, A⟩ → s.node a = some gn → Target s v A a gn
  | new {a} : s.hnd v = some ⟨none, A⟩ → s.node a = none → ¬ s.seen.node a → Target s v A a blank

/-- The node `a`, now the node of the handle `v`, becomes `gn`. -/
def Store.put (s : Store) (v : Addr) (A : Nat) (a : Addr) (gn : GNode) (tl : Bool) : Store :=
  { s with
    node := s.node.set a gn
    hnd := upd s.hnd v (some ⟨some a, A⟩)
    tail := upd s.tail a tl
    dep := fun b R => if b = a then s.uses a R || decide (R = A) else s.dep b R
    seen := s.seen.nodes (· = a) }

/-- The value of the node `a`, now the node of the handle `v`, becomes `gv`, with the new
nodes `g` below it. -/
def Store.plant (s : Store) (v : Addr) (A : Nat) (a : Addr) (gn : GNode) (gv : GVal) (g : Graph) : Store :=
  { s with
    node := s.node.plant a gn gv g
    hnd := upd s.hnd v (some ⟨some a, A⟩)
    tail := fun b => s.tail b || decide (b = a) || (g b).isSome
    dep := fun b R => if b = a ∨ (g b).isSome then s.uses a R || decide (R = A) else s.dep b R
    seen := s.seen.nodes fun b => b = a ∨ (g b).isSome }

/-- A new handle. -/
def Store.handle (s : Store) (r : Addr) (y : Val) : Store := { s with hnd := upd s.hnd r (some y), seen := s.seen.hnds r }

/-- New nodes, made in `A`. -/
def Store.grow (s : Store) (g : Graph) (A : Nat) : Store :=
  { s with
    node := s.node.or g
    tail := fun b => s.tail b && !(g b).isSome
    dep := fun b R => if (g b).isSome then decide (R = A) else s.dep b R
    seen := s.seen.nodes fun b => (g b).isSome }

/-- Other nodes, same handles. -/
def Store.nodes (s : Store) (G : Graph) : Store := { s with node := G }

/-- The value of node `x`, a root, is moved to node `a`; the node `x` is gone, and handles of
it must not be used any more. `e`: whether the pointer to the last child is right. -/
def Store.graft (s : Store) (a x : Addr) (ga gx : GNode) (e : Bool) : Store :=
  { s with
    node := s.node.graft a x ga gx e
    hnd := fun w => (s.hnd w).filter fun y => decide (y.n ≠ some x)
    tail := upd s.tail a (s.tail x)
    dep := fun b R => if b = a then s.dep a R || s.dep x R else s.dep b R }

/-- No node below `a` uses the allocator. -/
def Store.free (s : Store) (R : Nat) (a : Addr) : Prop := ∀ b, Reach s.node a b → s.uses b R = false

open Classical in
/-- The allocator `R` is released: the handles made in it and the nodes with something of it
below them are gone. -/
noncomputable def Store.drop (s : Store) (R : Nat) : Store :=
  { s with
    node := s.node.only (s.free R)
    hnd := fun w => (s.hnd w).filter fun y => decide (y.a ≠ R ∧ ∀ a, y.n = some a → s.free R a)
    live := upd s.live R false }

/-- `v` is a usable handle. -/
def Store.alive (s : Store) (v : Addr) : Prop := (s.hnd v).isSome

/-- The nodes are trees: every child is listed once, knows its parent, and has a key exactly
if the parent is an object. -/
def Forest (G : Graph) : Prop :=
  ∀ f gf o ks, G f = some gf → gf.val = .con o ks →
    ks.Nodup ∧ ∀ k ∈ ks, ∃ gk, G k = some gk ∧ gk.par = some f ∧ gk.key.isSome = o

/-- Well-formed stores. -/
structure Wf (s : Store) : Prop where
  forest : Forest s.node
  valid : GValid s.node
  finite : ∀ a gn, s.node a = some gn → ∃ t, Unf s.node a t
  hnd : ∀ v y, s.hnd v = some y → s.live y.a = true ∧ ∀ a, y.n = some a → (s.node a).isSome

/-! ### Texts -/

/-- The part of the text a parse function looks at. -/
def ParseFn.cut : ParseFn → Bytes → Bytes
  | .parseLen, b => b.takeWhile (· ≠ 0)
  | _, b => b

/-- Whether the length is given by a number rather than by a NUL. -/
def TextFn.len : TextFn → Bool
  | .strLen | .strLenFast | .strLenEsc | .numLen | .numLenFast => true
  | _ => false

def KeyFn.len : KeyFn → Bool
  | .keyLen | .keyLenFast | .keyLenEsc => true
  | _ => false

/-- Whether the text is checked in the scratch string. -/
def TextFn.scratch : TextFn → Bool
  | .strLen | .strLenFast | .numLen | .numLenFast => true
  | _ => false

def KeyFn.scratch : KeyFn → Bool
  | .keyLen | .keyLenFast => true
  | _ => false

/-- How a byte is written in the body of a JSON string: quotation mark, backslash and control
characters by escapes, the short ones where there are any, everything else as it is. -/
def quoteByte (c : Byte) : Bytes :=
  if c = 0x22 then b!"\\\""
  else if c = 0x5C then b!"\\\\"
  else if c = 0x08 then b!"\\b"
  else if c = 0x09 then b!"\\t"
  else if c = 0x0A then b!"\\n"
  else if c = 0x0C then b!"\\f"
  else if c = 0x0D then b!"\\r"
  else if c < 0x10 then b!"\\u000" ++ [if c < 0x0A then 0x30 + c else 0x57 + c]
  else if c < 0x20 then b!"\\u001" ++ [if c < 0x1A then 0x20 + c else 0x47 + c]
  else [c]

def quote (s : Bytes) : Bytes := s.flatMap quoteByte

theorem quote_eq (s : Bytes) : quote s = escBytes s := by
  have h : ∀ c, quoteByte c = escByte c := by apply allBytes; decide +kernel
  rw [quote, escBytes, funext h]

/-- The value a setter makes of a text; a text without such a value is refused. -/
inductive TextFn.Takes : TextFn → Bytes → GVal → Prop
  | str {f b} : f = .str ∨ f = .strLen ∨ f = .strFast ∨ f = .strLenFast → IsSetBody b → Takes f b (.str b)
  | esc {f b} : f = .strEsc ∨ f = .strLenEsc → Takes f b (.str (quote b))
  | num {f b} : f = .num ∨ f = .numLen ∨ f = .numFast ∨ f = .numLenFast → IsNum b → Takes f b (.num b)

/-- The key a setter makes of a text. -/
inductive KeyFn.Takes : KeyFn → Bytes → Bytes → Prop
  | plain {f b} : f = .key ∨ f = .keyLen ∨ f = .keyFast ∨ f = .keyLenFast → IsSetBody b → Takes f b b
  | esc {f b} : f = .keyEsc ∨ f = .keyLenEsc → Takes f b (quote b)

/-! ### Reading -/

/-- What the getter `f` answers about a node of `G` (`none`: an empty handle). -/
inductive GetFn.Answers {D : Type} (fp : FP D) (G : Graph) : GetFn → Option Addr → Option GNode → Ans D → Prop
  | type {x o} : Answers fp G .type x o (.type (o.map fun n => n.val.type))
  | size {x o} : Answers fp G .size x o (.nat (o.elim 0 fun n => n.val.kids.length))
  | null {x o} : Answers fp G .null x o (.bool (decide (o.map GNode.val = some .null)))
  | bool {x o} : Answers fp G .bool x o (.truth (o.bind fun n => match n.val with | .bool b => some b | _ => none))
  | str {f x o} : f = .str ∨ f = .strFast → Answers fp G f x o (.bytes (o.bind fun n => match n.val with | .str b => some b | _ => none))
  | num {f x o} : f = .numStr ∨ f = .numFast → Answers fp G f x o (.bytes (o.bind fun n => match n.val with | .num b => some b | _ => none))
  | unStr {x n raw d} : n.val = .str raw → Denotes raw d → 
      Answers fp G .unStr x (some n) (.bytes (some (d.takeWhile (· ≠ 0))))
  | unStrNone {x o} : (∀ n, o = some n → n.val.type ≠ .string) → Answers fp G .unStr x o (.bytes none)
  | int {f x n raw i} : f = .int ∨ f = .long ∨ f = .longLong → n.val = .num raw → HasIntPart raw i →
      Answers fp G f x (some n) (.int (some i))
  | intNone {f x o} : f = .int ∨ f = .long ∨ f = .longLong → (∀ n, o = some n → n.val.type ≠ .number) →
      Answers fp G f x o (.int none)
  | double {x n raw} : n.val = .num raw → Answers fp G .double x (some n) (.double (some (fp.conv raw)))
  | doubleNone {x o} : (∀ n, o = some n → n.val.type ≠ .number) → Answers fp G .double x o (.double none)
  | key {f x o} : f = .key ∨ f = .keyFast → Answers fp G f x o (.bytes (o.bind GNode.key))
  | unKey {x n raw d} : n.key = some raw → Denotes raw d → 
      Answers fp G .unKey x (some n) (.bytes (some (d.takeWhile (· ≠ 0))))
  | unKeyNone {x o} : o.bind GNode.key = none → Answers fp G .unKey x o (.bytes none)
  | print {a n t} : Unf G a t → Answers fp G .print (some a) (some n) (.bytes (some t.print))
  | printNone : Answers fp G .print none none (.bytes (some []))

/-- The key of the first of the children `ks` that has the key `k`. -/
def Graph.find (G : Graph) (k : Bytes) (ks : List Addr) : Option Addr :=
  ks.find? fun a => decide ((G a).bind GNode.key = some k)

/-- Where the navigation function `f` leads from a node. -/
inductive NavFn.Leads (G : Graph) : NavFn → Option Addr → Option Addr → Prop
  | empty {f} : Leads G f none none
  | begin {a gn} : G a = some gn → Leads G .begin (some a) gn.val.kids.head?
  | next {a f gf o l r} : G f = some gf → gf.val = .con o (l ++ a :: r) → Leads G .next (some a) r.head?
  | nextRoot {a gn} : G a = some gn → gn.par = none → Leads G .next (some a) none
  | array {a gn ks i} : G a = some gn → gn.val = .con false ks → Leads G (.array i) (some a) ks[i]?
  | noArray {a gn i} : G a = some gn → (∀ ks, gn.val ≠ .con false ks) → Leads G (.array i) (some a) none
  | obj {f a gn ks k} : f = .obj k ∨ f = .objLen k → G a = some gn → gn.val = .con true ks →
      Leads G f (some a) (G.find k ks)
  | noObj {f a gn k} : f = .obj k ∨ f = .objLen k → G a = some gn → (∀ ks, gn.val ≠ .con true ks) →
      Leads G f (some a) none

/-! ### Changing -/

/-- `g` is a fresh copy, with root `n`, of the document at node `x`. -/
structure CopyOf (G : Graph) (x : Addr) (g : Graph) (n : Addr) (gn : GNode) : Prop where
  doc : ∃ t, Unf G x t ∧ Unf g n t
  root : g n = some gn
  par : gn.par = none
  key : ∃ gx, G x = some gx ∧ gn.key = gx.key
  fresh : ∀ a y, g a = some y → G a = none
  links : ∀ a y, g a = some y → y.prevOK = true ∧ y.endOK = true ∧ (a ≠ n → y.par.isSome = true) ∧ Reach g n a
  forest : Forest g

/-- `gv`, with the new nodes `g` below it, is what a parser puts into the node `a` for the
document `t`. -/
structure PlantOf (G : Graph) (a : Addr) (gv : GVal) (g : Graph) (t : Json) : Prop where
  doc : UnfV g gv t
  fresh : ∀ b y, g b = some y → G b = none ∧ b ≠ a
  links : Sprout g gv.kids
  forest : Forest (g.set a (blank.put gv))

/-- The handle of a container of the given kind: its node and children. -/
def Store.isCon (s : Store) (v : Addr) (o : Bool) (f : Addr) (kids : List Addr) : Prop :=
  ∃ A gf, s.hnd v = some ⟨some f, A⟩ ∧ s.node f = some gf ∧ gf.val = .con o kids

/-- The handle does not belong to a container of the given kind. -/
def Store.notCon (s : Store) (v : Addr) (o : Bool) : Prop := s.alive v ∧ ∀ f kids, ¬ s.isCon v o f kids

/-- The value with the handle `w` cannot be added: the handle is empty, or it has no key and
is to be added to an object. -/
def Store.notItem (s : Store) (w : Addr) (o : Bool) : Prop :=
  (∃ A, s.hnd w = some ⟨none, A⟩) ∨
  (o = true ∧ ∃ A x gx, s.hnd w = some ⟨some x, A⟩ ∧ s.node x = some gx ∧ gx.key = none)

/-- An element of an array has no key. -/
def GNode.asItem (gn : GNode) (o : Bool) : GNode := if o then gn else { gn with key := none }

/-- One call. -/
inductive AStep {D : Type} (fp : FP D) (s : Store) : Call D → Ans D → Store → Prop
  | newAlloc {A} : s.live A = false → ¬ s.seen.alloc A →
      AStep fp s .newAlloc (.alloc A) { s with live := upd s.live A true, seen := s.seen.allocs A }
  | release {A} : s.live A = true → AStep fp s (.release A) .unit (s.drop A)
  | newValue {A r} : s.live A = true → s.hnd r = none → ¬ s.seen.hnd r →
      AStep fp s (.newValue A) (.handle (some r)) (s.handle r ⟨none, A⟩)
  | parse {f v b A a gn gv g t} : JText t (f.cut b) → Target s v A a gn → PlantOf s.node a gv g t → s.seen.newTo g →
      AStep fp s (.parse f v b) (.bool true) (s.plant v A a gn gv g)
  | parseNo {f v b} : (¬ ∃ t, JText t (f.cut b)) → AStep fp s (.parse f v b) (.bool false) s
  | text {f v b A a gn gv} : f.Takes b gv → Target s v A a gn →
      AStep fp s (.text f v b) (.bool true) ((s.use f.scratch A).put v A a (gn.put gv) false)
  | textNo {f v b x A} : s.hnd v = some ⟨x, A⟩ → (∀ gv, ¬ f.Takes b gv) →
      AStep fp s (.text f v b) (.bool false) (s.use f.scratch A)
  | null {v A a gn} : Target s v A a gn → AStep fp s (.null v) .unit (s.put v A a (gn.put .null) false)
  | bool {v b A a gn} : Target s v A a gn → AStep fp s (.bool v b) .unit (s.put v A a (gn.put (.bool b)) false)
  | array {v A a gn} : Target s v A a gn → AStep fp s (.array v) .unit (s.put v A a (gn.put (.con false [])) false)
  | object {v A a gn} : Target s v A a gn → AStep fp s (.object v) .unit (s.put v A a (gn.put (.con true [])) false)
  | int {f v n A a gn raw} : Target s v A a gn → Decimal n raw →
      AStep fp s (.int f v n) (.bool true) (s.put v A a (gn.put (.num raw)) true)
  | double {v d A a gn} : Target s v A a gn →
      AStep fp s (.double v d) (.bool true) (s.put v A a (gn.put (.num (fp.fmt d))) true)
  | key {f v b k A a gn} : f.Takes b k → Target s v A a gn →
      (∀ p gp, gn.par = some p → s.node p = some gp → gp.val.type = .object) →
      AStep fp s (.key f v b) (.bool true) ((s.use f.scratch A).put v A a { gn with key := some k } (s.tail a && (s.node a).isSome))
  | keyNo {f v b x A} : s.hnd v = some ⟨x, A⟩ → (∀ k, ¬ f.Takes b k) →
      AStep fp s (.key f v b) (.bool false) (s.use f.scratch A)
  | keyInArray {f v b A a gn p gp} : s.hnd v = some ⟨some a, A⟩ → s.node a = some gn → gn.par = some p →
      s.node p = some gp → gp.val.type ≠ .object →
      AStep fp s (.key f v b) (.bool false) (s.use f.scratch A)
  | get {f v A x r} : s.hnd v = some ⟨x, A⟩ → f.Answers fp s.node x (x.bind s.node) r → AStep fp s (.get f v) r s
  | nav {f v A x k r} : s.hnd v = some ⟨x, A⟩ → f.Leads s.node x (some k) → s.hnd r = none → ¬ s.seen.hnd r →
      AStep fp s (.nav f v) (.handle (some r)) (s.handle r ⟨some k, A⟩)
  | navNo {f v A x} : s.hnd v = some ⟨x, A⟩ → f.Leads s.node x none → AStep fp s (.nav f v) (.handle none) s
  | copy {v A x g n gn r} : s.hnd v = some ⟨some x, A⟩ → CopyOf s.node x g n gn → s.hnd r = none → s.seen.newTo g → ¬ s.seen.hnd r →
      AStep fp s (.copy v) (.handle (some r)) ((s.grow g A).handle r ⟨some n, A⟩)
  | copyNo {v A} : s.hnd v = some ⟨none, A⟩ → AStep fp s (.copy v) (.handle none) s
  | move {v A x G} : s.hnd v = some ⟨some x, A⟩ → Moved s.node x G → AStep fp s (.move v) (.bool true) (s.nodes G)
  | moveNo {v A} : s.hnd v = some ⟨none, A⟩ → AStep fp s (.move v) (.bool false) s
  | addFast {o v w f ks A x gx G kids} : s.isCon v o f ks → s.hnd w = some ⟨some x, A⟩ → Moved s.node x G →
      G x = some gx → (o = true → gx.key.isSome = true) → CanAdd G f x o kids →
      AStep fp s (.add o true v w) (.bool true)
        ((s.nodes ((G.set x (gx.asItem o)).attach f x o kids)).handle w ⟨none, A⟩)
  | add {o v w f ks A x g n gn} : s.isCon v o f ks → s.hnd w = some ⟨some x, A⟩ → CopyOf s.node x g n gn →
      (o = true → gn.key.isSome = true) → s.seen.newTo g →
      AStep fp s (.add o false v w) (.bool true)
        (((s.grow g A).nodes (((s.node.or g).set n (gn.asItem o)).attach f n o ks)))
  | addNo {o fast v w} : s.notCon v o ∨ s.notItem w o → AStep fp s (.add o fast v w) (.bool false) s
  | delAt {v f l x r} : s.isCon v false f (l ++ x :: r) →
      AStep fp s (.delAt v l.length) (.bool true) (s.nodes (s.node.detach f x false l r))
  | delAtNo {v i} : (s.notCon v false ∨ ∃ f ks, s.isCon v false f ks ∧ ks.length ≤ i) →
      AStep fp s (.delAt v i) (.bool false) s
  | delKey {v f k l x r} : s.isCon v true f (l ++ x :: r) → s.node.find k (l ++ x :: r) = some x → x ∉ l →
      AStep fp s (.delKey v k) (.bool true) (s.nodes (s.node.detach f x true l r))
  | delKeyNo {v k} : (s.notCon v true ∨ ∃ f ks, s.isCon v true f ks ∧ s.node.find k ks = none) →
      AStep fp s (.delKey v k) (.bool false) s
  | setFast {v w A A' a x ga gx G} : s.hnd v = some ⟨some a, A⟩ → s.hnd w = some ⟨some x, A'⟩ → Moved s.node x G →
      G a = some ga → G x = some gx →
      AStep fp s (.set true v w) (.bool true) (((s.nodes G).graft a x ga gx gx.endOK).handle w ⟨none, A'⟩)
  | setFastNew {v w A A' x G} : s.hnd v = some ⟨none, A⟩ → s.hnd w = some ⟨some x, A'⟩ → Moved s.node x G →
      AStep fp s (.set true v w) (.bool true) (((s.nodes G).handle v ⟨some x, A⟩).handle w ⟨none, A'⟩)
  | set {v w A A' a x ga g n gn} : s.hnd v = some ⟨some a, A⟩ → s.hnd w = some ⟨some x, A'⟩ → s.node a = some ga →
      CopyOf s.node x g n gn → s.seen.newTo g →
      AStep fp s (.set false v w) (.bool true) ((s.grow g A').graft a n ga gn false)
  | setNew {v w A A' x g n gn} : s.hnd v = some ⟨none, A⟩ → s.hnd w = some ⟨some x, A'⟩ → CopyOf s.node x g n gn → s.seen.newTo g →
      AStep fp s (.set false v w) (.bool true) ((s.grow g A').handle v ⟨some n, A⟩)
  | setNo {fast v w A} : s.hnd w = some ⟨none, A⟩ → AStep fp s (.set fast v w) (.bool false) s

/-! ### Which calls are allowed -/

def IntFn.bits : IntFn → Nat
  | .int => 32
  | _ => 64

/-- The signed integers with that many bits. -/
def IntFits (bits : Nat) (n : Int) : Prop := -(2 ^ (bits - 1) : Int) ≤ n ∧ n < 2 ^ (bits - 1)

/-- The conversions of a number are safe: the text is short enough, the number is in range,
and, for the conversions that read on behind the text, the text ends properly. -/
def GetFn.Safe (s : Store) : GetFn → Addr → Bytes → Prop
  | .int, _, raw => raw.length < 128 ∧ ∀ n, HasIntPart raw n → IntFits 32 n
  | .long, a, raw | .longLong, a, raw => raw.length ≤ 128 ∧ s.tail a = true ∧ ∀ n, HasIntPart raw n → IntFits 64 n
  | .double, a, raw => raw.length ≤ 128 ∧ s.tail a = true
  | _, _, _ => True

/-- The node is a root or one of the children its parent lists. -/
def Placed (G : Graph) (a : Addr) : Prop :=
  (∃ gn, G a = some gn ∧ gn.par = none) ∨ ∃ f gf o l r, G f = some gf ∧ gf.val = .con o (l ++ a :: r)

/-- The allocator in which the scratch string was made has not been released. -/
def Store.scrOK (s : Store) : Prop := ∀ A, s.scr = some A → s.live A = true

/-- The call may be made in this store: it only uses handles that may be used, and it does
not run into one of the defects of the code. -/
def Legit {D : Type} (fp : FP D) (s : Store) : Call D → Prop
  | .newAlloc => True
  | .release A => s.live A = true
  | .newValue A => s.live A = true
  | .parse f v b => s.alive v ∧ (f = .parseLen ∨ (0 : Byte) ∉ b) ∧ (s.pad = true ∨ ∃ t, JText t (f.cut b))
  | .text f v b => s.alive v ∧ (f.len = true ∨ (0 : Byte) ∉ b) ∧ (f.scratch = true → s.scrOK)
  | .null v | .bool v _ | .array v | .object v => s.alive v
  | .int f v n => s.alive v ∧ IntFits f.bits n
  | .double v d => s.alive v ∧ (fp.fmt d).length < 32 ∧ IsNum (fp.fmt d)
  | .key f v b => s.alive v ∧ (f.len = true ∨ (0 : Byte) ∉ b) ∧ (f.scratch = true → s.scrOK) ∧
      ∀ a A gn p, s.hnd v = some ⟨some a, A⟩ → s.node a = some gn → gn.par = some p → (s.node p).isSome
  | .get f v => s.alive v ∧ ∀ a A gn raw, s.hnd v = some ⟨some a, A⟩ → s.node a = some gn → gn.val = .num raw → f.Safe s a raw
  | .nav f v => s.alive v ∧ (f = .next → ∀ a A, s.hnd v = some ⟨some a, A⟩ → Placed s.node a) ∧
      ∀ k, f = .obj k → (0 : Byte) ∉ k
  | .copy v => s.alive v
  | .move v => s.alive v ∧ ∀ a A, s.hnd v = some ⟨some a, A⟩ → ∃ G, Moved s.node a G
  | .add o fast v w => s.alive v ∧ s.alive w ∧ ∀ f ks x A gx, s.isCon v o f ks → s.hnd w = some ⟨some x, A⟩ →
      s.node x = some gx → (o = true → gx.key.isSome = true) →
      if fast then ∃ G kids, Moved s.node x G ∧ CanAdd G f x o kids
      else ks = [] ∨ ∃ gf, s.node f = some gf ∧ gf.endOK = true
  | .delAt v i => s.alive v ∧ ∀ f l x r gx, s.isCon v false f (l ++ x :: r) → l.length = i → s.node x = some gx → MoveOK gx l
  | .delKey v k => s.alive v ∧ (0 : Byte) ∉ k ∧ ∀ f l x r gx, s.isCon v true f (l ++ x :: r) →
      s.node.find k (l ++ x :: r) = some x → s.node x = some gx → MoveOK gx l
  | .set fast v w => s.alive v ∧ s.alive w ∧ (fast = true → ∀ x A', s.hnd w = some ⟨some x, A'⟩ →
      ∃ G, Moved s.node x G ∧ ∀ a A, s.hnd v = some ⟨some a, A⟩ → ¬ Reach G x a)

/-! ### Client programs -/

/-- A client: it stops, or makes a call and goes on depending on the answer. -/
inductive Prog (D : Type)
  | done
  | call (c : Call D) (k : Ans D → Prog D)

/-- Whatever the answers are, the client only makes allowed calls. -/
def Prog.Safe {D : Type} (fp : FP D) : Prog D → Store → Prop
  | .done, _ => True
  | .call c k, s => Legit fp s c ∧ ∀ r s', AStep fp s c r s' → Wf s' → (k r).Safe fp s'

/-- The answers `rs` and the last store `s'` are possible for the client on the abstract
machine. -/
inductive Prog.Gives {D : Type} (fp : FP D) : Prog D → Store → List (Ans D) → Store → Prop
  | done {s} : Gives fp .done s [] s
  | call {c k s r s1 rs s'} : AStep fp s c r s1 → Wf s1 → Gives fp (k r) s1 rs s' →
      Gives fp (.call c k) s (r :: rs) s'

end ZJ
