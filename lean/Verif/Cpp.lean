import Verif.PropMix

/-
The C++ classes of zzzjson.hpp.

A `zzzjson::Value` is a block of 8 bytes (a "box") with a pointer to a `zj_Value`. It is taken
from the allocator of that `zj_Value` and goes with it. `zzzjson::Allocator` releases the
allocator when it is destroyed.

Simplifications: the boxes are kept beside the memory of the C library (`Boxes`), so their 8
bytes do not show up in its log. A `zzzjson::Allocator` has the number of its allocator. The
methods `GetNum` and `SetNum` are those for `double`. `ObjGetLen` returns a `const Value *`, on
which C++ allows no method to be called; the model lets the client cast the `const` away.
-/

namespace ZJ

variable {D : Type}

/-- zzzjson.hpp:28, 144 `class Value`: the pointer `val`. `owner` is the allocator the box came from
(not a field). -/
structure Box where
  val : Addr
  owner : Nat

/-- The boxes. -/
structure Boxes where
  map : Addr → Option Box
  /-- next unused address -/
  next : Nat

def Boxes.empty : Boxes := ⟨fun _ => none, 0⟩

/-- `this->val` -/
def Boxes.get (bx : Boxes) (w : Addr) : M Addr :=
  match bx.map w with
  | some b => pure b.val
  | none => fail .wild

/-- `zj_allocatorAlloc(A, sizeof(Value))` and `ret->val = v`. -/
def Boxes.add (bx : Boxes) (A v : Nat) : M (Addr × Boxes) := fun st =>
  if st.allocs A then .ok ((bx.next, ⟨upd bx.map bx.next (some ⟨v, A⟩), bx.next + 1⟩), st) else .ub .wild

/-- What is left when `A` is released. -/
def Boxes.drop (bx : Boxes) (A : Nat) : Boxes :=
  { bx with map := fun w => (bx.map w).bind fun b => if b.owner = A then none else some b }

/-- zzzjson.hpp:136-143 `Value::innerNew` -/
def Boxes.innerNew (bx : Boxes) : Option Addr → M (Option Addr × Boxes)
  | none => pure (none, bx)
  | some v => do
    let A := (← rdVal v).a
    let (w, bx) ← bx.add A v
    return (some w, bx)

/-- A call of a method. The handles in the call are boxes. The line numbers are those of
zzzjson.hpp. -/
def cppExec (fp : FP D) (F : Nat) (bx : Boxes) : Call D → M (Ans D × Boxes)
  /- 16 `Allocator()` -/
  | .newAlloc => do return (.alloc (← newAllocator), bx)
  /- 17 `~Allocator()`; the boxes in this memory are gone too -/
  | .release A => do
    releaseAllocator A
    return (.unit, bx.drop A)
  /- 30-33 `NewValue(Allocator *)` -/
  | .newValue A => do
    let v ← newValue A
    let (w, bx) ← bx.innerNew (some v)
    return (.handle w, bx)
  /- 40-42 `ParseFast`, `ParseLen`, `Parse` -/
  | .parse f w b => do return (← exec fp F (.parse f (← bx.get w) b), bx)
  /- 93-95 `SetNumStrLenFast` calls `SetNumStrLen`, which copies the text -/
  | .text .numLenFast w b => do return (← exec fp F (.text .numLen (← bx.get w) b), bx)
  /- 88-92 `SetNumStr`, `SetNumStrLen`, `SetNumStrFast`; 101-110 `SetStr` and its variants -/
  | .text f w b => do return (← exec fp F (.text f (← bx.get w) b), bx)
  /- 86 `SetNull` -/
  | .null w => do return (← exec fp F (.null (← bx.get w)), bx)
  /- 87 `SetBool` -/
  | .bool w b => do return (← exec fp F (.bool (← bx.get w) b), bx)
  /- 123 `SetArray` -/
  | .array w => do return (← exec fp F (.array (← bx.get w)), bx)
  /- 124 `SetObj` -/
  | .object w => do return (← exec fp F (.object (← bx.get w)), bx)
  /- 98-100 `SetInt`, `SetLong`, `SetLongLong` -/
  | .int f w n => do return (← exec fp F (.int f (← bx.get w) n), bx)
  /- 96-97 `SetNum`, `SetDouble` -/
  | .double w d => do return (← exec fp F (.double (← bx.get w) d), bx)
  /- 111-122 `SetKey` and its variants -/
  | .key f w b => do return (← exec fp F (.key f (← bx.get w) b), bx)
  /- 43-58 the getters, 67-68 `Type`, `Size` -/
  | .get f w => do return (← exec fp F (.get f (← bx.get w)), bx)
  /- 59-66 `ObjGet`, `ObjGetLen`, 69-80 `ArrayGet`, `Begin`, `Next` -/
  | .nav f w => do
    let (w, bx) ← bx.innerNew (← f.run F (← bx.get w))
    return (.handle w, bx)
  /- 81-84 `Copy` -/
  | .copy w => do
    let (w, bx) ← bx.innerNew (← ZJ.copy F (← bx.get w))
    return (.handle w, bx)
  /- 85 `Move` -/
  | .move w => do return (← exec fp F (.move (← bx.get w)), bx)
  /- 127-130 `ObjAddFast`, `ObjAdd`, `ArrayAddFast`, `ArrayAdd` -/
  | .add o fast w x => do return (← exec fp F (.add o fast (← bx.get w) (← bx.get x)), bx)
  /- 131 `ArrayDel` -/
  | .delAt w i => do return (← exec fp F (.delAt (← bx.get w) i), bx)
  /- 132 `ObjDel` -/
  | .delKey w k => do return (← exec fp F (.delKey (← bx.get w) k), bx)
  /- 125-126 `SetFast`, `Set` -/
  | .set fast w x => do return (← exec fp F (.set fast (← bx.get w) (← bx.get x)), bx)

/-- zzzjson.hpp:34-39 the method `NewValue()`: a value in the memory of `val`. -/
def cppNewValue (bx : Boxes) (w : Addr) : M (Option Addr × Boxes) := do
  let A := (← rdVal (← bx.get w)).a
  let v ← newValue A
  let (w, bx) ← bx.add A v
  return (some w, bx)

/-- A client in C++. It numbers its boxes and allocators itself, in the order in which it got
them (`S`, see `Prog.named`). The result is what it is told. -/
def Prog.cppRun (fp : FP D) (F : Nat) : Prog D → Tab → Boxes → M (List (Ans D))
  | .done, _, _ => return []
  | .call c k, S, bx =>
    match S.call c with
    | none => return []
    | some c' => do
      let (r, bx) ← cppExec fp F bx c'
      let rs ← (k (S.ans r)).cppRun fp F (S.next r) bx
      return S.ans r :: rs

end ZJ
