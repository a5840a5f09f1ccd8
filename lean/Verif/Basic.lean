/-
Bytes and outcomes shared by every module of the model.
-/

namespace ZJ

/-- A C `char`, seen as the unsigned byte it stores. -/
abbrev Byte := UInt8
/-- A sequence of bytes. -/
abbrev Bytes := List UInt8

/-- `b!"text"` is the list of the character codes of `text`. -/
syntax:max "b!" str : term
macro_rules
  | `(b!$s) => do
    let cs := s.getString.toList.map fun c =>
      Lean.Syntax.mkNumLit (toString c.toNat)
    let stx ← `([$(cs.toArray),*])
    `(($stx : List UInt8))

/-- Reasons for undefined behaviour. -/
inductive UB where
  /-- dereference of a null pointer -/
  | nullDeref
  /-- read or write outside a buffer -/
  | oob
  /-- use of a field or byte that was never written -/
  | uninit
  /-- reading the member of a union that is not the one last written -/
  | badUnion
  /-- access through an address that is not (or no longer) allocated -/
  | wild
  /-- write outside a local array -/
  | stackSmash
  /-- signed integer overflow or a conversion out of range -/
  | overflow
  /-- `free` of something that is not a live `malloc` block -/
  | badFree
deriving DecidableEq, Repr

/-- Outcome of running a piece of C code: a result, undefined behaviour, or the
fuel of a loop ran out (used to state and prove termination). -/
inductive Res (α : Type u) where
  | ok (a : α)
  | ub (u : UB)
  | timeout
deriving DecidableEq, Repr

namespace Res

@[inline] protected def bind {α β : Type u} : Res α → (α → Res β) → Res β
  | ok a, f => f a
  | ub u, _ => ub u
  | timeout, _ => timeout

instance : Monad Res where
  pure := ok
  bind := Res.bind

@[simp] theorem ok_bind {α β : Type u} (a : α) (f : α → Res β) : (ok a >>= f) = f a := rfl
@[simp] theorem ub_bind {α β : Type u} (u : UB) (f : α → Res β) : (ub u >>= f) = ub u := rfl
@[simp] theorem timeout_bind {α β : Type u} (f : α → Res β) :
    ((timeout : Res α) >>= f) = timeout := rfl
@[simp] theorem pure_eq {α : Type u} (a : α) : (pure a : Res α) = ok a := rfl

theorem bind_eq_ok {α β : Type u} {x : Res α} {f : α → Res β} {b : β} :
    (x >>= f) = ok b ↔ ∃ a, x = ok a ∧ f a = ok b := by
  cases x <;> simp

end Res

/-- A property of all bytes can be checked on the 256 values. -/
theorem allBytes {P : UInt8 → Prop} (h : ∀ n : Fin 256, P ⟨⟨n⟩⟩) : ∀ c, P c :=
  fun c => h c.toBitVec.toFin

end ZJ
