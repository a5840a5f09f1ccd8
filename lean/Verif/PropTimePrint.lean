import Verif.TimePrint
import Verif.PropPrint

/-
Property theorems about the number of steps of printing: C59.
-/

namespace ZJ

section
variable {st st' : St} {P : Addr → Prop} {G : Graph} {v A : Addr} {x : Option Addr} {q : SPtr} {t : Json} {F : Nat}

/-- C59. Printing a document takes steps in proportion to the text printed, however the document
was built, however deep it is, and with every copy to a larger block counted. -/
theorem C59_print (hr : Ready st P G v x A) (hs : Shows st v t) (h : stringify F v st = .ok (q, st')) :
    ∃ k, stringifyT F v st = .ok ((q, k), st') ∧ k ≤ 80 * t.print.length + 172 := by
  obtain ⟨k, e⟩ := TM.of_val (stringifyT_val F v) h
  obtain ⟨⟨c, bf, rfl, h1, h2⟩, _⟩ := C09_result hr hs h
  refine ⟨k, e, ?_⟩
  rcases stringifyT_le e with ⟨h3, _⟩ | ⟨c', x', h3, h4, h5⟩
  · cases h3
  · cases h3
    rw [h1] at h4; cases h4
    rw [h2] at h5
    simp only [List.length_append, List.length_cons, List.length_nil] at h5
    omega

/-- C59. And it does return within that many steps. -/
theorem C59_print_returns (hr : Ready st P G v x A) (hs : Shows st v t) :
    ∃ F q k st', stringifyT F v st = .ok ((q, k), st') ∧ HoldsText st' q t.print ∧ k ≤ 80 * t.print.length + 172 := by
  obtain ⟨F, q, st', h1, h2, _⟩ := C09_stringify hr hs
  obtain ⟨k, e, h3⟩ := C59_print hr hs (h1 F (Nat.le_refl _))
  exact ⟨F, q, k, st', e, h2, h3⟩

/-- C59, for every state, also one whose nodes are no document: if printing returns, it took steps
in proportion to the bytes it wrote. -/
theorem C59_any (h : stringify F v st = .ok (q, st')) : ∃ k, stringifyT F v st = .ok ((q, k), st') ∧
    (q = .lit { bytes := [] } ∧ k = 1 ∨ ∃ c y, q = .buf c 0 ∧ st'.bufs c = some y ∧ k ≤ 80 * y.data.length + 92) := by
  obtain ⟨k, e⟩ := TM.of_val (stringifyT_val F v) h
  exact ⟨k, e, stringifyT_le e⟩

end

/-- The hypotheses can be met: by every document. -/
example {t : Json} (ht : t.Valid) (slack : Nat → Nat) : ∃ st P G v a, Ready st P G v (some a) 0 ∧ Shows st v t := by
  obtain ⟨st, P, G, v, a, h, _⟩ := exists_example ht slack
  exact ⟨st, P, G, v, a, h.ready, h.ready.shows h.doc⟩

/-- The steps of printing what `b` parses to. -/
def printStepsOf (b : Bytes) : Option Nat :=
  match (do
    let v ← newValue (← newAllocator)
    let p ← callerText (b ++ [0])
    let _ ← parseFast v p
    stringifyT 99 v : M (SPtr × Nat)) (St.init fun _ => 3) with
  | .ok ((_, k), _) => some k
  | _ => none

example : printStepsOf b!"[1,{\"a\":[true,[]]},\"x\"]" = some 128 := by decide +kernel
example : printStepsOf b!"7" = some 16 := by decide +kernel

end ZJ
