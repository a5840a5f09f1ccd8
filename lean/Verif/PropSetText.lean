import Verif.PropKeys

/-
C19 for the setters of strings and numbers.
-/

namespace ZJ

section
variable {st st' : St} {P P' : Addr → Prop} {G : Graph} {v w A B a : Addr} {x y : Option Addr} {p q : SPtr} {b s k : Bytes}
  {t : Json}

/-- C19, the setters of C strings: whenever one of them returns true the value is the string or number set
(`Becomes`: `C19_get`, `C19_key` and `C19_place` say what the getters, `zj_GetKey` and other handles see). -/
theorem C19_text (h : Ready st P G v x A) (hs : CStr st p s) (hl : Lent st p) :
    (setStr v p st = .ok (true, st') ∨ setStrFast v p st = .ok (true, st') → ∃ P', Becomes st st' P P' G v x A (.str s)) ∧
    (setNumStr v p st = .ok (true, st') ∨ setNumStrFast v p st = .ok (true, st') → ∃ P', Becomes st st' P P' G v x A (.num s)) := by
  refine ⟨?_, ?_⟩ <;> rintro (e | e)
  · rcases C15_setStr h hs with ⟨_, s1, e1, hb⟩ | ⟨_, e1⟩ <;> rw [e] at e1 <;> cases e1
    exact ⟨_, hb⟩
  · rcases C15_setStrFast h hs hl with ⟨_, s1, e1, hb⟩ | ⟨_, e1⟩ <;> rw [e] at e1 <;> cases e1
    exact ⟨_, hb⟩
  · rcases C16_setNumStr h hs with ⟨_, s1, e1, hb⟩ | ⟨_, e1⟩ <;> rw [e] at e1 <;> cases e1
    exact ⟨_, hb⟩
  · rcases C16_setNumStrFast h hs hl with ⟨_, s1, e1, hb⟩ | ⟨_, e1⟩ <;> rw [e] at e1 <;> cases e1
    exact ⟨_, hb⟩

/-- C19, the setters of texts with a length. -/
theorem C19_textLen (h : Ready st P G v x A) (hs : Reads st p s) (hl : Lent st p) :
    (setStrLen v p s.length st = .ok (true, st') ∨ setStrLenFast v p s.length st = .ok (true, st') →
      ∃ P', Becomes st st' P P' G v x A (.str s)) ∧
    (setNumStrLen v p s.length st = .ok (true, st') ∨ setNumStrLenFast v p s.length st = .ok (true, st') →
      ∃ P', Becomes st st' P P' G v x A (.num s)) := by
  obtain ⟨a1, a2⟩ := C17_setStrLen h hs hl
  obtain ⟨a3, a4⟩ := C17_setNumStrLen h hs hl
  refine ⟨?_, ?_⟩ <;> rintro (e | e)
  · rcases a1 with ⟨_, s1, P1, e1, hb⟩ | ⟨_, s1, e1, _⟩ <;> rw [e] at e1 <;> cases e1
    exact ⟨_, hb⟩
  · rcases a2 with ⟨_, s1, e1, hb⟩ | ⟨_, s1, e1, _⟩ <;> rw [e] at e1 <;> cases e1
    exact ⟨_, hb⟩
  · rcases a3 with ⟨_, s1, P1, e1, hb⟩ | ⟨_, s1, e1, _⟩ <;> rw [e] at e1 <;> cases e1
    exact ⟨_, hb⟩
  · rcases a4 with ⟨_, s1, e1, hb⟩ | ⟨_, s1, e1, _⟩ <;> rw [e] at e1 <;> cases e1
    exact ⟨_, hb⟩

/-- Calls that return true: a member of an object set to a string and an element to a number, run. -/
example : ((do
    let (v, _) ← make 0 b!"{\"k\":[1]}"
    let some w ← objGet 9 v (← callerText (b!"k" ++ [0])) | return none
    let r ← setStr w (← callerText (b!"a\\n" ++ [0]))
    let s ← stringify 30 v
    return some (r, ← readN s 11) : M _) (start fun _ => 0)).out = .ok (some (true, b!"{\"k\":\"a\\n\"}")) := by decide +kernel

example : ∃ st P G v x A p st', Ready st P G v x A ∧ CStr st p b!"-1.5" ∧ Lent st p ∧ setNumStr v p st = .ok (true, st') := by
  have h := start_ready fun _ => 0
  have hn : IsNum b!"-1.5" := ⟨[0x2D], b!"1", b!".5", [], rfl, .inr rfl, .inr ⟨_, _, rfl, by decide, by decide, by decide⟩,
    .inr ⟨_, rfl, by simp [IsDigits]; decide⟩, .inl rfl⟩
  have hR := h.addC (d := b!"-1.5" ++ [0])
  have hc : CStr _ _ b!"-1.5" := addC_cstr (st := start fun _ => 0) (by decide)
  rcases C16_setNumStr hR hc with ⟨_, s1, e1, _⟩ | ⟨hn', _⟩
  · exact ⟨_, _, _, _, _, _, _, s1, hR, hc, addC_lent h.inv.ok, e1⟩
  · exact absurd hn hn'

end

end ZJ
