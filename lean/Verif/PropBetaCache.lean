import Verif.PropBetaSet

/-
C72: what the editing functions of the older header do to what the handles remember.
-/

set_option linter.unusedSimpArgs false
set_option linter.unusedVariables false

namespace ZJ.Beta

variable {D : Type} {α β : Type}

theorem bind_inv {m : BM D α} {f : α → BM D β} {s s' : BSt D} {b : β} (h : (m >>= f) s = .ok (b, s')) :
    ∃ a s1, m s = .ok (a, s1) ∧ f a s1 = .ok (b, s') := by
  rw [bind_run] at h
  generalize hx : m s = x at h
  cases x with
  | ok r => exact ⟨r.1, r.2, rfl, h⟩
  | ub u => cases h
  | timeout => cases h

theorem up_inv {m : M α} {s s' : BSt D} {a : α} (h : up m s = .ok (a, s')) : m s.st = .ok (a, s'.st) ∧ s'.mem = s.mem := by
  unfold up at h
  generalize hx : m s.st = x at h
  cases x with
  | ok r => cases h; exact ⟨rfl, rfl⟩
  | ub u => cases h
  | timeout => cases h

/-- Whatever is remembered was remembered before: a cache is kept or cleared. -/
def Kept (s s' : BSt D) : Prop := ∀ u, s'.mem u = s.mem u ∨ s'.mem u = {}

theorem Kept.refl {s : BSt D} : Kept s s := fun _ => .inl rfl
theorem Kept.trans {s s1 s2 : BSt D} (h : Kept s s1) (h' : Kept s1 s2) : Kept s s2 := fun u => by
  rcases h' u with e | e
  · rw [e]; exact h u
  · exact .inr e

structure Mild (m : BM D α) : Prop where
  kept : ∀ s a s', m s = .ok (a, s') → Kept s s'

theorem Mild.pure (a : α) : Mild (Pure.pure a : BM D α) := ⟨fun _ _ _ h => by cases h; exact .refl⟩
theorem Mild.up (m : M α) : Mild (ZJ.Beta.up m : BM D α) := ⟨fun _ _ _ h u => .inl (by rw [(up_inv h).2])⟩
theorem Mild.bind {m : BM D α} {f : α → BM D β} (h : Mild m) (hf : ∀ a, Mild (f a)) : Mild (m >>= f) := ⟨fun _ _ _ e => by
  obtain ⟨a, s1, e1, e2⟩ := bind_inv e
  exact (h.kept _ _ _ e1).trans ((hf a).kept _ _ _ e2)⟩
theorem Mild.initCache (v : Addr) : Mild (ZJ.Beta.initCache v : BM D Unit) := ⟨fun s _ s' h u => by
  cases h
  by_cases e : u = v
  · subst e; exact .inr (by simp)
  · exact .inl (by simp [upd, e])⟩

/-- Walks through a program. -/
macro "mild" : tactic => `(tactic| repeat (first
  | exact Mild.pure _ | exact Mild.up _ | exact Mild.initCache _ | assumption
  | (refine Mild.bind ?_ ?_) | (intro _) | split))

theorem Mild.innerNew (A : Nat) (n : Option Addr) : Mild (ZJ.Beta.innerNew A n : BM D Addr) := by
  unfold ZJ.Beta.innerNew
  mild
theorem Mild.copy (fuel : Nat) (v : Addr) : Mild (ZJ.Beta.copy fuel v : BM D _) := by
  have h := fun A => Mild.innerNew (D := D) A none
  unfold ZJ.Beta.copy ZJ.Beta.newValue
  refine .bind (.up _) fun val => ?_
  split
  · exact .pure _
  · refine .bind (h _) fun _ => ?_
    mild

theorem Mild.objGet (fuel : Nat) (v : Addr) (p : SPtr) : Mild (ZJ.Beta.objGet fuel v p : BM D _) := by
  unfold ZJ.Beta.objGet
  mild

theorem Mild.objGetLen (fuel : Nat) (v : Addr) (p : SPtr) (n : Nat) : Mild (ZJ.Beta.objGetLen fuel v p n : BM D _) := by
  unfold ZJ.Beta.objGetLen
  mild
theorem Mild.arrayGet (fuel : Nat) (v : Addr) (i : Nat) : Mild (ZJ.Beta.arrayGet fuel v i : BM D _) := by
  unfold ZJ.Beta.arrayGet
  mild
theorem Mild.begin_ (v : Addr) : Mild (ZJ.Beta.begin_ v : BM D _) := by
  unfold ZJ.Beta.begin_
  mild
theorem Mild.next_ (v : Addr) : Mild (ZJ.Beta.next_ v : BM D _) := by
  unfold ZJ.Beta.next_
  mild
theorem Mild.clearing (v : Addr) (m : M Unit) : Mild (ZJ.Beta.clearing v m : BM D _) := by
  unfold ZJ.Beta.clearing
  mild
theorem Mild.guarded (v : Addr) (m : M Bool) : Mild (ZJ.Beta.guarded v m : BM D _) := by
  unfold ZJ.Beta.guarded
  mild
theorem Mild.move (v : Addr) : Mild (ZJ.Beta.move v : BM D _) := .up _
theorem Mild.setFast (fuel : Nat) (v w : Addr) : Mild (ZJ.Beta.setFast fuel v w : BM D _) := by
  have := Mild.move (D := D) w
  unfold ZJ.Beta.setFast
  mild
theorem Mild.set (fuel : Nat) (v w : Addr) : Mild (ZJ.Beta.set fuel v w : BM D _) := by
  have := Mild.copy (D := D) fuel w
  unfold ZJ.Beta.set
  mild
theorem Mild.objAddFast (v w : Addr) : Mild (ZJ.Beta.objAddFast v w : BM D _) := by
  have := Mild.move (D := D) w
  unfold ZJ.Beta.objAddFast
  mild
theorem Mild.arrayAddFast (v w : Addr) : Mild (ZJ.Beta.arrayAddFast v w : BM D _) := by
  have := Mild.move (D := D) w
  unfold ZJ.Beta.arrayAddFast
  mild
theorem Mild.objAdd (fuel : Nat) (v w : Addr) : Mild (ZJ.Beta.objAdd fuel v w : BM D _) := by
  have := Mild.copy (D := D) fuel w
  unfold ZJ.Beta.objAdd
  mild
theorem Mild.arrayAdd (fuel : Nat) (v w : Addr) : Mild (ZJ.Beta.arrayAdd fuel v w : BM D _) := by
  have := Mild.copy (D := D) fuel w
  unfold ZJ.Beta.arrayAdd
  mild
theorem Mild.objDel (fuel : Nat) (v : Addr) (p : SPtr) : Mild (ZJ.Beta.objDel fuel v p : BM D _) := by
  unfold ZJ.Beta.objDel
  refine .bind (.objGet _ _ _) fun o => ?_
  split
  · exact .pure _
  · exact .move _
theorem Mild.arrayDel (fuel : Nat) (v : Addr) (i : Nat) : Mild (ZJ.Beta.arrayDel fuel v i : BM D _) := by
  unfold ZJ.Beta.arrayDel
  refine .bind (.arrayGet _ _ _) fun o => ?_
  split
  · exact .pure _
  · exact .move _

/-- C72: no editing call makes a handle remember anything; every handle remembers what it did before or nothing. -/
theorem C72_edit_keeps {s s' : BSt D} {a : α} (r : Req α) {fuel : Nat} (h : r.old fuel s = .ok (a, s')) :
    ∀ u, s'.mem u = s.mem u ∨ s'.mem u = {} := by
  suffices hm : Mild (r.old fuel : BM D α) from hm.kept _ _ _ h
  cases r with
  | newAllocator => exact .up ZJ.newAllocator
  | release A => exact .up (ZJ.releaseAllocator A)
  | getBool v => exact .up _
  | isNull v => exact .up _
  | setNumStrFast v p => exact .guarded _ _
  | setNumStrLenFast v p n => exact .guarded _ _
  | setNumStrLen v p n => exact .guarded _ _
  | setStrLenFast v p n => exact .guarded _ _
  | setStrLen v p n => exact .guarded _ _
  | setKeyFast v p => exact .guarded _ _
  | setKeyLenFast v p n => exact .guarded _ _
  | setKeyLen v p n => exact .guarded _ _
  | newValue A => exact .innerNew _ _
  | objGet v p => exact .objGet _ _ _
  | objGetLen v p n => exact .objGetLen _ _ _ _
  | arrayGet v i => exact .arrayGet _ _ _
  | first v => exact .begin_ _
  | next v => exact .next_ _
  | type v => exact .up _
  | size v => exact .up _
  | setNull v => exact .clearing _ _
  | setBool v b => exact .clearing _ _
  | setArray v => exact .clearing _ _
  | setObj v => exact .clearing _ _
  | setNumStr v p => exact .guarded _ _
  | setStr v p => exact .guarded _ _
  | setStrFast v p => exact .guarded _ _
  | setKey v p => exact .guarded _ _
  | copy v => exact .copy _ _
  | move v => exact .move _
  | set v vv => exact .set _ _ _
  | setFast v vv => exact .setFast _ _ _
  | objAdd v vv => exact .objAdd _ _ _
  | objAddFast v vv => exact .objAddFast _ _
  | arrayAdd v vv => exact .arrayAdd _ _ _
  | arrayAddFast v vv => exact .arrayAddFast _ _
  | objDel v p => exact .objDel _ _ _
  | arrayDel v i => exact .arrayDel _ _ _
  | stringify v => exact .up _
  | read p n => exact .up _

theorem initCache_inv {s s' : BSt D} {v : Addr} {u : Unit} (h : ZJ.Beta.initCache v s = .ok (u, s')) : s'.mem = upd s.mem v {} ∧ s'.st = s.st := by
  cases h; exact ⟨rfl, rfl⟩

/-- What a handle remembers stays cleared. -/
theorem Mild.empty {m : BM D α} (hm : Mild m) {s s' : BSt D} {a : α} (h : m s = .ok (a, s')) {u : Addr} (hu : s.mem u = {}) : s'.mem u = {} := by
  rcases hm.kept _ _ _ h u with e | e
  · rw [e, hu]
  · exact e

/-- C72: after `z_ValueSet` the target remembers nothing, so it is asked afresh. -/
theorem C72_set_forgets {s s' : BSt D} {v vv : Addr} {fuel : Nat} (h : set fuel v vv s = .ok (true, s')) : s'.mem v = {} := by
  unfold set at h
  obtain ⟨o, s1, h1, h⟩ := bind_inv h
  split at h
  · cases h
  · obtain ⟨_, s2, h2, h⟩ := bind_inv h
    have e : s2.mem v = {} := by rw [(initCache_inv h2).1]; simp
    refine Mild.empty ?_ h e
    mild

/-- C72: after `z_ValueSetFast` both handles remember nothing. -/
theorem C72_setFast_forgets {s s' : BSt D} {v vv : Addr} {fuel : Nat} (h : setFast fuel v vv s = .ok (true, s')) :
    s'.mem v = {} ∧ s'.mem vv = {} := by
  unfold setFast at h
  obtain ⟨o, s1, h1, h⟩ := bind_inv h
  split at h
  · cases h
  · obtain ⟨_, s2, h2, h⟩ := bind_inv h
    have e : s2.mem v = {} := by rw [(initCache_inv h2).1]; simp
    obtain ⟨_, s3, h3, h⟩ := bind_inv h
    have e1 : s3.mem vv = {} := by rw [(initCache_inv h3).1]; simp
    have e2 := Mild.empty (.initCache _) h3 e
    exact ⟨Mild.empty (by mild) h e2, Mild.empty (by mild) h e1⟩

/-- C72: a value that was moved into a container leaves an empty handle that remembers nothing. -/
theorem C72_add_forgets {s s' : BSt D} {v vv : Addr} :
    (arrayAddFast v vv s = .ok (true, s') → s'.mem vv = {}) ∧ (objAddFast v vv s = .ok (true, s') → s'.mem vv = {}) := by
  constructor
  · intro h
    unfold arrayAddFast at h
    obtain ⟨x1, s1, h1, h⟩ := bind_inv h
    rcases x1 with ⟨_ | f, A⟩
    · cases h
    · dsimp only at h
      obtain ⟨_, s2, h2, h⟩ := bind_inv h
      split at h
      · cases h
      · obtain ⟨_, s3, h3, h⟩ := bind_inv h
        split at h
        · cases h
        · obtain ⟨_, s4, h4, h⟩ := bind_inv h
          exact Mild.empty (by mild) h (show s4.mem vv = {} by rw [(initCache_inv h4).1]; simp)
  · intro h
    unfold objAddFast at h
    obtain ⟨x1, s1, h1, h⟩ := bind_inv h
    rcases x1 with ⟨_ | f, A⟩
    · cases h
    · dsimp only at h
      obtain ⟨_, s2, h2, h⟩ := bind_inv h
      split at h
      · cases h
      · obtain ⟨x3, s3, h3, h⟩ := bind_inv h
        rcases x3 with ⟨_ | x, B⟩
        · cases h
        · dsimp only at h
          obtain ⟨_, s4, h4, h⟩ := bind_inv h
          split at h
          · cases h
          · obtain ⟨_, s5, h5, h⟩ := bind_inv h
            split at h
            · cases h
            · obtain ⟨_, s6, h6, h⟩ := bind_inv h
              exact Mild.empty (by mild) h (show s6.mem vv = {} by rw [(initCache_inv h6).1]; simp)

/-- C72: `z_ValueSet` through a handle, with an honest handle before and after: the handle tells the new value,
whatever it remembered of the old one. -/
theorem C72_assign_partial {s : BSt D} {P : Addr → Prop} {G : Graph} {v vv A A' x : Addr} {y : Option Addr} {t : Json}
    (hv : Ready s.st P G v y A) (hx : Ready s.st P G vv (some x) A') (ht : Shows s.st vv t) (hval : t.Valid) (hn : NoClash s.st v vv) :
    ∃ c, ∀ F, ∃ s', set (F + c) v vv s = .ok (true, s') ∧ Honest s' v A (some t) := by
  have hheld : Held s.st vv := ⟨hx.inv.ok.val_lt hx.val, x, A', hx.val⟩
  have key : ∃ c st' P' G' z, (∀ F, ZJ.set (F + c) v vv s.st = .ok (true, st')) ∧ Ready st' P' G' v (some z) A ∧ Shows st' v t := by
    cases y with
    | none =>
      obtain ⟨c, st', n, P', G', h1, _, _, h2, h3, _⟩ := C33_set_empty hv hx ht
      exact ⟨c, st', P', G', n, h1, h2, h3⟩
    | some a =>
      obtain ⟨c, st', P', G', h1, _, _, h2, h3, _⟩ := C33_set_partial hv hx ht
      exact ⟨c, st', P', G', a, h1, h2, h3⟩
  obtain ⟨c, st', P', G', z, h1, h2, h3⟩ := key
  refine ⟨c, fun F => ?_⟩
  obtain ⟨s', e, l, hl⟩ := C75_transfer (s := s) (.set v vv) ⟨hheld, hn⟩ (h1 F)
  refine ⟨s', e, ?_⟩
  have h4 : Ready s'.st P' G' v (some z) A := by rw [hl]; exact Ready.log h2
  exact Honest.clean h4 (h4.shows (h2.unf h3)) hval s'.mem (C72_set_forgets e)

/-- C72: the same for `z_ValueSetFast`, in the cases in which the value can be moved (C30 to C33). -/
theorem C72_assignFast_partial {s : BSt D} {P : Addr → Prop} {G : Graph} {v vv A A' x : Addr} {y : Option Addr} {t : Json}
    (hv : Ready s.st P G v y A) (hx : Ready s.st P G vv (some x) A') (ht : Shows s.st vv t) (hval : t.Valid) (hn : NoClash s.st v vv)
    (hm : Movable G x) (hr : ∀ a, y = some a → ¬ Reach G x a) :
    ∃ c, ∀ F, ∃ s', setFast (F + c) v vv s = .ok (true, s') ∧ Honest s' v A (some t) ∧ s'.mem vv = {} := by
  have key : ∃ c st' P' G' z, (∀ F, ZJ.setFast (F + c) v vv s.st = .ok (true, st')) ∧ Ready st' P' G' v (some z) A ∧ Shows st' v t := by
    cases y with
    | none =>
      obtain ⟨st', G', h1, _, _, h2, h3, _⟩ := C33_setFast_empty hv hx ht hm
      exact ⟨0, st', P, G', x, fun F => h1 _, h2, h3⟩
    | some a =>
      obtain ⟨c, st', _, G', h1, _, _, _, h2, h3, _⟩ := C33_setFast hv hx ht hm (hr a rfl)
      exact ⟨c, st', P, G', a, h1, h2, h3⟩
  obtain ⟨c, st', P', G', z, h1, h2, h3⟩ := key
  refine ⟨c, fun F => ?_⟩
  obtain ⟨s', e, l, hl⟩ := C75_transfer (s := s) (.setFast v vv) hn (h1 F)
  refine ⟨s', e, ?_, (C72_setFast_forgets e).2⟩
  have h4 : Ready s'.st P' G' v (some z) A := by rw [hl]; exact Ready.log h2
  exact Honest.clean h4 (h4.shows (h2.unf h3)) hval s'.mem (C72_setFast_forgets e).1

/-- A string is read, then assigned, then read again. -/
example : out ((do
    let p ← up (callerText (b!"[\"old\",\"new\"]" ++ [0]))
    let _ ← parse 0 p
    match ← arrayGet 99 0 0, ← arrayGet 99 0 1 with
    | some v, some w =>
      let a ← up (readC (← getString v))
      let r ← set 99 v w
      return (a, r, ← up (readC (← getString v)))
    | _, _ => return (none, false, none) : BM Unit (Option Bytes × Bool × Option Bytes)) (start Unit)) =
    .ok (some b!"old", true, some b!"new") := by
  decide +kernel

end ZJ.Beta
