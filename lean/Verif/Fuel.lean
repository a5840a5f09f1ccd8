import Verif.Api

/-
The `fuel` of the loops is only a device of the model: more fuel can turn a `timeout` into
an outcome and changes nothing else. So "the result of `zj_Stringify`" (and so on) is well
defined, and a `timeout` for every fuel is an endless loop of the code.
-/

set_option linter.unusedSimpArgs false

namespace ZJ

/-- `m'` does what `m` does, unless `m` ran out of fuel. -/
def MLe {α : Type} (m m' : M α) : Prop := ∀ st, m st = .timeout ∨ m' st = m st

theorem MLe.refl {α} (m : M α) : MLe m m := fun _ => .inr rfl

theorem MLe.timeout {α} (m : M α) : MLe (lift .timeout) m := fun _ => .inl rfl

theorem MLe.trans {α} {a b c : M α} (h : MLe a b) (h' : MLe b c) : MLe a c := fun st => by
  rcases h st with h | h
  · exact .inl h
  · rcases h' st with h' | h'
    · exact .inl (by rw [← h]; exact h')
    · exact .inr (by rw [h', h])

theorem MLe.bind {α β} {m m' : M α} {f f' : α → M β} (h : MLe m m') (hf : ∀ a, MLe (f a) (f' a)) :
    MLe (m >>= f) (m' >>= f') := fun st => by
  rw [M.bind_run, M.bind_run]
  rcases h st with h | h
  · rw [h]; exact .inl rfl
  · rw [h]
    cases m st with
    | ok r => exact hf r.1 r.2
    | ub u => exact .inr rfl
    | timeout => exact .inl rfl

theorem MLe.bind' {α β} {m : M α} {f f' : α → M β} (hf : ∀ a, MLe (f a) (f' a)) :
    MLe (m >>= f) (m >>= f') := MLe.bind (MLe.refl m) hf

theorem MLe.ok {α} {m m' : M α} (h : MLe m m') {st r} (hr : m st = .ok r) : m' st = .ok r := by
  rcases h st with h | h
  · rw [hr] at h; cases h
  · rw [h, hr]

theorem MLe.ite {α} {c : Prop} [Decidable c] {a b a' b' : M α} (h : MLe a a') (h' : MLe b b') :
    MLe (if c then a else b) (if c then a' else b') := by split <;> assumption

macro "mle" : tactic => `(tactic| repeat' (first
  | with_reducible exact MLe.refl _
  | with_reducible apply MLe.timeout
  | with_reducible apply MLe.ite
  | with_reducible refine MLe.bind' fun _ => ?_
  | with_reducible refine MLe.bind ?_ fun _ => ?_))

theorem stringifyLoop_mono {v : Addr} : ∀ (f g : Nat), f ≤ g → ∀ pc n z, MLe (stringifyLoop v f pc n z) (stringifyLoop v g pc n z)
  | 0, _, _ => fun _ _ _ => MLe.timeout _
  | f + 1, 0, h => absurd h (by omega)
  | f + 1, g + 1, h => by
    have IH := stringifyLoop_mono (v := v) f g (by omega)
    intro pc n z
    cases pc with
    | head =>
      unfold stringifyLoop
      mle
      rename_i r
      obtain ⟨z, _ | k⟩ := r <;> apply IH
    | close =>
      unfold stringifyLoop
      mle
      · apply IH
      · rename_i r
        cases r with
        | none => mle <;> apply IH
        | some k => mle; apply IH

theorem stringify_mono {v : Addr} {f g : Nat} (h : f ≤ g) : MLe (stringify f v) (stringify g v) := by
  unfold stringify
  mle
  rename_i x
  cases x.n with
  | none => exact MLe.refl _
  | some a =>
    mle
    rename_i z
    obtain ⟨z, _ | k⟩ := z <;> mle <;> apply stringifyLoop_mono f g h

theorem objGetLoop_mono {p : SPtr} : ∀ (f g : Nat), f ≤ g → ∀ o, MLe (objGetLoop p f o) (objGetLoop p g o)
  | 0, _, _ => fun _ => MLe.timeout _
  | f + 1, 0, h => absurd h (by omega)
  | f + 1, g + 1, h => by
    have IH := objGetLoop_mono (p := p) f g (by omega)
    intro o
    cases o with
    | none => exact MLe.refl _
    | some n => unfold objGetLoop; mle; apply IH

theorem objGet_mono {v : Addr} {p : SPtr} {f g : Nat} (h : f ≤ g) : MLe (objGet f v p) (objGet g v p) := by
  unfold objGet
  mle
  rename_i x
  cases x.n with
  | none => exact MLe.refl _
  | some a =>
    mle
    exact objGetLoop_mono f g h _

theorem objGetLenLoop_mono {p : SPtr} {n : Nat} : ∀ (f g : Nat), f ≤ g → ∀ o, MLe (objGetLenLoop p n f o) (objGetLenLoop p n g o)
  | 0, _, _ => fun _ => MLe.timeout _
  | f + 1, 0, h => absurd h (by omega)
  | f + 1, g + 1, h => by
    have IH := objGetLenLoop_mono (p := p) (n := n) f g (by omega)
    intro o
    cases o with
    | none => exact MLe.refl _
    | some n => unfold objGetLenLoop; mle; apply IH

theorem objGetLen_mono {v : Addr} {p : SPtr} {n f g : Nat} (h : f ≤ g) : MLe (objGetLen f v p n) (objGetLen g v p n) := by
  unfold objGetLen
  mle
  rename_i x
  cases x.n with
  | none => exact MLe.refl _
  | some a =>
    mle
    exact objGetLenLoop_mono f g h _

theorem arrayGetLoop_mono {ix : Nat} : ∀ (f g : Nat), f ≤ g → ∀ i o, MLe (arrayGetLoop ix f i o) (arrayGetLoop ix g i o)
  | 0, _, _ => fun _ _ => MLe.timeout _
  | f + 1, 0, h => absurd h (by omega)
  | f + 1, g + 1, h => by
    have IH := arrayGetLoop_mono (ix := ix) f g (by omega)
    intro i o
    cases o with
    | none => exact MLe.refl _
    | some n => unfold arrayGetLoop; mle; apply IH

theorem arrayGet_mono {v ix f g : Nat} (h : f ≤ g) : MLe (arrayGet f v ix) (arrayGet g v ix) := by
  unfold arrayGet
  mle
  rename_i x
  cases x.n with
  | none => exact MLe.refl _
  | some a =>
    mle
    exact arrayGetLoop_mono f g h _ _

theorem copyLoop_mono {A vv : Addr} : ∀ (f g : Nat), f ≤ g → ∀ pc n d, MLe (copyLoop A vv f pc n d) (copyLoop A vv g pc n d)
  | 0, _, _ => fun _ _ _ => MLe.timeout _
  | f + 1, 0, h => absurd h (by omega)
  | f + 1, g + 1, h => by
    have IH := copyLoop_mono (A := A) (vv := vv) f g (by omega)
    intro pc n z
    cases pc with
    | body =>
      unfold copyLoop
      mle
      rename_i r
      obtain _ | ⟨k, d⟩ := r <;> apply IH
    | test => unfold copyLoop; mle; apply IH
    | inner =>
      unfold copyLoop
      mle
      · apply IH
      · rename_i r
        cases r with
        | none => mle <;> apply IH
        | some k => mle; apply IH

theorem valueCopyFrom_mono {v vv f g : Nat} (h : f ≤ g) : MLe (valueCopyFrom f v vv) (valueCopyFrom g v vv) := by
  unfold valueCopyFrom
  mle
  rename_i x
  cases x.n with
  | none => exact MLe.refl _
  | some a =>
    mle
    apply copyLoop_mono f g h

theorem copy_mono {v f g : Nat} (h : f ≤ g) : MLe (copy f v) (copy g v) := by
  unfold copy
  mle
  exact valueCopyFrom_mono h

theorem adopt_mono {a : Addr} : ∀ (f g : Nat), f ≤ g → ∀ o, MLe (adopt a f o) (adopt a g o)
  | 0, _, _ => fun _ => MLe.timeout _
  | f + 1, 0, h => absurd h (by omega)
  | f + 1, g + 1, h => by
    have IH := adopt_mono (a := a) f g (by omega)
    intro o
    cases o with
    | none => exact MLe.refl _
    | some n => unfold adopt; mle; apply IH

theorem graft_mono {a x e f g : Nat} (h : f ≤ g) : MLe (graft f a x e) (graft g a x e) := by
  unfold graft
  mle
  apply adopt_mono f g h

theorem setFast_mono {v vv f g : Nat} (h : f ≤ g) : MLe (setFast f v vv) (setFast g v vv) := by
  unfold setFast
  mle
  rename_i x
  cases x.n with
  | none => exact MLe.refl _
  | some a =>
    mle
    exact graft_mono h

theorem set_mono {v vv f g : Nat} (h : f ≤ g) : MLe (set f v vv) (set g v vv) := by
  unfold set
  mle
  · exact copy_mono h
  · rename_i r
    cases r with
    | none => exact MLe.refl _
    | some cp =>
      mle
      rename_i x
      cases x.n with
      | none => exact MLe.refl _
      | some a =>
        mle
        exact graft_mono h

theorem objAdd_mono {v vv f g : Nat} (h : f ≤ g) : MLe (objAdd f v vv) (objAdd g v vv) := by
  unfold objAdd
  mle
  rename_i x
  cases x.n with
  | none => exact MLe.refl _
  | some a =>
    mle
    rename_i x
    cases x.n with
    | none => exact MLe.refl _
    | some a =>
      mle
      exact copy_mono h

theorem arrayAdd_mono {v vv f g : Nat} (h : f ≤ g) : MLe (arrayAdd f v vv) (arrayAdd g v vv) := by
  unfold arrayAdd
  mle
  rename_i x
  cases x.n with
  | none => exact MLe.refl _
  | some a =>
    mle
    exact copy_mono h

theorem arrayDel_mono {v ix f g : Nat} (h : f ≤ g) : MLe (arrayDel f v ix) (arrayDel g v ix) := by
  unfold arrayDel
  mle
  exact arrayGet_mono h

theorem objDel_mono {v f g : Nat} {p : SPtr} (h : f ≤ g) : MLe (objDel f v p) (objDel g v p) := by
  unfold objDel
  mle
  exact objGet_mono h

end ZJ
