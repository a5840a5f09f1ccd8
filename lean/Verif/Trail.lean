import Verif.PropAlias

/-
Where the memory of a document comes from.

`Tri k m R` says of a piece of code `m` that every text pointer it puts into a node is
one of the pointers `k.Q` or `k.Y`, that nodes and blocks it makes
belong to the allocators `k.As`, and that no node or block changes its owner or disappears.
It is used to find out which allocators a document depends on (C34).
-/

set_option linter.unusedSimpArgs false
set_option linter.unusedVariables false

namespace ZJ

/-- What the code is started with. `st0`: first state, `stF`: last state. -/
structure Kit where
  st0 : St
  stF : St
  /-- allocators it may use -/
  As : Nat → Prop
  /-- handles it is given or makes -/
  Hs : Addr → Prop
  /-- pointers to texts it may put into any node -/
  Q : SPtr → Prop
  /-- other pointers it may put into a node -/
  Y : Addr → SPtr → Prop
  /-- allocators in which it may make the scratch string -/
  Cs : Nat → Prop
  /-- whether the scratch string, if there is one, is still there -/
  W : Prop

variable {k : Kit}

def Kit.KQ (k : Kit) (a : Addr) (x : Option (Option SPtr)) : Prop := ∀ p, x = some (some p) → k.Q p ∨ k.Y a p
def Kit.VQ (k : Kit) (a : Addr) (x : Option UVal) : Prop := ∀ p, x = some (.str p) → k.Q p ∨ k.Y a p

/-- Block `b` belongs to `A` in the end. -/
def Kit.own (k : Kit) (b : Addr) (A : Nat) : Prop := ∃ bf, k.stF.bufs b = some bf ∧ bf.owner = some A

/-- The blocks of a string belong to its allocator. -/
def Kit.Z (k : Kit) (z : ZStr) : Prop := k.W → k.own z.hdr z.a ∧ k.own z.data z.a

/-- Nothing disappears or changes its owner. -/
structure Pers (st st' : St) : Prop where
  nodes : ∀ a n, st.nodes a = some n → ∃ n', st'.nodes a = some n' ∧ n'.owner = n.owner
  bufs : ∀ b bf, st.bufs b = some bf → ∃ bf', st'.bufs b = some bf' ∧ bf'.owner = bf.owner
  cache : st.cache.isSome → st'.cache.isSome

theorem Pers.refl {st : St} : Pers st st := ⟨fun _ n h => ⟨n, h, rfl⟩, fun _ b h => ⟨b, h, rfl⟩, id⟩
theorem Pers.trans {s1 s2 s3 : St} (h : Pers s1 s2) (h' : Pers s2 s3) : Pers s1 s3 where
  nodes a n hn := by
    obtain ⟨n1, e1, e2⟩ := h.nodes a n hn
    obtain ⟨n2, e3, e4⟩ := h'.nodes a n1 e1
    exact ⟨n2, e3, e4.trans e2⟩
  bufs a n hn := by
    obtain ⟨n1, e1, e2⟩ := h.bufs a n hn
    obtain ⟨n2, e3, e4⟩ := h'.bufs a n1 e1
    exact ⟨n2, e3, e4.trans e2⟩
  cache hc := h'.cache (h.cache hc)

/-- Addresses not handed out yet are unused. -/
structure Good (st : St) : Prop where
  nodes : ∀ a, st.nn ≤ a → st.nodes a = none
  bufs : ∀ a, st.nb ≤ a → st.bufs a = none

/-- What holds in between, in state `st`. -/
structure Mid (k : Kit) (st : St) : Prop where
  old : ∀ a n, k.st0.nodes a = some n → ∃ n', st.nodes a = some n' ∧ n'.owner = n.owner ∧
    (n'.key = n.key ∨ k.KQ a n'.key) ∧ (n'.value = n.value ∨ k.VQ a n'.value)
  new : ∀ a n', k.st0.nodes a = none → st.nodes a = some n' → k.As n'.owner ∧ k.KQ a n'.key ∧ k.VQ a n'.value
  hs : ∀ v y, k.Hs v → st.vals v = some y → k.As y.a
  hnew : ∀ v, st.nv ≤ v → k.Hs v
  cache : ∀ z, st.cache = some z → k.Z z
  cacheO : ∀ z, k.st0.cache = some z → ∃ z', st.cache = some z' ∧ z'.a = z.a
  cacheN : k.st0.cache = none → ∀ z, st.cache = some z → k.Cs z.a

/-- If `Pre` holds, `m` keeps what holds in between, and `R` holds of its result. -/
structure Tri {α : Type} (k : Kit) (Pre : Prop) (m : M α) (R : α → Prop) : Prop where
  pers : ∀ st r st', m st = .ok (r, st') → Good st → Good st' ∧ Pers st st'
  go : ∀ st r st', m st = .ok (r, st') → Good st → Mid k st → Pers st' k.stF → Pre → Mid k st' ∧ R r

abbrev Any {α : Type} (_ : α) : Prop := True

variable {Pre : Prop}

theorem Tri.pure {α : Type} {R : α → Prop} {a : α} (h : Pre → R a) : Tri k Pre (pure a : M α) R := by
  constructor
  · intro st r st' e hg; cases e; exact ⟨hg, .refl⟩
  · intro st r st' e hg hm hf hp; cases e; exact ⟨hm, h hp⟩

theorem Tri.weaken {α : Type} {m : M α} {R R' : α → Prop} {Pre' : Prop} (h : Tri k Pre' m R) (hp : Pre → Pre')
    (hR : ∀ a, R a → R' a) : Tri k Pre m R' := by
  refine ⟨h.pers, fun st r st' e hg hm hf hpr => ?_⟩
  obtain ⟨h1, h2⟩ := h.go st r st' e hg hm hf (hp hpr)
  exact ⟨h1, hR _ h2⟩

theorem Tri.any {α : Type} {m : M α} {R : α → Prop} (h : Tri k Pre m R) : Tri k Pre m Any := h.weaken id fun _ _ => trivial

theorem Tri.bind {α β : Type} {m : M α} {f : α → M β} {R : α → Prop} {R' : β → Prop} (h1 : Tri k Pre m R)
    (h2 : ∀ a, Tri k (Pre ∧ R a) (f a) R') : Tri k Pre (m >>= f) R' := by
  constructor
  · intro st r st' e hg
    rw [M.bind_run] at e
    cases hr : m st with
    | ok p =>
      rw [hr] at e
      obtain ⟨g1, g2⟩ := h1.pers st p.1 p.2 hr hg
      obtain ⟨g3, g4⟩ := (h2 p.1).pers p.2 r st' e g1
      exact ⟨g3, g2.trans g4⟩
    | ub u => rw [hr] at e; cases e
    | timeout => rw [hr] at e; cases e
  · intro st r st' e hg hm hf hp
    rw [M.bind_run] at e
    cases hr : m st with
    | ok p =>
      rw [hr] at e
      obtain ⟨g1, g2⟩ := h1.pers st p.1 p.2 hr hg
      obtain ⟨g3, g4⟩ := (h2 p.1).pers p.2 r st' e g1
      obtain ⟨g5, g6⟩ := h1.go st p.1 p.2 hr hg hm (g4.trans hf) hp
      exact (h2 p.1).go p.2 r st' e g1 g5 hf ⟨hp, g6⟩
    | ub u => rw [hr] at e; cases e
    | timeout => rw [hr] at e; cases e

/-- Code that does not change the state. -/
theorem Tri.still {α : Type} {m : M α} {R : α → Prop} (h : ∀ st r st', m st = .ok (r, st') → st' = st)
    (hr : ∀ st r st', m st = .ok (r, st') → Mid k st → Good st → Pers st' k.stF → Pre → R r) : Tri k Pre m R := by
  constructor
  · intro st r st' e hg; cases h st r st' e; exact ⟨hg, .refl⟩
  · intro st r st' e hg hm hf hp
    have := hr st r st' e hm hg hf hp
    cases h st r st' e; exact ⟨hm, this⟩

theorem Tri.fail {α : Type} {R : α → Prop} (u : UB) : Tri k Pre (fail u : M α) R :=
  .still (fun _ _ _ e => by cases e) fun _ _ _ e => by cases e

theorem Tri.lift {α : Type} (r : Res α) : Tri k Pre (lift r : M α) Any :=
  .still (fun st x st' e => by cases r <;> cases e; rfl) fun _ _ _ _ _ _ _ _ => trivial

theorem Tri.fld {α : Type} (r : Option α) : Tri k Pre (fld r) fun a => r = some a := by
  cases r
  · exact .fail _
  · exact .pure fun _ => rfl

theorem Tri.deref (r : Option Addr) : Tri k Pre (deref r) fun a => r = some a := by
  cases r
  · exact .fail _
  · exact .pure fun _ => rfl

theorem Tri.view (p : SPtr) : Tri k Pre (view p) Any := by
  refine .still (fun st x st' e => ?_) fun _ _ _ _ _ _ _ _ => trivial
  cases p with
  | lit s => cases e; rfl
  | buf b off => simp only [ZJ.view] at e; cases h : st.bufs b <;> rw [h] at e <;> cases e; rfl

theorem Tri.readN (p : SPtr) (n : Nat) : Tri k Pre (readN p n) Any := by
  refine .still (fun st x st' e => ?_) fun _ _ _ _ _ _ _ _ => trivial
  cases p with
  | lit s => simp only [ZJ.readN] at e; split at e <;> cases e; rfl
  | buf b off =>
    simp only [ZJ.readN] at e
    cases h : st.bufs b <;> rw [h] at e
    · cases e
    · simp only at e
      repeat' split at e
      all_goals first | cases e; done | (cases e; rfl)

/-- What is known of a node that was there at the start, or that was made since. -/
def Kit.Has (k : Kit) (a : Addr) (n : Node) : Prop :=
  (∀ n0, k.st0.nodes a = some n0 → (n.key = n0.key ∨ k.KQ a n.key) ∧ (n.value = n0.value ∨ k.VQ a n.value)) ∧
  (k.st0.nodes a = none → k.KQ a n.key ∧ k.VQ a n.value)

theorem Tri.rdNode (a : Addr) : Tri k Pre (rdNode a) (k.Has a) := by
  refine .still (fun st x st' e => ?_) fun st x st' e hm hg hf hp => ?_
  · unfold ZJ.rdNode at e; cases h : st.nodes a <;> rw [h] at e <;> cases e; rfl
  · unfold ZJ.rdNode at e
    cases h : st.nodes a <;> rw [h] at e <;> cases e
    refine ⟨fun n0 h0 => ?_, fun h0 => (hm.new a _ h0 h).2⟩
    obtain ⟨n', e1, _, e3⟩ := hm.old a n0 h0
    rw [h] at e1; cases e1; exact e3

theorem Tri.rdVal (v : Addr) : Tri k Pre (rdVal v) fun y => k.Hs v → k.As y.a := by
  refine .still (fun st x st' e => ?_) fun st x st' e hm hg hf hp => ?_
  · unfold ZJ.rdVal at e; cases h : st.vals v <;> rw [h] at e <;> cases e; rfl
  · unfold ZJ.rdVal at e
    cases h : st.vals v <;> rw [h] at e <;> cases e
    exact fun hv => hm.hs v _ hv h

theorem Tri.setValN (v : Addr) (p : Option Addr) : Tri k Pre (setValN v p) Any := by
  constructor
  · intro st r st' e hg
    unfold ZJ.setValN at e
    cases h : st.vals v <;> rw [h] at e <;> cases e
    exact ⟨⟨hg.nodes, hg.bufs⟩, ⟨fun _ n h => ⟨n, h, rfl⟩, fun _ b h => ⟨b, h, rfl⟩, id⟩⟩
  · intro st r st' e hg hm hf hp
    unfold ZJ.setValN at e
    cases h : st.vals v <;> rw [h] at e <;> cases e
    refine ⟨{ hm with hs := fun w y hw hy => ?_ }, trivial⟩
    simp only [upd] at hy
    split at hy
    · rename_i x0 e1; subst e1; cases hy; exact hm.hs w x0 hw h
    · exact hm.hs w y hw hy

theorem Tri.request (A n : Nat) : Tri k Pre (request A n) Any := by
  constructor
  · intro st r st' e hg
    unfold ZJ.request at e; split at e <;> cases e
    exact ⟨⟨hg.nodes, hg.bufs⟩, ⟨fun _ n h => ⟨n, h, rfl⟩, fun _ b h => ⟨b, h, rfl⟩, id⟩⟩
  · intro st r st' e hg hm hf hp
    unfold ZJ.request at e; split at e <;> cases e
    exact ⟨{ hm with }, trivial⟩

theorem Tri.newNode (A : Nat) (hA : Pre → k.As A) : Tri k Pre (newNode A) fun a => k.st0.nodes a = none := by
  unfold ZJ.newNode
  refine .bind (.request _ _) fun _ => ⟨fun st r st' e hg => ?_, fun st r st' e hg hm hf hp => ?_⟩
  · cases e
    refine ⟨⟨fun a ha => ?_, hg.bufs⟩, fun a n h => ?_, fun _ b h => ⟨b, h, rfl⟩, id⟩
    · have ha : st.nn + 1 ≤ a := ha
      show upd _ _ _ a = none
      rw [upd_ne _ _ (by omega)]
      exact hg.nodes a (by omega)
    · have : a ≠ st.nn := fun e => by subst e; rw [hg.nodes _ (Nat.le_refl _)] at h; cases h
      exact ⟨n, by show upd _ _ _ a = _; rw [upd_ne _ _ this]; exact h, rfl⟩
  · cases e
    have hnn : k.st0.nodes st.nn = none := by
      cases h : k.st0.nodes st.nn with
      | none => rfl
      | some n =>
        obtain ⟨n', e1, _⟩ := hm.old _ n h
        rw [hg.nodes _ (Nat.le_refl _)] at e1; cases e1
    refine ⟨{ hm with
      old := fun a n h => ?_
      new := fun a n h h' => ?_ }, hnn⟩
    · obtain ⟨n', e1, e2⟩ := hm.old a n h
      have : a ≠ st.nn := fun e => by subst e; rw [hnn] at h; cases h
      exact ⟨n', by show upd _ _ _ a = _; rw [upd_ne _ _ this]; exact e1, e2⟩
    · have h' : upd st.nodes st.nn _ a = some n := h'
      by_cases e : a = st.nn
      · subst e; rw [upd_same] at h'; cases h'
        exact ⟨hA hp.1, fun p hp => by simp at hp, fun p hp => by simp at hp⟩
      · rw [upd_ne _ _ e] at h'; exact hm.new a n h h'

theorem Tri.newVal (A : Nat) (p : Option Addr) (hA : Pre → k.As A) : Tri k Pre (newVal A p) k.Hs := by
  unfold ZJ.newVal
  refine .bind (.request _ _) fun _ => ⟨fun st r st' e hg => ?_, fun st r st' e hg hm hf hp => ?_⟩
  · cases e
    exact ⟨⟨hg.nodes, hg.bufs⟩, ⟨fun _ n h => ⟨n, h, rfl⟩, fun _ b h => ⟨b, h, rfl⟩, id⟩⟩
  · cases e
    refine ⟨{ hm with
      hs := fun v y hv hy => ?_
      hnew := fun v hv => hm.hnew v (by have : st.nv + 1 ≤ v := hv; omega) }, hm.hnew _ (Nat.le_refl _)⟩
    have hy : upd st.vals st.nv _ v = some y := hy
    by_cases e : v = st.nv
    · subst e; rw [upd_same] at hy; cases hy; exact hA hp.1
    · rw [upd_ne _ _ e] at hy; exact hm.hs v y hv hy

theorem Tri.newBuf (A n : Nat) (d : Bytes) : Tri k Pre (newBuf A n d) fun b => k.own b A := by
  unfold ZJ.newBuf
  refine .bind (.request _ _) fun _ => ⟨fun st r st' e hg => ?_, fun st r st' e hg hm hf hp => ?_⟩
  · split at e <;> cases e
    refine ⟨⟨hg.nodes, fun a ha => ?_⟩, fun _ n h => ⟨n, h, rfl⟩, fun a n h => ?_, id⟩
    · have ha : st.nb + 1 ≤ a := ha
      show upd _ _ _ a = none
      rw [upd_ne _ _ (by omega)]
      exact hg.bufs a (by omega)
    · have : a ≠ st.nb := fun e => by subst e; rw [hg.bufs _ (Nat.le_refl _)] at h; cases h
      exact ⟨n, by show upd _ _ _ a = _; rw [upd_ne _ _ this]; exact h, rfl⟩
  · split at e <;> cases e
    refine ⟨{ hm with }, ?_⟩
    obtain ⟨bf, e1, e2⟩ := hf.bufs st.nb _ (upd_same ..)
    exact ⟨bf, e1, e2⟩

theorem Tri.newString (A n : Nat) : Tri k Pre (newString A n) fun z => k.Z z ∧ z.a = A := by
  unfold ZJ.newString
  refine .bind (.request _ _) fun _ => ⟨fun st r st' e hg => ?_, fun st r st' e hg hm hf hp => ?_⟩
  · cases e
    refine ⟨⟨hg.nodes, fun a ha => ?_⟩, fun _ n h => ⟨n, h, rfl⟩, fun a n h => ?_, id⟩
    · have ha : st.nb + 1 ≤ a := ha
      show upd _ _ _ a = none
      rw [upd_ne _ _ (by omega)]
      exact hg.bufs a (by omega)
    · have : a ≠ st.nb := fun e => by subst e; rw [hg.bufs _ (Nat.le_refl _)] at h; cases h
      exact ⟨n, by show upd _ _ _ a = _; rw [upd_ne _ _ this]; exact h, rfl⟩
  · cases e
    refine ⟨{ hm with }, fun _ => ⟨?_, ?_⟩, rfl⟩
    all_goals
      obtain ⟨bf, e1, e2⟩ := hf.bufs st.nb _ (upd_same ..)
      exact ⟨bf, e1, e2⟩

/-- A change of a node that only puts allowed pointers into it. -/
theorem Tri.modNode (a : Addr) (f : Node → Node) (ho : ∀ n, (f n).owner = n.owner)
    (hk : Pre → ∀ n, (f n).key = n.key ∨ k.KQ a (f n).key)
    (hv : Pre → ∀ n, (f n).value = n.value ∨ k.VQ a (f n).value) : Tri k Pre (modNode a f) Any := by
  constructor
  · intro st r st' e hg
    unfold ZJ.modNode at e
    cases h : st.nodes a <;> rw [h] at e <;> cases e
    rename_i n
    refine ⟨⟨fun b hb => ?_, hg.bufs⟩, fun b m hb => ?_, fun _ b h => ⟨b, h, rfl⟩, id⟩
    · have : b ≠ a := fun e => by subst e; rw [hg.nodes _ hb] at h; cases h
      show upd _ _ _ b = none
      rw [upd_ne _ _ this]; exact hg.nodes b hb
    · by_cases e : b = a
      · subst e; rw [h] at hb; cases hb
        exact ⟨f n, upd_same .., ho n⟩
      · exact ⟨m, by show upd _ _ _ b = _; rw [upd_ne _ _ e]; exact hb, rfl⟩
  · intro st r st' e hg hm hf hp
    unfold ZJ.modNode at e
    cases h : st.nodes a <;> rw [h] at e <;> cases e
    rename_i n
    refine ⟨{ hm with
      old := fun b m hb => ?_
      new := fun b m hb hb' => ?_ }, trivial⟩
    · obtain ⟨n', e1, e2, e3, e4⟩ := hm.old b m hb
      by_cases e : b = a
      · subst e; rw [h] at e1; cases e1
        refine ⟨f n, upd_same .., (ho n).trans e2, ?_, ?_⟩
        · rcases hk hp n with h1 | h1
          · rw [h1]; exact e3
          · exact .inr h1
        · rcases hv hp n with h1 | h1
          · rw [h1]; exact e4
          · exact .inr h1
      · exact ⟨n', by show upd _ _ _ b = _; rw [upd_ne _ _ e]; exact e1, e2, e3, e4⟩
    · have hb' : upd st.nodes a _ b = some m := hb'
      by_cases e : b = a
      · subst e; rw [upd_same] at hb'; cases hb'
        obtain ⟨e1, e2, e3⟩ := hm.new b n hb h
        refine ⟨by rw [ho]; exact e1, ?_, ?_⟩
        · rcases hk hp n with h1 | h1
          · rw [h1]; exact e2
          · exact h1
        · rcases hv hp n with h1 | h1
          · rw [h1]; exact e3
          · exact h1
      · rw [upd_ne _ _ e] at hb'; exact hm.new b m hb hb'

theorem Tri.plain (a : Addr) (f : Node → Node) (ho : ∀ n, (f n).owner = n.owner ∧ (f n).key = n.key ∧ (f n).value = n.value) :
    Tri k Pre (ZJ.modNode a f) Any :=
  .modNode a f (fun n => (ho n).1) (fun _ n => .inl (ho n).2.1) fun _ n => .inl (ho n).2.2

theorem Tri.setNodeP (a : Addr) (x : Option Addr) : Tri k Pre (setNodeP a x) Any :=
  .modNode _ _ (fun _ => rfl) (fun _ _ => .inl rfl) fun _ _ => .inr fun p hp => by cases hp
theorem Tri.setStrP (a : Addr) (p : SPtr) (h : Pre → k.Q p) : Tri k Pre (setStrP a p) Any :=
  .modNode _ _ (fun _ => rfl) (fun _ _ => .inl rfl) fun hp _ => .inr fun q hq => by cases hq; exact .inl (h hp)
theorem Tri.setKey (a : Addr) (p : Option SPtr) (h : Pre → ∀ q, p = some q → k.Q q) : Tri k Pre (setKey a p) Any :=
  .modNode _ _ (fun _ => rfl) (fun hp _ => .inr fun q hq => .inl (h hp q (by cases hq; rfl))) fun _ _ => .inl rfl

theorem Tri.touchStr (z : ZStr) : Tri k Pre (touchStr z) Any :=
  .still (fun st x st' e => by unfold ZJ.touchStr at e; split at e <;> cases e; rfl) fun _ _ _ _ _ _ _ _ => trivial

theorem Tri.pokeStr (z : ZStr) (s : Bytes) : Tri k Pre (pokeStr z s) Any := by
  constructor
  · intro st r st' e hg
    unfold ZJ.pokeStr at e
    cases h : st.bufs z.data <;> rw [h] at e
    · cases e
    · dsimp only at e; split at e <;> cases e
      rename_i bf _
      refine ⟨⟨hg.nodes, fun b hb => ?_⟩, fun _ b h => ⟨b, h, rfl⟩, fun b m hb => ?_, id⟩
      · have : b ≠ z.data := fun e => by subst e; rw [hg.bufs _ hb] at h; cases h
        show upd _ _ _ b = none
        rw [upd_ne _ _ this]; exact hg.bufs b hb
      · by_cases e : b = z.data
        · subst e; rw [h] at hb; cases hb
          exact ⟨_, upd_same .., rfl⟩
        · exact ⟨m, by show upd _ _ _ b = _; rw [upd_ne _ _ e]; exact hb, rfl⟩
  · intro st r st' e hg hm hf hp
    unfold ZJ.pokeStr at e
    cases h : st.bufs z.data <;> rw [h] at e
    · cases e
    · dsimp only at e; split at e <;> cases e
      exact ⟨{ hm with }, trivial⟩

theorem Tri.newOut (A : Nat) (f : Cfg → Nat) : Tri k Pre (newOut A f) fun z => k.Z z ∧ z.a = A :=
  ⟨fun st => (Tri.newString (k := k) (Pre := Pre) A (f st.cfg)).pers st, fun st => (Tri.newString A (f st.cfg)).go st⟩

theorem Tri.old (z : ZStr) : Tri k Pre (fun st => match st.bufs z.data with
    | some b => .ok (b.data.take z.pos, st)
    | none => .ub .wild : M Bytes) Any :=
  .still (fun st x st' e => by split at e <;> cases e; rfl) fun _ _ _ _ _ _ _ _ => trivial

theorem Tri.getCfg : Tri k Pre getCfg Any :=
  .still (fun st x st' e => by cases e; rfl) fun _ _ _ _ _ _ _ _ => trivial

theorem Tri.appendChar (z : ZStr) (c : Byte) (hz : Pre → k.Z z) : Tri k Pre (appendChar z c) fun z' => k.Z z' ∧ z'.a = z.a := by
  unfold ZJ.appendChar
  refine .bind (.touchStr _) fun _ => .bind (R := fun z' => k.Z z' ∧ z'.a = z.a) ?_ fun z' =>
    .bind (.pokeStr _ _) fun _ => .pure fun h => ⟨h.1.2.1, h.1.2.2⟩
  split
  · exact .bind .getCfg fun _ => .bind (.old z) fun _ => .bind (.newBuf _ _ _) fun d => .pure fun h => ⟨fun w => ⟨(hz h.1.1.1.1 w).1, h.2⟩, rfl⟩
  · exact .pure fun h => ⟨hz h.1, rfl⟩

theorem Tri.appendStr (z : ZStr) (p : SPtr) (n : Nat) (hz : Pre → k.Z z) :
    Tri k Pre (appendStr z p n) fun z' => k.Z z' ∧ z'.a = z.a := by
  unfold ZJ.appendStr
  refine .bind (.readN _ _) fun s => ?_
  unfold appendBytes
  refine .bind (.touchStr _) fun _ => .bind (R := fun z' => k.Z z' ∧ z'.a = z.a) ?_ fun z' =>
    .bind (.pokeStr _ _) fun _ => .pure fun h => ⟨h.1.2.1, h.1.2.2⟩
  split
  · exact .bind .getCfg fun _ => .bind (.lift _) fun _ => .bind (.old z) fun _ => .bind (.newBuf _ _ _) fun d =>
      .pure fun h => ⟨fun w => ⟨(hz h.1.1.1.1.1.1 w).1, h.2⟩, rfl⟩
  · exact .pure fun h => ⟨hz h.1.1, rfl⟩

theorem Tri.fillCache (A : Nat) (p : SPtr) (n : Nat) (hA : Pre → k.Cs A) : Tri k Pre (fillCache A p n) fun _ => k.stF.cache.isSome = true := by
  unfold ZJ.fillCache
  refine .bind (R := fun c => (∀ z, c = some z → k.Z z) ∧ (∀ z, k.st0.cache = some z → ∃ z', c = some z' ∧ z'.a = z.a) ∧
      (k.st0.cache = none → ∀ z, c = some z → k.Cs z.a)) (.still (fun st x st' e => by cases e; rfl) ?_) fun c => ?_
  · intro st x st' e hm hg hf hp
    cases e
    exact ⟨hm.cache, hm.cacheO, hm.cacheN⟩
  have key : Tri k (Pre ∧ (∀ z, c = some z → k.Z z) ∧ (∀ z, k.st0.cache = some z → ∃ z', c = some z' ∧ z'.a = z.a) ∧
      (k.st0.cache = none → ∀ z, c = some z → k.Cs z.a))
      (match c with
      | none => ZJ.newOut A (·.cache)
      | some z => do ZJ.touchStr z; Pure.pure { z with pos := 0 } : M ZStr)
      fun z => k.Z z ∧ (∀ z0, k.st0.cache = some z0 → z.a = z0.a) ∧ (k.st0.cache = none → k.Cs z.a) := by
    cases c with
    | none =>
      refine ⟨(Tri.newOut (k := k) (Pre := Pre) A (·.cache)).pers, fun st r st' e hg hm hf hp => ?_⟩
      obtain ⟨h1, h2, h3⟩ := (Tri.newOut (k := k) (Pre := Pre) A (·.cache)).go st r st' e hg hm hf hp.1
      refine ⟨h1, h2, fun z0 h0 => ?_, fun _ => h3 ▸ hA hp.1⟩
      obtain ⟨z', h4, _⟩ := hp.2.2.1 z0 h0
      cases h4
    | some z =>
      refine .bind (.touchStr _) fun _ => .pure fun h => ?_
      obtain ⟨⟨_, h1, h2, h3⟩, _⟩ := h
      refine ⟨h1 z rfl, fun z0 h0 => ?_, fun h0 => h3 h0 z rfl⟩
      obtain ⟨z', h4, h5⟩ := h2 z0 h0
      cases h4; exact h5
  refine .bind key fun z => .bind (.appendStr z p n fun h => h.2.1) fun z1 => .bind (.appendChar z1 0 fun h => h.2.1) fun z2 => ?_
  refine .bind (R := fun _ => k.stF.cache.isSome = true) ?_ fun _ => .pure fun h => h.2
  constructor
  · intro st r st' e hg
    cases e
    exact ⟨⟨hg.nodes, hg.bufs⟩, ⟨fun _ n h => ⟨n, h, rfl⟩, fun _ b h => ⟨b, h, rfl⟩, fun _ => rfl⟩⟩
  · intro st r st' e hg hm hf hp
    cases e
    obtain ⟨⟨⟨_, hk1, hk2, hk3⟩, _, e1⟩, hz, e2⟩ := hp
    refine ⟨{ hm with
      cache := fun z h => by cases h; exact hz
      cacheO := fun z h => ⟨z2, rfl, by rw [e2, e1, hk2 z h]⟩
      cacheN := fun h z hz => by cases hz; rw [e2, e1]; exact hk3 h }, hf.cache rfl⟩

/-! ### The functions of the API -/

macro "tri" : tactic => `(tactic| repeat' (first
  | exact Tri.fail _ | exact (Tri.lift _).any | exact (Tri.fld _).any | exact (Tri.deref _).any | exact Tri.view _ | exact Tri.readN _ _
  | exact (Tri.rdNode _).any | exact (Tri.rdVal _).any | exact Tri.setValN _ _ | exact Tri.setNodeP _ _
  | exact Tri.plain _ _ (fun _ => ⟨rfl, rfl, rfl⟩) | exact Tri.pure fun _ => trivial
  | apply Tri.bind | intro _ | split))

theorem Tri.nType (a : Addr) : Tri k Pre (nType a) Any := by unfold ZJ.nType; tri
theorem Tri.nKey (a : Addr) : Tri k Pre (nKey a) Any := by unfold ZJ.nKey; tri
theorem Tri.nLen (a : Addr) : Tri k Pre (nLen a) Any := by unfold ZJ.nLen; tri
theorem Tri.nNext (a : Addr) : Tri k Pre (nNext a) Any := by unfold ZJ.nNext; tri
theorem Tri.nPrev (a : Addr) : Tri k Pre (nPrev a) Any := by unfold ZJ.nPrev; tri
theorem Tri.nFather (a : Addr) : Tri k Pre (nFather a) Any := by unfold ZJ.nFather; tri
theorem Tri.nEnd (a : Addr) : Tri k Pre (nEnd a) Any := by unfold ZJ.nEnd; tri
theorem Tri.nNode (a : Addr) : Tri k Pre (nNode a) Any := by unfold ZJ.nNode; tri
theorem Tri.setType (a : Addr) (x : JType) : Tri k Pre (setType a x) Any := by unfold ZJ.setType; tri
theorem Tri.setKeyLen (a : Addr) (x : Nat) : Tri k Pre (setKeyLen a x) Any := by unfold ZJ.setKeyLen; tri
theorem Tri.setLen (a : Addr) (x : Nat) : Tri k Pre (setLen a x) Any := by unfold ZJ.setLen; tri
theorem Tri.setNext (a : Addr) (x : Option Addr) : Tri k Pre (setNext a x) Any := by unfold ZJ.setNext; tri
theorem Tri.setPrev (a : Addr) (x : Option Addr) : Tri k Pre (setPrev a x) Any := by unfold ZJ.setPrev; tri
theorem Tri.setFather (a : Addr) (x : Option Addr) : Tri k Pre (setFather a x) Any := by unfold ZJ.setFather; tri
theorem Tri.setEnd (a : Addr) (x : Option Addr) : Tri k Pre (setEnd a x) Any := by unfold ZJ.setEnd; tri
theorem Tri.noKey (a : Addr) : Tri k Pre (ZJ.setKey a none) Any := .setKey _ _ fun _ _ h => by cases h
theorem Tri.valN (v : Addr) : Tri k Pre (valN v) Any := by unfold ZJ.valN; tri

theorem Tri.ite {c : Prop} [Decidable c] {m m' : M α} {R : α → Prop} (h : Tri k Pre m R) (h' : Tri k Pre m' R) :
    Tri k Pre (if c then m else m') R := by split <;> assumption

macro "tri2" : tactic => `(tactic| repeat' (first
  | with_reducible exact Tri.fail _ | with_reducible exact (Tri.lift _).any | with_reducible exact (Tri.fld _).any | with_reducible exact (Tri.deref _).any | with_reducible exact Tri.view _ | with_reducible exact Tri.readN _ _
  | with_reducible exact Tri.nType _ | with_reducible exact Tri.nKey _ | with_reducible exact Tri.nLen _ | with_reducible exact Tri.nNext _ | with_reducible exact Tri.nPrev _ | with_reducible exact Tri.nFather _
  | with_reducible exact Tri.nEnd _ | with_reducible exact Tri.nNode _ | with_reducible exact Tri.setType _ _ | with_reducible exact Tri.setKeyLen _ _ | with_reducible exact Tri.setLen _ _
  | with_reducible exact Tri.setNext _ _ | with_reducible exact Tri.setPrev _ _ | with_reducible exact Tri.setFather _ _ | with_reducible exact Tri.setEnd _ _ | with_reducible exact Tri.noKey _
  | with_reducible exact Tri.valN _
  | with_reducible exact (Tri.rdNode _).any | with_reducible exact (Tri.rdVal _).any | with_reducible exact Tri.setValN _ _ | with_reducible exact Tri.setNodeP _ _
  | with_reducible exact Tri.pure fun _ => trivial
  | apply Tri.bind | intro _ | split))

theorem Tri.unlinkPrev (f a : Addr) : Tri k Pre (unlinkPrev f a) Any := by unfold ZJ.unlinkPrev; tri2
theorem Tri.unlinkNext (f a : Addr) : Tri k Pre (unlinkNext f a) Any := by unfold ZJ.unlinkNext; tri2

theorem Tri.move (v : Addr) : Tri k Pre (ZJ.move v) Any := by
  unfold ZJ.move
  repeat' (first | exact Tri.unlinkPrev _ _ | exact Tri.unlinkNext _ _ | tri2)

theorem Tri.attach (f x : Addr) : Tri k Pre (attach f x) Any := by unfold ZJ.attach; tri2

theorem Tri.adopt (f : Addr) : ∀ fuel o, Tri k Pre (adopt f fuel o) Any
  | 0, _ => .lift _
  | _ + 1, none => .pure fun _ => trivial
  | fuel + 1, some n => by
    unfold ZJ.adopt
    exact .bind (.setFather _ _) fun _ => .bind (.nNext _) fun _ => (Tri.adopt f fuel _).weaken (fun h => h.1.1) fun _ h => h

/-- Pointers of the node `x` that may be put into the node `a`. -/
theorem Tri.graft (fuel : Nat) (a x e : Addr) (hx : Pre → ∀ n, k.Has x n → k.VQ a n.value) :
    Tri k Pre (graft fuel a x e) Any := by
  unfold ZJ.graft
  refine .bind (.nType _) fun ty => .bind (.setType _ _) fun _ => .bind (.rdNode x) fun n => ?_
  refine .bind (.modNode _ _ (fun _ => rfl) (fun _ _ => .inl rfl) fun h _ => .inr (hx h.1.1.1 n h.2)) fun _ => ?_
  refine .bind (.nLen _) fun _ => .bind (.setLen _ _) fun _ => .bind (.nType _) fun _ => .bind (.nType _) fun _ => ?_
  split
  · refine .bind (Tri.rdNode _).any fun _ => .bind (.plain _ _ fun _ => ⟨rfl, rfl, rfl⟩) fun _ => .bind (.nNode _) fun _ => .adopt _ _ _
  · exact .pure fun _ => trivial

theorem Tri.setFast (fuel : Nat) (v vv : Addr) (hx : Pre → ∀ a x n, k.Has x n → k.VQ a n.value) :
    Tri k Pre (setFast fuel v vv) Any := by
  unfold ZJ.setFast
  refine .bind (.move _) fun b => ?_
  cases b
  · exact .pure fun _ => trivial
  refine .bind (Tri.rdVal _).any fun x => .bind (Tri.rdVal _).any fun y => ?_
  rcases y with ⟨_ | a, A⟩
  · exact .bind (.setValN _ _) fun _ => .bind (.setValN _ _) fun _ => .pure fun _ => trivial
  · exact .bind (.deref _) fun _ => .bind (.graft _ _ _ _ fun h => hx h.1.1.1.1 _ _) fun _ =>
      .bind (.setValN _ _) fun _ => .pure fun _ => trivial

theorem Tri.objAddFast (v vv : Addr) : Tri k Pre (objAddFast v vv) Any := by
  unfold ZJ.objAddFast
  refine .bind (Tri.rdVal _).any fun y => ?_
  cases y.n with
  | none => exact .pure fun _ => trivial
  | some f =>
    refine .bind (.nType _) fun ty => ?_
    refine Tri.ite (.pure fun _ => trivial) ?_
    refine .bind (Tri.rdVal _).any fun y => ?_
    cases y.n with
    | none => exact .pure fun _ => trivial
    | some x =>
      refine .bind (.nKey _) fun ky => ?_
      refine Tri.ite (.pure fun _ => trivial) ?_
      refine .bind (.move _) fun b => ?_
      refine Tri.ite (.pure fun _ => trivial) ?_
      exact .bind (.setFather _ _) fun _ => .bind (.attach _ _) fun _ => .bind (.setValN _ _) fun _ => .pure fun _ => trivial

theorem Tri.arrayAddFast (v vv : Addr) : Tri k Pre (arrayAddFast v vv) Any := by
  unfold ZJ.arrayAddFast
  refine .bind (Tri.rdVal _).any fun y => ?_
  cases y.n with
  | none => exact .pure fun _ => trivial
  | some f =>
    refine .bind (.nType _) fun ty => ?_
    refine Tri.ite (.pure fun _ => trivial) ?_
    refine .bind (.move _) fun b => ?_
    refine Tri.ite (.pure fun _ => trivial) ?_
    exact .bind (.valN _) fun x => .bind (.noKey _) fun _ => .bind (.setFather _ _) fun _ => .bind (.attach _ _) fun _ =>
      .bind (.setValN _ _) fun _ => .pure fun _ => trivial

/-! #### Setters -/

/-- Blocks of the allocators and constants may be used. -/
structure Kit.Fine (k : Kit) : Prop where
  own : ∀ b A off, k.own b A → k.As A → k.Q (.buf b off)
  lit : ∀ s, k.Q (.lit s)
  add : ∀ p n, k.Q p → k.Q (p.add n)

theorem Tri.ensureNode (v : Addr) (hv : Pre → k.Hs v) : Tri k Pre (ensureNode v) Any := by
  unfold ZJ.ensureNode
  refine .bind (.rdVal v) fun y => ?_
  rcases y with ⟨_ | a, A⟩
  · refine .bind ((Tri.newNode _ fun h => h.2 (hv h.1)).any) fun n => ?_
    tri2
  · exact .pure fun _ => trivial

theorem Tri.setScalar (v : Addr) (t : JType) (p : SPtr) (n : Nat) (hv : Pre → k.Hs v) (hp : Pre → k.Q p) :
    Tri k Pre (setScalar v t p n) Any := by
  unfold ZJ.setScalar
  exact .bind (.ensureNode v hv) fun a => .bind (.setType _ _) fun _ => .bind (.setStrP _ _ fun h => hp h.1.1) fun _ => .setLen _ _


theorem Tri.setNull (hf : k.Fine) (v : Addr) (hv : Pre → k.Hs v) : Tri k Pre (setNull v) Any := .setScalar v _ _ _ hv fun _ => hf.lit _
theorem Tri.setBool (hf : k.Fine) (v : Addr) (b : Bool) (hv : Pre → k.Hs v) : Tri k Pre (setBool v b) Any := by
  unfold ZJ.setBool
  split <;> exact .setScalar v _ _ _ hv fun _ => hf.lit _
theorem Tri.setArray (v : Addr) (hv : Pre → k.Hs v) : Tri k Pre (setArray v) Any := by
  unfold ZJ.setArray
  exact .bind (.ensureNode v hv) fun a => by tri2
theorem Tri.setObj (v : Addr) (hv : Pre → k.Hs v) : Tri k Pre (setObj v) Any := by
  unfold ZJ.setObj
  exact .bind (.ensureNode v hv) fun a => by tri2

theorem Tri.checkStrAt (p : SPtr) : Tri k Pre (checkStrAt p) Any := by unfold ZJ.checkStrAt; tri2
theorem Tri.checkNumAt (p : SPtr) : Tri k Pre (checkNumAt p) Any := by unfold ZJ.checkNumAt; tri2
theorem Tri.checkStrLenAt (A : Nat) (p : SPtr) (n : Nat) (hA : Pre → k.Cs A) : Tri k Pre (checkStrLenAt A p n) fun _ => k.stF.cache.isSome = true := by
  unfold ZJ.checkStrLenAt
  exact .bind (.fillCache A p n hA) fun z => .bind (.checkStrAt _) fun r => by cases r <;> exact .pure fun h => h.1.2
theorem Tri.checkNumLenAt (A : Nat) (p : SPtr) (n : Nat) (hA : Pre → k.Cs A) : Tri k Pre (checkNumLenAt A p n) fun _ => k.stF.cache.isSome = true := by
  unfold ZJ.checkNumLenAt
  exact .bind (.fillCache A p n hA) fun z => .bind (.checkNumAt _) fun r => by cases r <;> exact .pure fun h => h.1.2


theorem Tri.dup (hf : k.Fine) (A : Nat) (p : SPtr) (n : Nat) (hA : Pre → k.As A) : Tri k Pre (dup A p n) k.Q := by
  unfold ZJ.dup
  exact .bind (.readN _ _) fun t => .bind (.newBuf _ _ _) fun b => .pure fun h => hf.own _ _ _ h.2 (hA h.1.1)

theorem Tri.escapeAt (hf : k.Fine) (A : Nat) (p : SPtr) (hA : Pre → k.As A) : Tri k Pre (escapeAt A p) k.Q := by
  unfold ZJ.escapeAt
  exact .bind (.view _) fun s => .bind (.lift _) fun r => .bind (.newBuf _ _ _) fun b => .pure fun h => hf.own _ _ _ h.2 (hA h.1.1.1)

theorem Tri.escapeLenAt (hf : k.Fine) (A : Nat) (p : SPtr) (n : Nat) (hA : Pre → k.As A) : Tri k Pre (escapeLenAt A p n) k.Q := by
  unfold ZJ.escapeLenAt
  exact .bind (.view _) fun s => .bind (.lift _) fun r => .bind (.newBuf _ _ _) fun b => .pure fun h => hf.own _ _ _ h.2 (hA h.1.1.1)

theorem Tri.printed (hf : k.Fine) (v : Addr) (sz len : Nat) (t : Bytes) (hv : Pre → k.Hs v) : Tri k Pre (do
    let b ← ZJ.newBuf (← ZJ.rdVal v).a sz t
    ZJ.setScalar v .number (.buf b 0) len
    return true : M Bool) Any :=
  .bind (.rdVal v) fun y => .bind (.newBuf _ _ _) fun b =>
    .bind (.setScalar v _ _ _ (fun h => hv h.1.1) fun h => hf.own _ _ _ h.2 (h.1.2 (hv h.1.1))) fun _ => .pure fun _ => trivial

theorem Tri.setInt (hf : k.Fine) (v : Addr) (n : Int) (hv : Pre → k.Hs v) : Tri k Pre (setInt v n) Any := .printed hf v _ _ _ hv
theorem Tri.setLong (hf : k.Fine) (v : Addr) (n : Int) (hv : Pre → k.Hs v) : Tri k Pre (setLong v n) Any := .printed hf v _ _ _ hv
theorem Tri.setLongLong (hf : k.Fine) (v : Addr) (n : Int) (hv : Pre → k.Hs v) : Tri k Pre (setLongLong v n) Any := .printed hf v _ _ _ hv
theorem Tri.setDouble {D} (hf : k.Fine) (fp : FP D) (v : Addr) (d : D) (hv : Pre → k.Hs v) : Tri k Pre (setDouble fp v d) Any :=
  .printed hf v _ _ _ hv

/-- `rdVal`, used for its allocator. -/
theorem Tri.rdA (v : Addr) (hv : Pre → k.Hs v) : Tri k Pre (ZJ.rdVal v) fun y => k.As y.a := by
  refine ⟨(Tri.rdVal (k := k) (Pre := Pre) v).pers, fun st r st' e hg hm hf hp => ?_⟩
  obtain ⟨h1, h2⟩ := (Tri.rdVal (k := k) (Pre := Pre) v).go st r st' e hg hm hf hp
  exact ⟨h1, h2 (hv hp)⟩

theorem Tri.setStrFast (v : Addr) (p : SPtr) (hv : Pre → k.Hs v) (hp : Pre → k.Q p) : Tri k Pre (setStrFast v p) Any := by
  unfold ZJ.setStrFast
  refine .bind (.checkStrAt _) fun r => ?_
  cases r
  · exact .pure fun _ => trivial
  · exact .bind (.setScalar v _ _ _ (fun h => hv h.1) fun h => hp h.1) fun _ => .pure fun _ => trivial
theorem Tri.setNumStrFast (v : Addr) (p : SPtr) (hv : Pre → k.Hs v) (hp : Pre → k.Q p) : Tri k Pre (setNumStrFast v p) Any := by
  unfold ZJ.setNumStrFast
  refine .bind (.checkNumAt _) fun r => ?_
  cases r
  · exact .pure fun _ => trivial
  · exact .bind (.setScalar v _ _ _ (fun h => hv h.1) fun h => hp h.1) fun _ => .pure fun _ => trivial

theorem Tri.setStr (hf : k.Fine) (v : Addr) (p : SPtr) (hv : Pre → k.Hs v) : Tri k Pre (setStr v p) Any := by
  unfold ZJ.setStr
  refine .bind (.checkStrAt _) fun r => ?_
  cases r
  · exact .pure fun _ => trivial
  · exact .bind (.rdA v fun h => hv h.1) fun y => .bind (.dup hf _ _ _ fun h => h.2) fun s =>
      .bind (.setScalar v _ _ _ (fun h => hv h.1.1.1) fun h => h.2) fun _ => .pure fun _ => trivial
theorem Tri.setNumStr (hf : k.Fine) (v : Addr) (p : SPtr) (hv : Pre → k.Hs v) : Tri k Pre (setNumStr v p) Any := by
  unfold ZJ.setNumStr
  refine .bind (.checkNumAt _) fun r => ?_
  cases r
  · exact .pure fun _ => trivial
  · exact .bind (.rdA v fun h => hv h.1) fun y => .bind (.dup hf _ _ _ fun h => h.2) fun s =>
      .bind (.setScalar v _ _ _ (fun h => hv h.1.1.1) fun h => h.2) fun _ => .pure fun _ => trivial

theorem Tri.setStrLenFast (hc : ∀ A, k.As A → k.Cs A) (v : Addr) (p : SPtr) (n : Nat) (hv : Pre → k.Hs v) (hp : Pre → k.Q p) :
    Tri k Pre (setStrLenFast v p n) fun _ => k.stF.cache.isSome = true := by
  unfold ZJ.setStrLenFast
  refine .bind (.rdA v hv) fun y => .bind (.checkStrLenAt _ _ _ fun h => hc _ h.2) fun r => ?_
  cases r
  · exact .pure fun h => h.2
  · exact .bind (.setScalar v _ _ _ (fun h => hv h.1.1) fun h => hp h.1.1) fun _ => .pure fun h => h.1.2
theorem Tri.setNumStrLenFast (hc : ∀ A, k.As A → k.Cs A) (v : Addr) (p : SPtr) (n : Nat) (hv : Pre → k.Hs v) (hp : Pre → k.Q p) :
    Tri k Pre (setNumStrLenFast v p n) fun _ => k.stF.cache.isSome = true := by
  unfold ZJ.setNumStrLenFast
  refine .bind (.rdA v hv) fun y => .bind (.checkNumLenAt _ _ _ fun h => hc _ h.2) fun r => ?_
  cases r
  · exact .pure fun h => h.2
  · exact .bind (.setScalar v _ _ _ (fun h => hv h.1.1) fun h => hp h.1.1) fun _ => .pure fun h => h.1.2

theorem Tri.setStrLen (hc : ∀ A, k.As A → k.Cs A) (hf : k.Fine) (v : Addr) (p : SPtr) (n : Nat) (hv : Pre → k.Hs v) :
    Tri k Pre (setStrLen v p n) fun _ => k.stF.cache.isSome = true := by
  unfold ZJ.setStrLen
  refine .bind (.rdA v hv) fun y => .bind (.checkStrLenAt _ _ _ fun h => hc _ h.2) fun r => ?_
  cases r
  · exact .pure fun h => h.2
  · exact .bind (.rdA v fun h => hv h.1.1) fun y => .bind (.dup hf _ _ _ fun h => h.2) fun s =>
      .bind (.setScalar v _ _ _ (fun h => hv h.1.1.1.1) fun h => h.2) fun _ => .pure fun h => h.1.1.1.2
theorem Tri.setNumStrLen (hc : ∀ A, k.As A → k.Cs A) (hf : k.Fine) (v : Addr) (p : SPtr) (n : Nat) (hv : Pre → k.Hs v) :
    Tri k Pre (setNumStrLen v p n) fun _ => k.stF.cache.isSome = true := by
  unfold ZJ.setNumStrLen
  refine .bind (.rdA v hv) fun y => .bind (.checkNumLenAt _ _ _ fun h => hc _ h.2) fun r => ?_
  cases r
  · exact .pure fun h => h.2
  · exact .bind (.rdA v fun h => hv h.1.1) fun y => .bind (.dup hf _ _ _ fun h => h.2) fun s =>
      .bind (.setScalar v _ _ _ (fun h => hv h.1.1.1.1) fun h => h.2) fun _ => .pure fun h => h.1.1.1.2

theorem Tri.setStrEscape (hf : k.Fine) (v : Addr) (p : SPtr) (hv : Pre → k.Hs v) : Tri k Pre (setStrEscape v p) Any := by
  unfold ZJ.setStrEscape
  exact .bind (.rdA v hv) fun y => .bind (.escapeAt hf _ _ fun h => h.2) fun s =>
    .setStrFast v s (fun h => hv h.1.1) fun h => h.2
theorem Tri.setStrLenEscape (hf : k.Fine) (v : Addr) (p : SPtr) (n : Nat) (hv : Pre → k.Hs v) :
    Tri k Pre (setStrLenEscape v p n) Any := by
  unfold ZJ.setStrLenEscape
  exact .bind (.rdA v hv) fun y => .bind (.escapeLenAt hf _ _ _ fun h => h.2) fun s =>
    .setStrFast v s (fun h => hv h.1.1) fun h => h.2

theorem Tri.keyTarget (hf : k.Fine) (v : Addr) (hv : Pre → k.Hs v) : Tri k Pre (keyTarget v) Any := by
  unfold ZJ.keyTarget
  refine .bind (.rdA v hv) fun y => ?_
  rcases y with ⟨_ | a, A⟩
  · refine .bind ((Tri.newNode _ fun h => h.2).any) fun n => ?_
    repeat' (first | exact Tri.setStrP _ _ (fun _ => hf.lit _) | tri2)
  · tri2

theorem Tri.setKeyFast (hf : k.Fine) (v : Addr) (p : SPtr) (hv : Pre → k.Hs v) (hp : Pre → k.Q p) : Tri k Pre (setKeyFast v p) Any := by
  unfold ZJ.setKeyFast
  refine .bind (.checkStrAt _) fun r => ?_
  cases r
  · exact .pure fun _ => trivial
  · refine .bind (.keyTarget hf v fun h => hv h.1) fun r => ?_
    cases r
    · exact .pure fun _ => trivial
    · exact .bind (.setKey _ _ fun h q e => by cases e; exact hp h.1.1) fun _ => .bind (.setKeyLen _ _) fun _ => .pure fun _ => trivial

theorem Tri.setKeyLenFast (hc : ∀ A, k.As A → k.Cs A) (hf : k.Fine) (v : Addr) (p : SPtr) (n : Nat) (hv : Pre → k.Hs v) (hp : Pre → k.Q p) :
    Tri k Pre (setKeyLenFast v p n) fun _ => k.stF.cache.isSome = true := by
  unfold ZJ.setKeyLenFast
  refine .bind (.rdA v hv) fun y => .bind (.checkStrLenAt _ _ _ fun h => hc _ h.2) fun r => ?_
  cases r
  · exact .pure fun h => h.2
  · refine .bind (.keyTarget hf v fun h => hv h.1.1) fun r => ?_
    cases r
    · exact .pure fun h => h.1.2
    · exact .bind (.setKey _ _ fun h q e => by cases e; exact hp h.1.1.1) fun _ => .bind (.setKeyLen _ _) fun _ => .pure fun h => h.1.1.1.2

theorem Tri.setKeyC (hf : k.Fine) (v : Addr) (p : SPtr) (hv : Pre → k.Hs v) : Tri k Pre (setKeyC v p) Any := by
  unfold ZJ.setKeyC
  refine .bind (.checkStrAt _) fun r => ?_
  cases r
  · exact .pure fun _ => trivial
  · refine .bind (.keyTarget hf v fun h => hv h.1) fun r => ?_
    cases r
    · exact .pure fun _ => trivial
    · exact .bind (.rdA v fun h => hv h.1.1) fun y => .bind (.dup hf _ _ _ fun h => h.2) fun s =>
        .bind (.setKey _ _ fun h q e => by cases e; exact h.2) fun _ => .bind (.setKeyLen _ _) fun _ => .pure fun _ => trivial

theorem Tri.setKeyLenC (hc : ∀ A, k.As A → k.Cs A) (hf : k.Fine) (v : Addr) (p : SPtr) (n : Nat) (hv : Pre → k.Hs v) : Tri k Pre (setKeyLenC v p n) fun _ => k.stF.cache.isSome = true := by
  unfold ZJ.setKeyLenC
  refine .bind (.rdA v hv) fun y => .bind (.checkStrLenAt _ _ _ fun h => hc _ h.2) fun r => ?_
  cases r
  · exact .pure fun h => h.2
  · refine .bind (.keyTarget hf v fun h => hv h.1.1) fun r => ?_
    cases r
    · exact .pure fun h => h.1.2
    · exact .bind (.rdA v fun h => hv h.1.1.1) fun y => .bind (.dup hf _ _ _ fun h => h.2) fun s =>
        .bind (.setKey _ _ fun h q e => by cases e; exact h.2) fun _ => .bind (.setKeyLen _ _) fun _ => .pure fun h => h.1.1.1.1.1.2

theorem Tri.setKeyEscape (hf : k.Fine) (v : Addr) (p : SPtr) (hv : Pre → k.Hs v) : Tri k Pre (setKeyEscape v p) Any := by
  unfold ZJ.setKeyEscape
  exact .bind (.rdA v hv) fun y => .bind (.escapeAt hf _ _ fun h => h.2) fun s =>
    .setKeyFast hf v s (fun h => hv h.1.1) fun h => h.2
theorem Tri.setKeyLenEscape (hf : k.Fine) (v : Addr) (p : SPtr) (n : Nat) (hv : Pre → k.Hs v) :
    Tri k Pre (setKeyLenEscape v p n) Any := by
  unfold ZJ.setKeyLenEscape
  exact .bind (.rdA v hv) fun y => .bind (.escapeLenAt hf _ _ _ fun h => h.2) fun s =>
    .setKeyFast hf v s (fun h => hv h.1.1) fun h => h.2

/-! #### Parse -/

theorem Tri.openContainer (A : Nat) (s : Bytes) (ty : JType) (c : Byte) (a : Addr) (i : Nat) (hA : Pre → k.As A) :
    Tri k Pre (openContainer A s ty c a i) Any := by
  unfold ZJ.openContainer
  refine .bind (.setType _ _) fun _ => .bind (.lift _) fun r => ?_
  rcases r with ⟨b, j⟩
  cases b
  · refine .bind ((Tri.newNode _ fun h => hA h.1.1).any) fun n => ?_
    tri2
  · tri2

theorem Tri.switchValue (hf : k.Fine) (A : Nat) (p : SPtr) (s : Bytes) (lim : Nat) (a : Addr) (i : Nat) (hA : Pre → k.As A)
    (hp : Pre → k.Q p) : Tri k Pre (switchValue A p s lim a i) Any := by
  unfold ZJ.switchValue
  refine .bind (.lift _) fun r => ?_
  obtain ⟨c, i⟩ := r
  dsimp only
  split
  · exact .openContainer A s _ _ a i fun h => hA h.1
  split
  · exact .openContainer A s _ _ a i fun h => hA h.1
  split
  · repeat' (first | exact Tri.setStrP _ _ (fun _ => hf.lit _) | tri2)
  split
  · repeat' (first | exact Tri.setStrP _ _ (fun _ => hf.lit _) | tri2)
  split
  · repeat' (first | exact Tri.setStrP _ _ (fun _ => hf.lit _) | tri2)
  split
  · refine .bind (.lift _) fun r => ?_
    obtain ⟨b, j⟩ := r
    cases b
    · refine .bind (.lift _) fun r => ?_
      obtain ⟨b, j⟩ := r
      cases b
      · exact .pure fun _ => trivial
      · exact .bind (.setType _ _) fun _ => .bind (.setStrP _ _ fun h => hf.add _ _ (hp h.1.1.1.1)) fun _ => by tri2
    · exact .bind (.setType _ _) fun _ => .bind (.setStrP _ _ fun h => hf.add _ _ (hp h.1.1.1)) fun _ => by tri2
  · refine .bind (.lift _) fun r => ?_
    cases r
    · exact .pure fun _ => trivial
    · exact .bind (.setType _ _) fun _ => .bind (.setStrP _ _ fun h => hf.add _ _ (hp h.1.1.1)) fun _ => by tri2

theorem Tri.parseKey (hf : k.Fine) (p : SPtr) (s : Bytes) (a : Addr) (i : Nat) (hp : Pre → k.Q p) :
    Tri k Pre (parseKey p s a i) Any := by
  unfold ZJ.parseKey
  refine .bind (.nFather _) fun r => .bind (Tri.deref _).any fun f => .bind (.nType _) fun ty => ?_
  split
  · refine .bind (.lift _) fun r => ?_
    obtain ⟨b, j⟩ := r
    cases b
    · exact .pure fun _ => trivial
    refine .bind (.lift _) fun r => ?_
    obtain ⟨b, j⟩ := r
    cases b
    · refine .bind (.lift _) fun r => ?_
      obtain ⟨b, j⟩ := r
      cases b
      · exact .pure fun _ => trivial
      · exact .bind (.setKey _ _ fun h q e => by cases e; exact hf.add _ _ (hp h.1.1.1.1.1.1)) fun _ => by tri2
    · exact .bind (.setKey _ _ fun h q e => by cases e; exact hf.add _ _ (hp h.1.1.1.1.1)) fun _ => by tri2
  · tri2

theorem Tri.restore (v : Addr) (src : Option Addr)
    (hs : Pre → ∀ a sn n, src = some sn → k.Has sn n → k.KQ a n.key ∧ k.VQ a n.value) : Tri k Pre (restore v src) Any := by
  unfold ZJ.restore
  cases src with
  | none => tri2
  | some sn =>
    refine .bind (.rdNode sn) fun x => .bind (Tri.rdVal _).any fun y => .bind (Tri.deref _).any fun a => ?_
    refine .bind (R := Any) ?_ fun _ => .pure fun _ => trivial
    exact .modNode _ _ (fun _ => rfl) (fun h _ => .inr (hs h.1.1.1 a sn x rfl h.1.1.2).1)
      fun h _ => .inr (hs h.1.1.1 a sn x rfl h.1.1.2).2

theorem Tri.parseLoop (hf : k.Fine) (v : Addr) (A : Nat) (p : SPtr) (s : Bytes) (lim : Nat) (src : Option Addr) (hA : Pre → k.As A)
    (hp : Pre → k.Q p) (hs : Pre → ∀ a sn n, src = some sn → k.Has sn n → k.KQ a n.key ∧ k.VQ a n.value) :
    ∀ fuel pc a i, Tri k Pre (parseLoop v A p s lim src fuel pc a i) Any
  | 0, _, _, _ => .lift _
  | fuel + 1, .head, a, i => by
    have ih := fun pc a i => Tri.parseLoop hf v A p s lim src hA hp hs fuel pc a i
    unfold ZJ.parseLoop
    refine .bind (Tri.rdVal _).any fun y => ?_
    split
    · refine .bind (.lift _) fun r => ?_
      obtain ⟨b, j⟩ := r
      cases b
      · exact .restore v src fun h => hs h.1.1
      · exact .pure fun _ => trivial
    · refine .bind (.parseKey hf p s a i fun h => hp h.1) fun r => ?_
      cases r with
      | none => exact .restore v src fun h => hs h.1.1
      | some i =>
        refine .bind (.switchValue hf A p s lim a i (fun h => hA h.1.1) fun h => hp h.1.1) fun r => ?_
        cases r with
        | bad => exact .restore v src fun h => hs h.1.1.1
        | desc n i => exact (ih _ _ _).weaken (fun h => h.1.1.1) fun _ h => h
        | leaf i => exact (ih _ _ _).weaken (fun h => h.1.1.1) fun _ h => h
  | fuel + 1, .close, a, i => by
    have ih := fun pc a i => Tri.parseLoop hf v A p s lim src hA hp hs fuel pc a i
    unfold ZJ.parseLoop
    refine .bind (Tri.rdVal _).any fun y => ?_
    split
    · exact (ih _ _ _).weaken (fun h => h.1) fun _ h => h
    · refine .bind (.lift _) fun r => ?_
      obtain ⟨b, j⟩ := r
      cases b
      · refine .bind (.lift _) fun r => .bind (.nFather _) fun r => .bind (Tri.deref _).any fun f => .bind (.nType _) fun ty => ?_
        split
        · exact .bind (.setNext _ _) fun _ => (ih _ _ _).weaken (fun h => h.1.1.1.1.1.1.1) fun _ h => h
        · exact .restore v src fun h => hs h.1.1.1.1.1.1
      · refine .bind ((Tri.newNode _ fun h => hA h.1.1).any) fun n => .bind (.nFather _) fun r => .bind (.setFather _ _) fun _ =>
          .bind (.setPrev _ _) fun _ => .bind (.nFather _) fun r => .bind (Tri.deref _).any fun f => .bind (.setEnd _ _) fun _ =>
          .bind (.nLen _) fun _ => .bind (.setLen _ _) fun _ => .bind (.setNext _ _) fun _ => ?_
        exact (ih _ _ _).weaken (fun h => h.1.1.1.1.1.1.1.1.1.1.1.1) fun _ h => h

/-- Parsing into the handle `v` of the node `a`; the pointers of that node may be put anywhere. -/
theorem Tri.parseFast (hf : k.Fine) (v : Addr) (p : SPtr) (hv : Pre → k.Hs v) (hp : Pre → k.Q p)
    (hy : Pre → ∀ a b n, k.Has a n → k.KQ b n.key ∧ k.VQ b n.value) : Tri k Pre (parseFast v p) Any := by
  unfold ZJ.parseFast
  refine .bind (.rdA v hv) fun y => ?_
  refine .bind (R := Any) ?_ fun src => ?_
  · rcases y with ⟨_ | a, A⟩
    · refine .bind ((Tri.newNode _ fun h => h.2).any) fun n => ?_
      tri2
    · refine .bind ((Tri.newNode _ fun h => h.2).any) fun sn => .bind (.rdNode a) fun x => ?_
      refine .bind (.modNode _ _ (fun _ => rfl) (fun h _ => .inr (hy h.1.1.1 a sn x h.2).1)
        fun h _ => .inr (hy h.1.1.1 a sn x h.2).2) fun _ => .pure fun _ => trivial
  · have hs : ∀ {X : Prop}, (X → Pre) → X → ∀ a sn n, src = some sn → k.Has sn n → k.KQ a n.key ∧ k.VQ a n.value :=
      fun hX h a sn n _ hh => hy (hX h) sn a n hh
    refine .bind (.view _) fun r => ?_
    obtain ⟨s, lim⟩ := r
    dsimp only
    refine .bind (Tri.rdVal _).any fun w => .bind (Tri.deref _).any fun root => ?_
    refine .bind (.switchValue hf _ p s lim root 0 (fun h => h.1.1.1.1.2) fun h => hp h.1.1.1.1.1) fun r => ?_
    cases r with
    | bad => exact .restore v src (hs fun h => h.1.1.1.1.1.1)
    | desc n i => exact .parseLoop hf v _ p s lim src (fun h => h.1.1.1.1.1.2) (fun h => hp h.1.1.1.1.1.1) (hs fun h => h.1.1.1.1.1.1) _ _ _ _
    | leaf i => exact .parseLoop hf v _ p s lim src (fun h => h.1.1.1.1.1.2) (fun h => hp h.1.1.1.1.1.1) (hs fun h => h.1.1.1.1.1.1) _ _ _ _

theorem Tri.parseLen (hf : k.Fine) (v : Addr) (p : SPtr) (n : Nat) (hv : Pre → k.Hs v)
    (hy : Pre → ∀ a b n, k.Has a n → k.KQ b n.key ∧ k.VQ b n.value) : Tri k Pre (parseLen v p n) Any := by
  unfold ZJ.parseLen
  exact .bind (.rdA v hv) fun y => .bind (.readN _ _) fun t => .bind (.newBuf _ _ _) fun b =>
    .parseFast hf v _ (fun h => hv h.1.1.1) (fun h => hf.own _ _ _ h.2 h.1.1.2) fun h => hy h.1.1.1

theorem Tri.parse (hf : k.Fine) (v : Addr) (p : SPtr) (hv : Pre → k.Hs v)
    (hy : Pre → ∀ a b n, k.Has a n → k.KQ b n.key ∧ k.VQ b n.value) : Tri k Pre (parse v p) Any := by
  unfold ZJ.parse
  exact .bind (.view _) fun r => .bind (.lift _) fun n => .parseLen hf v p _ (fun h => hv h.1.1) fun h => hy h.1.1

end ZJ
