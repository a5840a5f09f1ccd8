import Verif.PropEdit

/-
C70: taking elements out of an array or object while walking over it.
-/

set_option linter.unusedVariables false

namespace ZJ

/-! ### Specification -/

/-- What is left of a list when the elements marked `true` are taken out. -/
def leave {α : Type} : List Bool → List α → List α
  | true :: ds, _ :: xs => leave ds xs
  | false :: ds, x :: xs => x :: leave ds xs
  | _, xs => xs

/-- No two neighbours are both marked. -/
def Lone : List Bool → Prop
  | true :: true :: _ => False
  | _ :: ds => Lone ds
  | [] => True

/-- Once an element was left in its place no two neighbours are both marked. -/
def Spaced : List Bool → Prop
  | true :: ds => Spaced ds
  | ds => Lone ds

/-- The document without the children marked. -/
def Json.leave (ds : List Bool) : Json → Json
  | .arr xs => .arr (ZJ.leave ds xs)
  | .obj ms => .obj (ZJ.leave ds ms)
  | t => t

/-! ### The programs -/

/-- A loop over the children of a value that takes some of them out, the `i`-th if `ds[i]`: the
handle of the next child is fetched before the current one is moved out (zzzjson.h:2076-2084
`zj_Next`, 2171-2191 `zj_Move`). -/
def sweep : List Bool → Option Addr → M Unit
  | _, none => pure ()
  | [], some _ => pure ()
  | d :: ds, some w => do
    let n ← next_ w
    if d then
      let _ ← move w
      sweep ds n
    else sweep ds n

/-- The same with `zj_Next` called at the end of the body, as in a `for` loop. -/
def sweepFor : List Bool → Option Addr → M Unit
  | _, none => pure ()
  | [], some _ => pure ()
  | d :: ds, some w => do
    if d then
      let _ ← move w
      sweepFor ds (← next_ w)
    else sweepFor ds (← next_ w)

/-- The loops, from `zj_Begin` on (zzzjson.h:2062-2073). -/
def takeOut (ds : List Bool) (v : Addr) : M Unit := do sweep ds (← begin_ v)

def takeOutFor (ds : List Bool) (v : Addr) : M Unit := do sweepFor ds (← begin_ v)

/-! ### Lemmas -/

/-- What the loop needs: `e`: nothing was left so far; `p`: the next child knows its
predecessor. -/
def Sweeps : Bool → Bool → List Bool → Prop
  | _, _, [] => True
  | e, p, true :: ds => (e = true ∨ p = true) ∧ Sweeps e e ds
  | e, p, false :: ds => Sweeps false true ds

theorem Lone.sweeps : ∀ {ds : List Bool}, Lone ds → Sweeps false true ds ∧ (ds.head? ≠ some true → Sweeps false false ds)
  | [], _ => ⟨trivial, fun _ => trivial⟩
  | [true], _ => ⟨⟨.inr rfl, trivial⟩, fun h => absurd rfl h⟩
  | true :: true :: ds, h => h.elim
  | true :: false :: ds, h => ⟨⟨.inr rfl, (Lone.sweeps (ds := false :: ds) h).2 (by simp)⟩, fun h => absurd rfl h⟩
  | false :: ds, h => ⟨(Lone.sweeps (ds := ds) h).1, fun _ => (Lone.sweeps (ds := ds) h).1⟩

theorem Spaced.sweeps : ∀ {ds : List Bool}, Spaced ds → Sweeps true true ds
  | [], _ => trivial
  | true :: ds, h => ⟨.inl rfl, Spaced.sweeps (ds := ds) h⟩
  | false :: ds, h => (Lone.sweeps (ds := ds) h).1

section
variable {st st' : St} {P : Addr → Prop} {G : Graph} {v f A : Addr} {o : Bool} {t : Json}

theorem sweep_run : ∀ {ds : List Bool} {rest l : List Addr} {ys xs : List (Bytes × Json)} {st : St} {G : Graph} {gf : GNode} {n : Option Addr},
    Ready st P G v (some f) A → G f = some gf → gf.val = .con o (l ++ rest) → UnfI G o l ys → UnfI G o rest xs →
    (∀ k, rest.head? = some k → ∃ w, n = some w ∧ Ready st P G w (some k) A) → (rest = [] → n = none) →
    (∀ k ∈ rest.tail, ∀ g, G k = some g → g.prevOK = true) → ∀ {p : Bool},
    (p = true → ∀ k, rest.head? = some k → ∀ g, G k = some g → g.prevOK = true) → Sweeps l.isEmpty p ds →
    ∃ st' G', sweep ds n st = .ok ((), st') ∧ Ready st' P G' v (some f) A ∧ Shows st' v (mkCon o (ys ++ leave ds xs)) := by
  intro ds
  induction ds with
  | nil =>
    intro rest l ys xs st G gf n hR hf hv hl hr hn hn0 hp p hp0 hs
    refine ⟨st, G, ?_, hR, hR.shows ?_⟩
    · cases n <;> rfl
    · have : leave [] xs = xs := by cases xs <;> rfl
      rw [this]
      exact .mk hf (by rw [hv]; exact .con (hl.app hr))
  | cons d ds ih =>
    intro rest l ys xs st G gf n hR hf hv hl hr hn hn0 hp p hp0 hs
    cases rest with
    | nil =>
      cases hr
      obtain rfl := hn0 rfl
      refine ⟨st, G, rfl, hR, hR.shows ?_⟩
      have : leave (d :: ds) ([] : List (Bytes × Json)) = [] := by cases d <;> rfl
      rw [this]
      exact .mk hf (by rw [hv]; exact .con (hl.app .nil))
    | cons k rest =>
      obtain ⟨w, rfl, hw⟩ := hn k rfl
      cases hr with
      | @cons _ _ _ gk key t xs hk hkey hu hr =>
      -- the handle of the next child
      have hnext := next_run hw.inv hw.val hf hv
      obtain ⟨st1, n1, e1, hR1, hw1, hn1, hn10⟩ : ∃ st1 n1, next_ w st = .ok (n1, st1) ∧ Ready st1 P G v (some f) A ∧
          Ready st1 P G w (some k) A ∧
          (∀ k, rest.head? = some k → ∃ w, n1 = some w ∧ Ready st1 P G w (some k) A) ∧ (rest = [] → n1 = none) := by
        cases rest with
        | nil => exact ⟨st, none, hnext, hR, hw, fun _ h => (nomatch h), fun _ => rfl⟩
        | cons k' rest =>
          cases hr with
          | @cons _ _ _ gk' key' t' xs' hk' hkey' hu' hr' =>
          obtain ⟨a1, a2, a3⟩ := hw.addV hk'
          exact ⟨_, _, hnext, hR.unchanged a3 a1.inv.ok, a2, fun _ h => by cases h; exact ⟨_, rfl, a1⟩, fun h => by cases h⟩
      cases d with
      | false =>
        obtain ⟨st', G', e2, h2, h3⟩ := ih (l := l ++ [k]) (ys := ys ++ [(key, t)]) hR1 hf (by rw [hv]; simp) (hl.app (.cons hk hkey hu .nil)) hr hn1 hn10
          (fun c hc => hp c (List.mem_of_mem_tail hc)) (p := true) (fun _ c hc => hp c (by
            cases rest with
            | nil => cases hc
            | cons c' r => cases hc; exact List.mem_cons_self ..)) (by
            have : (l ++ [k]).isEmpty = false := by cases l <;> rfl
            rw [this]; exact hs)
        refine ⟨st', G', ?_, h2, ?_⟩
        · unfold sweep
          mstep e1
          exact e2
        · rw [List.append_assoc] at h3; exact h3
      | true =>
        obtain ⟨hs1, hs2⟩ := hs
        have hmo : MoveOK gk l := by
          rcases hs1 with h | h
          · left; simpa using h
          · right; exact hp0 h k rfl gk hk
        have hM : Moved G k (G.detach f k o l rest) := .child hk hf hv hmo
        obtain ⟨st2, e2, hD, _⟩ := move_run hw1.inv hw1.val hM
        have keep : ∀ {u y}, Ready st1 P G u y A → Ready st2 P (G.detach f k o l rest) u y A := fun h =>
          hD.ready h id (fun b hb => by rw [hM.dom]; exact h.node b hb)
        have hkn : (l ++ k :: rest).Nodup := by
          have := hR.inv.kids_nodup hf; rwa [hv] at this
        have hfk : f ≠ k := fun e => hR.inv.con_ne hf hv (List.mem_append_right _ (List.mem_cons_self ..)) .refl e.symm
        have hnf : ∀ c ∈ l ++ k :: rest, ¬ Reach G c f := fun c hc hr => hR.inv.con_ne hf hv hc hr rfl
        have hbut : ∀ c gc, c ≠ f → G c = some gc → ∃ gc', G.detach f k o l rest c = some gc' ∧ gc'.val = gc.val ∧ gc'.key = gc.key :=
          fun c gc h1 h2 => by
            obtain ⟨g, q1, q2, q3, _⟩ := detach_same (l := l) (r := rest) (o := o) (a := k) h1 h2
            exact ⟨g, q1, q2, q3⟩
        have hnd := List.nodup_append.1 hkn
        have hnd2 := List.nodup_cons.1 hnd.2.1
        obtain ⟨st', G', e3, h2, h3⟩ := ih (l := l) (ys := ys) (xs := xs) (keep hR1) (detach_fa hf hfk) rfl
          (hl.but (fun c hc => hnf c (List.mem_append_left _ hc)) hbut)
          (hr.but (fun c hc => hnf c (List.mem_append_right _ (List.mem_cons_of_mem _ hc))) hbut)
          (fun c hc => by obtain ⟨u, q1, q2⟩ := hn1 c hc; exact ⟨u, q1, keep q2⟩) hn10
          (fun c hc g hg => by
            have hcr : c ∈ rest := List.mem_of_mem_tail hc
            have h1 : c ≠ k := fun e => hnd2.1 (e ▸ hcr)
            have h2 : c ≠ f := fun e => hnf c (List.mem_append_right _ (List.mem_cons_of_mem _ hcr)) (e ▸ .refl)
            have h3 : rest.head? ≠ some c := by
              cases rest with
              | nil => simp
              | cons c' r =>
                intro e; cases e
                exact (List.nodup_cons.1 hnd2.2).1 hc
            rw [Graph.detach, if_neg h1, if_neg h2, if_neg h3] at hg
            exact hp c hcr g hg)
          (p := l.isEmpty) (fun he c hc g hg => by
            have hcr : c ∈ rest := List.mem_of_mem_head? hc
            have h1 : c ≠ k := fun e => hnd2.1 (e ▸ hcr)
            have h2 : c ≠ f := fun e => hnf c (List.mem_append_right _ (List.mem_cons_of_mem _ hcr)) (e ▸ .refl)
            rw [Graph.detach, if_neg h1, if_neg h2, if_pos hc] at hg
            cases hgc : G c with
            | none => rw [hgc] at hg; cases hg
            | some g' => rw [hgc] at hg; cases hg; exact he) hs2
        refine ⟨st', G', ?_, h2, h3⟩
        unfold sweep
        mstep e1
        refine (M.bind_ok e2).trans ?_
        exact e3

theorem leave_map {α β : Type} {f : α → β} : ∀ {ds : List Bool} {xs : List α}, leave ds (xs.map f) = (leave ds xs).map f
  | [], xs => by cases xs <;> rfl
  | true :: ds, [] => rfl
  | false :: ds, [] => rfl
  | true :: ds, x :: xs => leave_map (ds := ds)
  | false :: ds, x :: xs => congrArg (f x :: ·) (leave_map (ds := ds))

theorem mkCon_leave {o : Bool} {xs : List (Bytes × Json)} {ds : List Bool} :
    (mkCon o xs).leave ds = mkCon o (leave ds xs) := by
  cases o with
  | true => rfl
  | false => exact congrArg Json.arr leave_map

/-- The children of node `f` know their predecessors: `Prev` is not stale. -/
def Knows (G : Graph) (f : Addr) : Prop :=
  ∀ gf, G f = some gf → ∀ k ∈ gf.val.kids, ∀ g, G k = some g → g.prevOK = true

theorem Tidy.knows (h : Tidy G) : Knows G f := fun _ _ k _ g hg => (h k g hg).2

theorem UnfV.elim {gv : GVal} (h : UnfV G gv t) : (gv.kids = [] ∧ ∀ ds, t.leave ds = t) ∨
    ∃ o kids xs, gv = .con o kids ∧ t = mkCon o xs ∧ UnfI G o kids xs := by
  cases h with
  | scalar h =>
    cases gv with
    | con o kids => cases h
    | _ => exact .inl ⟨rfl, fun _ => rfl⟩
  | con h => exact .inr ⟨_, _, _, rfl, rfl, h⟩

/-- `zj_Begin` at the start of a loop. -/
theorem begin_ready (hR : Ready st P G v (some f) A) (hf : G f = some gf) :
    ∃ st1 n, begin_ v st = .ok (n, st1) ∧ Ready st1 P G v (some f) A ∧
      (∀ k, gf.val.kids.head? = some k → ∃ w, n = some w ∧ Ready st1 P G w (some k) A) ∧ (gf.val.kids = [] → n = none) := by
  have hb := begin_run hR.inv hR.val hf
  cases hk : gf.val.kids with
  | nil =>
    rw [hk] at hb
    exact ⟨st, none, hb, hR, fun _ h => (nomatch h), fun _ => rfl⟩
  | cons k rest =>
    rw [hk] at hb
    obtain ⟨gk, hgk⟩ : ∃ gk, G k = some gk := by
      obtain ⟨t, ht⟩ := hR.inv.fin f gf hf
      cases ht with
      | mk h1 h2 =>
      rw [hf] at h1; cases h1
      rcases h2.elim with ⟨h, _⟩ | ⟨o, kids, xs, h, _, hi⟩
      · rw [h] at hk; cases hk
      · rw [h] at hk; cases hk
        cases hi with
        | cons h1 _ _ _ => exact ⟨_, h1⟩
    obtain ⟨a1, a2, a3⟩ := hR.addV hgk
    exact ⟨_, _, hb, a2, fun _ h => by cases h; exact ⟨_, rfl, a1⟩, fun h => by cases h⟩

/-- The marks up to the first one that is set. -/
def firstMark : List Bool → List Bool
  | [] => []
  | true :: _ => [true]
  | false :: ds => false :: firstMark ds

theorem leave_nil {α : Type} {ds : List Bool} : leave ds ([] : List α) = [] := by
  cases ds with
  | nil => rfl
  | cons d ds => cases d <;> rfl

theorem leave_none {α : Type} {xs : List α} : leave [] xs = xs := by cases xs <;> rfl

theorem sweepFor_run : ∀ {ds rest l ys xs st gf n},
    Ready st P G v (some f) A → G f = some gf → gf.val = .con o (l ++ rest) → UnfI G o l ys → UnfI G o rest xs →
    (∀ k, rest.head? = some k → ∃ w, n = some w ∧ Ready st P G w (some k) A) → (rest = [] → n = none) →
    (∀ k ∈ rest, ∀ g, G k = some g → g.prevOK = true) →
    ∃ st' G', sweepFor ds n st = .ok ((), st') ∧ Ready st' P G' v (some f) A ∧
      Shows st' v (mkCon o (ys ++ leave (firstMark ds) xs)) := by
  intro ds
  induction ds with
  | nil =>
    intro rest l ys xs st gf n hR hf hv hl hr hn hn0 hp
    refine ⟨st, G, by cases n <;> rfl, hR, hR.shows (.mk hf ?_)⟩
    rw [hv]
    have : leave (firstMark []) xs = xs := leave_none
    rw [this]
    exact .con (hl.app hr)
  | cons d ds ih =>
    intro rest l ys xs st gf n hR hf hv hl hr hn hn0 hp
    cases rest with
    | nil =>
      cases hr
      obtain rfl := hn0 rfl
      refine ⟨st, G, rfl, hR, hR.shows ?_⟩
      rw [leave_nil]
      exact .mk hf (by rw [hv]; exact .con (hl.app .nil))
    | cons k rest =>
      obtain ⟨w, rfl, hw⟩ := hn k rfl
      cases hr with
      | @cons _ _ _ gk key t xs hk hkey hu hr =>
      cases d with
      | false =>
        have hnext := next_run hw.inv hw.val hf hv
        obtain ⟨st1, n1, e1, hR1, hn1, hn10⟩ : ∃ st1 n1, next_ w st = .ok (n1, st1) ∧ Ready st1 P G v (some f) A ∧
            (∀ k, rest.head? = some k → ∃ w, n1 = some w ∧ Ready st1 P G w (some k) A) ∧ (rest = [] → n1 = none) := by
          cases rest with
          | nil => exact ⟨st, none, hnext, hR, fun _ h => (nomatch h), fun _ => rfl⟩
          | cons k' rest =>
            cases hr with
            | @cons _ _ _ gk' key' t' xs' hk' hkey' hu' hr' =>
            obtain ⟨a1, a2, a3⟩ := hw.addV hk'
            exact ⟨_, _, hnext, hR.unchanged a3 a1.inv.ok, fun _ h => by cases h; exact ⟨_, rfl, a1⟩, fun h => by cases h⟩
        obtain ⟨st', G', e2, h2, h3⟩ := ih (l := l ++ [k]) (ys := ys ++ [(key, t)]) hR1 hf (by rw [hv]; simp)
          (hl.app (.cons hk hkey hu .nil)) hr hn1 hn10 (fun c hc => hp c (List.mem_cons_of_mem _ hc))
        refine ⟨st', G', ?_, h2, ?_⟩
        · unfold sweepFor
          simp only [Bool.false_eq_true, if_false]
          refine (M.bind_ok e1).trans ?_
          exact e2
        · rw [List.append_assoc] at h3; exact h3
      | true =>
        have hM : Moved G k (G.detach f k o l rest) := .child hk hf hv (.inr (hp k (List.mem_cons_self ..) gk hk))
        obtain ⟨st2, e2, hD, _⟩ := move_run hw.inv hw.val hM
        have keep : ∀ {u y}, Ready st P G u y A → Ready st2 P (G.detach f k o l rest) u y A := fun h =>
          hD.ready h id (fun b hb => by rw [hM.dom]; exact h.node b hb)
        have hfk : f ≠ k := fun e => hR.inv.con_ne hf hv (List.mem_append_right _ (List.mem_cons_self ..)) .refl e.symm
        have hnf : ∀ c ∈ l ++ k :: rest, ¬ Reach G c f := fun c hc hr => hR.inv.con_ne hf hv hc hr rfl
        have hbut : ∀ c gc, c ≠ f → G c = some gc → ∃ gc', G.detach f k o l rest c = some gc' ∧ gc'.val = gc.val ∧ gc'.key = gc.key :=
          fun c gc h1 h2 => by
            obtain ⟨g, q1, q2, q3, _⟩ := detach_same (l := l) (r := rest) (o := o) (a := k) h1 h2
            exact ⟨g, q1, q2, q3⟩
        have hl' := hl.but (fun c hc => hnf c (List.mem_append_left _ hc)) hbut
        have hr' := hr.but (fun c hc => hnf c (List.mem_append_right _ (List.mem_cons_of_mem _ hc))) hbut
        refine ⟨st2, _, ?_, keep hR, (keep hR).shows (.mk (detach_fa hf hfk) ?_)⟩
        · unfold sweepFor
          simp only [if_true]
          refine (M.bind_ok e2).trans ?_
          refine (M.bind_ok (next_root (keep hw).inv (keep hw).val (detach_self hk) rfl)).trans ?_
          cases ds <;> rfl
        · have : leave (firstMark (true :: ds)) ((key, t) :: xs) = xs := leave_none
          rw [this]
          exact .con (hl'.app hr')

/-- Parsing into an empty handle leaves all links right. -/
theorem parse_tidy (h : Ready st P G v x A) (hT : Tidy G) (hs : CStr st p b) (ht : JText t b) :
    ∃ st' P' G', parse v p st = .ok (true, st') ∧ Ready st' P' G' v (some (rootOf st x)) A ∧ Tidy G' ∧ Shows st' v t := by
  obtain ⟨st', gv, g, h1, h2, h3, h4, h5, h6, h7, _, h8, _⟩ := parse_accept h.inv h.val h.node hs ht
  have hR : Ready st' _ _ v (some (rootOf st x)) A := ⟨h2, h.cok.frame h.inv.ok h7 h5, h4, fun a ha => by cases ha; simp [Graph.plant]⟩
  refine ⟨st', _, _, h1, hR, ?_, hR.shows h3⟩
  intro a y ha
  unfold Graph.plant at ha
  by_cases e : a = rootOf st x
  · subst e
    simp only [Graph.set_same, Option.some.injEq] at ha; subst ha
    refine ⟨.inr rfl, ?_⟩
    show (baseNode G x).prevOK = true
    cases x with
    | none => rfl
    | some a =>
      show ((G a).getD _).prevOK = true
      cases hg : G a with
      | none => rfl
      | some g => exact (hT a g hg).2
  · rw [Graph.set_ne _ _ e, Graph.or_apply] at ha
    cases hgc : g a with
    | none => rw [hgc] at ha; exact hT a y (by simpa using ha)
    | some z =>
      rw [hgc] at ha
      obtain rfl : z = y := by simpa using ha
      obtain ⟨q1, q2, _⟩ := h8 a z hgc
      exact ⟨.inr q2, q1⟩

/-! ### C70 -/

/-- C70, as far as it is true: a loop with `zj_Begin` and `zj_Next` that takes out, with `zj_Move`,
the children marked in `ds` and fetches the next handle before it takes one out leaves the document
without these children, in which `v` can be used as before -- provided that no two neighbours are
taken out once a child was left in its place (`Spaced`). What is missing is false: `C70_false`. -/
theorem C70_sweep_partial (hR : Ready st P G v (some f) A) (ht : Shows st v t) (hp : Knows G f) {ds : List Bool} (hs : Spaced ds) :
    ∃ st' G', takeOut ds v st = .ok ((), st') ∧ Ready st' P G' v (some f) A ∧
      Shows st' v (t.leave ds) := by
  obtain ⟨gf, hf⟩ := Option.isSome_iff_exists.1 (hR.node f rfl)
  obtain ⟨st1, n, e, hR1, hn, hn0⟩ := begin_ready hR hf
  obtain ⟨t', hu'⟩ := hR.inv.fin f gf hf
  obtain rfl := (hR.shows hu').det ht
  cases hu' with
  | mk h1 h2 =>
  rw [hf] at h1; cases h1
  rcases h2.elim with ⟨hk, hl⟩ | ⟨o, kids, xs, hk, rfl, hi⟩
  · obtain rfl := hn0 hk
    refine ⟨st1, G, (M.bind_ok e).trans (by cases ds <;> rfl), hR1, ?_⟩
    rw [hl]
    exact hR1.shows (.mk hf h2)
  · have hk' : gf.val.kids = kids := by rw [hk]; rfl
    have hq := hp gf hf
    rw [hk'] at hn hn0 hq
    obtain ⟨st', G', e', h3, h4⟩ := sweep_run (l := []) (ys := []) (rest := kids) hR1 hf hk .nil hi hn hn0
      (fun k hk => hq k (List.mem_of_mem_tail hk)) (p := true) (fun _ k hk => hq k (List.mem_of_mem_head? hk)) hs.sweeps
    exact ⟨st', G', (M.bind_ok e).trans e', h3, by rw [mkCon_leave]; exact h4⟩

/-- C70 for the `for` loop that calls `zj_Next` at the end of its body: it takes out the first
child marked and then stops, since a value moved out has no successor. -/
theorem C70_for (hR : Ready st P G v (some f) A) (ht : Shows st v t) (hp : Knows G f) {ds : List Bool} :
    ∃ st' G', takeOutFor ds v st = .ok ((), st') ∧ Ready st' P G' v (some f) A ∧
      Shows st' v (t.leave (firstMark ds)) := by
  obtain ⟨gf, hf⟩ := Option.isSome_iff_exists.1 (hR.node f rfl)
  obtain ⟨st1, n, e, hR1, hn, hn0⟩ := begin_ready hR hf
  obtain ⟨t', hu'⟩ := hR.inv.fin f gf hf
  obtain rfl := (hR.shows hu').det ht
  cases hu' with
  | mk h1 h2 =>
  rw [hf] at h1; cases h1
  rcases h2.elim with ⟨hk, hl⟩ | ⟨o, kids, xs, hk, rfl, hi⟩
  · obtain rfl := hn0 hk
    refine ⟨st1, G, (M.bind_ok e).trans (by cases ds <;> rfl), hR1, ?_⟩
    rw [hl]
    exact hR1.shows (.mk hf h2)
  · have hk' : gf.val.kids = kids := by rw [hk]; rfl
    have hq := hp gf hf
    rw [hk'] at hn hn0 hq
    obtain ⟨st', G', e', h3, h4⟩ := sweepFor_run (l := []) (ys := []) (rest := kids) hR1 hf hk .nil hi hn hn0 hq
    exact ⟨st', G', (M.bind_ok e).trans e', h3, by rw [mkCon_leave]; exact h4⟩

/-- C70 for whole programs: `zj_Parse` of a text of `t`, one of the two loops over its children, and
`zj_Stringify`. -/
theorem C70_program_partial (slack : Nat → Nat) {cfg : Cfg} {d : Bytes} (ht : JText t d) (ds : List Bool) :
    ∃ c, ∀ fuel, c ≤ fuel →
      (Spaced ds → ((do
        let A ← newAllocator
        let v ← newValue A
        let p ← callerText (d ++ [0])
        let r ← parse v p
        takeOut ds v
        let s ← stringify fuel v
        let y ← readN s (t.leave ds).print.length
        return (r, y) : M _) (St.init slack cfg)).out = .ok (true, (t.leave ds).print)) ∧
      ((do
        let A ← newAllocator
        let v ← newValue A
        let p ← callerText (d ++ [0])
        let r ← parse v p
        takeOutFor ds v
        let s ← stringify fuel v
        let y ← readN s (t.leave (firstMark ds)).print.length
        return (r, y) : M _) (St.init slack cfg)).out = .ok (true, (t.leave (firstMark ds)).print) := by
  have hR := (start_ready slack cfg).addC (d := d ++ [0])
  have hc := addC_cstr (st := start slack cfg) ht.no_nul
  obtain ⟨st1, P1, G1, h1, hR1, hT1, hs1⟩ := parse_tidy hR (fun _ _ h => (nomatch h)) hc ht
  obtain ⟨st3, G3, h3, hR3, hs3⟩ := C70_for (ds := ds) hR1 hs1 hT1.knows
  obtain ⟨c3, s3, st5, h5, g5, _, _, hR5⟩ := C09_stringify hR3 hs3
  have hfor : ∀ fuel, c3 ≤ fuel → (do
        let p ← callerText (d ++ [0])
        let r ← parse 0 p
        takeOutFor ds 0
        let s ← stringify fuel 0
        let y ← readN s (t.leave (firstMark ds)).print.length
        return (r, y) : M _) (start slack cfg) = .ok ((true, (t.leave (firstMark ds)).print), st5) := by
    intro fuel hf
    mstep callerText_run _ _
    mstep h1
    mstep h3
    mstep h5 fuel (by omega)
    mstep g5.reads hR5.inv.ok
    rfl
  by_cases hs : Spaced ds
  · obtain ⟨st6, G6, h6, hR6, hs6⟩ := C70_sweep_partial hR1 hs1 hT1.knows hs
    obtain ⟨c7, s7, st7, h7, g7, _, _, hR7⟩ := C09_stringify hR6 hs6
    refine ⟨c3 + c7, fun fuel hf => ⟨fun _ => ?_, congrArg Res.out (hfor fuel (by omega))⟩⟩
    have hrun : (do
        let p ← callerText (d ++ [0])
        let r ← parse 0 p
        takeOut ds 0
        let s ← stringify fuel 0
        let y ← readN s (t.leave ds).print.length
        return (r, y) : M _) (start slack cfg) = .ok ((true, (t.leave ds).print), st7) := by
      mstep callerText_run _ _
      mstep h1
      mstep h6
      mstep h7 fuel (by omega)
      mstep g7.reads hR7.inv.ok
      rfl
    exact congrArg Res.out hrun
  · exact ⟨c3, fun fuel hf => ⟨fun h => absurd h hs, congrArg Res.out (hfor fuel hf)⟩⟩

/-- C70 is false when two neighbours are taken out after a child was left: of `[1,2,3]` the loop
that takes out the `2` and the `3` leaves `[]`, with a size of 1 -- the `1`, which was not to be
taken out, is lost. (zzzjson.h:2179 clears `Prev` of the `2` before line 2184 copies it to the `3`.) -/
theorem C70_false : (Json.arr [.num b!"1", .num b!"2", .num b!"3"]).leave [false, true, true] = .arr [.num b!"1"] ∧
    ((do
      let (v, _) ← make 0 b!"[1,2,3]"
      takeOut [false, true, true] v
      return (← sizeOf v, ← readN (← stringify 99 v) 2) : M _) (start fun _ => 0)).out = .ok (1, b!"[]") :=
  ⟨rfl, by decide +kernel⟩

/-- The `for` loop: of `[1,2,3,4]` only the first of the children to be taken out is. -/
theorem C70_false_for : (Json.arr [.num b!"1", .num b!"2", .num b!"3", .num b!"4"]).leave [true, false, true, false] =
      .arr [.num b!"2", .num b!"4"] ∧
    ((do
      let (v, _) ← make 0 b!"[1,2,3,4]"
      takeOutFor [true, false, true, false] v
      return (← sizeOf v, ← readN (← stringify 99 v) 7) : M _) (start fun _ => 0)).out = .ok (3, b!"[2,3,4]") :=
  ⟨rfl, by decide +kernel⟩

/-- Marks as `C70_sweep_partial` allows them: any number at the front, single ones behind. -/
example : Spaced [true, true, false, true, false, false, true] ∧ ¬ Spaced [false, true, true] := by
  simp [Spaced, Lone]

/-- The loop over an array and over an object, run. -/
example : ((do
    let (v, _) ← make 0 b!"[1,2,3,4,5]"
    takeOut [true, true, false, true, false] v
    return (← sizeOf v, ← readN (← stringify 99 v) 5) : M _) (start fun _ => 0)).out = .ok (2, b!"[3,5]") := by
  decide +kernel

example : ((do
    let (v, _) ← make 0 b!"{\"a\":1,\"b\":2,\"c\":[3]}"
    takeOut [false, true, false] v
    return (← sizeOf v, ← readN (← stringify 99 v) 15) : M _) (start fun _ => 0)).out = .ok (2, b!"{\"a\":1,\"c\":[3]}") := by
  decide +kernel

end

end ZJ
