import Verif.PropGet
import Verif.GraftSim

/-
Places inside documents. A path is the list of positions that leads from a value down to a
nested value. This file relates a change of one node of the store to the change of all the
documents that contain this node.
-/

set_option linter.unusedSimpArgs false

namespace ZJ

/-! ### Paths in JSON documents (specification) -/

/-- The document at the path. -/
def Json.at : List Nat → Json → Option Json
  | [], t => some t
  | i :: p, .arr xs => (xs[i]?).bind (Json.at p)
  | i :: p, .obj ms => (ms[i]?).bind fun m => Json.at p m.2
  | _ :: _, _ => none

/-- The document with `f` applied to the nested document at the path. -/
def Json.edit (f : Json → Json) : List Nat → Json → Json
  | [], t => f t
  | i :: p, .arr xs => .arr (xs.modify i (Json.edit f p))
  | i :: p, .obj ms => .obj (ms.modify i fun m => (m.1, Json.edit f p m.2))
  | _ :: _, t => t

/-- The document with the nested document at the path replaced by `u`. -/
def Json.replace (t : Json) (p : List Nat) (u : Json) : Json := t.edit (fun _ => u) p

@[simp] theorem Json.replace_nil {u t : Json} : t.replace [] u = u := rfl

/-- At the path there is now the new document. -/
theorem Json.at_edit {f : Json → Json} : ∀ {p : List Nat} {t u : Json}, Json.at p t = some u → Json.at p (t.edit f p) = some (f u)
  | [], t, u, h => by simp only [Json.at, Option.some.injEq] at h; subst h; rfl
  | i :: p, .arr xs, u, h => by
    simp only [Json.at, Option.bind_eq_some_iff] at h
    obtain ⟨y, h1, h2⟩ := h
    simp only [Json.edit, Json.at, List.getElem?_modify, h1, if_true, Option.map_some]
    exact Json.at_edit h2
  | i :: p, .obj ms, u, h => by
    simp only [Json.at, Option.bind_eq_some_iff] at h
    obtain ⟨y, h1, h2⟩ := h
    simp only [Json.edit, Json.at, List.getElem?_modify, h1, if_true, Option.map_some]
    exact Json.at_edit h2
  | _ :: _, .null, u, h => by cases h
  | _ :: _, .bool _, u, h => by cases h
  | _ :: _, .num _, u, h => by cases h
  | _ :: _, .str _, u, h => by cases h

/-- Neither path leads through the other. -/
def Apart : List Nat → List Nat → Prop
  | i :: p, j :: q => i ≠ j ∨ Apart p q
  | _, _ => False

/-- Elsewhere nothing is different. -/
theorem Json.at_edit_apart {f : Json → Json} : ∀ {p q : List Nat} {t : Json}, Apart p q → Json.at q (t.edit f p) = Json.at q t
  | i :: p, j :: q, .arr xs, h => by
    simp only [Json.edit, Json.at, List.getElem?_modify]
    split
    · subst_vars
      rcases h with h | h
      · exact absurd rfl h
      · cases xs[j]? with
        | none => rfl
        | some y => simpa using Json.at_edit_apart h
    · simp
  | i :: p, j :: q, .obj ms, h => by
    simp only [Json.edit, Json.at, List.getElem?_modify]
    split
    · subst_vars
      rcases h with h | h
      · exact absurd rfl h
      · cases ms[j]? with
        | none => rfl
        | some y => simpa using Json.at_edit_apart h
    · simp
  | _ :: _, _ :: _, .null, _ => rfl
  | _ :: _, _ :: _, .bool _, _ => rfl
  | _ :: _, _ :: _, .num _, _ => rfl
  | _ :: _, _ :: _, .str _, _ => rfl
  | [], _, _, h => h.elim
  | _ :: _, [], _, h => h.elim

example : Json.replace (.arr [.null, .obj [(b!"a", .bool true)]]) [1, 0] (.num b!"7") =
    .arr [.null, .obj [(b!"a", .num b!"7")]] := rfl

/-! ### Paths in the store -/

theorem nodup_inj : ∀ {l : List Nat}, l.Nodup → ∀ {i j : Nat} {hi : i < l.length} {hj : j < l.length}, l[i] = l[j] → i = j
  | [], _, i, _, hi, _, _ => by simp at hi
  | a :: l, h, 0, 0, _, _, _ => rfl
  | a :: l, h, 0, j + 1, _, _, e => by
    simp at e
    exact absurd (e ▸ List.getElem_mem _) (List.nodup_cons.1 h).1
  | a :: l, h, i + 1, 0, _, _, e => by
    simp at e
    exact absurd (e ▸ List.getElem_mem _) (List.nodup_cons.1 h).1
  | a :: l, h, i + 1, j + 1, _, _, e => by
    simp at e
    rw [nodup_inj (List.nodup_cons.1 h).2 e]

/-- The path leads from node `a` to node `c`. -/
inductive PathTo (G : Graph) : Addr → List Nat → Addr → Prop where
  | nil {a} : PathTo G a [] a
  | cons {a gn} {i k : Nat} {p c} : G a = some gn → gn.val.kids[i]? = some k → PathTo G k p c → PathTo G a (i :: p) c

theorem PathTo.reach {G : Graph} {a p c} (h : PathTo G a p c) : Reach G a c := by
  induction h with
  | nil => exact .refl
  | cons h1 h2 _ ih => exact .step h1 (List.mem_of_getElem? h2) ih

theorem Reach.path {G : Graph} {a c} (h : Reach G a c) : ∃ p, PathTo G a p c := by
  induction h with
  | refl => exact ⟨[], .nil⟩
  | step h1 h2 _ ih =>
    obtain ⟨p, hp⟩ := ih
    obtain ⟨i, hi⟩ := List.mem_iff_getElem?.1 h2
    exact ⟨i :: p, .cons h1 hi hp⟩

theorem PathTo.append {G : Graph} {a p c q d} (h : PathTo G a p c) (h' : PathTo G c q d) : PathTo G a (p ++ q) d := by
  induction h with
  | nil => exact h'
  | cons h1 h2 _ ih => exact .cons h1 h2 (ih h')

section
variable {st st' : St} {P P' : Addr → Prop} {G G' : Graph} {v w A B a c r k : Addr} {x y : Option Addr} {t t' : Json}

/-- In the store, two nodes above the same node lie on one line. -/
theorem Inv.line (hI : Inv st P G) {b c r} (hb : Reach G b r) (hc : Reach G c r) : Reach G b c ∨ Reach G c b := by
  induction hb generalizing c with
  | refl => exact .inr hc
  | @step b gn k r h1 h2 h3 ih =>
    rcases ih hc with h | h
    · exact .inl (.step h1 h2 h)
    · -- `c` reaches `k`, whose parent is `b`
      have key : ∀ {c k}, Reach G c k → ∀ {gn}, G b = some gn → k ∈ gn.val.kids → c = k ∨ Reach G c b := by
        intro c k h
        induction h with
        | refl => exact fun _ _ => .inl rfl
        | @step c gc m k g1 g2 g3 ih' =>
          intro gn hb hk
          rcases ih' hb hk with rfl | h
          · obtain ⟨g, e1, e2⟩ := hI.kid g1 g2
            obtain ⟨g', e3, e4⟩ := hI.kid hb hk
            rw [e1] at e3; cases e3
            rw [e2] at e4; cases e4
            exact .inr .refl
          · exact .inr (.step g1 g2 h)
      rcases key h h1 h2 with rfl | h'
      · exact .inl (.step h1 h2 .refl)
      · exact .inr h'

/-- Of the children of a node at most one leads to `r`. -/
theorem Inv.one_kid (hI : Inv st P G) {a gn k k' r} (ha : G a = some gn) (hk : k ∈ gn.val.kids) (hk' : k' ∈ gn.val.kids)
    (h : Reach G k r) (h' : Reach G k' r) : k = k' := by
  have one : ∀ {k k'}, k ∈ gn.val.kids → k' ∈ gn.val.kids → Reach G k k' → k = k' := by
    intro k k' hk hk' h
    cases h with
    | refl => rfl
    | @step _ gk m _ e1 e2 e3 =>
      exfalso
      -- the parent of `k'` is `a`, and it is reached from `k`
      obtain ⟨ta, hta⟩ := hI.fin a gn ha
      have key : ∀ {m k'}, Reach G m k' → k' ∈ gn.val.kids → ∀ {c gc}, G c = some gc → m ∈ gc.val.kids → Reach G k c → Reach G k a := by
        intro m k' h
        induction h with
        | @refl m =>
          intro hm c gc hc hmc hr
          obtain ⟨g, q1, q2⟩ := hI.kid hc hmc
          obtain ⟨g', q3, q4⟩ := hI.kid ha hm
          rw [q1] at q3; cases q3
          rw [q2] at q4; cases q4
          exact hr
        | @step m gm m' k' g1 g2 g3 ih =>
          intro hm c gc hc hmc hr
          exact ih hm g1 g2 (hr.trans (.step hc hmc .refl))
      exact hta.kid_ne ha hk (key e3 hk' e1 e2 .refl) rfl
  rcases hI.line h h' with g | g
  · exact one hk hk' g
  · exact (one hk' hk g).symm

theorem Inv.kids_nodup (hI : Inv st P G) {a gn} (ha : G a = some gn) : gn.val.kids.Nodup := by
  cases hv : gn.val with
  | con o ks =>
    obtain ⟨n, _, h, _⟩ := hI.con ha hv
    exact h.nodup
  | _ => simp [GVal.kids]

/-- There is one path only. -/
theorem Inv.path_unique (hI : Inv st P G) {a p q c} (h : PathTo G a p c) (h' : PathTo G a q c) : p = q := by
  induction h generalizing q with
  | nil =>
    cases h' with
    | nil => rfl
    | cons h1 h2 h3 =>
      obtain ⟨ta, hta⟩ := hI.fin _ _ h1
      exact absurd rfl (hta.kid_ne h1 (List.mem_of_getElem? h2) h3.reach)
  | @cons a gn i k p c h1 h2 h3 ih =>
    cases h' with
    | nil =>
      obtain ⟨ta, hta⟩ := hI.fin _ _ h1
      exact absurd rfl (hta.kid_ne h1 (List.mem_of_getElem? h2) h3.reach)
    | @cons _ gn' j k' q _ g1 g2 g3 =>
      rw [h1] at g1; cases g1
      have := hI.one_kid h1 (List.mem_of_getElem? h2) (List.mem_of_getElem? g2) h3.reach g3.reach
      subst this
      have hn := hI.kids_nodup h1
      have : i = j := by
        obtain ⟨hi, e1⟩ := List.getElem?_eq_some_iff.1 h2
        obtain ⟨hj, e2⟩ := List.getElem?_eq_some_iff.1 g2
        exact nodup_inj hn (e1.trans e2.symm)
      subst this
      rw [ih g3]

/-- The document at a path of the store. -/
theorem PathTo.at {p} (h : PathTo G a p c) : ∀ {T}, Unf G a T → ∃ u, Unf G c u ∧ T.at p = some u := by
  induction h with
  | nil => exact fun hu => ⟨_, hu, rfl⟩
  | @cons a gn i k p c h1 h2 h3 ih =>
    intro T hu
    obtain ⟨ha, hv⟩ := hu
    rw [h1] at ha; cases ha
    obtain ⟨o, hi, hc⟩ := hv.items
    rcases hi.at i with ⟨e1, _⟩ | ⟨k', gk, key, u, e1, e2, e3, e4, e5⟩
    · rw [h2] at e1; cases e1
    · rw [h2] at e1; cases e1
      obtain ⟨u', g1, g2⟩ := ih e5
      refine ⟨u', g1, ?_⟩
      cases T with
      | arr xs =>
        simp only [Json.items, List.getElem?_map, Option.map_eq_some_iff] at e2
        obtain ⟨y, e6, e7⟩ := e2
        cases e7
        simp only [Json.at, e6, Option.bind_some]; exact g2
      | obj ms =>
        simp only [Json.items] at e2
        simp only [Json.at, e2, Option.bind_some]; exact g2
      | _ => simp [Json.items] at e2

/-- The store `G'` is `G` with another value at the node `r`, namely the document `t`.
(Links, parents and the flags on links may be different; nodes may be new.) -/
structure EditAt (G G' : Graph) (r : Addr) (t : Json) : Prop where
  val : ∀ c gc, c ≠ r → G c = some gc → ∃ gc', G' c = some gc' ∧ gc'.val = gc.val
  key : ∀ c gc k gk, c ≠ r → G c = some gc → k ∈ gc.val.kids → G k = some gk → ∃ gk', G' k = some gk' ∧ gk'.key = gk.key
  doc : Unf G' r t

theorem EditAt.other (h : EditAt G G' r t) (hu : Unf G a t') (hn : ¬ Reach G a r) : Unf G' a t' :=
  hu.same ⟨fun c gc hr hc => h.val c gc (fun e => hn (e ▸ hr)) hc,
    fun c gc k gk hr hc hk hg => h.key c gc k gk (fun e => hn (e ▸ hr)) hc hk hg⟩

theorem UnfI.edit (hd : EditAt G G' r t) {f : Json → Json} {p : List Nat} : ∀ {ks o xs} {i k : Nat}, UnfI G o ks xs →
    (∀ k ∈ ks, ∀ gk, G k = some gk → ∃ gk', G' k = some gk' ∧ gk'.key = gk.key) →
    ks[i]? = some k → (∀ (j m : Nat), ks[j]? = some m → j ≠ i → ¬ Reach G m r) →
    (∀ u, Unf G k u → Unf G' k (u.edit f p)) →
    UnfI G' o ks (xs.modify i fun m => (m.1, m.2.edit f p))
  | [], _, _, i, k, _, _, h2, _, _ => by simp at h2
  | _ :: ks, o, _, i, k, .cons (gk := gk) h4 h5 h6 h7, h1, h2, h3, hk => by
    obtain ⟨gk', e1, e2⟩ := h1 _ (by simp) _ h4
    cases i with
    | zero =>
      simp at h2; subst h2
      simp only [List.modify_zero_cons]
      refine .cons e1 (by rw [e2]; exact h5) (hk _ h6) ?_
      have hs : ∀ m ∈ ks, ¬ Reach G m r := by
        intro m hm
        obtain ⟨j, hj⟩ := List.mem_iff_getElem?.1 hm
        exact h3 (j + 1) m (by simpa using hj) (by omega)
      refine h7.same (fun m hm => ⟨fun c gc hr hc => hd.val c gc (fun e => hs m hm (e ▸ hr)) hc,
        fun c gc k gk hr hc hk hg => hd.key c gc k gk (fun e => hs m hm (e ▸ hr)) hc hk hg⟩) ?_
      intro m gm hm hg
      exact h1 m (by simp [hm]) gm hg
    | succ i =>
      simp only [List.modify_succ_cons]
      refine .cons e1 (by rw [e2]; exact h5) (hd.other h6 (h3 0 _ (by simp) (by omega))) ?_
      exact UnfI.edit hd h7 (fun m hm => h1 m (by simp [hm])) (by simpa using h2)
        (fun j m hj hne => h3 (j + 1) m (by simpa using hj) (by omega)) hk

theorem mkCon_edit {o : Bool} {xs : List (Bytes × Json)} {f : Json → Json} {i p} :
    (mkCon o xs).edit f (i :: p) = mkCon o (xs.modify i fun m => (m.1, m.2.edit f p)) := by
  cases o with
  | true => rfl
  | false =>
    simp only [mkCon, Json.edit, Bool.false_eq_true, if_false, Json.arr.injEq]
    apply List.ext_getElem?
    intro j
    simp only [List.getElem?_modify, List.getElem?_map]
    split
    · cases xs[j]? <;> rfl
    · cases xs[j]? <;> rfl

/-- The documents that contain the node `r` have the new document in its place. -/
theorem EditAt.edit (h : EditAt G G' r t) (hI : Inv st P G) {p} (hp : PathTo G a p r) :
    ∀ {T}, Unf G a T → Unf G' a (T.replace p t) := by
  induction hp with
  | nil => exact fun _ => h.doc
  | @cons a gn i k p r h1 h2 h3 ih =>
    intro T hu
    have hne : a ≠ r := by
      rintro rfl
      exact hu.kid_ne h1 (List.mem_of_getElem? h2) h3.reach rfl
    obtain ⟨ha, hv⟩ := hu
    rw [h1] at ha; cases ha
    cases hg : gn.val with
    | con o ks =>
      rw [hg] at hv h2
      simp only [GVal.kids] at h2
      cases hv with
      | scalar hs => cases hs
      | @con _ _ xs hi =>
        obtain ⟨gn', e1, e2⟩ := h.val a gn hne h1
        refine .mk e1 ?_
        rw [e2, hg, Json.replace, mkCon_edit]
        refine .con (UnfI.edit h hi (fun m hm gm hgm => h.key a gn m gm hne h1 (by rw [hg]; exact hm) hgm) h2 ?_ (fun u hu => ih h hu))
        intro j m hj hji hr
        have hm : m ∈ gn.val.kids := by rw [hg]; exact List.mem_of_getElem? hj
        have hk : k ∈ gn.val.kids := by rw [hg]; exact List.mem_of_getElem? h2
        have := hI.one_kid h1 hm hk hr h3.reach
        subst this
        have hn := hI.kids_nodup h1
        rw [hg] at hn
        obtain ⟨hj', e3⟩ := List.getElem?_eq_some_iff.1 hj
        obtain ⟨hi', e4⟩ := List.getElem?_eq_some_iff.1 h2
        exact hji (nodup_inj hn (e3.trans e4.symm))
    | _ => rw [hg] at h2; simp [GVal.kids] at h2

/-- What the documents of the other handles are after a change at `r`: `w` shows the old
document if it does not contain the node `r`; otherwise the same document with `t` in the
place of that node. -/
theorem EditAt.shows (h : EditAt G G' r t) (hw : Ready st P G w (some a) B) (hw' : Ready st' P' G' w (some a) B) {T}
    (hs : Shows st w T) :
    (¬ Reach G a r → Shows st' w T) ∧ (∀ p, PathTo G a p r → Shows st' w (T.replace p t)) :=
  ⟨fun hn => hw'.shows (h.other (hw.unf hs) hn), fun _ hp => hw'.shows (h.edit hw.inv hp (hw.unf hs))⟩

theorem EditAt.set {gn : GNode} (hd : Unf (G.set r gn) r t)
    (hk : ∀ g, G r = some g → gn.key = g.key) : EditAt G (G.set r gn) r t where
  val c gc hc hg := ⟨gc, by rw [Graph.set_ne _ _ hc]; exact hg, rfl⟩
  key c gc k gk hc hg hm hgk := by
    by_cases e : k = r
    · subst e
      exact ⟨gn, by simp, hk _ hgk⟩
    · exact ⟨gk, by rw [Graph.set_ne _ _ e]; exact hgk, rfl⟩
  doc := hd

end

end ZJ
