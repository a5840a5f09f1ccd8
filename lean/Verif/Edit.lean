import Verif.PropGet
import Verif.Path

/-
The edits of the document store - cutting a node out, appending a node, replacing the
contents of a node - seen as changes at one place of the documents.
-/

set_option linter.unusedSimpArgs false

namespace ZJ

section
variable {st st' : St} {P P' : Addr → Prop} {G G' G1 : Graph} {v w A B a c f r x p : Addr} {t : Json} {o : Bool}
  {gf ga gx : GNode} {l kids : List Addr} {V Bs : Addr → Prop} {y : Option Addr}

/-- A handle that was not written is as before. -/
theorem Did.ready (h : Did V Bs st st' P P' G G') (hw : Ready st P G w y B) (hV : ¬ V w)
    (hn : ∀ a, y = some a → (G' a).isSome) : Ready st' P' G' w y B :=
  ⟨h.inv, h.cok hw.cok, by rw [h.frame.vals w (hw.inv.ok.val_lt hw.val) hV]; exact hw.val, hn⟩

/-! ### Dropping nodes from the store -/

open Classical in
/-- The part of the store with the nodes `S`. -/
noncomputable def Graph.only (G : Graph) (S : Addr → Prop) : Graph := fun b => if S b then G b else none

theorem Graph.only_some {S : Addr → Prop} {b gb} : G.only S b = some gb ↔ S b ∧ G b = some gb := by
  unfold Graph.only
  split
  · rename_i h; simp [h]
  · rename_i h; simp [h]

theorem Graph.only_le {S : Addr → Prop} : (G.only S).le G := fun _ _ h => (Graph.only_some.1 h).2

theorem Reach.only {S : Addr → Prop} (h : Reach (G.only S) a c) : Reach G a c := by
  induction h with
  | refl => exact .refl
  | step h1 h2 _ ih => exact .step (Graph.only_some.1 h1).2 h2 ih

mutual
theorem Unf.only {S : Addr → Prop} : ∀ {a t}, Unf G a t → (∀ c, Reach G a c → S c) → Unf (G.only S) a t
  | _, _, .mk ha hv, h => .mk (Graph.only_some.2 ⟨h _ .refl, ha⟩) (UnfV.only hv (fun _ hk c hr => h c (.step ha hk hr)))
theorem UnfV.only {S : Addr → Prop} : ∀ {gv t}, UnfV G gv t → (∀ k ∈ gv.kids, ∀ c, Reach G k c → S c) → UnfV (G.only S) gv t
  | _, _, .scalar hs, _ => .scalar hs
  | _, _, .con hi, h => .con (UnfI.only hi h)
theorem UnfI.only {S : Addr → Prop} : ∀ {o ks xs}, UnfI G o ks xs → (∀ k ∈ ks, ∀ c, Reach G k c → S c) →
    UnfI (G.only S) o ks xs
  | _, _, _, .nil, _ => .nil
  | _, _, _, .cons hk hkey hu hr, h =>
    .cons (Graph.only_some.2 ⟨h _ (by simp) _ .refl, hk⟩) hkey (Unf.only hu (h _ (by simp)))
      (UnfI.only hr (fun k hk => h k (by simp [hk])))
end

theorem Seg.only {S : Addr → Prop} : ∀ {pv ks nx}, Seg st G pv ks nx → (∀ k ∈ ks, S k) → Seg st (G.only S) pv ks nx
  | _, [], _, _, _ => trivial
  | _, _ :: _, _, ⟨⟨n, gk, h1, h2, h3, h4⟩, hr⟩, h =>
    ⟨⟨n, gk, h1, Graph.only_some.2 ⟨h _ (by simp), h2⟩, h3, h4⟩, Seg.only hr (fun k hk => h k (by simp [hk]))⟩

/-- A part of the store that contains the children of its nodes is a store. -/
theorem Inv.only (hI : Inv st P G) {S : Addr → Prop} (hS : ∀ a gn, S a → G a = some gn → ∀ k ∈ gn.val.kids, S k) :
    Inv st P (G.only S) where
  ok := hI.ok
  pin := hI.pin
  rep a gn ha := by
    obtain ⟨hs, ha⟩ := Graph.only_some.1 ha
    obtain ⟨n, hn, hk⟩ := hI.rep a gn ha
    refine ⟨n, hn, hk.key, hk.father, hk.root, ?_⟩
    have hS' := hS a gn hs ha
    have hv := hk.val
    cases hg : gn.val with
    | con o kids =>
      rw [hg] at hv hS'
      have hv : ConOK st G a n o kids gn.endOK := hv
      refine (show ConOK st (G.only S) a n o kids gn.endOK from
        ⟨hv.type, hv.value, hv.len, hv.end_, hv.seg.only hS', hv.nodup, fun k hk => ?_⟩)
      obtain ⟨gk, h1, h2⟩ := hv.kid k hk
      exact ⟨gk, Graph.only_some.2 ⟨hS' k hk, h1⟩, h2⟩
    | _ => rw [hg] at hv; exact hv
  fin a gn ha0 := by
    obtain ⟨hs, ha⟩ := Graph.only_some.1 ha0
    clear ha0
    obtain ⟨t, ht⟩ := hI.fin a gn ha
    refine ⟨t, ht.only fun c hr => ?_⟩
    clear ht t
    induction hr generalizing gn with
    | refl => exact hs
    | step h1 h2 h3 ih =>
      obtain ⟨gk, e1, _⟩ := hI.kid h1 h2
      exact ih gk (hS _ _ hs h1 _ h2) e1

theorem PathTo.only {S : Addr → Prop} {q} (h : PathTo G a q c) (hS : ∀ b, Reach G a b → S b) : PathTo (G.only S) a q c := by
  induction h with
  | nil => exact .nil
  | cons h1 h2 _ ih =>
    exact .cons (Graph.only_some.2 ⟨hS _ .refl, h1⟩) h2
      (ih (fun b hb => hS b (.step h1 (List.mem_of_getElem? h2) hb)))

/-! ### Cutting a node out -/

theorem detach_key {c gc} (hc : G c = some gc) : ∃ gc', G.detach f a o l kids c = some gc' ∧ gc'.key = gc.key := by
  unfold Graph.detach
  split
  · rw [hc]; exact ⟨_, rfl, rfl⟩
  · split
    · rw [hc]; exact ⟨_, rfl, rfl⟩
    · split
      · rw [hc]; exact ⟨_, rfl, rfl⟩
      · exact ⟨gc, hc, rfl⟩

/-- The node `x` was the child number `ys.length` of the node `p`; in `G1` it is not: `p` has
the other children in the old order. `x` is a root of its own, with its old key and its
old document. Nothing else is different (`EditAt`). -/
structure Removed (G G1 : Graph) (x p : Addr) (o : Bool) (ys : List (Bytes × Json)) (m : Bytes × Json)
    (zs : List (Bytes × Json)) : Prop where
  place : ∃ gp, G p = some gp ∧ gp.val.kids[ys.length]? = some x
  before : Unf G p (mkCon o (ys ++ m :: zs))
  edit : EditAt G G1 p (mkCon o (ys ++ zs))
  doc : Unf G1 x m.2
  root : ∃ gx gx', G x = some gx ∧ G1 x = some gx' ∧ gx'.par = none ∧ gx'.key = gx.key ∧ KeyIs o gx.key m.1

theorem Inv.removed {r : List Addr} (hI : Inv st P G) (hf : G f = some gf) (hv : gf.val = .con o (l ++ a :: r)) :
    ∃ ys m zs, Removed G (G.detach f a o l r) a f o ys m zs ∧ ys.length = l.length ∧ zs.length = r.length := by
  obtain ⟨tf, hu⟩ := hI.fin f gf hf
  obtain ⟨xs, rfl, hi⟩ := hu.con_inv hf hv
  obtain ⟨ys0, zs0, rfl, hl, hr0⟩ := hi.split
  cases hr0 with
  | @cons _ _ _ ga key ta zs ha hkey hta hr =>
  obtain ⟨ys', key', ta', zs', e1, e2, e3, e4, e5, e6, e7⟩ := hI.detach_doc hf hv
  have h1 := hl.det e3
  have h2 := hr.det e4
  have h3 := hta.det e2
  subst h1 h2 h3
  have hfa : f ≠ a := by
    rintro rfl
    exact hu.kid_ne hf (k := f) (by rw [hv]; simp [GVal.kids]) .refl rfl
  refine ⟨ys0, (key, ta), zs, ⟨⟨gf, hf, ?_⟩, hu, ⟨?_, ?_, e6⟩, e5, ?_⟩, hl.length.symm, hr.length.symm⟩
  · rw [hv]
    simp [GVal.kids, ← hl.length]
  · intro c gc hc hg
    obtain ⟨gc', g1, g2, _⟩ := detach_same (a := a) (o := o) (l := l) (r := r) hc hg
    exact ⟨gc', g1, g2⟩
  · intro c gc k gk _ _ _ hgk
    exact detach_key hgk
  · exact ⟨ga, _, ha, detach_self ha, rfl, rfl, hkey⟩

/-! ### Appending a node -/

theorem mkCon_app {o : Bool} {xs ys zs : List (Bytes × Json)} (h : mkCon o xs = mkCon o ys) :
    mkCon o (xs ++ zs) = mkCon o (ys ++ zs) := by
  cases o with
  | true =>
    have h : xs = ys := by simpa [mkCon] using h
    rw [h]
  | false =>
    have h : xs.map (·.2) = ys.map (·.2) := by simpa [mkCon] using h
    simp [mkCon, h]

theorem Inv.attach_edit (hI : Inv st P G) (hf : G f = some gf) (hv : gf.val = .con o kids)
    (hx : G x = some gx) (hr : ¬ Reach G x f) {key xs tx} (hk : KeyIs o gx.key key)
    (hxs : Unf G f (mkCon o xs)) (hux : Unf G x tx) :
    EditAt G (G.attach f x o kids) f (mkCon o (xs ++ [(key, tx)])) ∧ Unf (G.attach f x o kids) x tx := by
  obtain ⟨xs', tx', h1, h2, h3, h4, h5⟩ := hI.attach_doc hf hv hx hr hk
  have e1 := h2.det hux
  subst e1
  rw [← mkCon_app (h1.det hxs)]
  refine ⟨⟨?_, ?_, h4⟩, h3⟩
  · intro c gc hc hg
    obtain ⟨gc', g1, g2, _⟩ := attach_same (x := x) (o := o) (kids := kids) hc hg
    exact ⟨gc', g1, g2⟩
  · intro c gc k gk _ _ _ hgk
    unfold Graph.attach
    split
    · rw [hgk]; exact ⟨_, rfl, rfl⟩
    · split
      · rw [hgk]; exact ⟨_, rfl, rfl⟩
      · exact ⟨gk, hgk, rfl⟩

/-- Edits of the same place after a change of the key of a root. -/
theorem EditAt.rekey (hI : Inv st P G) (hx : G x = some gx) (hp : gx.par = none) {k}
    (h : EditAt (G.set x { gx with key := k }) G' f t) : EditAt G G' f t where
  val c gc hc hg := by
    by_cases e : c = x
    · subst e
      rw [hx] at hg; cases hg
      obtain ⟨g', h1, h2⟩ := h.val c _ hc (Graph.set_same _ _ _)
      exact ⟨g', h1, h2⟩
    · exact h.val c gc hc (by rw [Graph.set_ne _ _ e]; exact hg)
  key c gc m gm hc hg hm hgm := by
    have hmx : m ≠ x := by
      rintro rfl
      obtain ⟨g, e1, e2⟩ := hI.kid hg hm
      rw [hx] at e1; cases e1
      rw [hp] at e2; cases e2
    by_cases e : c = x
    · subst e
      rw [hx] at hg; cases hg
      exact h.key c _ m gm hc (Graph.set_same _ _ _) hm (by rw [Graph.set_ne _ _ hmx]; exact hgm)
    · exact h.key c gc m gm hc (by rw [Graph.set_ne _ _ e]; exact hg) hm (by rw [Graph.set_ne _ _ hmx]; exact hgm)
  doc := h.doc

/-- A smaller store. -/
theorem EditAt.le {g : Graph} (h : EditAt G G' f t) (hg : g.le G) : EditAt g G' f t where
  val c gc hc hgc := h.val c gc hc (hg c gc hgc)
  key c gc m gm hc hgc hm hgm := h.key c gc m gm hc (hg c gc hgc) hm (hg m gm hgm)
  doc := h.doc

/-! ### Replacing the contents of a node -/

theorem Inv.graft_edit (hI : Inv st P G) (ha : G a = some ga) (hx : G x = some gx) (hp : gx.par = none)
    (ht : Unf G x t) (hr : ¬ Reach G x a) {e} :
    EditAt (G.only (· ≠ x)) (G.graft a x ga gx e) a t where
  val c gc hc hg := by
    obtain ⟨hcx, hg⟩ := Graph.only_some.1 hg
    obtain ⟨gc', h1, h2, _⟩ := graft_same (ga := ga) (gx := gx) (e := e) hc hcx hg
    exact ⟨gc', h1, h2⟩
  key c gc m gm hc hg hm hgm := by
    obtain ⟨hcx, hg⟩ := Graph.only_some.1 hg
    obtain ⟨hmx, hgm⟩ := Graph.only_some.1 hgm
    by_cases e1 : m = a
    · subst e1
      rw [ha] at hgm; cases hgm
      exact ⟨_, graft_self, rfl⟩
    · obtain ⟨gc', h1, _, h2, _⟩ := graft_same (ga := ga) (gx := gx) (e := e) e1 hmx hgm
      exact ⟨gc', h1, h2⟩
  doc := (graft_doc hI hx hp ht hr).2

end
end ZJ
