import Verif.PropHist

/-
C34 for clients that keep to a simple discipline. `Legit` mentions the links the defects of
`zj_Move` and `zj_Set` destroy. A client that never takes a value out of the middle or the
end of a container and never copies a container over a value with `zj_Set` needs none of that.
-/

set_option linter.unusedSimpArgs false
set_option linter.unusedVariables false

namespace ZJ

variable {D : Type} {fp : FP D} {s s' : Store} {G : Graph} {a x f : Addr}

/-- The node is a root or the first child of its parent. -/
def Front (G : Graph) (x : Addr) : Prop :=
  ∃ gx, G x = some gx ∧ (gx.par = none ∨ ∃ f gf o r, G f = some gf ∧ gf.val = .con o (x :: r))

/-- A simple discipline. No condition speaks about links of the implementation. -/
def Plain (fp : FP D) (s : Store) : Call D → Prop
  | .move v => s.alive v ∧ ∀ a A, s.hnd v = some ⟨some a, A⟩ → Front s.node a
  | .add o fast v w => s.alive v ∧ s.alive w ∧ (fast = true → ∀ f ks x A, s.isCon v o f ks → s.hnd w = some ⟨some x, A⟩ →
      Front s.node x ∧ ¬ Reach s.node x f)
  | .delAt v i => s.alive v ∧ ∀ f ks, s.isCon v false f ks → i = 0 ∨ ks.length ≤ i
  | .delKey v k => s.alive v ∧ (0 : Byte) ∉ k ∧ ∀ f ks x, s.isCon v true f ks → s.node.find k ks = some x → ks.head? = some x
  | .set fast v w => s.alive v ∧ s.alive w ∧ ∀ x A', s.hnd w = some ⟨some x, A'⟩ →
      if fast then Front s.node x ∧ ∀ a A, s.hnd v = some ⟨some a, A⟩ → ¬ Reach s.node x a
      else ∀ gx, s.node x = some gx → gx.val.kids = []
  | c => Legit fp s c

/-- All links of the implementation are right. -/
def Prim (G : Graph) : Prop := ∀ a gn, G a = some gn → gn.prevOK = true ∧ (gn.val.kids = [] ∨ gn.endOK = true)

theorem Reach.undetach {gf : GNode} {o : Bool} {l r : List Addr} (hf : G f = some gf) (hv : gf.val = .con o (l ++ x :: r)) {b c : Addr}
    (h : Reach (G.detach f x o l r) b c) : Reach G b c := by
  induction h with
  | refl => exact .refl
  | @step b g k c hb hk _ ih =>
    obtain ⟨g0, e0, hsub⟩ : ∃ g0, G b = some g0 ∧ ∀ k ∈ g.val.kids, k ∈ g0.val.kids := by
      unfold Graph.detach at hb
      split at hb
      · cases h0 : G b with
        | none => simp [h0] at hb
        | some g0 => simp [h0] at hb; subst hb; exact ⟨g0, rfl, fun _ h => h⟩
      · split at hb
        · rename_i e; subst e
          rw [hf] at hb; simp at hb; subst hb
          refine ⟨gf, hf, fun k hk => ?_⟩
          rw [hv]
          simp only [GVal.kids, List.mem_append, List.mem_cons] at hk ⊢
          exact hk.imp id .inr
        · split at hb
          · cases h0 : G b with
            | none => simp [h0] at hb
            | some g0 => simp [h0] at hb; subst hb; exact ⟨g0, rfl, fun _ h => h⟩
          · exact ⟨g, hb, fun _ h => h⟩
    exact .step e0 (hsub k hk) ih

theorem Front.moved (h : Front G x) : ∃ G', Moved G x G' := by
  obtain ⟨gx, hx, hp | ⟨f, gf, o, r, hf, hv⟩⟩ := h
  · exact ⟨G, .root hx hp⟩
  · exact ⟨_, .child (l := []) hx hf hv (.inl rfl)⟩

theorem Moved.unreach {G' : Graph} (hm : Moved G x G') {b c : Addr} (h : Reach G' b c) : Reach G b c := by
  cases hm with
  | root => exact h
  | child hx hf hv => exact h.undetach hf hv

theorem Prim.detach {gf : GNode} {o : Bool} {r : List Addr} (h : Prim G) (hf : G f = some gf) (hv : gf.val = .con o (x :: r)) :
    Prim (G.detach f x o [] r) := by
  intro b gb hb
  unfold Graph.detach at hb
  split at hb
  · cases h0 : G b with
    | none => simp [h0] at hb
    | some g0 => simp [h0] at hb; subst hb; exact ⟨rfl, (h b g0 h0).2⟩
  · split at hb
    · rename_i e; subst e
      rw [hf] at hb; simp at hb; subst hb
      obtain ⟨h1, h2⟩ := h b gf hf
      refine ⟨h1, .inr ?_⟩
      rw [hv] at h2
      simpa [GVal.kids] using h2
    · split at hb
      · cases h0 : G b with
        | none => simp [h0] at hb
        | some g0 => simp [h0] at hb; subst hb; exact ⟨rfl, (h b g0 h0).2⟩
      · exact h b gb hb

/-- A node has only one place. -/
theorem Forest.unique (hF : Forest G) {gx gf : GNode} {o : Bool} {l r : List Addr} (hx : G x = some gx) (hf : G f = some gf)
    (hv : gf.val = .con o (l ++ x :: r)) : gx.par = some f ∧ (l ++ x :: r).Nodup := by
  obtain ⟨hn, hk⟩ := hF f gf o _ hf hv
  obtain ⟨g1, e1, e2, _⟩ := hk x (by simp)
  rw [hx] at e1; cases e1
  exact ⟨e2, hn⟩

theorem Front.prim {G' : Graph} (hF : Forest G) (h : Front G x) (hp : Prim G) (hm : Moved G x G') : Prim G' := by
  cases hm with
  | root => exact hp
  | @child gx gf f o l r hx hf hv hok =>
    obtain ⟨e1, hn⟩ := hF.unique hx hf hv
    obtain ⟨gx', hx', hpar | ⟨f', gf', o', r', hf', hv'⟩⟩ := h
    · rw [hx] at hx'; cases hx'; rw [e1] at hpar; cases hpar
    · obtain ⟨e2, _⟩ := hF.unique (l := []) hx hf' hv'
      rw [e1] at e2; cases e2
      rw [hf] at hf'; cases hf'
      rw [hv] at hv'
      simp only [GVal.con.injEq] at hv'
      cases l with
      | nil => exact hp.detach hf hv
      | cons c l =>
        simp at hv' hn
        rw [hv'.2.1] at hn
        simp at hn

theorem Prim.set {gn : GNode} (h : Prim G) (h1 : gn.prevOK = true) (h2 : gn.val.kids = [] ∨ gn.endOK = true) : Prim (G.set a gn) := by
  intro b gb hb
  rw [Graph.set_apply] at hb
  split at hb
  · cases hb; exact ⟨h1, h2⟩
  · exact h b gb hb

theorem Prim.attach {o : Bool} {ks : List Addr} (h : Prim G) : Prim (G.attach f x o ks) := by
  intro b gb hb
  unfold Graph.attach at hb
  split at hb
  · cases h0 : G b with
    | none => simp [h0] at hb
    | some g0 => simp [h0] at hb; subst hb; exact ⟨rfl, (h b g0 h0).2⟩
  · split at hb
    · cases h0 : G b with
      | none => simp [h0] at hb
      | some g0 => simp [h0] at hb; subst hb; exact ⟨(h b g0 h0).1, .inr rfl⟩
    · exact h b gb hb

theorem Prim.grow {g : Graph} {n : Addr} {gn : GNode} (h : Prim G) (hc : CopyOf G x g n gn) : Prim (G.or g) := by
  intro b gb hb
  unfold Graph.or at hb
  cases h0 : G b with
  | some y =>
    rw [h0] at hb; cases hb
    exact h b _ h0
  | none =>
    rw [h0] at hb
    obtain ⟨h1, h2, _⟩ := hc.links b gb hb
    exact ⟨h1, .inr h2⟩

theorem Prim.graft {ga gx : GNode} {e : Bool} (h : Prim G) (ha : G a = some ga) (hx : G x = some gx) (he : gx.val.kids = [] ∨ e = true) :
    Prim (G.graft a x ga gx e) := by
  intro b gb hb
  unfold Graph.graft at hb
  split at hb
  · cases hb; exact ⟨(h a ga ha).1, he⟩
  · split at hb
    · cases hb
    · split at hb
      · cases h0 : G b with
        | none => simp [h0] at hb
        | some g0 => simp [h0] at hb; subst hb; exact h b g0 h0
      · exact h b gb hb

theorem Target.prim {v A : Addr} {gn : GNode} (h : Prim s.node) (hT : Target s v A a gn) : gn.prevOK = true := by
  cases hT with
  | old _ ha => exact (h _ _ ha).1
  | new => rfl

theorem use_node (b : Bool) (A : Nat) : (s.use b A).node = s.node := by unfold Store.use; split <;> rfl

theorem find_mem {k : Bytes} {ks : List Addr} (h : G.find k ks = some x) : x ∈ ks := List.mem_of_find?_eq_some h

theorem CopyOf.here {g : Graph} {n : Addr} {gn : GNode} (h : CopyOf G x g n gn) : (G.or g) n = some gn := by
  simp only [Graph.or, h.fresh _ _ h.root, h.root]; rfl

/-- A document without members is represented without children. -/
theorem UnfV.childless {g : Graph} {gv gw : GVal} {t : Json} (h : UnfV G gv t) (hk : gv.kids = []) (h' : UnfV g gw t) : gw.kids = [] := by
  cases h with
  | scalar hs =>
    generalize ht : gv.doc = t at h'
    cases h' with
    | scalar hs' => cases gw <;> simp_all [GVal.isCon, GVal.kids]
    | @con o _ _ _ => cases o <;> cases gv <;> simp_all [GVal.isCon, GVal.doc, mkCon]
  | @con o kids xs hi =>
    simp only [GVal.kids] at hk
    subst hk
    cases hi
    generalize ht : mkCon o [] = t at h'
    cases h' with
    | scalar hs' => cases gw <;> simp_all [GVal.isCon, GVal.kids]
    | @con o' ks ys hi' =>
      have : ys = [] := by cases o <;> cases o' <;> simp_all [mkCon]
      subst this
      cases hi'
      rfl

/-- What the discipline allows is allowed. -/
theorem Plain.legit {c : Call D} (hw : Wf s) (hp : Prim s.node) (h : Plain fp s c) : Legit fp s c := by
  cases c with
  | move v => exact ⟨h.1, fun a A hv => (h.2 a A hv).moved⟩
  | add o fast v w =>
    refine ⟨h.1, h.2.1, fun f ks x A gx hc hw' hx hk => ?_⟩
    obtain ⟨B, gf, hv, hf, hgf⟩ := hc
    cases fast with
    | false =>
      have := (hp f gf hf).2
      rw [hgf] at this
      exact this.imp id fun h => ⟨gf, hf, h⟩
    | true =>
      obtain ⟨hfr, hr⟩ := h.2.2 rfl f ks x A ⟨B, gf, hv, hf, hgf⟩ hw'
      obtain ⟨G', hm⟩ := hfr.moved
      have hp' := hfr.prim hw.forest hp hm
      have hne : f ≠ x := fun e => hr (e ▸ .refl)
      obtain ⟨kids, gf', hf', hv'⟩ : ∃ kids gf', G' f = some gf' ∧ gf'.val = .con o kids := by
        cases hm with
        | root => exact ⟨ks, gf, hf, hgf⟩
        | @child gx gp p o' l r hx' hf' hv' _ =>
          unfold Graph.detach
          rw [if_neg hne]
          by_cases e : f = p
          · subst e
            rw [hf] at hf'; cases hf'
            rw [hgf] at hv'
            simp only [GVal.con.injEq] at hv'
            refine ⟨l ++ r, { gf with val := .con o' (l ++ r), endOK := gf.endOK && (l.isEmpty || !r.isEmpty) }, by simp [hf], by rw [hv'.1]⟩
          · rw [if_neg e]
            split
            · exact ⟨ks, { gf with prevOK := l.isEmpty }, by simp [hf], hgf⟩
            · exact ⟨ks, gf, hf, hgf⟩
      have := (hp' f gf' hf').2
      rw [hv'] at this
      exact ⟨G', kids, hm, ⟨gf', hf', hv', this⟩, fun h => hr (hm.unreach h)⟩
  | delAt v i => exact ⟨h.1, fun f l x r gx _ _ hx => .inr (hp x gx hx).1⟩
  | delKey v k => exact ⟨h.1, h.2.1, fun f l x r gx _ _ hx => .inr (hp x gx hx).1⟩
  | set fast v w =>
    refine ⟨h.1, h.2.1, fun hf x A' hw' => ?_⟩
    subst hf
    obtain ⟨hfr, hr⟩ := h.2.2 x A' hw'
    obtain ⟨G', hm⟩ := hfr.moved
    exact ⟨G', hm, fun a A hv h => hr a A hv (hm.unreach h)⟩
  | _ => exact h

/-- The discipline keeps all links right. -/
theorem Plain.prim {c : Call D} {r : Ans D} (hw : Wf s) (hp : Prim s.node) (h : Plain fp s c) (hA : AStep fp s c r s') : Prim s'.node := by
  cases hA with
  | newAlloc => exact hp
  | release =>
    intro b gb hb
    have hb : (s.node.only _) b = some gb := hb
    unfold Graph.only at hb
    split at hb
    · exact hp b gb hb
    · cases hb
  | newValue => exact hp
  | parse ht hT hpl =>
    refine Prim.set (fun b gb hb => ?_) (by have := hT.prim hp; exact this) (.inr rfl)
    unfold Graph.or at hb
    rename_i g _ _
    cases h0 : g b with
    | some y =>
      rw [h0] at hb; cases hb
      obtain ⟨h1, h2, _⟩ := hpl.links b _ h0
      exact ⟨h1, .inr h2⟩
    | none => rw [h0] at hb; exact hp b gb hb
  | parseNo => exact hp
  | text _ hT => show Prim (Graph.set (s.use _ _).node _ _); rw [use_node]; exact hp.set (by have := hT.prim hp; exact this) (.inr rfl)
  | textNo => rw [use_node]; exact hp
  | null hT => exact hp.set (by have := hT.prim hp; exact this) (.inr rfl)
  | bool hT => exact hp.set (by have := hT.prim hp; exact this) (.inr rfl)
  | array hT => exact hp.set (by have := hT.prim hp; exact this) (.inr rfl)
  | object hT => exact hp.set (by have := hT.prim hp; exact this) (.inr rfl)
  | int hT => exact hp.set (by have := hT.prim hp; exact this) (.inr rfl)
  | double hT => exact hp.set (by have := hT.prim hp; exact this) (.inr rfl)
  | key _ hT =>
    show Prim (Graph.set (s.use _ _).node _ _); rw [use_node]
    refine hp.set (by have := hT.prim hp; exact this) ?_
    cases hT with
    | old _ ha => exact (hp _ _ ha).2
    | new => exact .inr rfl
  | keyNo => rw [use_node]; exact hp
  | keyInArray => rw [use_node]; exact hp
  | get => exact hp
  | nav => exact hp
  | navNo => exact hp
  | copy _ hc => exact hp.grow hc
  | copyNo => exact hp
  | move hv hm => exact (h.2 _ _ hv).prim hw.forest hp hm
  | moveNo => exact hp
  | addFast hc hv hm hx =>
    have hp' := (h.2.2 rfl _ _ _ _ hc hv).1.prim hw.forest hp hm
    obtain ⟨h1, h2⟩ := hp' _ _ hx
    refine Prim.attach (hp'.set ?_ ?_)
    · unfold GNode.asItem; split <;> exact h1
    · unfold GNode.asItem; split <;> exact h2
  | add hc hv hcp =>
    have hp' := hp.grow hcp
    obtain ⟨h1, h2⟩ := hp' _ _ hcp.here
    refine Prim.attach (hp'.set ?_ ?_)
    · unfold GNode.asItem; split <;> exact h1
    · unfold GNode.asItem; split <;> exact h2
  | addNo => exact hp
  | @delAt v f l x r hc =>
    have := h.2 _ _ hc
    have hl : l = [] := by
      rcases this with h | h
      · exact List.eq_nil_of_length_eq_zero h
      · simp at h; omega
    subst hl
    obtain ⟨A, gf, _, hf, hgf⟩ := hc
    exact hp.detach hf hgf
  | delAtNo => exact hp
  | @delKey v f k l x r hc hfnd hxl =>
    have hh := h.2.2 _ _ _ hc hfnd
    have hl : l = [] := by
      cases l with
      | nil => rfl
      | cons c l =>
        simp at hh; subst hh
        exact absurd (List.mem_cons_self ..) hxl
    subst hl
    obtain ⟨A, gf, _, hf, hgf⟩ := hc
    exact hp.detach hf hgf
  | delKeyNo => exact hp
  | setFast hv hw' hm ha hx =>
    have hp' := (h.2.2 _ _ hw').1.prim hw.forest hp hm
    exact hp'.graft ha hx (hp' _ _ hx).2
  | setFastNew hv hw' hm => exact (h.2.2 _ _ hw').1.prim hw.forest hp hm
  | set hv hw' ha hcp =>
    have hp' := hp.grow hcp
    refine hp'.graft (Graph.le_or _ _ ha) hcp.here (.inl ?_)
    obtain ⟨gx, hx, _⟩ := hcp.key
    have hk := h.2.2 _ _ hw' gx hx
    obtain ⟨t, h1, h2⟩ := hcp.doc
    cases h1 with
    | mk e1 u1 =>
      cases h2 with
      | mk e2 u2 =>
        rw [hx] at e1; cases e1
        rw [hcp.root] at e2; cases e2
        exact u1.childless hk u2
  | setNew hv hw' hcp => exact hp.grow hcp
  | setNo => exact hp

/-- The client keeps to the discipline. -/
def Prog.Plain (fp : FP D) : Prog D → Store → Prop
  | .done, _ => True
  | .call c k, s => ZJ.Plain fp s c ∧ ∀ r s', AStep fp s c r s' → Wf s' → (k r).Plain fp s'

theorem Prog.Plain.safe {p : Prog D} : ∀ {s : Store}, Wf s → Prim s.node → p.Plain fp s → p.Safe fp s := by
  induction p with
  | done => exact fun _ _ _ => trivial
  | call c k ih => exact fun hw hp h => ⟨h.1.legit hw hp, fun r s' hA hw' => ih r hw' (h.1.prim hw hp hA) (h.2 r s' hA hw')⟩

/-- C34 for a client that keeps to the discipline `Plain`: it starts without any allocator,
and whatever the answers are it only uses handles of allocators it has not released, takes
values out of containers only at the front, and uses `zj_Set` only with values that have no
children (together with the conditions on texts, numbers and integers of `Legit`). Its calls
all succeed in memory, the answers are those of the abstract store, and at the end every
handle shows the document the abstract store has for it. Missing for the full property: other
clients, see `C34_false_ub` and `C34_false_answer`. -/
theorem C34_plain_partial {slack : Nat → Nat} {pad : Bool} (hp : pad = true → ∀ b, 3 ≤ slack b) (p : Prog D)
    (hs : p.Plain fp (Store.init pad)) :
    ∃ c rs st' s', (∀ F, c ≤ F → p.run fp F (St.init slack cfg) = .ok (rs, st')) ∧ p.Gives fp (Store.init pad) rs s' ∧
      (∀ v y, s'.hnd v = some y → st'.vals v = some y) ∧
      ∀ v t, s'.Doc v t → Shows st' v t ∧ t.Valid :=
  C34_history_partial hp p (hs.safe (WP.init (cfg := {}) (slack := slack) hp).wf fun _ _ h => (nomatch h))

/-- A client that makes a value, parses a text, asks for the size, takes out the first element
and prints what is left, and releases the memory. -/
def plainClient : Prog D :=
  .call .newAlloc fun
  | .alloc A => .call (.newValue A) fun
    | .handle (some v) => .call (.parse .parse v b!"[1,[true]]") fun _ => .call (.get .size v) fun _ =>
        .call (.delAt v 0) fun _ => .call (.get .print v) fun _ => .call (.release A) fun _ => .done
    | _ => .done
  | _ => .done

/-- The discipline is met by that client, and its calls are answered `2` and `[[true]]`. -/
theorem plainClient_plain : (plainClient : Prog D).Plain fp (Store.init false) := by
  refine ⟨trivial, fun r s1 h1 _ => ?_⟩
  cases h1 with | @newAlloc A hA => ?_
  refine ⟨by simp [ZJ.Plain, Legit, upd], fun r s2 h2 _ => ?_⟩
  cases h2 with | @newValue _ v hl hn => ?_
  have hJ : JText (.arr [.num b!"1", .arr [.bool true]]) b!"[1,[true]]" := by
    have := print_text (t := .arr [.num b!"1", .arr [.bool true]]) (by
      simp only [Json.Valid, Json.ValidElems, and_true]
      exact ⟨[], b!"1", [], [], rfl, .inl rfl, .inr ⟨0x31, [], rfl, by decide, by decide, nofun⟩, .inl rfl, .inl rfl⟩)
    exact this
  refine ⟨⟨by simp [Store.alive, Store.handle, upd], .inr (by decide), .inr ⟨_, hJ⟩⟩, fun r s3 h3 _ => ?_⟩
  have hs3 : s3.alive v ∧ s3.live A = true := by
    cases h3 with
    | parse _ hT _ =>
      cases hT with
      | old e _ => simp [Store.handle, upd] at e
      | new e _ => simp [Store.alive, Store.plant, Store.handle, upd]
    | parseNo hno => exact absurd ⟨_, hJ⟩ hno
  refine ⟨⟨hs3.1, fun _ _ _ _ _ _ _ => trivial⟩, fun r s4 h4 _ => ?_⟩
  cases h4
  refine ⟨⟨hs3.1, fun _ _ _ => .inl rfl⟩, fun r s5 h5 _ => ?_⟩
  have hs5 : s5.alive v ∧ s5.live A = true := by
    generalize hi : 0 = i at h5
    cases h5 <;> exact hs3
  refine ⟨⟨hs5.1, fun _ _ _ _ _ _ _ => trivial⟩, fun r s6 h6 _ => ?_⟩
  cases h6
  exact ⟨hs5.2, fun _ _ _ _ => trivial⟩

example : ((plainClient : Prog Unit).run (⟨fun _ => [], fun _ => ()⟩ : FP Unit) 99 (St.init fun _ => 0)).out =
    .ok [.alloc 0, .handle (some 0), .bool true, .nat 2, .bool true, .bytes (some b!"[[true]]"), .unit] := by decide +kernel

/-- It also meets the hypothesis of `C34_history_partial`, `C35_history_partial` and
`C44_history_partial`. -/
example : (plainClient : Prog D).Safe fp (Store.init false) :=
  plainClient_plain.safe (WP.init (cfg := {}) (slack := fun _ => 0) (pad := false) nofun).wf fun _ _ h => (nomatch h)

/-! ### C35 and C44 for all clients -/

/-- C35 for all clients that make only allowed calls: at the end every usable handle that
is not empty shows a finite document, no node is reached again from one of its children, and
printing and copying come to an end. Missing for the full property: clients that put a value
below itself with a Fast function, see `C35_false`. -/
theorem C35_history_partial {slack : Nat → Nat} {pad : Bool} (hp : pad = true → ∀ b, 3 ≤ slack b) (p : Prog D)
    (hs : p.Safe fp (Store.init pad)) :
    ∃ c rs st' s', (∀ F, c ≤ F → p.run fp F (St.init slack cfg) = .ok (rs, st')) ∧ p.Gives fp (Store.init pad) rs s' ∧
      ∀ v a A, s'.hnd v = some ⟨some a, A⟩ → (∃ t, Shows st' v t) ∧
        (∀ b k g, Reach s'.node a b → s'.node b = some g → k ∈ g.val.kids → ¬ Reach s'.node k b) ∧
        (∃ c', ∀ F, c' ≤ F → ∃ q st'', stringify F v st' = .ok (q, st'')) ∧
        ∃ c', ∀ F, c' ≤ F → ∃ w st'', copy F v st' = .ok (some w, st'') := by
  obtain ⟨c, rs, st', s', P', e, hG, h⟩ := p.goes (WP.init hp) hs
  refine ⟨c, rs, st', s', e, hG, fun v a A hv => ?_⟩
  obtain ⟨hv1, hv2⟩ := h.hnd v _ hv
  obtain ⟨gx, hx⟩ := Option.isSome_iff_exists.1 (hv2 a rfl)
  obtain ⟨t, ht⟩ := h.inv.fin a gx hx
  refine ⟨⟨t, h.inv.shows hv1 ht⟩, fun b k g _ hb hk hr => ?_, ?_, ?_⟩
  · obtain ⟨u, hu⟩ := h.inv.fin b g hb
    exact hu.kid_ne hb hk hr rfl
  · obtain ⟨c, st2, q, h2, _⟩ := stringify_run h.inv hv1 ht
    exact ⟨c, fun F hF => ⟨_, st2, h2 F hF⟩⟩
  · obtain ⟨c, st2, _, _, _, h2, _⟩ := copy_run h.inv hv1 hx ht
    exact ⟨c, fun F hF => ⟨_, st2, by have := h2 (F - c); rwa [Nat.sub_add_cancel hF] at this⟩⟩

/-- C44 for all clients that make only allowed calls: at the end `zj_Stringify` of every usable
handle that is not empty returns a JSON text of the document of that handle. Missing for the
full property: clients that put NaN or an infinity into a number or a value below itself,
see `C44_false`. -/
theorem C44_history_partial {slack : Nat → Nat} {pad : Bool} (hp : pad = true → ∀ b, 3 ≤ slack b) (p : Prog D)
    (hs : p.Safe fp (Store.init pad)) :
    ∃ c rs st' s', (∀ F, c ≤ F → p.run fp F (St.init slack cfg) = .ok (rs, st')) ∧ p.Gives fp (Store.init pad) rs s' ∧
      ∀ v a A, s'.hnd v = some ⟨some a, A⟩ → ∃ c' q st'' t b, (∀ F, c' ≤ F → stringify F v st' = .ok (q, st'')) ∧
        Shows st' v t ∧ HoldsText st'' q b ∧ JText t b := by
  obtain ⟨c, rs, st', s', P', e, hG, h⟩ := p.goes (WP.init hp) hs
  refine ⟨c, rs, st', s', e, hG, fun v a A hv => ?_⟩
  obtain ⟨hv1, hv2⟩ := h.hnd v _ hv
  obtain ⟨gx, hx⟩ := Option.isSome_iff_exists.1 (hv2 a rfl)
  obtain ⟨t, ht⟩ := h.inv.fin a gx hx
  obtain ⟨c, st2, q, h2, h3, h4, h5, bf, h6, h7⟩ := stringify_run h.inv hv1 ht
  exact ⟨c, _, st2, t, t.print, h2, h.inv.shows hv1 ht, ⟨q, bf, rfl, h6, h7⟩, print_text (ht.valid h.valid)⟩

end ZJ
