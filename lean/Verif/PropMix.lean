import Verif.EmbStep

/-
C52 and C53: what a client is told depends on its own calls alone.

C53: two runs of a client, whatever memory the allocators hand out, give the same answers.
C52: two clients that share the process but no allocators or values are told the same as if
each was alone. This is false of the code because of the scratch string (`C52_false`), and
true without it.

A client of this file numbers its handles and allocators itself, in the order in which it got
them, so that "the same calls" and "the same answers" make sense in different runs.
-/

set_option linter.unusedSimpArgs false
set_option linter.unusedVariables false

namespace ZJ

variable {D : Type} {fp : FP D}

/-! ### Clients with their own numbering -/

/-- The handles and the allocators a client has got, in this order. -/
structure Tab where
  hs : List Addr
  as : List Nat

def Tab.empty : Tab := ⟨[], []⟩

/-- The call of the API for a call of a client. A client that names something it never got is
stopped. -/
def Tab.call (T : Tab) : Call D → Option (Call D)
  | .newAlloc => some .newAlloc
  | .release A => T.as[A]?.map .release
  | .newValue A => T.as[A]?.map .newValue
  | .parse f v b => T.hs[v]?.map fun v => .parse f v b
  | .text f v b => T.hs[v]?.map fun v => .text f v b
  | .null v => T.hs[v]?.map .null
  | .bool v b => T.hs[v]?.map fun v => .bool v b
  | .array v => T.hs[v]?.map .array
  | .object v => T.hs[v]?.map .object
  | .int f v n => T.hs[v]?.map fun v => .int f v n
  | .double v d => T.hs[v]?.map fun v => .double v d
  | .key f v b => T.hs[v]?.map fun v => .key f v b
  | .get f v => T.hs[v]?.map fun v => .get f v
  | .nav f v => T.hs[v]?.map fun v => .nav f v
  | .copy v => T.hs[v]?.map .copy
  | .move v => T.hs[v]?.map .move
  | .add o fast v w => T.hs[v]?.bind fun v => T.hs[w]?.map fun w => .add o fast v w
  | .delAt v i => T.hs[v]?.map fun v => .delAt v i
  | .delKey v k => T.hs[v]?.map fun v => .delKey v k
  | .set fast v w => T.hs[v]?.bind fun v => T.hs[w]?.map fun w => .set fast v w

/-- What the client is told, with its own numbers. -/
def Tab.ans (T : Tab) : Ans D → Ans D
  | .alloc _ => .alloc T.as.length
  | .handle (some _) => .handle (some T.hs.length)
  | r => r

/-- What the client has got after an answer. -/
def Tab.next (T : Tab) : Ans D → Tab
  | .alloc A => { T with as := T.as ++ [A] }
  | .handle (some v) => { T with hs := T.hs ++ [v] }
  | _ => T

/-- The client, with its own numbers, as a program. -/
def Prog.named : Prog D → Tab → Prog D
  | .done, _ => .done
  | .call c k, T =>
    match T.call c with
    | none => .done
    | some c' => .call c' fun r => (k (T.ans r)).named (T.next r)

/-- What the client was told. -/
def Tab.views : Tab → List (Ans D) → List (Ans D)
  | _, [] => []
  | T, r :: rs => T.ans r :: (T.next r).views rs

/-! ### Related tables -/

structure TabLike (ρ : Names) (S T : Tab) : Prop where
  hs : Each ρ.H S.hs T.hs
  as : Each ρ.L S.as T.as

theorem TabLike.mono {ρ ρ' : Names} {S T : Tab} (h : TabLike ρ S T) (hle : ρ.le ρ') : TabLike ρ' S T :=
  ⟨h.hs.mono hle.H, h.as.mono hle.L⟩

theorem TabLike.call {ρ : Names} {S T : Tab} (h : TabLike ρ S T) (c : Call D) : Opt (CallLike ρ) (S.call c) (T.call c) := by
  have two : ∀ (v w : Addr) {F : Addr → Addr → Call D}, (∀ a b a' b', ρ.H a b → ρ.H a' b' → CallLike ρ (F a a') (F b b')) →
      Opt (CallLike ρ) (S.hs[v]?.bind fun v => S.hs[w]?.map fun w => F v w) (T.hs[v]?.bind fun v => T.hs[w]?.map fun w => F v w) := by
    intro v w F hF
    have h1 := h.hs.get v
    have h2 := h.hs.get w
    generalize S.hs[v]? = x at h1
    generalize T.hs[v]? = x' at h1
    cases h1 with
    | none => exact .none
    | some h1 => exact h2.map fun a b h2 => hF _ _ _ _ h1 h2
  cases c with
  | newAlloc => exact .some .newAlloc
  | release A => exact (h.as.get A).map fun _ _ => .release
  | newValue A => exact (h.as.get A).map fun _ _ => .newValue
  | parse f v b => exact (h.hs.get v).map fun _ _ => .parse
  | text f v b => exact (h.hs.get v).map fun _ _ => .text
  | null v => exact (h.hs.get v).map fun _ _ => .null
  | bool v b => exact (h.hs.get v).map fun _ _ => .bool
  | array v => exact (h.hs.get v).map fun _ _ => .array
  | object v => exact (h.hs.get v).map fun _ _ => .object
  | int f v n => exact (h.hs.get v).map fun _ _ => .int
  | double v d => exact (h.hs.get v).map fun _ _ => .double
  | key f v b => exact (h.hs.get v).map fun _ _ => .key
  | get f v => exact (h.hs.get v).map fun _ _ => .get
  | nav f v => exact (h.hs.get v).map fun _ _ => .nav
  | copy v => exact (h.hs.get v).map fun _ _ => .copy
  | move v => exact (h.hs.get v).map fun _ _ => .move
  | add o fast v w => exact two v w fun _ _ _ _ => .add
  | delAt v i => exact (h.hs.get v).map fun _ _ h => .delAt h rfl
  | delKey v k => exact (h.hs.get v).map fun _ _ => .delKey
  | set fast v w => exact two v w fun _ _ _ _ => .set

theorem TabLike.ans {ρ : Names} {S T : Tab} (h : TabLike ρ S T) {r r' : Ans D} (hr : AnsLike ρ r r') : T.ans r' = S.ans r ∧ TabLike ρ (S.next r) (T.next r') := by
  cases hr with
  | alloc hL => exact ⟨by simp [Tab.ans, h.as.length], h.hs, h.as.append (.cons hL .nil)⟩
  | handle hH =>
    cases hH with
    | none => exact ⟨rfl, h⟩
    | some hH => exact ⟨by simp [Tab.ans, h.hs.length], h.hs.append (.cons hH .nil), h.as⟩
  | same hp => cases r <;> first | (cases hp; done) | exact ⟨rfl, h⟩

/-! ### Answers depend on the calls alone -/

theorem Prog.Gives.like {p : Prog D} : ∀ {ρ : Names} {S T : Tab} {s t s' t' : Store} {rs rt : List (Ans D)}, Emb ρ s t → Known ρ s t → Wf s → Wf t →
    TabLike ρ S T → (p.named S).Gives fp s rs s' → (p.named T).Gives fp t rt t' → T.views rt = S.views rs := by
  induction p with
  | done =>
    intro ρ S T s t s' t' rs rt E K ws wt hT h1 h2
    cases h1; cases h2; rfl
  | call c k ih =>
    intro ρ S T s t s' t' rs rt E K ws wt hT h1 h2
    have hc := hT.call c
    simp only [Prog.named] at h1 h2
    generalize S.call c = x at hc h1
    generalize T.call c = y at hc h2
    cases hc with
    | none => cases h1; cases h2; rfl
    | some hc =>
      cases h1 with
      | call a1 a2 a3 =>
      cases h2 with
      | call b1 b2 b3 =>
        obtain ⟨ρ', N, hr⟩ := a1.like E K ws wt hc b1
        obtain ⟨e, hT'⟩ := (hT.mono N.le).ans hr
        dsimp only at a3 b3
        rw [e] at b3
        simp only [Tab.views, e, ih _ N.emb (N.known K a1.seen b1.seen) a2 b2 hT' a3 b3]

def Names.none : Names := ⟨fun _ _ => False, fun _ _ => False, fun _ _ => False⟩

theorem Emb.init {s t : Store} (h : t.pad = s.pad) : Emb .none s t :=
  ⟨⟨nofun, nofun⟩, ⟨nofun, nofun⟩, ⟨nofun, nofun⟩, nofun, nofun, nofun, nofun, nofun, nofun, nofun, h⟩

theorem Known.init {s t : Store} : Known .none s t := ⟨nofun, nofun, nofun⟩

theorem Wf.init {pad : Bool} : Wf (Store.init pad) :=
  ⟨fun _ _ _ _ h => (nomatch h), ⟨fun _ _ _ h => (nomatch h), fun _ _ _ h => (nomatch h), fun _ _ _ h => (nomatch h)⟩, fun _ _ h => (nomatch h), fun _ _ h => (nomatch h)⟩

/-- C53, on the abstract machine: all runs of a client give the same answers. -/
theorem C53_abstract {pad : Bool} {p : Prog D} {rs rt : List (Ans D)} {s t : Store} (h1 : (p.named .empty).Gives fp (Store.init pad) rs s)
    (h2 : (p.named .empty).Gives fp (Store.init pad) rt t) : Tab.empty.views rt = Tab.empty.views rs :=
  h1.like (.init rfl) .init .init .init ⟨.nil, .nil⟩ h2

/-- C53: what an allowed client is told depends on its calls alone. Whatever is behind the
blocks the allocators hand out (`slack`, `slack'`), the client is told the same. -/
theorem C53_answers {pad : Bool} {slack slack' : Nat → Nat} (hp : pad = true → ∀ b, 3 ≤ slack b) (hp' : pad = true → ∀ b, 3 ≤ slack' b)
    (p : Prog D) (hs : (p.named .empty).Safe fp (Store.init pad)) :
    ∃ c rs rs' st st', (∀ F, c ≤ F → (p.named .empty).run fp F (St.init slack cfg) = .ok (rs, st)) ∧
      (∀ F, c ≤ F → (p.named .empty).run fp F (St.init slack' cfg') = .ok (rs', st')) ∧ Tab.empty.views rs' = Tab.empty.views rs := by
  obtain ⟨c, rs, st, s, P, e, hG, h⟩ := (p.named .empty).goes (WP.init hp) hs
  obtain ⟨c', rs', st', s', P', e', hG', h'⟩ := (p.named .empty).goes (WP.init hp') hs
  exact ⟨max c c', rs, rs', st, st', fun F hF => e F (by omega), fun F hF => e' F (by omega), C53_abstract hG hG'⟩

/-! ### Allowed calls -/

def Call.scratches : Call D → Bool
  | .text f _ _ => f.scratch
  | .key f _ _ => f.scratch
  | _ => false

def Call.releases : Call D → Bool
  | .release _ => true
  | _ => false

section
variable {ρ : Names} {s t : Store}

theorem Emb.alive {v w : Addr} (E : Emb ρ s t) (hv : ρ.H v w) (h : s.alive v) : t.alive w := by
  unfold Store.alive at h ⊢
  rw [(E.hnd v w hv).isSome]; exact h

theorem Emb.moves {x y : Addr} {G : Graph} (E : Emb ρ s t) (hF : Forest s.node) (hF' : Forest t.node) (hx : ρ.N x y) (h : Moved s.node x G) :
    ∃ G', Moved t.node y G' ∧ GEmb ρ.N G G' := by
  have : ∃ G', Moved t.node y G' := by
    cases h with
    | root h1 h2 =>
      obtain ⟨gy, e1, e2⟩ := E.node.at hx h1
      have := e2.par
      rw [h2] at this
      generalize hq : gy.par = q at this
      cases this
      exact ⟨_, .root e1 hq⟩
    | @child gx gf f o l r h1 h2 h3 h4 =>
      obtain ⟨gy, e1, e2⟩ := E.node.at hx h1
      obtain ⟨f', e3, e4⟩ := e2.par.left (hF.unique h1 h2 h3).1
      obtain ⟨gf', ks', e5, e6, e7, _⟩ := E.node.con e4 h2 h3
      obtain ⟨l', y', r', rfl, e8, e9, e10⟩ := e7.split
      cases E.oN.fn e9 hx
      refine ⟨_, .child e1 e5 e6 ?_⟩
      rcases h4 with rfl | h4
      · cases e8; exact .inl rfl
      · exact .inr (e2.prev.trans h4)
  obtain ⟨G', h'⟩ := this
  exact ⟨G', h', (E.node.moved E.oN hF hF' hx h h').1⟩

theorem Emb.conOf {v w : Addr} {o : Bool} {f : Addr} {ks : List Addr} (E : Emb ρ s t) (hv : ρ.H v w) (h : t.isCon w o f ks) :
    ∃ f0 ks0, s.isCon v o f0 ks0 ∧ ρ.N f0 f ∧ Each ρ.N ks0 ks := by
  obtain ⟨f0, ks0, h1, h2, h3⟩ := E.flip.isCon hv h
  exact ⟨f0, ks0, h1, h2, h3.flip⟩

theorem Emb.at2 {v w b B : Addr} {gn' : GNode} (E : Emb ρ s t) (hv : ρ.H v w) (h : t.hnd w = some ⟨some b, B⟩) (hb : t.node b = some gn') :
    ∃ a A gn, s.hnd v = some ⟨some a, A⟩ ∧ s.node a = some gn ∧ ρ.N a b ∧ ρ.L A B ∧ Like ρ.N gn gn' := by
  obtain ⟨⟨z, A⟩, e1, e2⟩ := (E.hnd v w hv).right h
  obtain ⟨a, e3, e4⟩ := e2.n.right rfl
  cases e3
  obtain ⟨gn, e5, e6⟩ := E.node.at' e4 hb
  exact ⟨a, A, gn, e1, e5, e4, e2.a, e6⟩

theorem Emb.at1 {v w b B : Addr} (E : Emb ρ s t) (hv : ρ.H v w) (h : t.hnd w = some ⟨some b, B⟩) :
    ∃ a A, s.hnd v = some ⟨some a, A⟩ ∧ ρ.N a b ∧ ρ.L A B := by
  obtain ⟨⟨z, A⟩, e1, e2⟩ := (E.hnd v w hv).right h
  obtain ⟨a, e3, e4⟩ := e2.n.right rfl
  cases e3
  exact ⟨a, A, e1, e4, e2.a⟩

theorem LikeV.num {N : Addr → Addr → Prop} {gv gv' : GVal} {raw : Bytes} (h : LikeV N gv gv') (e : gv' = .num raw) : gv = .num raw := by
  cases h with
  | same => exact e
  | con => cases e

/-- What is allowed in a store is allowed in a related one, apart from the scratch string. -/
theorem Legit.like {c c' : Call D} (E : Emb ρ s t) (ws : Wf s) (wt : Wf t) (hc : CallLike ρ c c') (h : Legit fp s c)
    (hscr : c'.scratches = true → t.scrOK) : Legit fp t c' := by
  cases hc with
  | newAlloc => exact h
  | release hL => show t.live _ = true; rw [E.live _ _ hL]; exact h
  | newValue hL => show t.live _ = true; rw [E.live _ _ hL]; exact h
  | parse hv => exact ⟨E.alive hv h.1, h.2.1, by rw [E.pad]; exact h.2.2⟩
  | text hv => exact ⟨E.alive hv h.1, h.2.1, hscr⟩
  | null hv => exact E.alive hv h
  | bool hv => exact E.alive hv h
  | array hv => exact E.alive hv h
  | object hv => exact E.alive hv h
  | int hv => exact ⟨E.alive hv h.1, h.2⟩
  | double hv => exact ⟨E.alive hv h.1, h.2⟩
  | key hv =>
    refine ⟨E.alive hv h.1, h.2.1, hscr, fun b B gn' p' h1 h2 h3 => ?_⟩
    obtain ⟨a, A, gn, e1, e2, e3, e4, e5⟩ := E.at2 hv h1 h2
    obtain ⟨p, e6, e7⟩ := e5.par.right h3
    rw [E.here e7]
    exact h.2.2.2 a A gn p e1 e2 e6
  | @get f v w hv =>
    refine ⟨E.alive hv h.1, fun b B gn' raw h1 h2 h3 => ?_⟩
    obtain ⟨a, A, gn, e1, e2, e3, e4, e5⟩ := E.at2 hv h1 h2
    have := h.2 a A gn raw e1 e2 (e5.val.num h3)
    have ht := E.tail a b e3 (by rw [e2]; rfl)
    cases f <;> simp only [GetFn.Safe, ht] at this ⊢ <;> exact this
  | nav hv =>
    refine ⟨E.alive hv h.1, fun hf b B h1 => ?_, h.2.2⟩
    obtain ⟨a, A, e1, e2, _⟩ := E.at1 hv h1
    rcases h.2.1 hf a A e1 with ⟨gn, g1, g2⟩ | ⟨f, gf, o, l, r, g1, g2⟩
    · obtain ⟨gn', e3, e4⟩ := E.node.at e2 g1
      refine .inl ⟨gn', e3, ?_⟩
      have := e4.par
      rw [g2] at this
      generalize gn'.par = q at this
      cases this; rfl
    · obtain ⟨_, hk⟩ := ws.forest _ _ _ _ g1 g2
      obtain ⟨ga, e3, e4, _⟩ := hk a (by simp)
      obtain ⟨gb, e5, e6⟩ := E.node.at e2 e3
      obtain ⟨f', e7, e8⟩ := e6.par.left e4
      obtain ⟨gf', ks', e9, e10, e11, _⟩ := E.node.con e8 g1 g2
      obtain ⟨l', b', r', rfl, _, e12, _⟩ := e11.split
      cases E.oN.fn e12 e2
      exact .inr ⟨f', gf', o, l', r', e9, e10⟩
  | copy hv => exact E.alive hv h
  | move hv =>
    refine ⟨E.alive hv h.1, fun b B h1 => ?_⟩
    obtain ⟨a, A, e1, e2, _⟩ := E.at1 hv h1
    obtain ⟨G, hG⟩ := h.2 a A e1
    obtain ⟨G', hG', _⟩ := E.moves ws.forest wt.forest e2 hG
    exact ⟨G', hG'⟩
  | @add o fast v w v' w' hv hw =>
    refine ⟨E.alive hv h.1, E.alive hw h.2.1, fun f ks x A gx h1 h2 h3 h4 => ?_⟩
    obtain ⟨f0, ks0, e1, e2, e3⟩ := E.conOf hv h1
    obtain ⟨x0, A0, gx0, e4, e5, e6, _, e7⟩ := E.at2 hw h2 h3
    have := h.2.2 f0 ks0 x0 A0 gx0 e1 e4 e5 (by rw [← e7.key]; exact h4)
    cases fast with
    | true =>
      simp only [if_true] at this ⊢
      obtain ⟨G, kids, q1, q2⟩ := this
      obtain ⟨G', q3, q4⟩ := E.moves ws.forest wt.forest e6 q1
      obtain ⟨gf, q5, q6, q7⟩ := q2.con
      obtain ⟨gf', kids', q8, q9, q10, q11⟩ := q4.con e2 q5 q6
      refine ⟨G', kids', q3, ⟨⟨gf', q8, q9, ?_⟩, fun hr => ?_⟩⟩
      · rcases q7 with rfl | q7
        · cases q10; exact .inl rfl
        · exact .inr (q11.last.trans q7)
      · obtain ⟨f1, q12, q13⟩ := hr.like q4.flip e6
        cases E.oN.inj q12 e2
        exact q2.acyc q13
    | false =>
      simp only [Bool.false_eq_true, if_false] at this ⊢
      rcases this with rfl | ⟨gf, q1, q2⟩
      · cases e3; exact .inl rfl
      · obtain ⟨gf', q3, q4⟩ := E.node.at e2 q1
        exact .inr ⟨gf', q3, q4.last.trans q2⟩
  | @delAt v w i j hv hij =>
    refine ⟨E.alive hv h.1, fun f l x r gx h1 h2 h3 => ?_⟩
    obtain ⟨f0, ks0, e1, e2, e3⟩ := E.conOf hv h1
    obtain ⟨l0, x0, r0, rfl, e4, e5, e6⟩ := e3.flip.split
    obtain ⟨gx0, e7, e8⟩ := E.node.at' e5 h3
    rcases h.2 f0 l0 x0 r0 gx0 e1 (by rw [e4.length, h2, hij]) e7 with rfl | q
    · cases e4; exact .inl rfl
    · exact .inr (e8.prev.trans q)
  | @delKey v w k hv =>
    refine ⟨E.alive hv h.1, h.2.1, fun f l x r gx h1 h2 h3 => ?_⟩
    obtain ⟨f0, ks0, e1, e2, e3⟩ := E.conOf hv h1
    have hfind := E.node.find k e3
    rw [h2] at hfind
    obtain ⟨l0, x0, r0, rfl, e4, e5, e6⟩ := e3.flip.split
    obtain ⟨gx0, e7, e8⟩ := E.node.at' e5 h3
    have hf0 : s.node.find k (l0 ++ x0 :: r0) = some x0 := by
      generalize s.node.find k (l0 ++ x0 :: r0) = q at hfind
      cases hfind with
      | some hN => rw [E.oN.inj hN e5]
    rcases h.2.2 f0 l0 x0 r0 gx0 e1 hf0 e7 with rfl | q
    · cases e4; exact .inl rfl
    · exact .inr (e8.prev.trans q)
  | @set fast v w v' w' hv hw =>
    refine ⟨E.alive hv h.1, E.alive hw h.2.1, fun hf x A h1 => ?_⟩
    obtain ⟨x0, A0, e1, e2, _⟩ := E.at1 hw h1
    obtain ⟨G, q1, q2⟩ := h.2.2 hf x0 A0 e1
    obtain ⟨G', q3, q4⟩ := E.moves ws.forest wt.forest e2 q1
    refine ⟨G', q3, fun a A' h2 hr => ?_⟩
    obtain ⟨a0, A0', e3, e4, _⟩ := E.at1 hv h2
    obtain ⟨a1, q5, q6⟩ := hr.like q4.flip e2
    cases E.oN.inj q5 e4
    exact q2 a0 A0' e3 q6

end

/-! ### Two clients in one process -/

/-- Two clients take turns: `true` in the schedule is a call of the first one, `false` of the
second one. -/
def mix : List Bool → Prog D → Tab → Prog D → Tab → Prog D
  | [], _, _, _, _ => .done
  | true :: σ, .done, S, b, T => mix σ .done S b T
  | true :: σ, .call c k, S, b, T =>
    match S.call c with
    | none => mix σ .done S b T
    | some c' => .call c' fun r => mix σ (k (S.ans r)) (S.next r) b T
  | false :: σ, a, S, .done, T => mix σ a S .done T
  | false :: σ, a, S, .call c k, T =>
    match T.call c with
    | none => mix σ a S .done T
    | some c' => .call c' fun r => mix σ a S (k (T.ans r)) (T.next r)

/-- What the first client (`.1`) and the second client (`.2`) are told. -/
def told : List Bool → Prog D → Tab → Prog D → Tab → List (Ans D) → List (Ans D) × List (Ans D)
  | [], _, _, _, _, _ => ([], [])
  | true :: σ, .done, S, b, T, rs => told σ .done S b T rs
  | true :: σ, .call c k, S, b, T, rs =>
    match S.call c, rs with
    | none, rs => told σ .done S b T rs
    | some _, [] => ([], [])
    | some _, r :: rs =>
      let x := told σ (k (S.ans r)) (S.next r) b T rs
      (S.ans r :: x.1, x.2)
  | false :: σ, a, S, .done, T, rs => told σ a S .done T rs
  | false :: σ, a, S, .call c k, T, rs =>
    match T.call c, rs with
    | none, rs => told σ a S .done T rs
    | some _, [] => ([], [])
    | some _, r :: rs =>
      let x := told σ a S (k (T.ans r)) (T.next r) rs
      (x.1, T.ans r :: x.2)

/-- The client never makes a call with `P`, whatever it is told. -/
def Prog.Never (P : Call D → Bool) : Prog D → Prop
  | .done => True
  | .call c k => P c = false ∧ ∀ r, (k r).Never P

/-! ### The scratch string -/

/-- The handle a call that uses the scratch string is made with. -/
def Call.subject : Call D → Option Addr
  | .text _ v _ => some v
  | .key _ v _ => some v
  | _ => none

theorem Target.handle {s : Store} {v A a : Addr} {gn : GNode} (h : Target s v A a gn) : ∃ x, s.hnd v = some ⟨x, A⟩ := by
  cases h with
  | old h => exact ⟨_, h⟩
  | new h => exact ⟨_, h⟩

theorem Store.use_scr {s : Store} {c : Bool} {A : Nat} : (s.use c A).scr = if c then some (s.scr.getD A) else s.scr := by cases c <;> rfl

theorem AStep.scr {s s' : Store} {c : Call D} {r : Ans D} (h : AStep fp s c r s') :
    (c.scratches = false ∧ s'.scr = s.scr) ∨
    (c.scratches = true ∧ ∃ v x A, c.subject = some v ∧ s.hnd v = some ⟨x, A⟩ ∧ s'.scr = some (s.scr.getD A)) := by
  have use : ∀ {f : Bool} {v A : Addr} {x : Option Addr} {z : Option Nat}, s.hnd v = some ⟨x, A⟩ → z = (s.use f A).scr →
      (f = false ∧ z = s.scr) ∨ (f = true ∧ ∃ v' x A, some v = some v' ∧ s.hnd v' = some ⟨x, A⟩ ∧ z = some (s.scr.getD A)) := by
    intro f v A x z hv hz
    rw [Store.use_scr] at hz
    cases f with
    | false => exact .inl ⟨rfl, hz⟩
    | true => exact .inr ⟨rfl, v, x, A, rfl, hv, hz⟩
  cases h with
  | text _ ht => obtain ⟨x, hx⟩ := ht.handle; exact use hx rfl
  | textNo hv => exact use hv rfl
  | key _ ht => obtain ⟨x, hx⟩ := ht.handle; exact use hx rfl
  | keyNo hv => exact use hv rfl
  | keyInArray hv => exact use hv rfl
  | _ => exact .inl ⟨rfl, rfl⟩

theorem AStep.live {s s' : Store} {c : Call D} {r : Ans D} (h : AStep fp s c r s') (hc : c.releases = false) {A : Nat} (hA : s.live A = true) :
    s'.live A = true := by
  have use : ∀ {f : Bool} {B : Addr}, (s.use f B).live = s.live := fun {f B} => by cases f <;> rfl
  cases h with
  | newAlloc =>
    show upd s.live _ true A = true
    by_cases e : A = ‹Nat›
    · rw [e, upd_same]
    · rw [upd_ne _ _ e]; exact hA
  | release => cases hc
  | text => show (s.use _ _).live A = true; rw [use]; exact hA
  | textNo => show (s.use _ _).live A = true; rw [use]; exact hA
  | key => show (s.use _ _).live A = true; rw [use]; exact hA
  | keyNo => show (s.use _ _).live A = true; rw [use]; exact hA
  | keyInArray => show (s.use _ _).live A = true; rw [use]; exact hA
  | _ => exact hA

theorem CallLike.scratches {ρ : Names} {c c' : Call D} (h : CallLike ρ c c') : c'.scratches = c.scratches ∧ c'.releases = c.releases ∧ Opt ρ.H c.subject c'.subject := by
  cases h with
  | text h => exact ⟨rfl, rfl, .some h⟩
  | key h => exact ⟨rfl, rfl, .some h⟩
  | _ => exact ⟨rfl, rfl, .none⟩

theorem Tab.call_same {T : Tab} {c c' : Call D} (h : T.call c = some c') : c'.scratches = c.scratches ∧ c'.releases = c.releases := by
  cases c with
  | newAlloc => cases h; exact ⟨rfl, rfl⟩
  | add o fast v w =>
    obtain ⟨v', _, h⟩ := Option.bind_eq_some_iff.1 h
    obtain ⟨w', _, rfl⟩ := Option.map_eq_some_iff.1 h
    exact ⟨rfl, rfl⟩
  | set fast v w =>
    obtain ⟨v', _, h⟩ := Option.bind_eq_some_iff.1 h
    obtain ⟨w', _, rfl⟩ := Option.map_eq_some_iff.1 h
    exact ⟨rfl, rfl⟩
  | _ =>
    obtain ⟨v', _, rfl⟩ := Option.map_eq_some_iff.1 h
    exact ⟨rfl, rfl⟩

/-- How the two clients `a` and `b` get along with the scratch string of `s`. `p` and `q` are
the stores in which they are alone. -/
inductive Scr (a b : Prog D) (p q s : Store) (ρ σ : Names) : Prop
  | keep : a.Never Call.releases → b.Never Call.releases → s.scrOK → Scr a b p q s ρ σ
  | left : b.Never Call.scratches → Opt ρ.L p.scr s.scr → Scr a b p q s ρ σ
  | right : a.Never Call.scratches → Opt σ.L q.scr s.scr → Scr a b p q s ρ σ

theorem Scr.flip {a b : Prog D} {p q s : Store} {ρ σ : Names} (h : Scr a b p q s ρ σ) : Scr b a q p s σ ρ := by
  cases h with
  | keep h1 h2 h3 => exact .keep h2 h1 h3
  | left h1 h2 => exact .right h1 h2
  | right h1 h2 => exact .left h1 h2

/-! ### Taking turns -/

/-- One of the clients: `q` is the store in which it is alone, `s` the shared one. -/
structure Side (fp : FP D) (a : Prog D) (S T : Tab) (ρ : Names) (q s : Store) (rs : List (Ans D)) (q' : Store) : Prop where
  emb : Emb ρ q s
  known : Known ρ q s
  wf : Wf q
  tab : TabLike ρ S T
  safe : (a.named S).Safe fp q
  gives : (a.named S).Gives fp q rs q'

variable {st : St} {P : Addr → Prop}

theorem Side.turn {c c' : Call D} {k : Ans D → Prog D} {b : Prog D} {S T U V : Tab} {ρ σ : Names} {q p s q' p' : Store} {rs rb : List (Ans D)}
    (hA : Side fp (.call c k) S T ρ q s rs q') (hB : Side fp b U V σ p s rb p') (hd : ρ.Apart σ) (hs : Scr (.call c k) b q p s ρ σ)
    (W : WP st P s) (hc : T.call c = some c') :
    ∃ c0 st1 r s1 P1, (∀ F, c0 ≤ F → exec fp F c' st = .ok (r, st1)) ∧ WP st1 P1 s1 ∧
      ∃ r0 rs1 q1 ρ1, rs = r0 :: rs1 ∧ S.ans r0 = T.ans r ∧ Side fp (k (T.ans r)) (S.next r0) (T.next r) ρ1 q1 s1 rs1 q' ∧
        Side fp b U V σ p s1 rb p' ∧ ρ1.Apart σ ∧ Scr (k (T.ans r)) b q1 p s1 ρ1 σ := by
  obtain ⟨E, K, wq, hT, hsafe, hgives⟩ := hA
  have hcl := hT.call c
  rw [hc] at hcl
  simp only [Prog.named] at hsafe hgives
  generalize hx : S.call c = x at hcl hsafe hgives
  cases hcl with
  | @some c0 _ hcl =>
  obtain ⟨hl, hsafe⟩ := hsafe
  cases hgives with
  | @call _ _ _ r0 q1 rs1 _ a1 a2 a3 =>
  dsimp only at a3
  obtain ⟨sc1, sc2, sc3⟩ := hcl.scratches
  obtain ⟨tc1, tc2⟩ := Tab.call_same hc
  have hL : Legit fp s c' := hl.like E wq W.wf hcl fun hcs => by
    cases hs with
    | keep _ _ h => exact h
    | left _ h =>
      intro B hB
      obtain ⟨A, e1, e2⟩ := h.right hB
      rw [E.live _ _ e2]
      have : q.scrOK := by
        cases c0 with
        | text f v b => exact hl.2.2 (by rw [sc1] at hcs; exact hcs)
        | key f v b => exact hl.2.2.1 (by rw [sc1] at hcs; exact hcs)
        | _ => rw [sc1] at hcs; cases hcs
      exact this A e1
    | right h => rw [tc1, h.1] at hcs; cases hcs
  obtain ⟨f0, st1, r, s1, P1, e1, hA, W1⟩ := goes W hL
  obtain ⟨ρ1, N, hr⟩ := a1.like E K wq W.wf hcl hA
  obtain ⟨e, hT'⟩ := (hT.mono N.le).ans hr
  have hd1 : ρ1.Apart σ := by
    refine ⟨fun a c b h1 h2 => ?_, fun a c b h1 h2 => ?_, fun a c b h1 h2 => ?_⟩
    · rcases N.newN a b h1 with h | ⟨⟨_, h⟩, _⟩
      · exact hd.N a c b h h2
      · exact h (hB.known.N c b h2).2
    · rcases N.newH a b h1 with h | ⟨⟨_, h⟩, _⟩
      · exact hd.H a c b h h2
      · exact h (hB.known.H c b h2).2
    · rcases N.newL a b h1 with h | ⟨⟨_, h⟩, _⟩
      · exact hd.L a c b h h2
      · exact h (hB.known.L c b h2).2
  have hm := hA.seen
  refine ⟨f0, st1, r, s1, P1, e1, W1, r0, rs1, q1, ρ1, rfl, e.symm, ⟨N.emb, N.known K a1.seen hm, a2, hT', ?_, ?_⟩, ⟨hB.emb.other hd1 N.off, ?_, hB.wf, hB.tab, hB.safe, hB.gives⟩, hd1, ?_⟩
  · rw [e]; exact hsafe r0 q1 a1 a2
  · rw [e]; exact a3
  · exact ⟨fun a b h => ⟨(hB.known.N a b h).1, hm.node _ (hB.known.N a b h).2⟩, fun a b h => ⟨(hB.known.H a b h).1, hm.hnd _ (hB.known.H a b h).2⟩,
      fun a b h => ⟨(hB.known.L a b h).1, hm.alloc _ (hB.known.L a b h).2⟩⟩
  · cases hs with
    | keep h1 h2 h3 =>
      refine .keep (h1.2 _) h2 ?_
      have hrel : c'.releases = false := tc2.trans h1.1
      rcases hA.scr with ⟨_, h4⟩ | ⟨_, v, x, A, h4, h5, h6⟩
      · intro B hB
        rw [h4] at hB
        exact hA.live hrel (h3 B hB)
      · intro B hB
        rw [h6] at hB
        cases hq : s.scr with
        | none =>
          rw [hq] at hB; cases hB
          exact hA.live hrel (W.wf.hnd v _ h5).1
        | some C =>
          rw [hq] at hB; cases hB
          exact hA.live hrel (h3 _ hq)
    | left h1 h2 =>
      refine .left h1 ?_
      rcases hA.scr with ⟨g1, g2⟩ | ⟨g1, v, x, A, g2, g3, g4⟩
      · rcases a1.scr with ⟨_, g3⟩ | ⟨g3, _⟩
        · rw [g2, g3]; exact h2.mono N.le.L
        · rw [← sc1, g1] at g3; cases g3
      · rcases a1.scr with ⟨g5, _⟩ | ⟨_, v0, x0, A0, g6, g7, g8⟩
        · rw [← sc1, g1] at g5; cases g5
        · rw [g2, g6] at sc3
          have hv : ρ.H v0 v := by cases sc3; assumption
          rw [g4, g8]
          generalize q.scr = z at h2
          generalize s.scr = z' at h2
          cases h2 with
          | none => exact .some (N.le.L _ _ (E.handles hv g7 g3).2)
          | some h2 => exact .some (N.le.L _ _ h2)
    | right h1 h2 =>
      refine .right (h1.2 _) ?_
      rcases hA.scr with ⟨g1, g2⟩ | ⟨g1, _⟩
      · rw [g2]; exact h2
      · rw [tc1, h1.1] at g1; cases g1

/-- A client that has stopped. -/
theorem Side.stop {c : Call D} {k : Ans D → Prog D} {S T : Tab} {ρ : Names} {q s q' : Store} {rs : List (Ans D)}
    (hA : Side fp (.call c k) S T ρ q s rs q') (hc : T.call c = none) : Side fp .done S T ρ q s rs q' ∧ rs = [] := by
  obtain ⟨E, K, wq, hT, hsafe, hgives⟩ := hA
  have hcl := hT.call c
  rw [hc] at hcl
  simp only [Prog.named] at hsafe hgives
  generalize hx : S.call c = x at hcl hsafe hgives
  cases hcl with
  | none =>
    have : rs = [] := by cases hgives; rfl
    exact ⟨⟨E, K, wq, hT, hsafe, hgives⟩, this⟩

theorem Scr.stop {c : Call D} {k : Ans D → Prog D} {b : Prog D} {p q s : Store} {ρ σ : Names} (h : Scr (.call c k) b p q s ρ σ) : Scr .done b p q s ρ σ := by
  cases h with
  | keep h1 h2 h3 => exact .keep trivial h2 h3
  | left h1 h2 => exact .left h1 h2
  | right h1 h2 => exact .right trivial h2

theorem Side.empty {S T : Tab} {ρ : Names} {q s q' : Store} {rs : List (Ans D)} (h : Side fp .done S T ρ q s rs q') : rs = [] := by
  have := h.gives
  cases this
  rfl

theorem mix_goes : ∀ (τ : List Bool) {a b : Prog D} {S T U V : Tab} {ρ σ : Names} {q p s q' p' : Store} {ra rb : List (Ans D)} {st : St} {P : Addr → Prop},
    Side fp a S T ρ q s ra q' → Side fp b U V σ p s rb p' → ρ.Apart σ → Scr a b q p s ρ σ → WP st P s →
    ∃ c rs st', (∀ F, c ≤ F → (mix τ a T b V).run fp F st = .ok (rs, st')) ∧
      (told τ a T b V rs).1 = (S.views ra).take (τ.count true) ∧ (told τ a T b V rs).2 = (U.views rb).take (τ.count false)
  | [], a, b, S, T, U, V, ρ, σ, q, p, s, q', p', ra, rb, st, P, hA, hB, hd, hs, W =>
    ⟨0, [], st, fun _ _ => rfl, by simp [told], by simp [told]⟩
  | true :: τ, .done, b, S, T, U, V, ρ, σ, q, p, s, q', p', ra, rb, st, P, hA, hB, hd, hs, W => by
    obtain ⟨c, rs, st', h1, h2, h3⟩ := mix_goes τ hA hB hd hs W
    refine ⟨c, rs, st', h1, ?_, ?_⟩
    · show (told τ .done T b V rs).1 = _
      rw [h2, hA.empty]; simp [Tab.views]
    · show (told τ .done T b V rs).2 = _
      rw [h3]; simp
  | true :: τ, .call c k, b, S, T, U, V, ρ, σ, q, p, s, q', p', ra, rb, st, P, hA, hB, hd, hs, W => by
    cases hc : T.call c with
    | none =>
      obtain ⟨hA', rfl⟩ := hA.stop hc
      obtain ⟨c0, rs, st', h1, h2, h3⟩ := mix_goes τ hA' hB hd hs.stop W
      refine ⟨c0, rs, st', ?_, ?_, ?_⟩
      · simp only [mix, hc]; exact h1
      · simp only [told, hc]; rw [h2]; simp [Tab.views]
      · simp only [told, hc]; rw [h3]; simp
    | some c' =>
      obtain ⟨c0, st1, r, s1, P1, e1, W1, r0, rs1, q1, ρ1, rfl, e2, hA', hB', hd', hs'⟩ := hA.turn hB hd hs W hc
      obtain ⟨c1, rs, st', h1, h2, h3⟩ := mix_goes τ hA' hB' hd' hs' W1
      refine ⟨max c0 c1, r :: rs, st', fun F hF => ?_, ?_, ?_⟩
      · simp only [mix, hc]
        unfold Prog.run
        mstep e1 F (by omega)
        mstep h1 F (by omega)
        rfl
      · simp only [told, hc]; rw [h2]; simp [Tab.views, e2]
      · simp only [told, hc]; rw [h3]; simp
  | false :: τ, a, .done, S, T, U, V, ρ, σ, q, p, s, q', p', ra, rb, st, P, hA, hB, hd, hs, W => by
    obtain ⟨c, rs, st', h1, h2, h3⟩ := mix_goes τ hA hB hd hs W
    refine ⟨c, rs, st', by simp only [mix]; exact h1, ?_, ?_⟩
    · simp only [told]
      rw [h2]; simp
    · simp only [told]
      rw [h3, hB.empty]; simp [Tab.views]
  | false :: τ, a, .call c k, S, T, U, V, ρ, σ, q, p, s, q', p', ra, rb, st, P, hA, hB, hd, hs, W => by
    cases hc : V.call c with
    | none =>
      obtain ⟨hB', rfl⟩ := hB.stop hc
      obtain ⟨c0, rs, st', h1, h2, h3⟩ := mix_goes τ hA hB' hd hs.flip.stop.flip W
      refine ⟨c0, rs, st', ?_, ?_, ?_⟩
      · simp only [mix, hc]; exact h1
      · simp only [told, hc]; rw [h2]; simp
      · simp only [told, hc]; rw [h3]; simp [Tab.views]
    | some c' =>
      obtain ⟨c0, st1, r, s1, P1, e1, W1, r0, rs1, q1, ρ1, rfl, e2, hB', hA', hd', hs'⟩ := hB.turn hA hd.flip hs.flip W hc
      obtain ⟨c1, rs, st', h1, h2, h3⟩ := mix_goes τ hA' hB' hd'.flip hs'.flip W1
      refine ⟨max c0 c1, r :: rs, st', fun F hF => ?_, ?_, ?_⟩
      · simp only [mix, hc]
        unfold Prog.run
        mstep e1 F (by omega)
        mstep h1 F (by omega)
        rfl
      · simp only [told, hc]; rw [h2]; simp
      · simp only [told, hc]; rw [h3]; simp [Tab.views, e2]

/-- C52 (without the scratch string): two allowed clients run one after the other or in turns,
in any order (`τ`), in one process. Unless both use the scratch string and one of them
releases an allocator, they run without undefined behaviour, and each of them is told exactly
what it is told when it is alone. -/
theorem C52_independent_partial {pad : Bool} {slack slackA slackB : Nat → Nat} (hp : pad = true → ∀ b, 3 ≤ slack b)
    (hpA : pad = true → ∀ b, 3 ≤ slackA b) (hpB : pad = true → ∀ b, 3 ≤ slackB b) (a b : Prog D)
    (ha : (a.named .empty).Safe fp (Store.init pad)) (hb : (b.named .empty).Safe fp (Store.init pad))
    (hscr : a.Never Call.scratches ∨ b.Never Call.scratches ∨ (a.Never Call.releases ∧ b.Never Call.releases)) (τ : List Bool) :
    ∃ c ra rb rs stA stB st, (∀ F, c ≤ F → (a.named .empty).run fp F (St.init slackA cfgA) = .ok (ra, stA)) ∧
      (∀ F, c ≤ F → (b.named .empty).run fp F (St.init slackB cfgB) = .ok (rb, stB)) ∧
      (∀ F, c ≤ F → (mix τ a .empty b .empty).run fp F (St.init slack cfg) = .ok (rs, st)) ∧
      (told τ a .empty b .empty rs).1 = (Tab.empty.views ra).take (τ.count true) ∧
      (told τ a .empty b .empty rs).2 = (Tab.empty.views rb).take (τ.count false) := by
  obtain ⟨c1, ra, stA, sA, PA, e1, hGA, _⟩ := (a.named .empty).goes (WP.init hpA) ha
  obtain ⟨c2, rb, stB, sB, PB, e2, hGB, _⟩ := (b.named .empty).goes (WP.init hpB) hb
  have hA : Side fp a .empty .empty .none (Store.init pad) (Store.init pad) ra sA := ⟨.init rfl, .init, .init, ⟨.nil, .nil⟩, ha, hGA⟩
  have hB : Side fp b .empty .empty .none (Store.init pad) (Store.init pad) rb sB := ⟨.init rfl, .init, .init, ⟨.nil, .nil⟩, hb, hGB⟩
  have hs : Scr a b (Store.init pad) (Store.init pad) (Store.init pad) .none .none := by
    rcases hscr with h | h | ⟨h, h'⟩
    · exact .right h .none
    · exact .left h .none
    · exact .keep h h' fun _ h => (nomatch h)
  obtain ⟨c3, rs, st, e3, h1, h2⟩ := mix_goes τ hA hB ⟨nofun, nofun, nofun⟩ hs (WP.init hp)
  exact ⟨max c1 (max c2 c3), ra, rb, rs, stA, stB, st, fun F hF => e1 F (by omega), fun F hF => e2 F (by omega), fun F hF => e3 F (by omega), h1, h2⟩

/-! ### The defect, and clients that meet the hypotheses -/

/-- A client that sets a string with a `Len` function and releases its allocator. -/
def leaver : Prog D := .seq [.newAlloc, .newValue 0, .text .strLen 0 b!"a", .release 0]

/-- A client that sets a string with a `Len` function and reads it. -/
def stayer : Prog D := .seq [.newAlloc, .newValue 0, .text .strLen 0 b!"b", .get .str 0]

/-- A client that does not use the scratch string. -/
def reader : Prog D := .seq [.newAlloc, .newValue 0, .text .str 0 b!"c", .nav .begin 0, .get .print 0, .release 0]

theorem leaver_safe : (leaver.named .empty).Safe fp (Store.init false) := by
  refine ⟨trivial, fun r s1 h1 _ => ?_⟩
  cases h1 with | @newAlloc A hA => ?_
  refine ⟨by simp [Legit, upd], fun r s2 h2 _ => ?_⟩
  cases h2 with | @newValue _ v hl hn => ?_
  refine ⟨⟨by simp [Store.alive, Store.handle, upd], .inl rfl, fun _ _ h => (nomatch h)⟩, fun r s3 h3 _ => ?_⟩
  have : s3.live A = true := by cases h3 <;> simp [Store.put, Store.use, TextFn.scratch, Store.handle, upd]
  have hr : ∃ x, r = .bool x := by cases h3 <;> exact ⟨_, rfl⟩
  obtain ⟨_, rfl⟩ := hr
  exact ⟨this, fun r s4 h4 _ => trivial⟩

theorem stayer_safe : (stayer.named .empty).Safe fp (Store.init false) := by
  refine ⟨trivial, fun r s1 h1 _ => ?_⟩
  cases h1 with | @newAlloc A hA => ?_
  refine ⟨by simp [Legit, upd], fun r s2 h2 _ => ?_⟩
  cases h2 with | @newValue _ v hl hn => ?_
  refine ⟨⟨by simp [Store.alive, Store.handle, upd], .inl rfl, fun _ _ h => (nomatch h)⟩, fun r s3 h3 _ => ?_⟩
  have : s3.alive v := by
    cases h3 with
    | text _ hT =>
      cases hT with
      | old e _ => simp [Store.handle, upd] at e
      | new e _ => simp [Store.alive, Store.put, Store.use, TextFn.scratch, Store.handle, upd]
    | textNo => simp [Store.alive, Store.use, TextFn.scratch, Store.handle, upd]
  have hr : ∃ x, r = .bool x := by cases h3 <;> exact ⟨_, rfl⟩
  obtain ⟨_, rfl⟩ := hr
  exact ⟨⟨this, fun _ _ _ _ _ _ _ => trivial⟩, fun r s4 h4 _ => trivial⟩

theorem reader_safe : (reader.named .empty).Safe fp (Store.init false) := by
  refine ⟨trivial, fun r s1 h1 _ => ?_⟩
  cases h1 with | @newAlloc A hA => ?_
  refine ⟨by simp [Legit, upd], fun r s2 h2 _ => ?_⟩
  cases h2 with | @newValue _ v hl hn => ?_
  refine ⟨⟨by simp [Store.alive, Store.handle, upd], .inr (by decide), nofun⟩, fun r s3 h3 _ => ?_⟩
  have : s3.alive v ∧ s3.live A = true := by
    cases h3 with
    | text _ hT =>
      cases hT with
      | old e _ => simp [Store.handle, upd] at e
      | new e _ => simp [Store.alive, Store.put, Store.use, TextFn.scratch, Store.handle, upd]
    | textNo => simp [Store.alive, Store.use, TextFn.scratch, Store.handle, upd]
  have hr : ∃ x, r = .bool x := by cases h3 <;> exact ⟨_, rfl⟩
  obtain ⟨_, rfl⟩ := hr
  refine ⟨⟨this.1, nofun, nofun⟩, fun r s4 h4 _ => ?_⟩
  have h5 : s4.alive v ∧ s4.live A = true := by
    cases h4 with
    | nav _ _ hn =>
      refine ⟨?_, this.2⟩
      simp only [Store.alive, Store.handle, upd]
      split
      · rfl
      · exact this.1
    | navNo => exact this
  have h6 : ∃ hs, Tab.next ⟨[v], [A]⟩ r = ⟨v :: hs, [A]⟩ := by
    cases h4
    · exact ⟨_, rfl⟩
    · exact ⟨_, rfl⟩
  obtain ⟨hs, e⟩ := h6
  show ((Prog.seq [.get .print 0, .release 0]).named (Tab.next ⟨[v], [A]⟩ r)).Safe fp s4
  rw [e]
  refine ⟨⟨h5.1, fun _ _ _ _ _ _ _ => trivial⟩, fun r s4 h4 _ => ?_⟩
  have hr : ∃ x, r = .bytes x := by
    cases h4 with
    | @get _ _ _ x _ _ hA =>
      generalize x.bind s4.node = y at hA
      cases hA <;> first | exact ⟨_, rfl⟩ | (rename_i h _ _; revert h; simp; done) | simp_all
  obtain ⟨_, rfl⟩ := hr
  have h6 : s4.live A = true := by cases h4; exact h5.2
  exact ⟨h6, fun _ _ _ _ => trivial⟩

/-- C52 is false: each of these clients is allowed and is served when it is alone. When the
second starts after the first has released its allocator, its `zj_SetStrLen` writes to memory
that has been given back (zzzjson.h:558, 1274-1280: the scratch string is shared by the whole
process and is in the memory of the first allocator). -/
theorem C52_false : (leaver.named .empty).Safe (⟨fun _ => [], fun _ => ()⟩ : FP Unit) (Store.init false) ∧
    (stayer.named .empty).Safe (⟨fun _ => [], fun _ => ()⟩ : FP Unit) (Store.init false) ∧
    ((stayer.named .empty).run (⟨fun _ => [], fun _ => ()⟩ : FP Unit) 99 (St.init fun _ => 0)).out =
      .ok [.alloc 0, .handle (some 0), .bool true, .bytes (some b!"b")] ∧
    ((mix [true, true, true, true, false, false, false, false] leaver .empty stayer .empty).run
      (⟨fun _ => [], fun _ => ()⟩ : FP Unit) 99 (St.init fun _ => 0)).out = .ub .wild := by
  refine ⟨leaver_safe, stayer_safe, ?_, ?_⟩ <;> decide +kernel

/-- The hypotheses of `C52_independent_partial` are met by `leaver` and `reader`, which both
release their allocators, in any order of their calls. -/
example (τ : List Bool) : ∃ c ra rb rs stA stB st, (∀ F, c ≤ F → (leaver.named .empty).run fp F (St.init fun _ => 0) = .ok (ra, stA)) ∧
      (∀ F, c ≤ F → (reader.named .empty).run fp F (St.init fun _ => 0) = .ok (rb, stB)) ∧
      (∀ F, c ≤ F → (mix τ leaver .empty reader .empty).run fp F (St.init fun _ => 0) = .ok (rs, st)) ∧
      (told τ leaver .empty reader .empty rs).1 = (Tab.empty.views ra).take (τ.count true) ∧
      (told τ leaver .empty reader .empty rs).2 = (Tab.empty.views rb).take (τ.count false) :=
  C52_independent_partial (pad := false) nofun nofun nofun _ _ leaver_safe reader_safe
    (.inr (.inl ⟨rfl, fun _ => ⟨rfl, fun _ => ⟨rfl, fun _ => ⟨rfl, fun _ => ⟨rfl, fun _ => ⟨rfl, fun _ => trivial⟩⟩⟩⟩⟩⟩)) τ

/-- `reader` is told this (and by `C53_answers` always this); among the calls of `leaver` it
gets other handles and is told the same. -/
example : ((reader.named .empty).run (⟨fun _ => [], fun _ => ()⟩ : FP Unit) 99 (St.init fun _ => 0)).out =
      .ok [.alloc 0, .handle (some 0), .bool true, .handle none, .bytes (some b!"\"c\""), .unit] ∧
    ((mix [true, false, true, false, true, false, false, true, false, false] leaver .empty reader .empty).run
      (⟨fun _ => [], fun _ => ()⟩ : FP Unit) 99 (St.init fun _ => 0)).out =
      .ok [.alloc 0, .alloc 1, .handle (some 0), .handle (some 1), .bool true, .bool true, .handle none, .unit,
        .bytes (some b!"\"c\""), .unit] := by decide +kernel

end ZJ
