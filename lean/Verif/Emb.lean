import Verif.PropOwn

/-
Two stores with the same contents, up to names, as far as one client can see (for C52 and C53).

`Emb ρ s s'` says that the pairs of names in `ρ` stand for the same things in `s` and in `s'`:
a related node of `s'` has the same key and value as that of `s`, and its parent and children
are related again. There may be other things in both stores. The main theorem is in
`Verif.EmbStep`: calls with related arguments keep the stores related and give related answers.
-/

set_option linter.unusedSimpArgs false

namespace ZJ

/-! ### Lists and options -/

inductive Each {α β : Type} (R : α → β → Prop) : List α → List β → Prop
  | nil : Each R [] []
  | cons {a b l m} : R a b → Each R l m → Each R (a :: l) (b :: m)

inductive Opt {α β : Type} (R : α → β → Prop) : Option α → Option β → Prop
  | none : Opt R none none
  | some {a b} : R a b → Opt R (some a) (some b)

section
variable {α β : Type} {R S : α → β → Prop} {l l' : List α} {m m' : List β}

theorem Opt.mono (h : ∀ a b, R a b → S a b) {x : Option α} {y : Option β} : Opt R x y → Opt S x y
  | .none => .none
  | .some r => .some (h _ _ r)

theorem Opt.isSome {x : Option α} {y : Option β} : Opt R x y → y.isSome = x.isSome
  | .none => rfl
  | .some _ => rfl

theorem Opt.left {x : Option α} {y : Option β} {a : α} (h : Opt R x y) (e : x = Option.some a) : ∃ b, y = Option.some b ∧ R a b := by
  cases h with
  | none => cases e
  | some r => cases e; exact ⟨_, rfl, r⟩

theorem Opt.right {x : Option α} {y : Option β} {b : β} (h : Opt R x y) (e : y = Option.some b) : ∃ a, x = Option.some a ∧ R a b := by
  cases h with
  | none => cases e
  | some r => cases e; exact ⟨_, rfl, r⟩

theorem Opt.map {γ δ : Type} {f : α → γ} {g : β → δ} {T : γ → δ → Prop} {x : Option α} {y : Option β} (h : Opt R x y)
    (hf : ∀ a b, R a b → T (f a) (g b)) : Opt T (x.map f) (y.map g) := by
  cases h with
  | none => exact .none
  | some r => exact .some (hf _ _ r)

theorem Opt.flip {x : Option α} {y : Option β} (h : Opt R x y) : Opt (fun b a => R a b) y x := by
  cases h with
  | none => exact .none
  | some r => exact .some r

theorem Each.mono (h : ∀ a b, R a b → S a b) : ∀ {l : List α} {m : List β}, Each R l m → Each S l m
  | _, _, .nil => .nil
  | _, _, .cons r t => .cons (h _ _ r) (t.mono h)

theorem Each.flip : ∀ {l : List α} {m : List β}, Each R l m → Each (fun b a => R a b) m l
  | _, _, .nil => .nil
  | _, _, .cons r t => .cons r t.flip

theorem Each.length : ∀ {l : List α} {m : List β}, Each R l m → m.length = l.length
  | _, _, .nil => rfl
  | _, _, .cons _ t => by simp [t.length]

theorem Each.append : ∀ {l : List α} {m : List β}, Each R l m → Each R l' m' → Each R (l ++ l') (m ++ m')
  | _, _, .nil, h => h
  | _, _, .cons r t, h => .cons r (t.append h)

theorem Each.get : ∀ {l : List α} {m : List β}, Each R l m → ∀ i : Nat, Opt R l[i]? m[i]?
  | _, _, .nil, _ => by simp; exact .none
  | _, _, .cons r _, 0 => by simp; exact .some r
  | _, _, .cons _ t, i + 1 => by simpa using t.get i

theorem Each.head (h : Each R l m) : Opt R l.head? m.head? := by
  cases h with
  | nil => exact .none
  | cons r _ => exact .some r

theorem Each.isEmpty (h : Each R l m) : m.isEmpty = l.isEmpty := by cases h <;> rfl

theorem Each.mem : ∀ {l : List α} {m : List β}, Each R l m → ∀ a ∈ l, ∃ b ∈ m, R a b
  | _, _, .nil, a, h => by cases h
  | _, _, .cons (a := a0) (b := b0) r t, a, h => by
    rcases List.mem_cons.1 h with rfl | h
    · exact ⟨b0, List.mem_cons_self .., r⟩
    · obtain ⟨b, h1, h2⟩ := t.mem a h
      exact ⟨b, List.mem_cons_of_mem _ h1, h2⟩

theorem Each.mem' (h : Each R l m) : ∀ b ∈ m, ∃ a ∈ l, R a b := h.flip.mem

theorem Each.of_get : ∀ {l : List α} {m : List β}, m.length = l.length → (∀ (i : Nat) a b, l[i]? = some a → m[i]? = some b → R a b) → Each R l m
  | [], [], _, _ => .nil
  | a :: l, b :: m, h, hr =>
    .cons (hr 0 a b rfl rfl) (Each.of_get (by simpa using h) fun i a b h1 h2 => hr (i + 1) a b (by simpa using h1) (by simpa using h2))
  | [], b :: m, h, _ => by simp at h
  | a :: l, [], h, _ => by simp at h

/-- A list related to a list with a part. -/
theorem Each.split : ∀ {l : List α} {a : α} {r : List α} {m : List β}, Each R (l ++ a :: r) m →
    ∃ l' b r', m = l' ++ b :: r' ∧ Each R l l' ∧ R a b ∧ Each R r r'
  | [], _, _, _, .cons h t => ⟨[], _, _, rfl, .nil, h, t⟩
  | c :: l, a, r, _, .cons (b := b0) h t => by
    obtain ⟨l', b, r', e, h1, h2, h3⟩ := Each.split t
    exact ⟨b0 :: l', b, r', by rw [e]; rfl, .cons h h1, h2, h3⟩

end

theorem split_eq {a : Nat} {l r l' r' : List Nat} (hn : (l ++ a :: r).Nodup) (e : l ++ a :: r = l' ++ a :: r') : l = l' ∧ r = r' := by
  induction l generalizing l' with
  | nil =>
    cases l' with
    | nil => exact ⟨rfl, by simpa using e⟩
    | cons c l' =>
      simp at e hn
      obtain ⟨rfl, rfl⟩ := e
      simp at hn
  | cons b l ih =>
    cases l' with
    | nil =>
      simp at e hn
      rw [e.1] at hn
      exact absurd rfl hn.1.2.1
    | cons c l' =>
      simp at e hn
      obtain ⟨rfl, e⟩ := e
      obtain ⟨h1, h2⟩ := ih (by simpa using hn.2) e
      exact ⟨by rw [h1], h2⟩

/-! ### Names -/

/-- Each name has at most one partner. -/
structure OneOne (R : Nat → Nat → Prop) : Prop where
  fn : ∀ {a b b'}, R a b → R a b' → b = b'
  inj : ∀ {a a' b}, R a b → R a' b → a = a'

theorem OneOne.flip {R : Nat → Nat → Prop} (h : OneOne R) : OneOne fun b a => R a b := ⟨h.inj, h.fn⟩

theorem OneOne.iff {R : Nat → Nat → Prop} (h : OneOne R) {a b c d : Nat} (h1 : R a b) (h2 : R c d) : d = b ↔ c = a :=
  ⟨fun e => h.inj h2 (e ▸ h1), fun e => h.fn h2 (e ▸ h1)⟩

theorem OneOne.or {R S : Nat → Nat → Prop} (h : OneOne R) (h' : OneOne S) (h1 : ∀ a b b', R a b → ¬ S a b') (h2 : ∀ a a' b, R a b → ¬ S a' b) :
    OneOne fun a b => R a b ∨ S a b := by
  refine ⟨?_, ?_⟩
  · rintro a b b' (r | r) (r' | r')
    · exact h.fn r r'
    · exact absurd r' (h1 _ _ _ r)
    · exact absurd r (h1 _ _ _ r')
    · exact h'.fn r r'
  · rintro a a' b (r | r) (r' | r')
    · exact h.inj r r'
    · exact absurd r' (h2 _ _ _ r)
    · exact absurd r (h2 _ _ _ r')
    · exact h'.inj r r'

theorem OneOne.mem {R : Nat → Nat → Prop} (h : OneOne R) {l m : List Nat} (hE : Each R l m) {a b : Nat} (hab : R a b) : a ∈ l ↔ b ∈ m := by
  constructor
  · intro ha
    obtain ⟨b', h1, h2⟩ := hE.mem a ha
    rw [h.fn hab h2]; exact h1
  · intro hb
    obtain ⟨a', h1, h2⟩ := hE.mem' b hb
    rw [h.inj hab h2]; exact h1

/-! ### Nodes and graphs -/

inductive LikeV (N : Addr → Addr → Prop) : GVal → GVal → Prop
  | same {gv} : gv.isCon = false → LikeV N gv gv
  | con {o ks ks'} : Each N ks ks' → LikeV N (.con o ks) (.con o ks')

structure Like (N : Addr → Addr → Prop) (g g' : GNode) : Prop where
  key : g'.key = g.key
  val : LikeV N g.val g'.val
  par : Opt N g.par g'.par
  prev : g'.prevOK = g.prevOK
  last : g'.endOK = g.endOK

/-- Related nodes have the same contents. -/
def GEmb (N : Addr → Addr → Prop) (G G' : Graph) : Prop := ∀ a b, N a b → Opt (Like N) (G a) (G' b)

section
variable {N M : Addr → Addr → Prop} {G G' g g' : Graph} {a b x y f f' : Addr} {gn gn' : GNode} {t : Json}

theorem LikeV.mono (h : ∀ a b, N a b → M a b) {gv gv' : GVal} : LikeV N gv gv' → LikeV M gv gv'
  | .same e => .same e
  | .con e => .con (e.mono h)

theorem Like.mono (h : ∀ a b, N a b → M a b) (hl : Like N gn gn') : Like M gn gn' :=
  ⟨hl.key, hl.val.mono h, hl.par.mono h, hl.prev, hl.last⟩

theorem LikeV.flip {gv gv' : GVal} (h : LikeV N gv gv') : LikeV (fun b a => N a b) gv' gv := by
  cases h with
  | same e => exact .same e
  | con e => exact .con e.flip

theorem Like.flip (h : Like N gn gn') : Like (fun b a => N a b) gn' gn :=
  ⟨h.key.symm, h.val.flip, h.par.flip, h.prev.symm, h.last.symm⟩

theorem GEmb.flip (h : GEmb N G G') : GEmb (fun b a => N a b) G' G := fun b a hn => (h a b hn).flip.mono fun _ _ hl => hl.flip

theorem LikeV.kids {gv gv' : GVal} (h : LikeV N gv gv') : Each N gv.kids gv'.kids := by
  cases h with
  | same e => cases gv <;> first | (cases e; done) | exact .nil
  | con e => exact e

theorem LikeV.type {gv gv' : GVal} (h : LikeV N gv gv') : gv'.type = gv.type := by cases h <;> rfl

theorem LikeV.isCon {gv gv' : GVal} (h : LikeV N gv gv') : gv'.isCon = gv.isCon := by cases h <;> rfl

theorem LikeV.con_inv {gv' : GVal} {o : Bool} {ks : List Addr} (h : LikeV N (.con o ks) gv') : ∃ ks', gv' = .con o ks' ∧ Each N ks ks' := by
  cases h with
  | same e => cases e
  | con e => exact ⟨_, rfl, e⟩

theorem GEmb.at (h : GEmb N G G') (hN : N a b) (ha : G a = some gn) : ∃ gn', G' b = some gn' ∧ Like N gn gn' :=
  (h a b hN).left ha

theorem GEmb.at' (h : GEmb N G G') (hN : N a b) (hb : G' b = some gn') : ∃ gn, G a = some gn ∧ Like N gn gn' :=
  (h a b hN).right hb

/-- The children of a container. -/
theorem GEmb.con (h : GEmb N G G') (hN : N a b) {o : Bool} {ks : List Addr} (ha : G a = some gn) (hv : gn.val = .con o ks) :
    ∃ gn' ks', G' b = some gn' ∧ gn'.val = .con o ks' ∧ Each N ks ks' ∧ Like N gn gn' := by
  obtain ⟨gn', e1, hl⟩ := h.at hN ha
  have := hl.val
  rw [hv] at this
  obtain ⟨ks', e2, e3⟩ := this.con_inv
  exact ⟨gn', ks', e1, e2, e3, hl⟩

mutual
theorem Unf.like (h : GEmb N G G') : ∀ {a b t}, N a b → Unf G a t → Unf G' b t
  | a, b, t, hN, .mk ha hv => by
    obtain ⟨gn', e, hl⟩ := (h a b hN).left ha
    exact .mk e (UnfV.like h hl.val hv)
theorem UnfV.like (h : GEmb N G G') : ∀ {gv gv' t}, LikeV N gv gv' → UnfV G gv t → UnfV G' gv' t
  | _, _, _, .same hs, .scalar _ => .scalar hs
  | _, _, _, .con e, .con hi => .con (UnfI.like h e hi)
theorem UnfI.like (h : GEmb N G G') : ∀ {o ks ks' xs}, Each N ks ks' → UnfI G o ks xs → UnfI G' o ks' xs
  | _, _, _, _, .nil, .nil => .nil
  | o, k :: ks, k' :: ks', _, .cons hN e, .cons hk hkey hu hi => by
    obtain ⟨gk', e1, hl⟩ := (h k k' hN).left hk
    exact .cons e1 (by rw [hl.key]; exact hkey) (Unf.like h hN hu) (UnfI.like h e hi)
end

theorem Reach.like (h : GEmb N G G') (hr : Reach G a x) : ∀ {b}, N a b → ∃ y, N x y ∧ Reach G' b y := by
  induction hr with
  | refl => exact fun hN => ⟨_, hN, .refl⟩
  | step ha hk _ ih =>
    intro b hN
    obtain ⟨gn', e1, hl⟩ := h.at hN ha
    obtain ⟨k', e2, e3⟩ := hl.val.kids.mem _ hk
    obtain ⟨y, e4, e5⟩ := ih e3
    exact ⟨y, e4, .step e1 e2 e5⟩

theorem GEmb.find (h : GEmb N G G') (k : Bytes) : ∀ {ks ks' : List Addr}, Each N ks ks' → Opt N (G.find k ks) (G'.find k ks')
  | _, _, .nil => .none
  | _, _, .cons (a := c) (b := d) hN e => by
    have hk : (G' d).bind GNode.key = (G c).bind GNode.key := by
      have := h c d hN
      cases hc : G c with
      | none => rw [hc] at this; generalize G' d = z at this; cases this; rfl
      | some g =>
        obtain ⟨g', e1, hl⟩ := h.at hN hc
        rw [e1]; exact hl.key
    have ih := h.find k e
    unfold Graph.find at ih ⊢
    simp only [List.find?_cons, hk]
    by_cases hd : (G c).bind GNode.key = some k
    · simp only [hd, decide_true]; exact .some hN
    · simp only [hd, decide_false]; exact ih

/-! ### Changes of graphs -/

theorem GEmb.ext (h : GEmb N G G') (hle : ∀ a b, N a b → M a b) (hnew : ∀ a b, M a b → N a b ∨ (G a = none ∧ G' b = none)) : GEmb M G G' :=
  fun a b hm => by
    rcases hnew a b hm with hn | ⟨e1, e2⟩
    · exact (h a b hn).mono fun _ _ hl => hl.mono hle
    · rw [e1, e2]; exact .none

theorem GEmb.set (h : GEmb N G G') (ho : OneOne N) (hN : N a b) (hl : Like N gn gn') : GEmb N (G.set a gn) (G'.set b gn') := fun c d hcd => by
  rw [Graph.set_apply, Graph.set_apply]
  by_cases e : c = a
  · rw [if_pos e, if_pos ((ho.iff hN hcd).2 e)]; exact .some hl
  · rw [if_neg e, if_neg (fun e' => e ((ho.iff hN hcd).1 e'))]; exact h c d hcd

theorem GEmb.or (h : GEmb N G G') (hg : GEmb N g g') : GEmb N (g.or G) (g'.or G') := fun c d hcd => by
  unfold Graph.or
  have := hg c d hcd
  cases hc : g c with
  | none => rw [hc] at this; generalize g' d = z at this; cases this; exact h c d hcd
  | some y => obtain ⟨y', e1, hl⟩ := hg.at hcd hc; rw [e1]; exact .some hl

theorem Graph.or_comm {G g : Graph} (h : ∀ a y, g a = some y → G a = none) : G.or g = g.or G := by
  funext a
  unfold Graph.or
  cases hg : g a with
  | none => simp
  | some y => simp [h a y hg]

theorem GEmb.detach (h : GEmb N G G') (ho : OneOne N) {o : Bool} {l l' r r' : List Addr} (hf : N f f') (hx : N x y) (hl : Each N l l') (hr : Each N r r') :
    GEmb N (G.detach f x o l r) (G'.detach f' y o l' r') := fun c d hcd => by
  unfold Graph.detach
  by_cases e1 : c = x
  · rw [if_pos e1, if_pos ((ho.iff hx hcd).2 e1)]
    exact (h c d hcd).map fun _ _ hl => ⟨hl.key, hl.val, .none, rfl, hl.last⟩
  · rw [if_neg e1, if_neg (fun e' => e1 ((ho.iff hx hcd).1 e'))]
    by_cases e2 : c = f
    · rw [if_pos e2, if_pos ((ho.iff hf hcd).2 e2)]
      exact (h c d hcd).map fun _ _ hk => ⟨hk.key, .con (hl.append hr), hk.par, hk.prev, by simp only [hk.last, hl.isEmpty, hr.isEmpty]⟩
    · rw [if_neg e2, if_neg (fun e' => e2 ((ho.iff hf hcd).1 e'))]
      have : r'.head? = some d ↔ r.head? = some c := by
        have := hr.head
        constructor
        · intro e
          obtain ⟨c', e3, e4⟩ := this.right e
          rw [e3, ho.inj e4 hcd]
        · intro e
          obtain ⟨d', e3, e4⟩ := this.left e
          rw [e3, ho.fn e4 hcd]
      by_cases e3 : r.head? = some c
      · rw [if_pos e3, if_pos (this.2 e3)]
        exact (h c d hcd).map fun _ _ hk => ⟨hk.key, hk.val, hk.par, hl.isEmpty, hk.last⟩
      · rw [if_neg e3, if_neg (fun e' => e3 (this.1 e'))]
        exact h c d hcd

theorem GEmb.attach (h : GEmb N G G') (ho : OneOne N) {o : Bool} {l l' : List Addr} (hf : N f f') (hx : N x y) (hl : Each N l l') :
    GEmb N (G.attach f x o l) (G'.attach f' y o l') := fun c d hcd => by
  unfold Graph.attach
  by_cases e1 : c = x
  · rw [if_pos e1, if_pos ((ho.iff hx hcd).2 e1)]
    exact (h c d hcd).map fun _ _ hk => ⟨hk.key, hk.val, .some hf, rfl, hk.last⟩
  · rw [if_neg e1, if_neg (fun e' => e1 ((ho.iff hx hcd).1 e'))]
    by_cases e2 : c = f
    · rw [if_pos e2, if_pos ((ho.iff hf hcd).2 e2)]
      exact (h c d hcd).map fun _ _ hk => ⟨hk.key, .con (hl.append (.cons hx .nil)), hk.par, hk.prev, rfl⟩
    · rw [if_neg e2, if_neg (fun e' => e2 ((ho.iff hf hcd).1 e'))]
      exact h c d hcd

theorem GEmb.graft (h : GEmb N G G') (ho : OneOne N) {ga ga' gx gx' : GNode} {e : Bool} (ha : N a b) (hx : N x y) (hla : Like N ga ga') (hlx : Like N gx gx') :
    GEmb N (G.graft a x ga gx e) (G'.graft b y ga' gx' e) := fun c d hcd => by
  unfold Graph.graft
  by_cases e1 : c = a
  · rw [if_pos e1, if_pos ((ho.iff ha hcd).2 e1)]
    exact .some ⟨hla.key, hlx.val, hla.par, hla.prev, rfl⟩
  · rw [if_neg e1, if_neg (fun e' => e1 ((ho.iff ha hcd).1 e'))]
    by_cases e2 : c = x
    · rw [if_pos e2, if_pos ((ho.iff hx hcd).2 e2)]; exact .none
    · rw [if_neg e2, if_neg (fun e' => e2 ((ho.iff hx hcd).1 e'))]
      have := ho.mem hlx.val.kids hcd
      by_cases e3 : c ∈ gx.val.kids
      · rw [if_pos e3, if_pos (this.1 e3)]
        exact (h c d hcd).map fun _ _ hk => ⟨hk.key, hk.val, .some ha, hk.prev, hk.last⟩
      · rw [if_neg e3, if_neg (fun e' => e3 (this.2 e'))]
        exact h c d hcd

theorem GEmb.only (h : GEmb N G G') {S S' : Addr → Prop} (hS : ∀ a b, N a b → (S a ↔ S' b)) : GEmb N (G.only S) (G'.only S') := fun c d hcd => by
  unfold Graph.only
  by_cases e : S c
  · rw [if_pos e, if_pos ((hS c d hcd).1 e)]; exact h c d hcd
  · rw [if_neg e, if_neg (fun e' => e ((hS c d hcd).2 e'))]; exact .none

/-- A document is made a root in both stores. -/
theorem GEmb.moved {G1 G1' : Graph} (h : GEmb N G G') (ho : OneOne N) (hF : Forest G) (hF' : Forest G') (hx : N x y)
    (hm : Moved G x G1) (hm' : Moved G' y G1') : GEmb N G1 G1' ∧ ∀ d, (∀ c, ¬ N c d) → G1' d = G' d := by
  cases hm with
  | root h1 h2 =>
    cases hm' with
    | root => exact ⟨h, fun _ _ => rfl⟩
    | child g1 g2 g3 =>
      obtain ⟨gn, e1, hl⟩ := h.at' hx g1
      rw [h1] at e1; cases e1
      have := (hF'.unique g1 g2 g3).1
      have hp := hl.par
      rw [h2, this] at hp; cases hp
  | @child gx gf f o l r h1 h2 h3 =>
    cases hm' with
    | root g1 g2 =>
      obtain ⟨gn, e1, hl⟩ := h.at' hx g1
      rw [h1] at e1; cases e1
      have := (hF.unique h1 h2 h3).1
      have hp := hl.par
      rw [g2, this] at hp; cases hp
    | @child gx' gf' f' o' l' r' g1 g2 g3 =>
      obtain ⟨gn, e1, hl⟩ := h.at' hx g1
      rw [h1] at e1; cases e1
      obtain ⟨p1, n1⟩ := hF.unique h1 h2 h3
      obtain ⟨p2, n2⟩ := hF'.unique g1 g2 g3
      have hp := hl.par
      rw [p1, p2] at hp
      obtain ⟨hff⟩ := hp
      rename_i hff
      obtain ⟨gf2, ks', e2, e3, e4, _⟩ := h.con hff h2 h3
      rw [g2] at e2; cases e2
      rw [g3] at e3; cases e3
      obtain ⟨l2, y2, r2, e5, e6, e7, e8⟩ := e4.split
      cases ho.fn e7 hx
      obtain ⟨rfl, rfl⟩ : l' = l2 ∧ r' = r2 := split_eq n2 e5
      refine ⟨h.detach ho hff hx e6 e8, fun d hd => ?_⟩
      unfold Graph.detach
      rw [if_neg (fun e => hd _ (e ▸ hx)), if_neg (fun e => hd _ (e ▸ hff)), if_neg]
      intro e
      obtain ⟨c, _, e9⟩ := e8.head.right e
      exact hd _ e9

/-! ### Two copies of one document -/

theorem PathTo.fn {p : List Nat} (h : PathTo G a p b) : ∀ {c}, PathTo G a p c → b = c := by
  induction h with
  | nil => intro c h; cases h; rfl
  | cons h1 h2 _ ih =>
    intro c h
    cases h with
    | cons g1 g2 g3 =>
      rw [h1] at g1; cases g1
      rw [h2] at g2; cases g2
      exact ih g3

theorem PathTo.last {p : List Nat} (h : PathTo G a p b) : p = [] ∧ a = b ∨ ∃ q i f gf, p = q ++ [i] ∧ PathTo G a q f ∧ G f = some gf ∧ gf.val.kids[i]? = some b := by
  induction h with
  | nil => exact .inl ⟨rfl, rfl⟩
  | @cons a gn i k p c h1 h2 _ ih =>
    rcases ih with ⟨rfl, rfl⟩ | ⟨q, j, f, gf, rfl, e1, e2, e3⟩
    · exact .inr ⟨[], i, a, gn, rfl, .nil, h1, h2⟩
    · exact .inr ⟨i :: q, j, f, gf, rfl, .cons h1 h2 e1, e2, e3⟩

theorem Forest.kid (hF : Forest G) {gf : GNode} {i : Nat} (hf : G f = some gf) (hk : gf.val.kids[i]? = some x) :
    gf.val.kids.Nodup ∧ ∃ gx, G x = some gx ∧ gx.par = some f := by
  cases hv : gf.val with
  | con o ks =>
    rw [hv] at hk
    obtain ⟨h1, h2⟩ := hF f gf o ks hf hv
    obtain ⟨gx, e1, e2, _⟩ := h2 x (List.mem_of_getElem? hk)
    exact ⟨h1, gx, e1, e2⟩
  | _ => rw [hv] at hk; simp [GVal.kids] at hk

/-- In a tree there is one path to a node. -/
theorem Forest.path_unique (hF : Forest G) {gr : GNode} (hr : G a = some gr) (hp : gr.par = none) : ∀ (n : Nat) {p q : List Nat} {c : Addr}, p.length ≤ n →
    PathTo G a p c → PathTo G a q c → p = q
  | n, p, q, c, hn, h, h' => by
    have root : ∀ {f gf} {i : Nat}, G f = some gf → gf.val.kids[i]? = some a → False := by
      intro f gf i hf hk
      obtain ⟨_, gx, e1, e2⟩ := hF.kid hf hk
      rw [hr] at e1; cases e1
      rw [hp] at e2; cases e2
    rcases h.last with ⟨rfl, rfl⟩ | ⟨p', i, f, gf, rfl, e1, e2, e3⟩
    · rcases h'.last with ⟨rfl, _⟩ | ⟨q', j, f', gf', rfl, g1, g2, g3⟩
      · rfl
      · exact (root g2 g3).elim
    · rcases h'.last with ⟨rfl, rfl⟩ | ⟨q', j, f', gf', rfl, g1, g2, g3⟩
      · exact (root e2 e3).elim
      · obtain ⟨hnd, gx, e4, e5⟩ := hF.kid e2 e3
        obtain ⟨_, gx', g4, g5⟩ := hF.kid g2 g3
        rw [e4] at g4; cases g4
        rw [e5] at g5; cases g5
        rw [e2] at g2; cases g2
        cases n with
        | zero => simp at hn
        | succ n =>
          cases hF.path_unique hr hp n (by simpa using hn) e1 g1
          obtain ⟨hi, e6⟩ := List.getElem?_eq_some_iff.1 e3
          obtain ⟨hj, e7⟩ := List.getElem?_eq_some_iff.1 g3
          cases nodup_inj hnd (e6.trans e7.symm)
          rfl

theorem UnfV.pair {gv gv' : GVal} (h : UnfV G gv t) (h' : UnfV G' gv' t) : (gv = gv' ∧ gv.isCon = false) ∨
    ∃ o ks ks' xs, gv = .con o ks ∧ gv' = .con o ks' ∧ UnfI G o ks xs ∧ UnfI G' o ks' xs := by
  have hty := h.type
  have hty' := h'.type
  cases h with
  | scalar hs =>
    generalize he : gv.doc = u at h'
    cases h' with
    | scalar hs' =>
      refine .inl ⟨?_, hs⟩
      cases gv <;> cases gv' <;> first | (cases hs; done) | (cases hs'; done) | (cases he; rfl) | cases he
    | @con o ks xs hi => cases gv <;> cases o <;> first | (cases hs; done) | cases he
  | @con o ks xs hi =>
    generalize he : mkCon o xs = u at h'
    cases h' with
    | scalar hs' => cases gv' <;> cases o <;> first | (cases hs'; done) | cases he
    | @con o' ks' xs' hi' =>
      refine .inr ⟨o, ks, ks', xs, rfl, ?_, hi, ?_⟩
      · cases o <;> cases o' <;> first | rfl | cases he
      · cases o <;> cases o' <;> simp [mkCon] at he
        · rw [hi.array_keys, he, ← hi'.array_keys]; exact hi'
        · rw [he]; exact hi'

/-- Names of the nodes at the same places of two trees. -/
def Pair (T T' : Graph) (n n' : Addr) (a b : Addr) : Prop := ∃ p, PathTo T n p a ∧ PathTo T' n' p b

section
variable {T T' : Graph} {n n' : Addr} {r r' : GNode}

theorem Pair.oneOne (hF : Forest T) (hF' : Forest T') (hr : T n = some r) (hp : r.par = none) (hr' : T' n' = some r') (hp' : r'.par = none) :
    OneOne (Pair T T' n n') := by
  refine ⟨?_, ?_⟩
  · rintro a b b' ⟨p, h1, h2⟩ ⟨q, h3, h4⟩
    cases hF.path_unique hr hp p.length (Nat.le_refl _) h1 h3
    exact h2.fn h4
  · rintro a a' b ⟨p, h1, h2⟩ ⟨q, h3, h4⟩
    cases hF'.path_unique hr' hp' p.length (Nat.le_refl _) h2 h4
    exact h1.fn h3

theorem Pair.flip (h : Pair T T' n n' a b) : Pair T' T n' n b a := by
  obtain ⟨p, h1, h2⟩ := h
  exact ⟨p, h2, h1⟩

theorem Pair.both (hu : Unf T n t) (hu' : Unf T' n' t) (h : Pair T T' n n' a b) : ∃ u, Unf T a u ∧ Unf T' b u := by
  obtain ⟨p, h1, h2⟩ := h
  obtain ⟨u, e1, e2⟩ := h1.at hu
  obtain ⟨u', e3, e4⟩ := h2.at hu'
  rw [e2] at e4; cases e4
  exact ⟨u, e1, e3⟩

theorem PathTo.pair {p : List Nat} (h : PathTo T n p a) : ∀ {n' t}, Unf T n t → Unf T' n' t → ∃ b, PathTo T' n' p b := by
  induction h with
  | nil => exact fun _ _ => ⟨_, .nil⟩
  | @cons c gn i k p d h1 h2 _ ih =>
    intro n' t hu hu'
    obtain ⟨ha, hv⟩ := hu
    obtain ⟨ha', hv'⟩ := hu'
    rw [h1] at ha; cases ha
    rcases hv.pair hv' with ⟨_, e2⟩ | ⟨o, ks, ks', xs, e1, e2, hi, hi'⟩
    · cases hgv : gn.val <;> rw [hgv] at e2 h2 <;> first | (cases e2; done) | simp [GVal.kids] at h2
    · rw [e1] at h2
      have h2 : ks[i]? = some k := h2
      rcases hi.at i with ⟨q, _⟩ | ⟨k1, gk, key, u, q1, q2, _, _, q5⟩
      · rw [h2] at q; cases q
      · rw [h2] at q1; cases q1
        rcases hi'.at i with ⟨_, q⟩ | ⟨k2, gk2, key2, u2, w1, w2, _, _, w5⟩
        · rw [q2] at q; cases q
        · rw [q2] at w2; cases w2
          obtain ⟨b, hb⟩ := ih q5 w5
          exact ⟨b, .cons ha' (by rw [e2]; exact w1) hb⟩

/-- Every node has a partner. -/
theorem Pair.total (hu : Unf T n t) (hu' : Unf T' n' t) (hr : Reach T n a) : ∃ b, Pair T T' n n' a b := by
  obtain ⟨p, hp⟩ := hr.path
  obtain ⟨b, hb⟩ := hp.pair hu hu'
  exact ⟨b, p, hp, hb⟩

/-- Partners have the same contents. -/
theorem Pair.like (hF : Forest T) (hF' : Forest T') (hr : T n = some r) (hp : r.par = none) (hr' : T' n' = some r') (hp' : r'.par = none)
    (hk : r'.key = r.key) (hu : Unf T n t) (hu' : Unf T' n' t)
    (hfl : ∀ a y, T a = some y → y.prevOK = true ∧ y.endOK = true) (hfl' : ∀ a y, T' a = some y → y.prevOK = true ∧ y.endOK = true)
    (h : Pair T T' n n' a b) : ∃ g g', T a = some g ∧ T' b = some g' ∧ Like (Pair T T' n n') g g' := by
  have hP := h
  obtain ⟨u, ⟨ha, hv⟩, ⟨hb, hv'⟩⟩ := h.both hu hu'
  rename_i g g'
  refine ⟨g, g', ha, hb, ?_⟩
  obtain ⟨p, h1, h2⟩ := h
  have hval : LikeV (Pair T T' n n') g.val g'.val := by
    rcases hv.pair hv' with ⟨e1, e2⟩ | ⟨o, ks, ks', xs, e1, e2, hi, hi'⟩
    · rw [← e1]; exact .same e2
    · rw [e1, e2]
      refine .con (.of_get (by rw [hi.length, hi'.length]) fun i k k' q q' => ⟨p ++ [i], ?_, ?_⟩)
      · exact h1.append (.cons ha (by rw [e1]; exact q) .nil)
      · exact h2.append (.cons hb (by rw [e2]; exact q') .nil)
  have hrest : g'.key = g.key ∧ Opt (Pair T T' n n') g.par g'.par := by
    rcases h1.last with ⟨rfl, rfl⟩ | ⟨q, i, f, gf, rfl, e1, e2, e3⟩
    · cases h2
      rw [hr] at ha; cases ha
      rw [hr'] at hb; cases hb
      exact ⟨hk, by rw [hp, hp']; exact .none⟩
    · rcases h2.last with ⟨e, _⟩ | ⟨q', i', f', gf', e, g1, g2, g3⟩
      · simp at e
      · obtain ⟨rfl, rfl⟩ : q = q' ∧ i = i' := by
          obtain ⟨e, e'⟩ := List.append_inj' e rfl
          exact ⟨e, by simpa using e'⟩
        have hff : Pair T T' n n' f f' := ⟨q, e1, g1⟩
        obtain ⟨_, ga, w1, w2⟩ := hF.kid e2 e3
        obtain ⟨_, gb, w3, w4⟩ := hF'.kid g2 g3
        rw [ha] at w1; cases w1
        rw [hb] at w3; cases w3
        refine ⟨?_, by rw [w2, w4]; exact .some hff⟩
        obtain ⟨u', ⟨hf, hfv⟩, ⟨hf', hfv'⟩⟩ := hff.both hu hu'
        rw [e2] at hf; cases hf
        rw [g2] at hf'; cases hf'
        rcases hfv.pair hfv' with ⟨_, z2⟩ | ⟨o, ks, ks', xs, z1, z2, hi, hi'⟩
        · cases hgv : gf.val <;> rw [hgv] at z2 e3 <;> first | (cases z2; done) | simp [GVal.kids] at e3
        · rw [z1] at e3; rw [z2] at g3
          have e3 : ks[i]? = some a := e3
          have g3 : ks'[i]? = some b := g3
          rcases hi.at i with ⟨w, _⟩ | ⟨k1, gk, key, u, w1, w2, w3, w4, _⟩
          · rw [e3] at w; cases w
          · rw [e3] at w1; cases w1
            rcases hi'.at i with ⟨w, _⟩ | ⟨k2, gk2, key2, u2, v1, v2, v3, v4, _⟩
            · rw [g3] at w; cases w
            · rw [g3] at v1; cases v1
              rw [w2] at v2; cases v2
              rw [ha] at w3; cases w3
              rw [hb] at v3; cases v3
              unfold KeyIs at w4 v4
              cases o <;> simp_all
  exact ⟨hrest.1, hval, hrest.2, by rw [(hfl a g ha).1, (hfl' b g' hb).1], by rw [(hfl a g ha).2, (hfl' b g' hb).2]⟩

end

end

end ZJ
