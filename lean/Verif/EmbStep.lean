import Verif.EmbStore

/-
Calls with related arguments keep two stores related and give related answers (for C52 and
C53).
-/

set_option linter.unusedSimpArgs false

namespace ZJ

/-! ### Decimal numerals -/

theorem decimalValue_snoc (l : Bytes) (c : Byte) : decimalValue (l ++ [c]) = decimalValue l * 10 + (c.toNat - 0x30) := by
  simp [decimalValue]

theorem decimalValue_pos {c : Byte} {l : Bytes} (hc : isDigit c = true) (hne : c ≠ 0x30) : 0 < decimalValue (c :: l) := by
  have h : ∀ (l : Bytes) (a : Nat), 0 < a → 0 < l.foldl (fun a c => a * 10 + (c.toNat - 0x30)) a := by
    intro l
    induction l with
    | nil => exact fun _ h => h
    | cons d l ih => exact fun a h => ih _ (by dsimp only; omega)
  have h1 : ∀ c : Byte, isDigit c = true → c ≠ 0x30 → 0 < 0 * 10 + (c.toNat - 0x30) := by apply allBytes; decide +kernel
  exact h l _ (h1 c hc hne)

theorem decimalValue_inj : ∀ (n : Nat) (l m : Bytes), l.length ≤ n → (∀ c ∈ l, isDigit c = true) → (∀ c ∈ m, isDigit c = true) →
    l.head? ≠ some 0x30 → m.head? ≠ some 0x30 → decimalValue l = decimalValue m → l = m := by
  have pos : ∀ m : Bytes, (∀ c ∈ m, isDigit c = true) → m.head? ≠ some 0x30 → decimalValue m = 0 → m = [] := by
    intro m hm hh h0
    cases m with
    | nil => rfl
    | cons c m =>
      have := decimalValue_pos (l := m) (hm c (List.mem_cons_self ..)) (fun e => hh (by rw [e]; rfl))
      omega
  have hd : ∀ (l : Bytes) (c : Byte), (l ++ [c]).head? ≠ some 0x30 → l.head? ≠ some 0x30 := by
    intro l c h
    cases l with
    | nil => simp
    | cons d l => simpa using h
  have hsub : ∀ c : Byte, isDigit c = true → ∀ d : Byte, isDigit d = true → c.toNat - 0x30 < 10 ∧ (c.toNat - 0x30 = d.toNat - 0x30 → c = d) := by
    intro c hc d hd
    have h1 : ∀ c : Byte, isDigit c = true → 0x30 ≤ c.toNat ∧ c.toNat - 0x30 < 10 := by apply allBytes; decide +kernel
    obtain ⟨a1, a2⟩ := h1 c hc
    obtain ⟨b1, b2⟩ := h1 d hd
    exact ⟨a2, fun e => UInt8.toNat.inj (by omega)⟩
  intro n
  induction n with
  | zero =>
    intro l m hn _ h2 _ h4 e
    cases l with
    | nil => exact (pos m h2 h4 e.symm).symm
    | cons _ _ => simp at hn
  | succ n ih =>
    intro l m hn h1 h2 h3 h4 e
    rcases List.eq_nil_or_concat l with rfl | ⟨l, c, rfl⟩
    · exact (pos m h2 h4 e.symm).symm
    · rcases List.eq_nil_or_concat m with rfl | ⟨m, d, rfl⟩
      · exact pos _ h1 h3 e
      · rw [List.concat_eq_append] at *
        rw [List.concat_eq_append] at *
        rw [decimalValue_snoc, decimalValue_snoc] at e
        have hc := h1 c (by simp)
        have hd' := h2 d (by simp)
        obtain ⟨a1, a2⟩ := hsub c hc d hd'
        obtain ⟨b1, _⟩ := hsub d hd' c hc
        rw [ih l m (by simp at hn; omega) (fun x hx => h1 x (by simp [hx])) (fun x hx => h2 x (by simp [hx])) (hd l c h3) (hd m d h4) (by omega),
          a2 (by omega)]

theorem IsInt.inj {i j : Bytes} (h : IsInt i) (h' : IsInt j) (e : decimalValue i = decimalValue j) : i = j := by
  have dig : ∀ {c : Byte}, 0x31 ≤ c → c ≤ 0x39 → isDigit c = true ∧ c ≠ 0x30 := by
    intro c
    revert c; apply allBytes; decide +kernel
  rcases h with rfl | ⟨c, l, rfl, hc, hc', hl⟩
  · rcases h' with rfl | ⟨d, m, rfl, hd, hd', hm⟩
    · rfl
    · have := decimalValue_pos (l := m) (dig hd hd').1 (dig hd hd').2
      rw [← e] at this; exact absurd this (by decide)
  · rcases h' with rfl | ⟨d, m, rfl, hd, hd', hm⟩
    · have := decimalValue_pos (l := l) (dig hc hc').1 (dig hc hc').2
      rw [e] at this; exact absurd this (by decide)
    · refine decimalValue_inj _ _ _ (Nat.le_refl _) ?_ ?_ ?_ ?_ e
      · intro x hx
        rcases List.mem_cons.1 hx with rfl | hx
        · exact (dig hc hc').1
        · exact hl x hx
      · intro x hx
        rcases List.mem_cons.1 hx with rfl | hx
        · exact (dig hd hd').1
        · exact hm x hx
      · simp [(dig hc hc').2]
      · simp [(dig hd hd').2]

/-- A number has one decimal numeral. -/
theorem Decimal.unique {n : Int} {raw raw' : Bytes} (h : Decimal n raw) (h' : Decimal n raw') : raw = raw' := by
  obtain ⟨m, i, rfl, h1, h2, h3⟩ := h
  obtain ⟨m', i', rfl, h1', h2', h3'⟩ := h'
  rw [h3, h3', h1.inj h1' (h2.trans h2'.symm)]

theorem TextFn.Takes.unique {f : TextFn} {b : Bytes} {gv gv' : GVal} (h : f.Takes b gv) (h' : f.Takes b gv') : gv = gv' := by
  cases h <;> cases h' <;> first | rfl | (exfalso; simp_all; done) | (exfalso; rename_i h1 _ h2 _; rcases h1 with rfl | rfl | rfl | rfl <;> simp at h2) | (exfalso; rename_i h1 _ h2; rcases h1 with rfl | rfl | rfl | rfl <;> simp at h2) | (exfalso; rename_i h1 h2 _; rcases h1 with rfl | rfl <;> simp at h2)

theorem KeyFn.Takes.unique {f : KeyFn} {b k k' : Bytes} (h : f.Takes b k) (h' : f.Takes b k') : k = k' := by
  cases h <;> cases h' <;> first | rfl | (exfalso; rename_i h1 _ h2; rcases h1 with rfl | rfl | rfl | rfl <;> simp at h2) | (exfalso; rename_i h1 h2 _; rcases h1 with rfl | rfl <;> simp at h2)

/-! ### Related calls and answers -/

inductive CallLike {D : Type} (ρ : Names) : Call D → Call D → Prop
  | newAlloc : CallLike ρ .newAlloc .newAlloc
  | release {A B} : ρ.L A B → CallLike ρ (.release A) (.release B)
  | newValue {A B} : ρ.L A B → CallLike ρ (.newValue A) (.newValue B)
  | parse {f v w b} : ρ.H v w → CallLike ρ (.parse f v b) (.parse f w b)
  | text {f v w b} : ρ.H v w → CallLike ρ (.text f v b) (.text f w b)
  | null {v w} : ρ.H v w → CallLike ρ (.null v) (.null w)
  | bool {v w b} : ρ.H v w → CallLike ρ (.bool v b) (.bool w b)
  | array {v w} : ρ.H v w → CallLike ρ (.array v) (.array w)
  | object {v w} : ρ.H v w → CallLike ρ (.object v) (.object w)
  | int {f v w n} : ρ.H v w → CallLike ρ (.int f v n) (.int f w n)
  | double {v w d} : ρ.H v w → CallLike ρ (.double v d) (.double w d)
  | key {f v w b} : ρ.H v w → CallLike ρ (.key f v b) (.key f w b)
  | get {f v w} : ρ.H v w → CallLike ρ (.get f v) (.get f w)
  | nav {f v w} : ρ.H v w → CallLike ρ (.nav f v) (.nav f w)
  | copy {v w} : ρ.H v w → CallLike ρ (.copy v) (.copy w)
  | move {v w} : ρ.H v w → CallLike ρ (.move v) (.move w)
  | add {o fast v w v' w'} : ρ.H v v' → ρ.H w w' → CallLike ρ (.add o fast v w) (.add o fast v' w')
  | delAt {v w i j} : ρ.H v w → j = i → CallLike ρ (.delAt v i) (.delAt w j)
  | delKey {v w k} : ρ.H v w → CallLike ρ (.delKey v k) (.delKey w k)
  | set {fast v w v' w'} : ρ.H v v' → ρ.H w w' → CallLike ρ (.set fast v w) (.set fast v' w')

/-- The answer names no handle and no allocator. -/
def Ans.plain {D : Type} : Ans D → Bool
  | .alloc _ | .handle _ => false
  | _ => true

inductive AnsLike {D : Type} (ρ : Names) : Ans D → Ans D → Prop
  | alloc {A B} : ρ.L A B → AnsLike ρ (.alloc A) (.alloc B)
  | handle {x y} : Opt ρ.H x y → AnsLike ρ (.handle x) (.handle y)
  | same {r} : r.plain = true → AnsLike ρ r r

/-- Names are not forgotten. -/
structure Seen.le (q q' : Seen) : Prop where
  node : ∀ a, q.node a → q'.node a
  hnd : ∀ a, q.hnd a → q'.hnd a
  alloc : ∀ a, q.alloc a → q'.alloc a

theorem Seen.le.refl {q : Seen} : q.le q := ⟨fun _ => id, fun _ => id, fun _ => id⟩
theorem Seen.le.trans {q q' q'' : Seen} (h : q.le q') (h' : q'.le q'') : q.le q'' :=
  ⟨fun _ h1 => h'.node _ (h.node _ h1), fun _ h1 => h'.hnd _ (h.hnd _ h1), fun _ h1 => h'.alloc _ (h.alloc _ h1)⟩
theorem Seen.le.nodes {q : Seen} {S : Addr → Prop} : q.le (q.nodes S) := ⟨fun _ => .inl, fun _ => id, fun _ => id⟩
theorem Seen.le.hnds {q : Seen} {v : Addr} : q.le (q.hnds v) := ⟨fun _ => id, fun _ => .inl, fun _ => id⟩
theorem Seen.le.allocs {q : Seen} {v : Addr} : q.le (q.allocs v) := ⟨fun _ => id, fun _ => id, fun _ => .inl⟩

theorem Store.use_seen {s : Store} {c : Bool} {A : Nat} : (s.use c A).seen = s.seen := by cases c <;> rfl

theorem AStep.seen {D : Type} {fp : FP D} {s s' : Store} {c : Call D} {r : Ans D} (h : AStep fp s c r s') : s.seen.le s'.seen := by
  cases h with
  | newAlloc => exact .allocs
  | newValue => exact .hnds
  | parse => exact .nodes
  | text => exact Store.use_seen (s := s) ▸ .nodes
  | textNo => exact Store.use_seen (s := s) ▸ .refl
  | key => exact Store.use_seen (s := s) ▸ .nodes
  | keyNo => exact Store.use_seen (s := s) ▸ .refl
  | keyInArray => exact Store.use_seen (s := s) ▸ .refl
  | nav => exact .hnds
  | copy => exact Seen.le.nodes.trans .hnds
  | addFast => exact .hnds
  | setFast => exact .hnds
  | setFastNew => exact Seen.le.hnds.trans .hnds
  | set => exact .nodes
  | setNew => exact Seen.le.nodes.trans .hnds
  | add => exact .nodes
  | release => exact .refl
  | move => exact .refl
  | delAt => exact .refl
  | delKey => exact .refl
  | null => exact .nodes
  | bool => exact .nodes
  | array => exact .nodes
  | object => exact .nodes
  | int => exact .nodes
  | double => exact .nodes
  | _ => exact .refl

/-- What two related calls lead to: the names `ρ'` are those of `ρ` and new ones. -/
structure Next (ρ : Names) (s t s' t' : Store) (ρ' : Names) : Prop where
  le : ρ.le ρ'
  emb : Emb ρ' s' t'
  off : Off ρ' t t'
  newN : ∀ a b, ρ'.N a b → ρ.N a b ∨ ((¬ s.seen.node a ∧ ¬ t.seen.node b) ∧ s'.seen.node a ∧ t'.seen.node b)
  newH : ∀ a b, ρ'.H a b → ρ.H a b ∨ ((¬ s.seen.hnd a ∧ ¬ t.seen.hnd b) ∧ s'.seen.hnd a ∧ t'.seen.hnd b)
  newL : ∀ a b, ρ'.L a b → ρ.L a b ∨ ((¬ s.seen.alloc a ∧ ¬ t.seen.alloc b) ∧ s'.seen.alloc a ∧ t'.seen.alloc b)

section
variable {ρ ρ' : Names} {s t s' t' : Store} {v w A B a b x y n n' : Addr} {gn gn' : GNode} {gv gv' : GVal} {g g' : Graph}

theorem Next.known (h : Next ρ s t s' t' ρ') (K : Known ρ s t) (hs : s.seen.le s'.seen) (ht : t.seen.le t'.seen) : Known ρ' s' t' where
  N a b hab := (h.newN a b hab).elim (fun h => ⟨hs.node _ (K.N a b h).1, ht.node _ (K.N a b h).2⟩) (·.2)
  H a b hab := (h.newH a b hab).elim (fun h => ⟨hs.hnd _ (K.H a b h).1, ht.hnd _ (K.H a b h).2⟩) (·.2)
  L a b hab := (h.newL a b hab).elim (fun h => ⟨hs.alloc _ (K.L a b h).1, ht.alloc _ (K.L a b h).2⟩) (·.2)

theorem Next.of (E : Emb ρ s' t') (h : Off ρ t t') : Next ρ s t s' t' ρ :=
  ⟨.refl, E, h, fun _ _ => .inl, fun _ _ => .inl, fun _ _ => .inl⟩

theorem Next.same (E : Emb ρ s t) : Next ρ s t s t ρ := .of E .refl

theorem Emb.handles (E : Emb ρ s t) (hv : ρ.H v w) {x x' : Option Addr} (h1 : s.hnd v = some ⟨x, A⟩) (h2 : t.hnd w = some ⟨x', B⟩) :
    Opt ρ.N x x' ∧ ρ.L A B := by
  obtain ⟨z, e1, e2⟩ := (E.hnd v w hv).left h1
  rw [h2] at e1; cases e1
  exact ⟨e2.n, e2.a⟩

theorem Emb.handles1 (E : Emb ρ s t) (hv : ρ.H v w) (h1 : s.hnd v = some ⟨some a, A⟩) (h2 : t.hnd w = some ⟨some b, B⟩) : ρ.N a b ∧ ρ.L A B := by
  obtain ⟨h, h'⟩ := E.handles hv h1 h2
  cases h with
  | some h => exact ⟨h, h'⟩

theorem Emb.notEmpty (E : Emb ρ s t) (hv : ρ.H v w) (h1 : s.hnd v = some ⟨some a, A⟩) (h2 : t.hnd w = some ⟨none, B⟩) : False := by
  obtain ⟨h, h'⟩ := E.handles hv h1 h2
  cases h

theorem Emb.notEmpty' (E : Emb ρ s t) (hv : ρ.H v w) (h1 : s.hnd v = some ⟨none, A⟩) (h2 : t.hnd w = some ⟨some b, B⟩) : False := by
  obtain ⟨h, h'⟩ := E.handles hv h1 h2
  cases h

/-! ### Setters -/

theorem Like.blank {N : Addr → Addr → Prop} : Like N blank blank := ⟨rfl, .same rfl, .none, rfl, rfl⟩

theorem Like.put {N : Addr → Addr → Prop} (h : Like N gn gn') (hv : LikeV N gv gv') : Like N (gn.put gv) (gn'.put gv') :=
  ⟨h.key, hv, h.par, h.prev, rfl⟩

theorem Emb.targets (E : Emb ρ s t) (hv : ρ.H v w) (h1 : Target s v A a gn) (h2 : Target t w B b gn') : ρ.L A B ∧
    ((ρ.N a b ∧ Like ρ.N gn gn' ∧ s.node a = some gn ∧ t.node b = some gn') ∨
      (gn = blank ∧ gn' = blank ∧ (s.node a = none ∧ ¬ s.seen.node a) ∧ t.node b = none ∧ ¬ t.seen.node b)) := by
  cases h1 with
  | old h1 h3 =>
    cases h2 with
    | old h2 h4 =>
      obtain ⟨h5, h6⟩ := E.handles1 hv h1 h2
      obtain ⟨g, e1, e2⟩ := E.node.at h5 h3
      rw [h4] at e1; cases e1
      exact ⟨h6, .inl ⟨h5, e2, h3, h4⟩⟩
    | new h2 => exact (E.notEmpty hv h1 h2).elim
  | new h1 h3 h5 =>
    cases h2 with
    | old h2 => exact (E.notEmpty' hv h1 h2).elim
    | new h2 h4 h6 => exact ⟨(E.handles hv h1 h2).2, .inr ⟨rfl, rfl, ⟨h3, h5⟩, h4, h6⟩⟩

theorem Emb.putStep (E : Emb ρ s t) (K : Known ρ s t) (hv : ρ.H v w) (h1 : Target s v A a gn) (h2 : Target t w B b gn') {F F' : GNode}
    {tl tl' c : Bool} (hF : ∀ N, Like N gn gn' → Like N F F')
    (ht : ρ.N a b ∧ (s.node a).isSome ∨ s.node a = none ∧ t.node b = none → tl' = tl) :
    ∃ ρ', Next ρ s t ((s.use c A).put v A a F tl) ((t.use c B).put w B b F' tl') ρ' := by
  obtain ⟨hL, hor⟩ := E.targets hv h1 h2
  let M : Addr → Addr → Prop := fun c d => c = a ∧ d = b ∧ ¬ s.seen.node c ∧ ¬ t.seen.node d
  have hM : ∀ c d, M c d → (s.node c = none ∧ ¬ s.seen.node c) ∧ t.node d = none ∧ ¬ t.seen.node d := by
    rintro c d ⟨rfl, rfl, g1, g2⟩
    rcases hor with ⟨h, _⟩ | ⟨_, _, h3, h4⟩
    · exact absurd (K.N _ _ h).1 g1
    · exact ⟨h3, h4⟩
  have hN : (ρ.addN M).N a b := by
    rcases hor with ⟨h, _⟩ | ⟨_, _, h3, h4⟩
    · exact .inl h
    · exact .inr ⟨rfl, rfl, h3.2, h4.2⟩
  have hl : Like (ρ.addN M).N gn gn' := by
    rcases hor with ⟨_, h, _⟩ | ⟨rfl, rfl, _⟩
    · exact h.mono fun _ _ => .inl
    · exact .blank
  have htl : tl' = tl := ht (by
    rcases hor with ⟨h, _, h3, _⟩ | ⟨_, _, h3, h4⟩
    · exact .inl ⟨h, by rw [h3]; rfl⟩
    · exact .inr ⟨h3.1, h4.1⟩)
  have E1 : Emb (ρ.addN M) s t := E.addN K ⟨fun h h' => h.2.1.trans h'.2.1.symm, fun h h' => h.1.trans h'.1.symm⟩ hM
  have hsn : ∀ {s : Store} {v A a F tl}, ((s.use c A).put v A a F tl).seen.node a := fun {_ _ _ _ _ _} => .inr rfl
  refine ⟨ρ.addN M, Names.le_addN, (E1.use c).put hv hL hN (hF _ hl) htl, (Off.use c).trans (Off.put (ρ := ρ.addN M) hv hN), ?_, fun _ _ => .inl, fun _ _ => .inl⟩
  rintro c d (h | ⟨rfl, rfl, g1, g2⟩)
  · exact .inl h
  · exact .inr ⟨⟨g1, g2⟩, hsn, hsn⟩

theorem Emb.setStep (E : Emb ρ s t) (K : Known ρ s t) (hv : ρ.H v w) (h1 : Target s v A a gn) (h2 : Target t w B b gn') (c tl : Bool) (gv : GVal)
    (hg : ∀ N, LikeV N gv gv) : ∃ ρ', Next ρ s t ((s.use c A).put v A a (gn.put gv) tl) ((t.use c B).put w B b (gn'.put gv) tl) ρ' :=
  E.putStep K hv h1 h2 (fun N hl => hl.put (hg N)) fun _ => rfl

/-! ### Parsing -/

theorem Emb.plantStep {j : Json} (E : Emb ρ s t) (K : Known ρ s t) (hv : ρ.H v w) (h1 : Target s v A a gn) (h2 : Target t w B b gn')
    (p1 : PlantOf s.node a gv g j) (p2 : PlantOf t.node b gv' g' j) (n1 : s.seen.newTo g) (n2 : t.seen.newTo g') :
    ∃ ρ', Next ρ s t (s.plant v A a gn gv g) (t.plant w B b gn' gv' g') ρ' := by
  obtain ⟨hL, hor⟩ := E.targets hv h1 h2
  have prep : ∀ {G : Graph} {a : Addr} {gv : GVal} {g : Graph}, PlantOf G a gv g j →
      (∀ c y, g c = some y → c ≠ a) ∧ Unf (g.set a (blank.put gv)) a j ∧
      (∀ c y, (g.set a (blank.put gv)) c = some y → y.prevOK = true ∧ y.endOK = true) ∧
      (∀ c y, g c = some y → Reach (g.set a (blank.put gv)) a c) := by
    intro G a gv g p
    have hne : ∀ c y, g c = some y → c ≠ a := fun c y h => (p.fresh c y h).2
    have hm : ∀ c y, g c = some y → (g.set a (blank.put gv)) c = some y := fun c y h => by rw [Graph.set_ne _ _ (hne c y h)]; exact h
    refine ⟨hne, .mk (Graph.set_same ..) (p.doc.mono hm), fun c y h => ?_, fun c y h => ?_⟩
    · by_cases e : c = a
      · rw [e, Graph.set_same] at h; cases h; exact ⟨rfl, rfl⟩
      · rw [Graph.set_ne _ _ e] at h
        exact ⟨(p.links c y h).1, (p.links c y h).2.1⟩
    · obtain ⟨k, hk, hr⟩ := (p.links c y h).2.2.2
      exact .step (Graph.set_same ..) hk (hr.mono hm)
  obtain ⟨a1, a2, a3, a4⟩ := prep p1
  obtain ⟨b1, b2, b3, b4⟩ := prep p2
  have hT1 : (g.set a (blank.put gv)) a = some (blank.put gv) := Graph.set_same ..
  have hT2 : (g'.set b (blank.put gv')) b = some (blank.put gv') := Graph.set_same ..
  have hO := Pair.oneOne p1.forest p2.forest hT1 rfl hT2 rfl
  have hlike := fun {c d} => Pair.like (a := c) (b := d) p1.forest p2.forest hT1 rfl hT2 rfl rfl a2 b2 a3 b3
  generalize hP : Pair (g.set a (blank.put gv)) (g'.set b (blank.put gv')) a b = P at hO hlike
  have hPab : P a b := hP ▸ ⟨[], .nil, .nil⟩
  let M : Addr → Addr → Prop := fun c d => P c d ∧ ¬ s.seen.node c ∧ ¬ t.seen.node d
  have split : ∀ c d, P c d → c = a ∧ d = b ∨ ∃ y y', g c = some y ∧ g' d = some y' ∧ Like P y y' := by
    intro c d h
    by_cases e : c = a
    · exact .inl ⟨e, hO.fn h (e ▸ hPab)⟩
    · have e' : d ≠ b := fun e' => e (hO.inj h (e' ▸ hPab))
      obtain ⟨y, y', q1, q2, q3⟩ := hlike h
      rw [Graph.set_ne _ _ e] at q1
      rw [Graph.set_ne _ _ e'] at q2
      exact .inr ⟨y, y', q1, q2, q3⟩
  have hPN : ∀ c d, P c d → (ρ.addN M).N c d := by
    intro c d h
    rcases split c d h with ⟨rfl, rfl⟩ | ⟨y, y', q1, q2, _⟩
    · rcases hor with ⟨h, _⟩ | ⟨_, _, h3, h4⟩
      · exact .inl h
      · exact .inr ⟨h, h3.2, h4.2⟩
    · exact .inr ⟨h, n1 c y q1, n2 d y' q2⟩
  have hM : ∀ c d, M c d → (s.node c = none ∧ ¬ s.seen.node c) ∧ t.node d = none ∧ ¬ t.seen.node d := by
    rintro c d ⟨h, g1, g2⟩
    rcases split c d h with ⟨rfl, rfl⟩ | ⟨y, y', q1, q2, _⟩
    · rcases hor with ⟨h, _⟩ | ⟨_, _, h3, h4⟩
      · exact absurd (K.N _ _ h).1 g1
      · exact ⟨h3, h4⟩
    · exact ⟨⟨(p1.fresh c y q1).1, g1⟩, (p2.fresh d y' q2).1, g2⟩
  have hl : Like (ρ.addN M).N gn gn' := by
    rcases hor with ⟨_, h, _⟩ | ⟨rfl, rfl, _⟩
    · exact h.mono fun _ _ => .inl
    · exact .blank
  have hgv : LikeV (ρ.addN M).N gv gv' := by
    obtain ⟨y, y', q1, q2, q3⟩ := hlike hPab
    rw [hT1] at q1; cases q1
    rw [hT2] at q2; cases q2
    exact q3.val.mono hPN
  have none_of : ∀ {q : Graph} {c : Addr}, (∀ y, q c ≠ some y) → q c = none := by
    intro q c h
    cases e : q c with
    | none => rfl
    | some y => exact absurd e (h y)
  have hg : GEmb (ρ.addN M).N g g' := by
    rintro c d (h | ⟨h, _⟩)
    · rw [none_of fun y e => n1 c y e (K.N c d h).1, none_of fun y e => n2 d y e (K.N c d h).2]; exact .none
    · rcases split c d h with ⟨rfl, rfl⟩ | ⟨y, y', q1, q2, q3⟩
      · rw [none_of fun y e => a1 c y e rfl, none_of fun y e => b1 d y e rfl]; exact .none
      · rw [q1, q2]; exact .some (q3.mono hPN)
  have hN : (ρ.addN M).N a b := hPN a b hPab
  have E1 : Emb (ρ.addN M) s t := E.addN K ⟨fun h h' => hO.fn h.1 h'.1, fun h h' => hO.inj h.1 h'.1⟩ hM
  refine ⟨ρ.addN M, Names.le_addN, E1.plant hv hL hN hl hgv hg, Off.plant (ρ := ρ.addN M) hv hN ?_, ?_, fun _ _ => .inl, fun _ _ => .inl⟩
  · intro d y hd
    obtain ⟨c, hc⟩ := Pair.total b2 a2 (b4 d y hd)
    exact ⟨c, hPN c d (hP ▸ hc.flip)⟩
  · rintro c d (h | h)
    · exact .inl h
    · refine .inr ⟨h.2, ?_⟩
      rcases split c d h.1 with ⟨rfl, rfl⟩ | ⟨y, y', q1, q2, q3⟩
      · exact ⟨.inr (.inl rfl), .inr (.inl rfl)⟩
      · exact ⟨.inr (.inr (by rw [q1]; rfl)), .inr (.inr (by rw [q2]; rfl))⟩

/-! ### Copies -/

/-- The names of two copies of related documents. -/
theorem Emb.copies (E : Emb ρ s t) (K : Known ρ s t) (hx : ρ.N x y) (c1 : CopyOf s.node x g n gn) (c2 : CopyOf t.node y g' n' gn')
    (n1 : s.seen.newTo g) (n2 : t.seen.newTo g') : ∃ M : Addr → Addr → Prop, Emb (ρ.addN M) s t ∧ GEmb (ρ.addN M).N g g' ∧ M n n' ∧
      Like (ρ.addN M).N gn gn' ∧ (∀ d y, g' d = some y → ∃ c, (ρ.addN M).N c d) ∧
      ∀ c d, M c d → (¬ s.seen.node c ∧ ¬ t.seen.node d) ∧ (g c).isSome ∧ (g' d).isSome := by
  obtain ⟨j, u1, u2⟩ := c1.doc
  obtain ⟨j', u3, u4⟩ := c2.doc
  cases (u1.like E.node hx).det u3
  have hk : gn'.key = gn.key := by
    obtain ⟨gx, e1, e2⟩ := c1.key
    obtain ⟨gy, e3, e4⟩ := c2.key
    obtain ⟨gy', e5, e6⟩ := E.node.at hx e1
    rw [e3] at e5; cases e5
    rw [e4, e2, e6.key]
  have hO := Pair.oneOne c1.forest c2.forest c1.root c1.par c2.root c2.par
  have hlike := fun {c d} => Pair.like (a := c) (b := d) c1.forest c2.forest c1.root c1.par c2.root c2.par hk u2 u4
    (fun a y h => ⟨(c1.links a y h).1, (c1.links a y h).2.1⟩) (fun a y h => ⟨(c2.links a y h).1, (c2.links a y h).2.1⟩)
  have hPn : Pair g g' n n' n n' := ⟨[], .nil, .nil⟩
  have htot : ∀ d y, g' d = some y → ∃ c, Pair g g' n n' c d := fun d y hd => by
    obtain ⟨c, hc⟩ := Pair.total u4 u2 (c2.links d y hd).2.2.2
    exact ⟨c, hc.flip⟩
  generalize Pair g g' n n' = M at hO hlike hPn htot
  have none_of : ∀ {q : Graph} {c : Addr}, (∀ y, q c ≠ some y) → q c = none := by
    intro q c h
    cases e : q c with
    | none => rfl
    | some y => exact absurd e (h y)
  refine ⟨M, E.addN K hO fun c d h => ?_, ?_, hPn, ?_, fun d y hd => ?_, fun c d h => ?_⟩
  · obtain ⟨y, y', q1, q2, _⟩ := hlike h
    exact ⟨⟨c1.fresh c y q1, n1 c y q1⟩, c2.fresh d y' q2, n2 d y' q2⟩
  · rintro c d (h | h)
    · rw [none_of fun y e => n1 c y e (K.N c d h).1, none_of fun y e => n2 d y e (K.N c d h).2]; exact .none
    · obtain ⟨y, y', q1, q2, q3⟩ := hlike h
      rw [q1, q2]; exact .some (q3.mono fun _ _ => .inr)
  · obtain ⟨y, y', q1, q2, q3⟩ := hlike hPn
    rw [c1.root] at q1; cases q1
    rw [c2.root] at q2; cases q2
    exact q3.mono fun _ _ => .inr
  · obtain ⟨c, hc⟩ := htot d y hd
    exact ⟨c, .inr hc⟩
  · obtain ⟨y, y', q1, q2, _⟩ := hlike h
    exact ⟨⟨n1 c y q1, n2 d y' q2⟩, by rw [q1]; rfl, by rw [q2]; rfl⟩

end
/-! ### Reading -/

theorem GetFn.Answers.like {D : Type} {fp : FP D} {N : Addr → Addr → Prop} {G G' : Graph} (h : GEmb N G G') {f : GetFn} {x y : Option Addr} {o o' : Option GNode} {r : Ans D}
    (hx : Opt N x y) (ho : Opt (Like N) o o') (ha : f.Answers fp G x o r) : f.Answers fp G' y o' r := by
  have tr : ∀ {t : JType}, (∀ n, o = some n → n.val.type ≠ t) → ∀ n, o' = some n → n.val.type ≠ t := by
    intro t ht n hn
    obtain ⟨m, e1, e2⟩ := ho.right hn
    rw [e2.val.type]; exact ht m e1
  have inv : ∀ {n : GNode}, o = some n → n.val.isCon = false → ∃ n', o' = some n' ∧ n'.val = n.val ∧ n'.key = n.key := by
    intro n hn hc
    obtain ⟨m, e1, e2⟩ := ho.left hn
    refine ⟨m, e1, ?_, e2.key⟩
    have := e2.val
    generalize n.val = z at this hc
    generalize m.val = z' at this
    cases this with
    | same => rfl
    | con => cases hc
  cases ha with
  | type =>
    have e : o'.map (fun n => n.val.type) = o.map fun n => n.val.type := by
      cases ho with
      | none => rfl
      | some hl => simp [hl.val.type]
    rw [← e]; exact .type
  | size =>
    have e : o'.elim 0 (fun n => n.val.kids.length) = o.elim 0 fun n => n.val.kids.length := by
      cases ho with
      | none => rfl
      | some hl => simp [hl.val.kids.length]
    rw [← e]; exact .size
  | null =>
    cases ho with
    | none => exact .null
    | @some n n' hl =>
      obtain ⟨_, z, _, _, _⟩ := n
      obtain ⟨_, z', _, _, _⟩ := n'
      have hv : LikeV N z z' := hl.val
      have e : decide ((some z').map id = some GVal.null) = decide ((some z).map id = some GVal.null) := by
        cases hv with
        | same => rfl
        | con => simp
      exact (congrArg Ans.bool e) ▸ .null
  | bool =>
    cases ho with
    | none => exact .bool
    | @some n n' hl =>
      obtain ⟨_, z, _, _, _⟩ := n
      obtain ⟨_, z', _, _, _⟩ := n'
      have hv : LikeV N z z' := hl.val
      cases hv with
      | same => exact .bool
      | con => exact .bool
  | str hf =>
    cases ho with
    | none => exact .str hf
    | @some n n' hl =>
      obtain ⟨_, z, _, _, _⟩ := n
      obtain ⟨_, z', _, _, _⟩ := n'
      have hv : LikeV N z z' := hl.val
      cases hv with
      | same => exact .str hf
      | con => exact .str hf
  | num hf =>
    cases ho with
    | none => exact .num hf
    | @some n n' hl =>
      obtain ⟨_, z, _, _, _⟩ := n
      obtain ⟨_, z', _, _, _⟩ := n'
      have hv : LikeV N z z' := hl.val
      cases hv with
      | same => exact .num hf
      | con => exact .num hf
  | unStr hv hd =>
    obtain ⟨n', rfl, e, _⟩ := inv rfl (by rw [hv]; rfl)
    exact .unStr (e.trans hv) hd
  | unStrNone hn => exact .unStrNone (tr hn)
  | int hf hv hp =>
    obtain ⟨n', rfl, e, _⟩ := inv rfl (by rw [hv]; rfl)
    exact .int hf (e.trans hv) hp
  | intNone hf hn => exact .intNone hf (tr hn)
  | double hv =>
    obtain ⟨n', rfl, e, _⟩ := inv rfl (by rw [hv]; rfl)
    exact .double (e.trans hv)
  | doubleNone hn => exact .doubleNone (tr hn)
  | key hf =>
    have e : o'.bind GNode.key = o.bind GNode.key := by
      cases ho with
      | none => rfl
      | some hl => exact hl.key
    rw [← e]; exact .key hf
  | unKey hk hd =>
    cases ho with
    | some hl => exact .unKey (hl.key.trans hk) hd
  | unKeyNone hn =>
    refine .unKeyNone ?_
    cases ho with
    | none => rfl
    | some hl => exact hl.key.trans hn
  | print hu =>
    cases ho with
    | some hl =>
      cases hx with
      | some hx => exact .print (hu.like h hx)
  | printNone =>
    cases ho
    cases hx
    exact .printNone

theorem GetFn.Answers.plain {D : Type} {fp : FP D} {G : Graph} {f : GetFn} {x : Option Addr} {o : Option GNode} {r : Ans D} (ha : f.Answers fp G x o r) :
    r.plain = true := by cases ha <;> rfl

theorem NavFn.Leads.like {N : Addr → Addr → Prop} {G G' : Graph} (h : GEmb N G G') (hO : OneOne N) (hF : Forest G) {f : NavFn} {x y k : Option Addr}
    (hx : Opt N x y) (hl : f.Leads G x k) : ∃ k', f.Leads G' y k' ∧ Opt N k k' := by
  cases hl with
  | empty => cases hx; exact ⟨_, .empty, .none⟩
  | begin ha =>
    cases hx with
    | some hx =>
      obtain ⟨gn', e1, e2⟩ := h.at hx ha
      exact ⟨_, .begin e1, e2.val.kids.head⟩
  | @next a f gf o l r hf hv =>
    cases hx with
    | @some _ b hx =>
      obtain ⟨_, hk⟩ := hF _ _ _ _ hf hv
      obtain ⟨ga, e1, e2, _⟩ := hk a (by simp)
      obtain ⟨gb, e3, e4⟩ := h.at hx e1
      obtain ⟨f', e5, e6⟩ := e4.par.left e2
      obtain ⟨gf', ks', e7, e8, e9, _⟩ := h.con e6 hf hv
      obtain ⟨l', b', r', rfl, _, e10, e11⟩ := e9.split
      cases hO.fn e10 hx
      exact ⟨_, .next e7 e8, e11.head⟩
  | nextRoot ha hp =>
    cases hx with
    | some hx =>
      obtain ⟨gn', e1, e2⟩ := h.at hx ha
      have := e2.par
      rw [hp] at this
      generalize hq : gn'.par = q at this
      cases this
      exact ⟨_, .nextRoot e1 hq, .none⟩
  | array ha hv =>
    cases hx with
    | some hx =>
      obtain ⟨gf', ks', e7, e8, e9, _⟩ := h.con hx ha hv
      exact ⟨_, .array e7 e8, e9.get _⟩
  | noArray ha hv =>
    cases hx with
    | some hx =>
      obtain ⟨gn', e1, e2⟩ := h.at hx ha
      refine ⟨_, .noArray e1 fun ks e => ?_, .none⟩
      have := e2.val.flip
      rw [e] at this
      obtain ⟨ks', e3, _⟩ := this.con_inv
      exact hv _ e3
  | obj hf ha hv =>
    cases hx with
    | some hx =>
      obtain ⟨gf', ks', e7, e8, e9, _⟩ := h.con hx ha hv
      exact ⟨_, .obj hf e7 e8, h.find _ e9⟩
  | noObj hf ha hv =>
    cases hx with
    | some hx =>
      obtain ⟨gn', e1, e2⟩ := h.at hx ha
      refine ⟨_, .noObj hf e1 fun ks e => ?_, .none⟩
      have := e2.val.flip
      rw [e] at this
      obtain ⟨ks', e3, _⟩ := this.con_inv
      exact hv _ e3

section
variable {ρ ρ' : Names} {s t s' t' : Store} {v w A B a b x y n n' f f' : Addr} {gn gn' : GNode} {gv gv' : GVal} {g g' : Graph} {o : Bool} {ks ks' : List Addr}

theorem Emb.isCon (E : Emb ρ s t) (hv : ρ.H v w) (h : s.isCon v o f ks) : ∃ f' ks', t.isCon w o f' ks' ∧ ρ.N f f' ∧ Each ρ.N ks ks' := by
  obtain ⟨A, gf, h1, h2, h3⟩ := h
  obtain ⟨⟨z, B⟩, e1, e2⟩ := (E.hnd v w hv).left h1
  obtain ⟨f', e3, e4⟩ := e2.n.left rfl
  cases e3
  obtain ⟨gf', ks', e5, e6, e7, _⟩ := E.node.con e4 h2 h3
  exact ⟨f', ks', ⟨B, gf', e1, e5, e6⟩, e4, e7⟩

theorem Emb.isCons (E : Emb ρ s t) (hv : ρ.H v w) (h : s.isCon v o f ks) (h' : t.isCon w o f' ks') : ρ.N f f' ∧ Each ρ.N ks ks' := by
  obtain ⟨f2, ks2, h1, h2, h3⟩ := E.isCon hv h
  obtain ⟨rfl, rfl⟩ := h'.det h1
  exact ⟨h2, h3⟩

theorem Emb.notCon (E : Emb ρ s t) (hv : ρ.H v w) (h : s.isCon v o f ks) (h' : t.notCon w o) : False := by
  obtain ⟨f2, ks2, h1, h2, h3⟩ := E.isCon hv h
  exact h'.2 _ _ h1

theorem Emb.notCon' (E : Emb ρ s t) (hv : ρ.H v w) (h : s.notCon v o) (h' : t.isCon w o f ks) : False := E.flip.notCon hv h' h

theorem Emb.notItem (E : Emb ρ s t) (hv : ρ.H v w) (h : s.hnd v = some ⟨some x, A⟩) (hx : s.node x = some gn) (hk : o = true → gn.key.isSome = true)
    (h' : t.notItem w o) : False := by
  rcases h' with ⟨B, h'⟩ | ⟨rfl, B, y, gy, h1, h2, h3⟩
  · exact E.notEmpty hv h h'
  · obtain ⟨h4, _⟩ := E.handles1 hv h h1
    obtain ⟨gy', e1, e2⟩ := E.node.at h4 hx
    rw [h2] at e1; cases e1
    rw [e2.key] at h3
    have := hk rfl
    rw [h3] at this; cases this

theorem Emb.newAlloc (E : Emb ρ s t) (h : ρ.L A B) : Emb ρ { s with live := upd s.live A true, seen := s.seen.allocs A }
    { t with live := upd t.live B true, seen := t.seen.allocs B } :=
  { E with
    live := fun C D hCD => by
      show upd t.live B true D = upd s.live A true C
      by_cases e : C = A
      · rw [e, upd_same, (E.oL.iff h hCD).2 e, upd_same]
      · rw [upd_ne _ _ e, upd_ne _ _ (fun e' => e ((E.oL.iff h hCD).1 e'))]; exact E.live C D hCD }

theorem Off.newAlloc (h : ρ.L A B) : Off ρ t { t with live := upd t.live B true, seen := t.seen.allocs B } :=
  ⟨fun _ _ => rfl, fun _ _ => rfl, fun _ _ => rfl, fun _ _ _ h _ _ => h, fun _ _ h => h, fun _ hD => upd_ne _ _ (ne_of h hD), rfl⟩

theorem Like.asItem {N : Addr → Addr → Prop} (h : Like N gn gn') (o : Bool) : Like N (gn.asItem o) (gn'.asItem o) := by
  cases o with
  | true => exact h
  | false => exact ⟨rfl, h.val, h.par, h.prev, h.last⟩

theorem Graph.attach_other {G : Graph} {c : Addr} (h1 : c ≠ f) (h2 : c ≠ x) : G.attach f x o ks c = G c := by
  simp [Graph.attach, h1, h2]

theorem Graph.detach_other {G : Graph} {c : Addr} {l r : List Addr} (h1 : c ≠ f) (h2 : c ≠ x) (h3 : c ∉ r) : G.detach f x o l r c = G c := by
  have : r.head? ≠ some c := fun e => h3 (List.mem_of_head? e)
  simp [Graph.detach, h1, h2, this]

theorem Graph.detach_dom {G : Graph} {l r : List Addr} (c : Addr) : (G.detach f x o l r c).isSome = (G c).isSome := by
  simp only [Graph.detach]
  repeat' split
  all_goals simp

end

/-! ### One call -/

section
variable {D : Type} {fp : FP D} {ρ : Names} {s t s' t' : Store} {c c' : Call D} {r r' : Ans D}

/-- A new handle on both sides. -/
theorem Emb.handleStep {v w : Addr} {y y' : Val} (E : Emb ρ s t) (K : ∀ a b, ρ.H a b → s.seen.hnd a ∧ t.seen.hnd b)
    (h1 : s.hnd v = none) (h2 : ¬ s.seen.hnd v) (h3 : t.hnd w = none) (h4 : ¬ t.seen.hnd w) (hy : LikeH ρ y y') :
    Next ρ s t (s.handle v y) (t.handle w y') (ρ.addH v w) := by
  have E1 := E.addH K h1 h2 h3 h4
  have hvw : (ρ.addH v w).H v w := .inr ⟨rfl, rfl⟩
  refine ⟨Names.le_addH, E1.handle hvw ⟨hy.n, hy.a⟩, .handle hvw, fun _ _ => .inl, ?_, fun _ _ => .inl⟩
  rintro a b (h | ⟨rfl, rfl⟩)
  · exact .inl h
  · exact .inr ⟨⟨h2, h4⟩, .inr rfl, .inr rfl⟩

/-- Related calls in related stores lead to related stores and give related answers. Everything
else in the second store stays as it is. -/
theorem AStep.like (E : Emb ρ s t) (K : Known ρ s t) (ws : Wf s) (wt : Wf t) (hc : CallLike ρ c c')
    (h1 : AStep fp s c r s') (h2 : AStep fp t c' r' t') : ∃ ρ', Next ρ s t s' t' ρ' ∧ AnsLike ρ' r r' := by
  cases hc with
  | newAlloc =>
    cases h1 with
    | @newAlloc A a1 a2 =>
    cases h2 with
    | @newAlloc B b1 b2 =>
      have hAB : (ρ.addL A B).L A B := .inr ⟨rfl, rfl⟩
      refine ⟨ρ.addL A B, ⟨Names.le_addL, (E.addL K a1 a2 b1 b2).newAlloc hAB, .newAlloc hAB, fun _ _ => .inl, fun _ _ => .inl, ?_⟩, .alloc hAB⟩
      rintro a b (h | ⟨rfl, rfl⟩)
      · exact .inl h
      · exact .inr ⟨⟨a2, b2⟩, .inr rfl, .inr rfl⟩
  | release hL => cases h1; cases h2; exact ⟨ρ, .of (E.drop hL) (.drop hL), .same rfl⟩
  | newValue hL =>
    cases h1 with
    | newValue _ a2 a3 =>
    cases h2 with
    | newValue _ b2 b3 => exact ⟨_, E.handleStep K.H a2 a3 b2 b3 ⟨.none, hL⟩, .handle (.some (.inr ⟨rfl, rfl⟩))⟩
  | parse hv =>
    cases h1 with
    | parse a1 a2 a3 a4 =>
      cases h2 with
      | parse b1 b2 b3 b4 =>
        cases JText_unique a1 b1
        obtain ⟨ρ', h⟩ := E.plantStep K hv a2 b2 a3 b3 a4 b4
        exact ⟨ρ', h, .same rfl⟩
      | parseNo hn => exact absurd ⟨_, a1⟩ hn
    | parseNo hn =>
      cases h2 with
      | parse b1 => exact absurd ⟨_, b1⟩ hn
      | parseNo => exact ⟨ρ, .same E, .same rfl⟩
  | text hv =>
    cases h1 with
    | @text _ _ _ _ _ _ gv a1 a2 =>
      cases h2 with
      | text b1 b2 =>
        cases a1.unique b1
        obtain ⟨ρ', h⟩ := E.setStep K hv a2 b2 _ false gv (fun N => .same (by cases a1 <;> rfl))
        exact ⟨ρ', h, .same rfl⟩
      | textNo _ hn => exact absurd a1 (hn _)
    | textNo _ hn =>
      cases h2 with
      | text b1 => exact absurd b1 (hn _)
      | textNo => exact ⟨ρ, .of (E.use _) (.use _), .same rfl⟩
  | null hv =>
    cases h1 with
    | null a2 =>
    cases h2 with
    | null b2 =>
      obtain ⟨ρ', h⟩ := E.setStep K hv a2 b2 false false .null (fun N => .same rfl)
      exact ⟨ρ', h, .same rfl⟩
  | bool hv =>
    cases h1 with
    | bool a2 =>
    cases h2 with
    | bool b2 =>
      obtain ⟨ρ', h⟩ := E.setStep K hv a2 b2 false false (.bool _) (fun N => .same rfl)
      exact ⟨ρ', h, .same rfl⟩
  | array hv =>
    cases h1 with
    | array a2 =>
    cases h2 with
    | array b2 =>
      obtain ⟨ρ', h⟩ := E.setStep K hv a2 b2 false false (.con false []) (fun N => .con .nil)
      exact ⟨ρ', h, .same rfl⟩
  | object hv =>
    cases h1 with
    | object a2 =>
    cases h2 with
    | object b2 =>
      obtain ⟨ρ', h⟩ := E.setStep K hv a2 b2 false false (.con true []) (fun N => .con .nil)
      exact ⟨ρ', h, .same rfl⟩
  | int hv =>
    cases h1 with
    | int a2 a3 =>
    cases h2 with
    | int b2 b3 =>
      cases a3.unique b3
      obtain ⟨ρ', h⟩ := E.setStep K hv a2 b2 false true (.num _) (fun N => .same rfl)
      exact ⟨ρ', h, .same rfl⟩
  | double hv =>
    cases h1 with
    | double a2 =>
    cases h2 with
    | double b2 =>
      obtain ⟨ρ', h⟩ := E.setStep K hv a2 b2 false true (.num _) (fun N => .same rfl)
      exact ⟨ρ', h, .same rfl⟩
  | @key f v w b hv =>
    have inArr : ∀ {s t : Store} {ρ : Names} {v w A B a b p : Addr} {gn gp gn' : GNode}, Emb ρ s t → ρ.H v w → Target s v A a gn →
        (∀ p gp, gn.par = some p → s.node p = some gp → gp.val.type = .object) →
        t.hnd w = some ⟨some b, B⟩ → t.node b = some gn' → gn'.par = some p → t.node p = some gp → gp.val.type ≠ .object → False := by
      intro s t ρ v w A B a b p gn gp gn' E hv a1 a2 b1 b2 b3 b4 b5
      obtain ⟨_, ⟨q1, q2, q3, _⟩ | ⟨_, _, _, q4, _⟩⟩ := E.targets hv a1 (.old b1 b2)
      · obtain ⟨p', q5, q6⟩ := q2.par.right b3
        obtain ⟨gp', q7, q8⟩ := E.node.at' q6 b4
        exact b5 (q8.val.type.trans (a2 _ _ q5 q7))
      · rw [b2] at q4; cases q4
    cases h1 with
    | @key _ _ _ k _ _ gn a1 a2 a3 =>
      cases h2 with
      | @key _ _ _ _ _ _ gn' b1 b2 b3 =>
        cases a1.unique b1
        obtain ⟨ρ', h⟩ := E.putStep (c := f.scratch) (F := { gn with key := some k }) (F' := { gn' with key := some k }) K hv a2 b2 (tl := s.tail _ && (s.node _).isSome) (tl' := t.tail _ && (t.node _).isSome)
          (fun N hl => ⟨rfl, hl.val, hl.par, hl.prev, hl.last⟩) (by
            rintro (⟨q1, q2⟩ | ⟨q1, q2⟩)
            · rw [E.here q1, q2, E.tail _ _ q1 q2]
            · rw [q1, q2]; simp)
        exact ⟨ρ', h, .same rfl⟩
      | keyNo _ hn => exact absurd a1 (hn _)
      | keyInArray b1 b2 b3 b4 b5 => exact (inArr E hv a2 a3 b1 b2 b3 b4 b5).elim
    | keyNo _ hn =>
      cases h2 with
      | key b1 => exact absurd b1 (hn _)
      | keyNo => exact ⟨ρ, .of (E.use _) (.use _), .same rfl⟩
      | keyInArray => exact ⟨ρ, .of (E.use _) (.use _), .same rfl⟩
    | keyInArray a1 a2 a3 a4 a5 =>
      cases h2 with
      | key _ b2 b3 => exact (inArr E.flip hv b2 b3 a1 a2 a3 a4 a5).elim
      | keyNo => exact ⟨ρ, .of (E.use _) (.use _), .same rfl⟩
      | keyInArray => exact ⟨ρ, .of (E.use _) (.use _), .same rfl⟩
  | get hv =>
    cases h1 with
    | @get _ _ _ x _ a1 a2 =>
    cases h2 with
    | @get _ _ _ y _ b1 b2 =>
      have hx := (E.handles hv a1 b1).1
      have ho : Opt (Like ρ.N) (x.bind s.node) (y.bind t.node) := by
        cases hx with
        | none => exact .none
        | some hx => exact E.node _ _ hx
      cases Answers.unique (a2.like E.node hx ho) b2
      exact ⟨ρ, .same E, .same a2.plain⟩
  | nav hv =>
    cases h1 with
    | nav a1 a2 a3 a4 =>
      cases h2 with
      | nav b1 b2 b3 b4 =>
        obtain ⟨hx, hL⟩ := E.handles hv a1 b1
        obtain ⟨k, e1, e2⟩ := a2.like E.node E.oN ws.forest hx
        cases Leads.unique wt.forest e1 b2
        exact ⟨_, E.handleStep K.H a3 a4 b3 b4 ⟨e2, hL⟩, .handle (.some (.inr ⟨rfl, rfl⟩))⟩
      | navNo b1 b2 =>
        obtain ⟨hx, hL⟩ := E.handles hv a1 b1
        obtain ⟨k, e1, e2⟩ := a2.like E.node E.oN ws.forest hx
        cases Leads.unique wt.forest e1 b2
        cases e2
    | navNo a1 a2 =>
      cases h2 with
      | nav b1 b2 b3 b4 =>
        obtain ⟨hx, hL⟩ := E.handles hv a1 b1
        obtain ⟨k, e1, e2⟩ := a2.like E.node E.oN ws.forest hx
        cases Leads.unique wt.forest e1 b2
        cases e2
      | navNo b1 b2 => exact ⟨ρ, .same E, .handle .none⟩
  | copy hv =>
    cases h1 with
    | @copy _ A x g n gn r1 a1 a2 a3 a4 a5 =>
      cases h2 with
      | @copy _ B y g' n' gn' r2 b1 b2 b3 b4 b5 =>
        obtain ⟨hx, hL⟩ := E.handles1 hv a1 b1
        obtain ⟨M, E1, hg, hn, hl, hoff, hnew⟩ := E.copies K hx a2 b2 a4 b4
        have E2 := E1.grow (A := A) (B := B) hL hg
        have N2 := Emb.handleStep (v := r1) (w := r2) (y := ⟨some n, A⟩) (y' := ⟨some n', B⟩) E2 K.H a3 a5 b3 b5 ⟨.some (.inr hn), hL⟩
        refine ⟨_, ⟨Names.le_addN.trans N2.le, N2.emb, ?_, ?_, N2.newH, N2.newL⟩, .handle (.some (.inr ⟨rfl, rfl⟩))⟩
        · exact (Off.grow (ρ := (ρ.addN M).addH r1 r2) hoff).trans N2.off
        · rintro a b (h | h)
          · exact .inl h
          · exact .inr ⟨(hnew a b h).1, .inr (hnew a b h).2.1, .inr (hnew a b h).2.2⟩
      | copyNo b1 => exact (E.notEmpty hv a1 b1).elim
    | copyNo a1 =>
      cases h2 with
      | copy b1 => exact (E.notEmpty' hv a1 b1).elim
      | copyNo => exact ⟨ρ, .same E, .handle .none⟩
  | move hv =>
    cases h1 with
    | move a1 a2 =>
      cases h2 with
      | move b1 b2 =>
        obtain ⟨hx, hL⟩ := E.handles1 hv a1 b1
        obtain ⟨q1, q2⟩ := E.node.moved E.oN ws.forest wt.forest hx a2 b2
        exact ⟨ρ, .of (E.nodes q1 fun c hc => by rw [← a2.dom]; exact hc) (.nodes q2), .same rfl⟩
      | moveNo b1 => exact (E.notEmpty hv a1 b1).elim
    | moveNo a1 =>
      cases h2 with
      | move b1 => exact (E.notEmpty' hv a1 b1).elim
      | moveNo => exact ⟨ρ, .same E, .same rfl⟩
  | @add o fast v w v' w' hv hw =>
    have no : ∀ {s t : Store} {ρ : Names} {v w v' w' f x A : Addr} {ks : List Addr} {gx : GNode}, Emb ρ s t → ρ.H v v' → ρ.H w w' → s.isCon v o f ks →
        s.hnd w = some ⟨some x, A⟩ → s.node x = some gx → (o = true → gx.key.isSome = true) → (t.notCon v' o ∨ t.notItem w' o) → False := by
      intro s t ρ v w v' w' f x A ks gx E hv hw a1 a2 a3 a4 b1
      rcases b1 with b1 | b1
      · exact E.notCon hv a1 b1
      · exact E.notItem hw a2 a3 a4 b1
    have fastNo : ∀ {s t : Store} {ρ : Names} {v w v' w' f x A : Addr} {ks : List Addr} {gx : GNode} {G : Graph}, Emb ρ s t → ρ.H v v' → ρ.H w w' →
        s.isCon v o f ks → s.hnd w = some ⟨some x, A⟩ → Moved s.node x G → G x = some gx → (o = true → gx.key.isSome = true) →
        (t.notCon v' o ∨ t.notItem w' o) → False := by
      intro s t ρ v w v' w' f x A ks gx G E hv hw a1 a2 a3 a4 a5 b1
      obtain ⟨g0, g1, e1, e2, _, e3, _⟩ := a3.self
      rw [a4] at e2; cases e2
      exact no E hv hw a1 a2 e1 (by rw [← e3]; exact a5) b1
    have copyNo : ∀ {s t : Store} {ρ : Names} {v w v' w' f x A n : Addr} {ks : List Addr} {gn : GNode} {g : Graph}, Emb ρ s t → ρ.H v v' → ρ.H w w' →
        s.isCon v o f ks → s.hnd w = some ⟨some x, A⟩ → CopyOf s.node x g n gn → (o = true → gn.key.isSome = true) →
        (t.notCon v' o ∨ t.notItem w' o) → False := by
      intro s t ρ v w v' w' f x A n ks gn g E hv hw a1 a2 a3 a4 b1
      obtain ⟨gx, e1, e2⟩ := a3.key
      exact no E hv hw a1 a2 e1 (by rw [← e2]; exact a4) b1
    cases h1 with
    | @addFast _ _ _ f ks A x gx G kids a1 a2 a3 a4 a5 a6 =>
      cases h2 with
      | @addFast _ _ _ f' ks' B y gy G' kids' b1 b2 b3 b4 b5 b6 =>
        obtain ⟨hf, _⟩ := E.isCons hv a1 b1
        obtain ⟨hx, hL⟩ := E.handles1 hw a2 b2
        obtain ⟨q1, q2⟩ := E.node.moved E.oN ws.forest wt.forest hx a3 b3
        obtain ⟨gy', e1, e2⟩ := q1.at hx a4
        rw [b4] at e1; cases e1
        obtain ⟨gf, e3, e4, _⟩ := a6.con
        obtain ⟨gf', e5, e6, _⟩ := b6.con
        obtain ⟨gf2, k2, e7, e8, e9, _⟩ := q1.con hf e3 e4
        rw [e5] at e7; cases e7
        rw [e6] at e8; cases e8
        have q3 := (q1.set E.oN hx (e2.asItem o)).attach E.oN (o := o) hf hx e9
        have E2 : Emb ρ (s.nodes _) (t.nodes _) := E.nodes q3 fun c hc => by
          rw [attach_dom] at hc
          rw [← a3.dom]
          by_cases e : c = x
          · rw [e, a4]; rfl
          · rw [Graph.set_ne _ _ e] at hc; exact hc
        refine ⟨ρ, .of (E2.handle hw ⟨.none, hL⟩) ((Off.nodes fun d hd => ?_).trans (.handle hw)), .same rfl⟩
        rw [Graph.attach_other (ne_of hf hd) (ne_of hx hd), Graph.set_ne _ _ (ne_of hx hd)]
        exact q2 d hd
      | addNo b1 => exact (fastNo E hv hw a1 a2 a3 a4 a5 b1).elim
    | @add _ _ _ f ks A x g n gn a1 a2 a3 a4 a5 =>
      cases h2 with
      | @add _ _ _ f' ks' B y g' n' gn' b1 b2 b3 b4 b5 =>
        obtain ⟨hf, hks⟩ := E.isCons hv a1 b1
        obtain ⟨hx, hL⟩ := E.handles1 hw a2 b2
        obtain ⟨M, E1, hg, hn, hl, hoff, hnew⟩ := E.copies K hx a3 b3 a5 b5
        have hn' : (ρ.addN M).N n n' := .inr hn
        have hf' : (ρ.addN M).N f f' := .inl hf
        have E2 := E1.grow (A := A) (B := B) hL hg
        have q3 := (E2.node.set E2.oN hn' (hl.asItem o)).attach E2.oN (o := o) hf' hn' (hks.mono fun _ _ => .inl)
        refine ⟨ρ.addN M, ⟨Names.le_addN, E2.nodes q3 fun c hc => ?_, (Off.grow hoff).trans (Off.nodes fun d hd => ?_), ?_, fun _ _ => .inl, fun _ _ => .inl⟩, .same rfl⟩
        · rw [attach_dom] at hc
          by_cases e : c = n
          · show (s.node.or g c).isSome
            rw [e]; simp [Graph.or, a3.root]
          · rw [Graph.set_ne _ _ e] at hc; exact hc
        · rw [Graph.attach_other (ne_of hf' hd) (ne_of hn' hd), Graph.set_ne _ _ (ne_of hn' hd)]
          rfl
        · rintro a b (h | h)
          · exact .inl h
          · exact .inr ⟨(hnew a b h).1, .inr (hnew a b h).2.1, .inr (hnew a b h).2.2⟩
      | addNo b1 => exact (copyNo E hv hw a1 a2 a3 a4 b1).elim
    | addNo a1 =>
      cases h2 with
      | addFast b1 b2 b3 b4 b5 => exact (fastNo E.flip hv hw b1 b2 b3 b4 b5 a1).elim
      | add b1 b2 b3 b4 => exact (copyNo E.flip hv hw b1 b2 b3 b4 a1).elim
      | addNo => exact ⟨ρ, .same E, .same rfl⟩
  | @delAt v w i j hv hij =>
    cases h1 with
    | @delAt _ f l x r a1 =>
      cases h2 with
      | @delAt _ f' l' x' r' b1 =>
        obtain ⟨hf, hks⟩ := E.isCons hv a1 b1
        obtain ⟨l2, y, r2, e1, e2, e3, e4⟩ := hks.split
        obtain ⟨rfl, e5⟩ := List.append_inj e1 (by rw [hij, e2.length])
        cases e5
        have q1 := E.node.detach E.oN (o := false) hf e3 e2 e4
        refine ⟨ρ, .of (E.nodes q1 fun c hc => by rw [Graph.detach_dom] at hc; exact hc) (Off.nodes fun d hd => ?_), .same rfl⟩
        refine Graph.detach_other (ne_of hf hd) (ne_of e3 hd) fun h => ?_
        obtain ⟨c, _, hc⟩ := e4.mem' d h
        exact hd c hc
      | delAtNo b1 =>
        rcases b1 with b1 | ⟨f', ks', b1, b2⟩
        · exact (E.notCon hv a1 b1).elim
        · obtain ⟨hf, hks⟩ := E.isCons hv a1 b1
          have := hks.length
          simp at this
          omega
    | delAtNo a1 =>
      cases h2 with
      | @delAt _ f' l' x' r' b1 =>
        rcases a1 with a1 | ⟨f', ks', a1, a2⟩
        · exact (E.notCon' hv a1 b1).elim
        · obtain ⟨hf, hks⟩ := E.isCons hv a1 b1
          have := hks.length
          simp at this
          omega
      | delAtNo b1 => exact ⟨ρ, .same E, .same rfl⟩
  | @delKey v w k hv =>
    cases h1 with
    | @delKey _ f _ l x r a1 a2 a3 =>
      cases h2 with
      | @delKey _ f' _ l' x' r' b1 b2 b3 =>
        obtain ⟨hf, hks⟩ := E.isCons hv a1 b1
        have hfind := E.node.find k hks
        rw [a2, b2] at hfind
        have hx : ρ.N x x' := by cases hfind; assumption
        obtain ⟨l2, y, r2, e1, e2, e3, e4⟩ := hks.split
        cases E.oN.fn e3 hx
        obtain ⟨B, gf, _, p2, p3⟩ := b1
        obtain ⟨rfl, rfl⟩ := split_eq (wt.forest _ _ _ _ p2 p3).1 e1
        have q1 := E.node.detach E.oN (o := true) hf hx e2 e4
        refine ⟨ρ, .of (E.nodes q1 fun c hc => by rw [Graph.detach_dom] at hc; exact hc) (Off.nodes fun d hd => ?_), .same rfl⟩
        refine Graph.detach_other (ne_of hf hd) (ne_of hx hd) fun h => ?_
        obtain ⟨c, _, hc⟩ := e4.mem' d h
        exact hd c hc
      | delKeyNo b1 =>
        rcases b1 with b1 | ⟨f', ks', b1, b2⟩
        · exact (E.notCon hv a1 b1).elim
        · obtain ⟨hf, hks⟩ := E.isCons hv a1 b1
          have hfind := E.node.find k hks
          rw [a2, b2] at hfind
          cases hfind
    | delKeyNo a1 =>
      cases h2 with
      | @delKey _ f' _ l' x' r' b1 b2 b3 =>
        rcases a1 with a1 | ⟨f', ks', a1, a2⟩
        · exact (E.notCon' hv a1 b1).elim
        · obtain ⟨hf, hks⟩ := E.isCons hv a1 b1
          have hfind := E.node.find k hks
          rw [a2, b2] at hfind
          cases hfind
      | delKeyNo b1 => exact ⟨ρ, .same E, .same rfl⟩
  | set hv hw =>
    cases h1 with
    | @setFast _ _ A A' a x ga gx G a1 a2 a3 a4 a5 =>
      cases h2 with
      | @setFast _ _ B B' b y gb gy G' b1 b2 b3 b4 b5 =>
        obtain ⟨ha, hL⟩ := E.handles1 hv a1 b1
        obtain ⟨hx, hL'⟩ := E.handles1 hw a2 b2
        obtain ⟨q1, q2⟩ := E.node.moved E.oN ws.forest wt.forest hx a3 b3
        obtain ⟨gy', e1, e2⟩ := q1.at hx a5
        rw [b5] at e1; cases e1
        obtain ⟨gb', e3, e4⟩ := q1.at ha a4
        rw [b4] at e3; cases e3
        have E2 := E.nodes q1 fun c hc => by rw [← a3.dom]; exact hc
        have E3 := E2.graft (e := gx.endOK) ha hx e4 e2 (by show (G a).isSome; rw [a4]; rfl) (by show (G x).isSome; rw [a5]; rfl)
        rw [e2.last]
        exact ⟨ρ, .of (E3.handle hw ⟨.none, hL'⟩) (((Off.nodes q2).trans (.graft ha hx e2.val.kids)).trans (.handle hw)), .same rfl⟩
      | setFastNew b1 => exact (E.notEmpty hv a1 b1).elim
      | setNo b1 => exact (E.notEmpty hw a2 b1).elim
    | @setFastNew _ _ A A' x G a1 a2 a3 =>
      cases h2 with
      | @setFast _ _ B B' b y gb gy G' b1 b2 b3 b4 b5 => exact (E.notEmpty' hv a1 b1).elim
      | setFastNew b1 b2 b3 =>
        obtain ⟨_, hL⟩ := E.handles hv a1 b1
        obtain ⟨hx, hL'⟩ := E.handles1 hw a2 b2
        obtain ⟨q1, q2⟩ := E.node.moved E.oN ws.forest wt.forest hx a3 b3
        have E2 := E.nodes q1 fun c hc => by rw [← a3.dom]; exact hc
        exact ⟨ρ, .of ((E2.handle hv ⟨.some hx, hL⟩).handle hw ⟨.none, hL'⟩) (((Off.nodes q2).trans (.handle hv)).trans (.handle hw)), .same rfl⟩
      | setNo b1 => exact (E.notEmpty hw a2 b1).elim
    | @set _ _ A A' a x ga g n gn a1 a2 a3 a4 a5 =>
      cases h2 with
      | @set _ _ B B' b y gb g' n' gn' b1 b2 b3 b4 b5 =>
        obtain ⟨ha, hL⟩ := E.handles1 hv a1 b1
        obtain ⟨hx, hL'⟩ := E.handles1 hw a2 b2
        obtain ⟨M, E1, hg, hn, hl, hoff, hnew⟩ := E.copies K hx a4 b4 a5 b5
        have hn' : (ρ.addN M).N n n' := .inr hn
        have ha' : (ρ.addN M).N a b := .inl ha
        obtain ⟨gb', e3, e4⟩ := E.node.at ha a3
        rw [b3] at e3; cases e3
        have E2 := E1.grow (A := A') (B := B') hL' hg
        have E3 := E2.graft (e := false) ha' hn' (e4.mono fun _ _ => .inl) hl (by simp [Store.grow, Graph.or, a3]) (by simp [Store.grow, Graph.or, a4.root])
        refine ⟨ρ.addN M, ⟨Names.le_addN, E3, (Off.grow hoff).trans (.graft ha' hn' hl.val.kids), ?_, fun _ _ => .inl, fun _ _ => .inl⟩, .same rfl⟩
        rintro a b (h | h)
        · exact .inl h
        · exact .inr ⟨(hnew a b h).1, .inr (hnew a b h).2.1, .inr (hnew a b h).2.2⟩
      | setNew b1 => exact (E.notEmpty hv a1 b1).elim
      | setNo b1 => exact (E.notEmpty hw a2 b1).elim
    | @setNew _ _ A A' x g n gn a1 a2 a4 a5 =>
      cases h2 with
      | @set _ _ B B' b y gb g' n' gn' b1 b2 b3 b4 b5 => exact (E.notEmpty' hv a1 b1).elim
      | @setNew _ _ B B' y g' n' gn' b1 b2 b4 b5 =>
        obtain ⟨_, hL⟩ := E.handles hv a1 b1
        obtain ⟨hx, hL'⟩ := E.handles1 hw a2 b2
        obtain ⟨M, E1, hg, hn, hl, hoff, hnew⟩ := E.copies K hx a4 b4 a5 b5
        have E2 := E1.grow (A := A') (B := B') hL' hg
        refine ⟨ρ.addN M, ⟨Names.le_addN, E2.handle hv ⟨.some (.inr hn), hL⟩, (Off.grow hoff).trans (Off.handle (ρ := ρ.addN M) hv), ?_, fun _ _ => .inl, fun _ _ => .inl⟩, .same rfl⟩
        rintro a b (h | h)
        · exact .inl h
        · exact .inr ⟨(hnew a b h).1, .inr (hnew a b h).2.1, .inr (hnew a b h).2.2⟩
      | setNo b1 => exact (E.notEmpty hw a2 b1).elim
    | setNo a1 =>
      cases h2 with
      | setFast _ b2 => exact (E.notEmpty' hw a1 b2).elim
      | setFastNew _ b2 => exact (E.notEmpty' hw a1 b2).elim
      | set _ b2 => exact (E.notEmpty' hw a1 b2).elim
      | setNew _ b2 => exact (E.notEmpty' hw a1 b2).elim
      | setNo => exact ⟨ρ, .same E, .same rfl⟩

end

end ZJ
