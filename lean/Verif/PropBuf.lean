import Verif.PropAlloc
import Verif.Heap

/-
C41: the output string of zzzjson.h:545-612 on the allocator of `Verif/Alloc.lean`.
-/

namespace ZJ.Alloc

set_option linter.unusedSimpArgs false
set_option linter.unusedVariables false
set_option linter.unusedSectionVars false

section
variable [Knobs]

/-- A string object at address `s` with the given content. -/
structure SOK (m : Mem) (o : Own) (s : Nat) (z : SStr) (c : Bytes) : Prop where
  ss : m.ss s = some z
  za : z.a = o.a
  home : ∃ b ∈ o.blocks, Within (s, 24) b
  area : ∃ b ∈ o.blocks, Within (z.data, z.sizeOf) b
  apart : Disj (s, 24) (z.data, z.sizeOf)
  len : z.pos = c.length
  le : z.pos ≤ z.sizeOf
  pos : 0 < z.sizeOf
  bytes : ∀ i, i < c.length → m.bytes (z.data + i) = c[i]?

theorem SOK.frame {m m' : Mem} {o o' : Own} {s : Nat} {z : SStr} {c : Bytes} {R : List Block}
    (h : SOK m o s z c) (hO : Only m m' R) (ha : o'.a = o.a) (hb : ∀ b ∈ o.blocks, b ∈ o'.blocks)
    (h1 : ∀ r ∈ R, Disj (s, 24) r) (h2 : ∀ r ∈ R, Disj (z.data, z.sizeOf) r) :
    SOK m' o' s z c := by
  obtain ⟨b1, hb1, hw1⟩ := h.home
  obtain ⟨b2, hb2, hw2⟩ := h.area
  refine ⟨?_, by rw [ha]; exact h.za, ⟨b1, hb b1 hb1, hw1⟩, ⟨b2, hb b2 hb2, hw2⟩, h.apart, h.len,
    h.le, h.pos, ?_⟩
  · rw [hO.ss _ h1]; exact h.ss
  · intro i hi
    rw [hO.bytes, h.bytes i hi]
    intro r hr
    refine (h2 r hr).sub ?_
    have := h.len
    have := h.le
    simp [Within]; omega

theorem Good.block_live {m : Mem} {o : Own} (h : Good m o) {b : Block} (hb : b ∈ o.blocks)
    {x : Block} (hx : Within x b) : ∃ c ∈ m.live, Within x c := by
  obtain ⟨c, hc, hw⟩ := h.block_in hb
  exact ⟨c, h.live c hc, hx.trans hw⟩

theorem SOK.nz {m : Mem} {o : Own} {s : Nat} {z : SStr} {c : Bytes} (h : SOK m o s z c)
    (hG : Good m o) (hs : Sep m.live) : s ≠ 0 := by
  obtain ⟨b, hb, hw⟩ := h.home
  obtain ⟨x, hx, hwx⟩ := hG.block_live hb hw
  have := (hs.pos x hx).1
  unfold Within at hwx
  simp only at hwx
  omega

theorem peek_run {m : Mem} {p : Nat} {c : Bytes} {b : Block} (hb : b ∈ m.live)
    (hw : Within (p, c.length) b) (hc : ∀ i, i < c.length → m.bytes (p + i) = c[i]?) :
    peek m p c.length = .ok c := by
  unfold peek
  by_cases h0 : c.length = 0
  · rw [if_pos h0]
    rw [List.length_eq_zero_iff.1 h0]
  · rw [if_neg h0, if_pos (inLive_of hb hw)]
    have key : ∀ (l : List Nat), (∀ i ∈ l, i < c.length) →
        l.mapM (fun i => m.bytes (p + i)) = some (l.map fun i => (c[i]?).getD 0) := by
      intro l
      induction l with
      | nil => intro _; rfl
      | cons x r ih =>
        intro hl
        have hx := hl x (List.mem_cons_self ..)
        rw [List.mapM_cons, hc x hx, ih fun i hi => hl i (List.mem_cons_of_mem _ hi)]
        rw [List.getElem?_eq_getElem hx]
        simp [List.getElem?_eq_getElem hx]
    rw [key _ fun i hi => List.mem_range.1 hi]
    simp only
    congr 1
    refine List.ext_getElem (by simp) ?_
    intro i h1 h2
    simp [List.getElem?_eq_getElem h2]

/-- The growth loop. -/
theorem growTo_gen [Sensible] {need : Nat} (hn : delta * need ≤ 4294967296) : ∀ (fuel n s : Nat), 0 < s →
    need ≤ s * 2 ^ n → n < fuel →
    ∃ ns, growTo fuel s need = .ok ns ∧ need ≤ ns ∧ s ≤ ns ∧ (ns = s ∨ ns < delta * need)
  | 0, n, _, _, _, h => by omega
  | fuel + 1, n, s, hs, hb, hf => by
    unfold growTo
    by_cases hg : need > s
    · rw [if_pos hg]
      have hd := Sensible.delta_gt
      have hlt : s * delta < delta * need := by
        rw [Nat.mul_comm]; exact Nat.mul_lt_mul_of_pos_left hg (by omega)
      have h2 : s * 2 ≤ s * delta := Nat.mul_le_mul_left _ hd
      have hw : w32 (s * delta) = s * delta := Nat.mod_eq_of_lt (by omega)
      rw [hw]
      cases n with
      | zero => simp at hb; omega
      | succ n =>
        obtain ⟨ns, h1, h2, h3, h4⟩ := growTo_gen hn fuel n (s * delta) (by omega) (by
          have h5 : s * 2 ^ (n + 1) = s * 2 * 2 ^ n := by rw [Nat.pow_succ, Nat.mul_comm (2 ^ n) 2, Nat.mul_assoc]
          have h6 : s * 2 * 2 ^ n ≤ s * delta * 2 ^ n := Nat.mul_le_mul_right _ h2
          omega) (by omega)
        refine ⟨ns, h1, h2, by omega, ?_⟩
        rcases h4 with h4 | h4 <;> omega
    · rw [if_neg hg]
      exact ⟨s, rfl, by omega, Nat.le_refl _, Or.inl rfl⟩

/-- A range `x` of memory that is not the business of the string: in another block from
the same allocator, or in memory that does not belong to the allocator. -/
def Keep (m : Mem) (o : Own) (s : Nat) (z : SStr) (x : Block) : Prop :=
  (∃ b ∈ o.blocks, Within x b ∧ Disj x (s, 24) ∧ Disj x (z.data, z.sizeOf)) ∨
  (∃ c ∈ m.live, Within x c ∧ ∀ d ∈ o.mem, Disj x d)

theorem SameBytes.trans {m m' m'' : Mem} {b : Block} (h : SameBytes m m' b)
    (h' : SameBytes m' m'' b) : SameBytes m m'' b :=
  fun q h1 h2 => (h' q h1 h2).trans (h q h1 h2)

/-- What an operation on a string guarantees. -/
structure Did (m m' : Mem) (o o' : Own) (s : Nat) (z z' : SStr) (c' : Bytes) : Prop where
  good : Good m' o'
  sep : Sep m'.live
  str : SOK m' o' s z' c'
  a : o'.a = o.a
  keep : ∀ x, Keep m o s z x → SameBytes m m' x ∧ Keep m' o' s z' x

/-- A request by somebody else. -/
theorem alloc_str [Sensible] {E : Env} (hE : Sound E) (hP : Plenty E) {m : Mem} {o : Own} {fuel size s : Nat}
    {z : SStr} {c : Bytes} (h : Good m o) (hs : Sep m.live) (hS : SOK m o s z c) (hfuel : 33 ≤ fuel)
    (hb : Room (o.req + size)) :
    ∃ p m' o', alloc E fuel m o.a size = .ok (p, m') ∧ Did m m' o o' s z z c ∧
      o'.blocks = (p, size) :: o.blocks ∧ (∀ x, Keep m o s z x → Disj x (p, size)) := by
  obtain ⟨p, m', o', new, e1, e2, e3, e4, e5, e6, e7, e8, e9, e10⟩ :=
    alloc_run hE hP h hs hfuel (h.lay.serves hb)
  have far : ∀ x : Block, (∃ b ∈ o.blocks, Within x b) → ∀ r ∈ new ++ o.foot, Disj x r := by
    intro x ⟨b, hbm, hw⟩ r hr
    rcases List.mem_append.1 hr with hr | hr
    · obtain ⟨d, hd, hwd⟩ := h.block_live hbm hw
      exact ((e9 r hr d hd).sub_right hwd).symm
    · exact (((h.block_foot hbm r hr).sub_right hw)).symm
  have hsub : ∀ b ∈ o.blocks, b ∈ o'.blocks := fun b hb => by
    rw [e4]; exact List.mem_cons_of_mem _ hb
  have hmem' : ∀ x : Block, (∃ c ∈ m.live, Within x c ∧ ∀ d ∈ o.mem, Disj x d) →
      ∀ d ∈ o'.mem, Disj x d := by
    intro x ⟨c, hc, hw, hd⟩ d hdm
    rw [e8] at hdm
    rcases List.mem_append.1 hdm with hdm | hdm
    · exact hd d hdm
    · exact ((e9 d hdm c hc).sub_right hw).symm
  refine ⟨p, m', o', e1, ⟨e5, e6, ?_, e2, ?_⟩, e4, ?_⟩
  · exact hS.frame e10 e2 hsub (far _ hS.home) (far _ hS.area)
  · intro x hx
    rcases hx with ⟨b, hb, hw, h1, h2⟩ | hx
    · exact ⟨e10.same fun r hr => (far x ⟨b, hb, hw⟩ r hr).symm, Or.inl ⟨b, hsub b hb, hw, h1, h2⟩⟩
    · have hm := hmem' x hx
      obtain ⟨c, hc, hw, hd⟩ := hx
      refine ⟨e10.same fun r hr => ?_, Or.inr ⟨c, by rw [e7]; exact List.mem_append_right _ hc, hw, hm⟩⟩
      rcases List.mem_append.1 hr with hr | hr
      · exact (e9 r hr c hc).sub_right hw
      · obtain ⟨d, hdm, hwd⟩ := h.lay.foot_in r hr
        exact ((hd d hdm).sub_right hwd).symm
  · intro x hx
    rcases hx with ⟨b, hb, hw, h1, h2⟩ | hx
    · have hp := e5.lay.blocks
      rw [e4] at hp
      exact (((List.pairwise_cons.1 hp).1 b hb).sub_right hw).symm
    · obtain ⟨d, hd, hw⟩ := e5.block_in (b := (p, size)) (by rw [e4]; exact List.mem_cons_self ..)
      exact (hmem' x hx d hd).sub_right hw

/-- Writing inside the string's own memory. -/
theorem Did.own {m m' m'' : Mem} {o o' : Own} {s : Nat} {z z' z'' : SStr} {c' c'' : Bytes}
    {R : List Block} (h : Did m m' o o' s z z' c') (hO : Only m' m'' R) (hl : m''.live = m'.live)
    (hb : ∀ r ∈ R, ∃ b ∈ o'.blocks, Within r b)
    (hx : ∀ x, Keep m' o' s z' x → (∀ r ∈ R, Disj x r) ∧ Keep m' o' s z'' x)
    (hS : SOK m'' o' s z'' c'') : Did m m'' o o' s z z'' c'' := by
  refine ⟨?_, by rw [hl]; exact h.sep, hS, h.a, ?_⟩
  · refine ⟨h.good.shape.frame hO ?_, h.good.lay, by rw [hl]; exact h.good.live, h.good.sep⟩
    intro f hf r hr
    obtain ⟨b, hbm, hw⟩ := hb r hr
    exact (h.good.block_foot hbm f hf).sub_right hw
  · intro x hk
    obtain ⟨h1, h2⟩ := h.keep x hk
    obtain ⟨h3, h4⟩ := hx x h2
    refine ⟨h1.trans (hO.same fun r hr => (h3 r hr).symm), ?_⟩
    unfold Keep at h4 ⊢
    rw [hl]
    exact h4

theorem Did.refl {m : Mem} {o : Own} {s : Nat} {z : SStr} {c : Bytes} (h : Good m o)
    (hs : Sep m.live) (hS : SOK m o s z c) : Did m m o o s z z c :=
  ⟨h, hs, hS, rfl, fun x hx => ⟨fun _ _ _ => rfl, hx⟩⟩

theorem Did.trans {m m' m'' : Mem} {o o' o'' : Own} {s : Nat} {z z' z'' : SStr} {c' c'' : Bytes}
    (h : Did m m' o o' s z z' c') (h' : Did m' m'' o' o'' s z' z'' c'') :
    Did m m'' o o'' s z z'' c'' :=
  ⟨h'.good, h'.sep, h'.str, h'.a.trans h.a, fun x hx =>
    ⟨(h.keep x hx).1.trans (h'.keep x (h.keep x hx).2).1, (h'.keep x (h.keep x hx).2).2⟩⟩

theorem Keep.struct {m : Mem} {o : Own} {s : Nat} {z : SStr} {c : Bytes} {x : Block}
    (hG : Good m o) (hS : SOK m o s z c) (hx : Keep m o s z x) :
    Disj x (s, 24) ∧ Disj x (z.data, z.sizeOf) := by
  rcases hx with ⟨b, hb, hw, h1, h2⟩ | ⟨c, hc, hw, hd⟩
  · exact ⟨h1, h2⟩
  · obtain ⟨b1, hb1, hw1⟩ := hS.home
    obtain ⟨b2, hb2, hw2⟩ := hS.area
    obtain ⟨d1, hd1, hv1⟩ := hG.block_in hb1
    obtain ⟨d2, hd2, hv2⟩ := hG.block_in hb2
    exact ⟨(hd d1 hd1).sub_right (hw1.trans hv1), (hd d2 hd2).sub_right (hw2.trans hv2)⟩

theorem Keep.mk {m : Mem} {o : Own} {s : Nat} {z z' : SStr} {x : Block}
    (hx : Keep m o s z x) (h : Disj x (z'.data, z'.sizeOf)) : Keep m o s z' x := by
  rcases hx with ⟨b, hb, hw, h1, h2⟩ | hx
  · exact Or.inl ⟨b, hb, hw, h1, h⟩
  · exact Or.inr hx

/-- Writing the struct, with the same data area. -/
theorem wrStr_did {m m' : Mem} {o o' : Own} {s pos : Nat} {z z' : SStr} {c c' : Bytes}
    (h : Did m m' o o' s z z' c) (hp : pos = c'.length) (hle : pos ≤ z'.sizeOf)
    (hc : ∀ i, i < c'.length → m'.bytes (z'.data + i) = c'[i]?) :
    ∃ m'', wrStr m' s { z' with pos := pos } = .ok m'' ∧
      Did m m'' o o' s z { z' with pos := pos } c' := by
  obtain ⟨b, hb, hw⟩ := h.str.home
  obtain ⟨d, hd, hwd⟩ := h.good.block_live hb hw
  obtain ⟨m'', e1, e2, e3, e4, e5⟩ := wrStr_run (m := m') (p := s) (n := { z' with pos := pos })
    (h.str.nz h.good h.sep) hd hwd
  refine ⟨m'', e1, h.own e5 e2 ?_ ?_ ?_⟩
  · intro r hr; rw [List.mem_singleton.1 hr]; exact ⟨b, hb, hw⟩
  · intro x hx
    obtain ⟨h1, h2⟩ := hx.struct h.good h.str
    exact ⟨fun r hr => by rw [List.mem_singleton.1 hr]; exact h1, hx.mk h2⟩
  · refine ⟨e4, h.str.za, h.str.home, h.str.area, h.str.apart, hp, hle, h.str.pos, ?_⟩
    intro i hi
    rw [e5.bytes, hc i hi]
    intro r hr
    rw [List.mem_singleton.1 hr]
    refine h.str.apart.symm.sub ?_
    simp only [Within]
    omega

theorem regrow_run [Sensible] {E : Env} (hE : Sound E) (hP : Plenty E) {m : Mem} {o : Own} {fuel ns s : Nat}
    {z : SStr} {c : Bytes} (h : Good m o) (hs : Sep m.live) (hS : SOK m o s z c) (hfuel : 33 ≤ fuel)
    (hb : Room (o.req + ns)) (hn : z.sizeOf ≤ ns) :
    ∃ d m' o', regrow E fuel m s ns = .ok m' ∧
      Did m m' o o' s z { z with data := d, sizeOf := ns } c ∧ o'.req = ns + o.req := by
  obtain ⟨d, m1, o', a1, a2, a3, a4⟩ := alloc_str hE hP h hs hS hfuel hb
  have hreq : o'.req = ns + o.req := by simp [Own.req, a3]
  have hS1 := a2.str
  have hnz := hS1.nz a2.good a2.sep
  -- the old content
  obtain ⟨ba, hba, hwa⟩ := hS1.area
  obtain ⟨xa, hxa, hwxa⟩ := a2.good.block_live hba hwa
  have hpk : peek m1 z.data z.pos = .ok c := by
    rw [hS1.len]
    refine peek_run hxa (Within.trans ?_ hwxa) hS1.bytes
    have := hS1.len
    have := hS1.le
    simp only [Within]; omega
  have hdb : (d, ns) ∈ o'.blocks := by rw [a3]; exact List.mem_cons_self ..
  have hpw := a2.good.lay.blocks
  rw [a3] at hpw
  have hnew := (List.pairwise_cons.1 hpw).1
  have hsd : Disj (s, 24) (d, ns) := by
    obtain ⟨b, hb, hw⟩ := hS.home
    exact ((hnew b hb).sub_right hw).symm
  have hdd : Disj (z.data, z.sizeOf) (d, ns) := by
    obtain ⟨b, hb, hw⟩ := hS.area
    exact ((hnew b hb).sub_right hw).symm
  -- the struct
  obtain ⟨b, hbm, hw⟩ := hS1.home
  obtain ⟨dd, hd, hwd⟩ := a2.good.block_live hbm hw
  obtain ⟨m2, e1, e2, e3, e4, e5⟩ := wrStr_run (m := m1) (p := s)
    (n := { z with data := d, sizeOf := ns }) hnz hd hwd
  obtain ⟨xd, hxd, hwxd⟩ := a2.good.block_live hdb (x := (d, ns)) ⟨Nat.le_refl _, Nat.le_refl _⟩
  have hlen := hS.len
  have hle := hS.le
  have hin : Within (d, c.length) (d, ns) := by simp only [Within]; omega
  obtain ⟨m3, f1, f2, f3, f4, f5⟩ := poke_run (m := m2) (p := d) (s := c) (by rw [e2]; exact hxd)
    (hin.trans hwxd)
  refine ⟨d, m3, o', ?_, ?_, hreq⟩
  · unfold regrow
    rw [rdStr_some (hS.nz h hs) hS.ss]
    simp only [Res.ok_bind]
    rw [hS.za, a1]
    simp only [Res.ok_bind]
    rw [rdStr_some hnz hS1.ss]
    simp only [Res.ok_bind]
    rw [hpk]
    simp only [Res.ok_bind]
    rw [e1]
    simp only [Res.ok_bind]
    exact f1
  · have hO : Only m1 m3 [(s, 24), (d, c.length)] := by
      refine (e5.mono ?_).trans (f5.mono ?_) <;> intro r hr <;> rw [List.mem_singleton.1 hr]
      · exact ⟨_, List.mem_cons_self .., by simp [Within]⟩
      · exact ⟨_, List.mem_cons_of_mem _ (List.mem_singleton.2 rfl), by simp [Within]⟩
    have hS3 : SOK m3 o' s { z with data := d, sizeOf := ns } c := by
      have hz := hS.pos
      refine ⟨?_, hS1.za, hS1.home, ⟨_, hdb, by simp [Within]⟩, hsd, hlen, by simp only; omega,
        by simp only; omega, fun i hi => f4 i hi⟩
      rw [f5.ss, e4]
      intro r hr
      rw [List.mem_singleton.1 hr]
      exact hsd.sub_right hin
    have base : Did m m3 o o' s z { z with data := d, sizeOf := ns } c := by
      refine ⟨?_, by rw [f2, e2]; exact a2.sep, hS3, a2.a, ?_⟩
      · refine ⟨a2.good.shape.frame hO ?_, a2.good.lay, by rw [f2, e2]; exact a2.good.live,
          a2.good.sep⟩
        intro f hf r hr
        simp only [List.mem_cons, List.not_mem_nil, or_false] at hr
        rcases hr with rfl | rfl
        · exact (a2.good.block_foot hbm f hf).sub_right hw
        · exact (a2.good.block_foot hdb f hf).sub_right hin
      · intro x hk
        obtain ⟨h1, h2⟩ := a2.keep x hk
        have h3 := a4 x hk
        have h4 := (hk.struct h hS).1
        refine ⟨h1.trans (hO.same fun r hr => ?_), ?_⟩
        · simp only [List.mem_cons, List.not_mem_nil, or_false] at hr
          rcases hr with rfl | rfl
          · exact h4.symm
          · exact (h3.sub_right hin).symm
        · have h5 : Keep m1 o' s { z with data := d, sizeOf := ns } x := h2.mk h3
          unfold Keep at h5 ⊢
          rw [f2, e2]
          exact h5
    exact base

/-- Storing at the end of the content. -/
theorem store_run {m m' : Mem} {o o' : Own} {s : Nat} {z z' : SStr} {c src : Bytes}
    (h : Did m m' o o' s z z' c) (hf : z'.pos + src.length ≤ z'.sizeOf) :
    ∃ m1 m2, poke m' (z'.data + z'.pos) src = .ok m1 ∧
      wrStr m1 s { z' with pos := z'.pos + src.length } = .ok m2 ∧
      Did m m2 o o' s z { z' with pos := z'.pos + src.length } (c ++ src) := by
  obtain ⟨b, hb, hw⟩ := h.str.area
  obtain ⟨d, hd, hwd⟩ := h.good.block_live hb hw
  have hin : Within (z'.data + z'.pos, src.length) (z'.data, z'.sizeOf) := by
    simp only [Within]; omega
  obtain ⟨m1, e1, e2, e3, e4, e5⟩ := poke_run (m := m') (p := z'.data + z'.pos) (s := src) hd
    (hin.trans hwd)
  have hlen := h.str.len
  have hbytes : ∀ i, i < (c ++ src).length → m1.bytes (z'.data + i) = (c ++ src)[i]? := by
    intro i hi
    rw [List.length_append] at hi
    rcases Nat.lt_or_ge i c.length with hic | hic
    · rw [e5.bytes, h.str.bytes i hic, List.getElem?_append_left hic]
      intro r hr
      rw [List.mem_singleton.1 hr]
      simp only [Disj]; omega
    · rw [List.getElem?_append_right hic, ← e4 (i - c.length) (by omega)]
      congr 1
      omega
  have h1 : Did m m1 o o' s z z' c := by
    refine h.own e5 e2 ?_ ?_ ?_
    · intro r hr; rw [List.mem_singleton.1 hr]; exact ⟨b, hb, hin.trans hw⟩
    · intro x hx
      refine ⟨fun r hr => ?_, hx⟩
      rw [List.mem_singleton.1 hr]
      exact ((hx.struct h.good h.str).2).sub_right hin
    · refine ⟨?_, h.str.za, h.str.home, h.str.area, h.str.apart, hlen, h.str.le, h.str.pos, ?_⟩
      · rw [e5.ss, h.str.ss]
        intro r hr
        rw [List.mem_singleton.1 hr]
        exact h.str.apart.sub_right hin
      · intro i hi
        rw [hbytes i (by rw [List.length_append]; omega), List.getElem?_append_left hi]
  obtain ⟨m2, f1, f2⟩ := wrStr_did (pos := z'.pos + src.length) (c' := c ++ src) h1
    (by rw [List.length_append]; omega) hf hbytes
  exact ⟨m1, m2, e1, f1, f2⟩

theorem newString_run [Sensible] {E : Env} (hE : Sound E) (hP : Plenty E) {m : Mem} {o : Own}
    {fuel init : Nat} (h : Good m o) (hs : Sep m.live) (hfuel : 33 ≤ fuel)
    (hb : Room (o.req + (24 + init))) (hi : 0 < init) :
    ∃ s m' o' z, newString E fuel m o.a init = .ok (s, m') ∧ Good m' o' ∧ Sep m'.live ∧
      SOK m' o' s z [] ∧ z.sizeOf = init ∧ o'.a = o.a ∧ o'.req = 24 + init + o.req ∧
      ∀ x, (x ∈ o.blocks ∨ ∃ c ∈ m.live, Within x c ∧ ∀ d ∈ o.mem, Disj x d) →
        SameBytes m m' x ∧ Keep m' o' s z x := by
  obtain ⟨p, m1, o', new, e1, e2, e3, e4, e5, e6, e7, e8, e9, e10⟩ :=
    alloc_run hE hP h hs hfuel (h.lay.serves hb)
  have hlt := hb.lt
  have hw32 : w32 (24 + init) = 24 + init := Nat.mod_eq_of_lt (by omega)
  have hpb : (p, 24 + init) ∈ o'.blocks := by rw [e4]; exact List.mem_cons_self ..
  obtain ⟨d, hd, hw⟩ := e5.block_live hpb (x := (p, 24)) (by simp [Within])
  have hpz : p ≠ 0 := by
    have := (e6.pos d hd).1
    simp only [Within] at hw
    omega
  obtain ⟨m2, f1, f2, f3, f4, f5⟩ := wrStr_run (m := m1) (p := p) (n := ⟨p + 24, 0, init, o.a⟩)
    hpz hd hw
  have hin : Within (p, 24) (p, 24 + init) := by simp [Within]
  have hpw := e5.lay.blocks
  rw [e4] at hpw
  have hnew := (List.pairwise_cons.1 hpw).1
  refine ⟨p, m2, o', ⟨p + 24, 0, init, o.a⟩, ?_, ?_, by rw [f2]; exact e6, ?_, rfl, e2,
    by simp [Own.req, e4], ?_⟩
  · unfold newString
    rw [hw32, e1]
    simp only [Res.ok_bind]
    rw [f1]
    rfl
  · refine ⟨e5.shape.frame f5 ?_, e5.lay, by rw [f2]; exact e5.live, e5.sep⟩
    intro f hf r hr
    rw [List.mem_singleton.1 hr]
    exact (e5.block_foot hpb f hf).sub_right hin
  · refine ⟨f4, e2.symm, ⟨_, hpb, hin⟩, ⟨_, hpb, by simp [Within]; omega⟩, by simp [Disj], rfl,
      by simp, hi, by simp⟩
  · intro x hx
    have hmem' : ∀ x : Block, (∃ c ∈ m.live, Within x c ∧ ∀ d ∈ o.mem, Disj x d) →
        ∀ d ∈ o'.mem, Disj x d := by
      intro x ⟨c, hc, hw, hd⟩ d hdm
      rw [e8] at hdm
      rcases List.mem_append.1 hdm with hdm | hdm
      · exact hd d hdm
      · exact ((e9 d hdm c hc).sub_right hw).symm
    rcases hx with hx | hx
    · have hd2 := hnew x hx
      refine ⟨(e10.same fun r hr => ?_).trans (f5.same fun r hr => ?_), Or.inl ⟨x, by
        rw [e4]; exact List.mem_cons_of_mem _ hx, by simp [Within], (hd2.sub hin).symm,
        (hd2.sub (by simp [Within]; omega)).symm⟩⟩
      · rcases List.mem_append.1 hr with hr | hr
        · obtain ⟨d, hd, hwd⟩ := h.block_live hx (x := x) (by simp [Within])
          exact (e9 r hr d hd).sub_right hwd
        · exact h.block_foot hx r hr
      · rw [List.mem_singleton.1 hr]
        exact hd2.sub hin
    · have hm := hmem' x hx
      obtain ⟨c, hc, hwc, hdc⟩ := hx
      obtain ⟨y, hy, hwy⟩ := e5.block_in hpb
      refine ⟨(e10.same fun r hr => ?_).trans (f5.same fun r hr => ?_), Or.inr ⟨c, by
        rw [f2, e7]; exact List.mem_append_right _ hc, hwc, hm⟩⟩
      · rcases List.mem_append.1 hr with hr | hr
        · exact (e9 r hr c hc).sub_right hwc
        · obtain ⟨d, hdm, hwd⟩ := h.lay.foot_in r hr
          exact ((hdc d hdm).sub_right hwd).symm
      · rw [List.mem_singleton.1 hr]
        exact (((hm y hy).sub_right hwy).sub_right hin).symm

/-! ### C41 The output string buffer is exact -/

/-- What is done to a string: append, append one character (`zj_appendEnd` appends 0),
reset; or somebody else asks the same allocator for memory. -/
inductive SOp where
  | app (s : Bytes)
  | chr (c : Byte)
  | reset
  | other (size : Nat)

def sstep (E : Env) (fuel a s : Nat) (m : Mem) : SOp → Res Mem
  | .app src => appendStr E fuel m s src
  | .chr c => appendChar E fuel m s c
  | .reset => reset m s
  | .other n => do
    let (_, m) ← alloc E fuel m a n
    pure m

def srun (E : Env) (fuel a s : Nat) : Mem → List SOp → Res Mem
  | m, [] => .ok m
  | m, op :: r => do
    let m ← sstep E fuel a s m op
    srun E fuel a s m r

/-- The text after an operation. -/
def SOp.text (c : Bytes) : SOp → Bytes
  | .app s => c ++ s
  | .chr x => c ++ [x]
  | .reset => []
  | .other _ => c

/-- The text after all operations. -/
def textOf : Bytes → List SOp → Bytes
  | c, [] => c
  | c, op :: r => textOf (op.text c) r

/-- The longest text on the way. -/
def peak : Bytes → List SOp → Nat
  | c, [] => c.length
  | c, op :: r => max c.length (peak (op.text c) r)

/-- Memory others ask for. -/
def othersOf : List SOp → Nat
  | [] => 0
  | .other n :: r => n + othersOf r
  | _ :: r => othersOf r

theorem le_peak (c : Bytes) (ops : List SOp) : c.length ≤ peak c ops := by
  cases ops with
  | nil => exact Nat.le_refl _
  | cons op r => exact Nat.le_max_left ..

theorem append_run [Sensible] {E : Env} (hE : Sound E) (hP : Plenty E) {m : Mem} {o : Own} {fuel s B : Nat}
    {z : SStr} {c : Bytes} (src : Bytes) (h : Good m o) (hs : Sep m.live) (hS : SOK m o s z c)
    (hfuel : 33 ≤ fuel) (hr : o.req ≤ B + 2 * z.sizeOf)
    (hb : Room (B + 2 * (delta * (c.length + src.length)))) :
    ∃ m' o' z', appendStr E fuel m s src = .ok m' ∧ Did m m' o o' s z z' (c ++ src) ∧
      o'.req ≤ B + 2 * z'.sizeOf ∧
      (z'.sizeOf = z.sizeOf ∨ z'.sizeOf < delta * (c.length + src.length)) := by
  have hlen := hS.len
  have hle := hS.le
  have hpos := hS.pos
  have hlt := hb.lt
  have hd := Sensible.delta_gt
  rw [← hlen] at hb hlt ⊢
  have h2 : 2 * (z.pos + src.length) ≤ delta * (z.pos + src.length) := Nat.mul_le_mul_right _ hd
  have hw : w32 (z.pos + src.length) = z.pos + src.length := Nat.mod_eq_of_lt (by omega)
  have hnz := hS.nz h hs
  rcases Nat.lt_or_ge z.sizeOf (z.pos + src.length) with hg | hg
  · have hlt2 : z.sizeOf * delta < delta * (z.pos + src.length) := by
      rw [Nat.mul_comm]; exact Nat.mul_lt_mul_of_pos_left hg (by omega)
    have h3 : z.sizeOf * 2 ≤ z.sizeOf * delta := Nat.mul_le_mul_left _ hd
    have hw2 : w32 (z.sizeOf * delta) = z.sizeOf * delta := Nat.mod_eq_of_lt (by omega)
    obtain ⟨ns, g1, g2, g3, g4⟩ := growTo_gen (need := z.pos + src.length) (by omega) fuel 31
      (z.sizeOf * delta) (by omega) (by omega) (by omega)
    obtain ⟨d, m1, o1, r1, r2, r3⟩ := regrow_run hE hP (ns := ns) h hs hS (by omega : 33 ≤ fuel)
      (hb.mono (by omega)) (by omega)
    obtain ⟨m2, m3, s1, s2, s3⟩ := store_run (src := src) r2 (by simp only; omega)
    refine ⟨m3, o1, _, ?_, s3, by simp only; omega, ?_⟩
    · unfold appendStr
      rw [rdStr_some hnz hS.ss]
      simp only [Res.ok_bind, hw, hw2, if_pos (show z.pos + src.length > z.sizeOf by omega)]
      rw [g1]
      simp only [Res.ok_bind]
      rw [r1]
      simp only [Res.ok_bind]
      rw [rdStr_some hnz r2.str.ss]
      simp only [Res.ok_bind, hw] at s1 s2 ⊢
      rw [s1]
      simp only [Res.ok_bind]
      exact s2
    · right
      simp only
      omega
  · obtain ⟨m2, m3, s1, s2, s3⟩ := store_run (src := src) (Did.refl h hs hS) (by omega)
    refine ⟨m3, o, _, ?_, s3, by simp only; omega, Or.inl rfl⟩
    unfold appendStr
    rw [rdStr_some hnz hS.ss]
    simp only [Res.ok_bind, hw, if_neg (show ¬ z.pos + src.length > z.sizeOf by omega), Res.pure_eq]
    rw [rdStr_some hnz hS.ss]
    simp only [Res.ok_bind, hw]
    rw [s1]
    simp only [Res.ok_bind]
    exact s2

theorem appendChar_run [Sensible] {E : Env} (hE : Sound E) (hP : Plenty E) {m : Mem} {o : Own}
    {fuel s B : Nat} {z : SStr} {c : Bytes} (x : Byte) (h : Good m o) (hs : Sep m.live)
    (hS : SOK m o s z c) (hfuel : 33 ≤ fuel) (hr : o.req ≤ B + 2 * z.sizeOf)
    (hb : Room (B + 2 * (delta * (c.length + 1)))) :
    ∃ m' o' z', appendChar E fuel m s x = .ok m' ∧ Did m m' o o' s z z' (c ++ [x]) ∧
      o'.req ≤ B + 2 * z'.sizeOf ∧ (z'.sizeOf = z.sizeOf ∨ z'.sizeOf < delta * (c.length + 1)) ∧
      z.sizeOf ≤ z'.sizeOf := by
  have hlen := hS.len
  have hle := hS.le
  have hpos := hS.pos
  have hlt := hb.lt
  have hd := Sensible.delta_gt
  rw [← hlen] at hb hlt ⊢
  have h2 : 2 * (z.pos + 1) ≤ delta * (z.pos + 1) := Nat.mul_le_mul_right _ hd
  have hw : w32 (z.pos + 1) = z.pos + 1 := Nat.mod_eq_of_lt (by omega)
  have hnz := hS.nz h hs
  rcases Nat.lt_or_ge z.sizeOf (z.pos + 1) with hg | hg
  · have hlt2 : z.sizeOf * delta < delta * (z.pos + 1) := by
      rw [Nat.mul_comm]; exact Nat.mul_lt_mul_of_pos_left hg (by omega)
    have h3 : z.sizeOf * 2 ≤ z.sizeOf * delta := Nat.mul_le_mul_left _ hd
    have hw2 : w32 (z.sizeOf * delta) = z.sizeOf * delta := Nat.mod_eq_of_lt (by omega)
    obtain ⟨d, m1, o1, r1, r2, r3⟩ := regrow_run hE hP (ns := z.sizeOf * delta) h hs hS
      (by omega : 33 ≤ fuel) (hb.mono (by omega)) (by omega)
    obtain ⟨m2, m3, s1, s2, s3⟩ := store_run (src := [x]) r2 (by simp only [List.length_singleton]; omega)
    refine ⟨m3, o1, _, ?_, s3, by simp only; omega, ?_⟩
    · unfold appendChar
      rw [rdStr_some hnz hS.ss]
      simp only [Res.ok_bind, hw, hw2, if_pos (show z.pos + 1 > z.sizeOf by omega)]
      rw [r1]
      simp only [Res.ok_bind]
      rw [rdStr_some hnz r2.str.ss]
      simp only [Res.ok_bind, hw, List.length_singleton] at s1 s2 ⊢
      rw [s1]
      simp only [Res.ok_bind]
      exact s2
    · refine ⟨Or.inr ?_, ?_⟩ <;> simp only <;> omega
  · obtain ⟨m2, m3, s1, s2, s3⟩ := store_run (src := [x]) (Did.refl h hs hS)
      (by simp only [List.length_singleton]; omega)
    refine ⟨m3, o, _, ?_, s3, by simp only; omega, ⟨Or.inl rfl, Nat.le_refl _⟩⟩
    unfold appendChar
    rw [rdStr_some hnz hS.ss]
    simp only [Res.ok_bind, hw, if_neg (show ¬ z.pos + 1 > z.sizeOf by omega), Res.pure_eq]
    rw [rdStr_some hnz hS.ss]
    simp only [Res.ok_bind, hw, List.length_singleton] at s1 s2 ⊢
    rw [s1]
    simp only [Res.ok_bind]
    exact s2

theorem srun_inv [Sensible] {E : Env} (hE : Sound E) (hP : Plenty E) {fuel s init : Nat} (hfuel : 33 ≤ fuel) :
    ∀ (ops : List SOp) {m : Mem} {o : Own} {z : SStr} {c : Bytes} (B P : Nat), Good m o →
      Sep m.live → SOK m o s z c → o.req ≤ B + 2 * z.sizeOf →
      (z.sizeOf ≤ init ∨ z.sizeOf ≤ delta * P) → peak c ops ≤ P →
      Room (B + 2 * init + 2 * (delta * P) + othersOf ops) →
      ∃ m' o' z', srun E fuel o.a s m ops = .ok m' ∧ Did m m' o o' s z z' (textOf c ops)
  | [], m, o, z, c, B, P, h, hs, hS, _, _, _, _ => ⟨m, o, z, rfl, Did.refl h hs hS⟩
  | op :: r, m, o, z, c, B, P, h, hs, hS, hr, hz, hp, hb => by
    have hc : c.length ≤ P := Nat.le_trans (Nat.le_max_left ..) hp
    have hp' : peak (op.text c) r ≤ P := Nat.le_trans (Nat.le_max_right ..) hp
    have hc' : (op.text c).length ≤ P := Nat.le_trans (le_peak ..) hp'
    have step : ∃ m1 o1 z1 B1, sstep E fuel o.a s m op = .ok m1 ∧ Did m m1 o o1 s z z1 (op.text c) ∧
        o1.req ≤ B1 + 2 * z1.sizeOf ∧ (z1.sizeOf ≤ init ∨ z1.sizeOf ≤ delta * P) ∧
        Room (B1 + 2 * init + 2 * (delta * P) + othersOf r) := by
      cases op with
      | app src =>
        simp only [SOp.text, List.length_append] at hc'
        simp only [othersOf] at hb
        have hm := Nat.mul_le_mul_left delta hc'
        obtain ⟨m1, o1, z1, e1, e2, e3, e4⟩ := append_run hE hP (B := B) src h hs hS hfuel hr
          (hb.mono (by omega))
        exact ⟨m1, o1, z1, B, e1, e2, e3, by omega, hb⟩
      | chr x =>
        simp only [SOp.text, List.length_append, List.length_singleton] at hc'
        simp only [othersOf] at hb
        have hm := Nat.mul_le_mul_left delta hc'
        obtain ⟨m1, o1, z1, e1, e2, e3, e4, _⟩ := appendChar_run hE hP (B := B) x h hs hS hfuel hr
          (hb.mono (by omega))
        exact ⟨m1, o1, z1, B, e1, e2, e3, by omega, hb⟩
      | reset =>
        simp only [othersOf] at hb
        obtain ⟨m1, e1, e2⟩ := wrStr_did (pos := 0) (c' := []) (Did.refl h hs hS) rfl (by omega)
          (by intro i hi; simp at hi)
        refine ⟨m1, o, _, B, ?_, e2, hr, hz, hb⟩
        simp only [sstep, Alloc.reset]
        rw [rdStr_some (hS.nz h hs) hS.ss]
        exact e1
      | other n =>
        simp only [othersOf] at hb
        obtain ⟨p, m1, o1, e1, e2, e3, e4⟩ := alloc_str hE hP (size := n) h hs hS
          (by omega : 33 ≤ fuel) (hb.mono (by omega))
        refine ⟨m1, o1, z, B + n, ?_, e2, ?_, hz, hb.mono (by omega)⟩
        · simp only [sstep]; rw [e1]; rfl
        · simp only [Own.req, e3, List.map_cons, List.sum_cons] at hr ⊢
          omega
    obtain ⟨m1, o1, z1, B1, e1, e2, e3, e4, e5⟩ := step
    obtain ⟨m2, o2, z2, f1, f2⟩ := srun_inv hE hP hfuel r B1 P e2.good e2.sep e2.str e3 e4 hp' e5
    refine ⟨m2, o2, z2, ?_, e2.trans f2⟩
    simp only [srun]
    rw [e1]
    simp only [Res.ok_bind]
    rw [← e2.a]
    exact f1

/-- What the C program finds in a string. -/
def readStr (m : Mem) (s : Nat) : Res Bytes := do
  let z ← rdStr m s
  peek m z.data z.pos

/-- In any program state, a new string with any sequence of operations (growing its
buffer as often as needed, with other requests in between): nothing undefined
happens, the content is exactly the text, and no byte of any other block changes.
Restricted to 32 bits: `init` is the initial capacity, `peak` the longest text. -/
theorem C41_exact_partial [Sensible] {E : Env} (hE : Sound E) (hP : Plenty E) {fuel : Nat} (hfuel : 33 ≤ fuel)
    {prog : List Op} (hf : Fine E fuel World.init prog) :
    ∃ w, run E fuel World.init prog = .ok w ∧
      ∀ h ∈ w.hs, ∀ init, 0 < init → ∀ ops : List SOp,
        Room (h.asked + 24 + 3 * init + 2 * (delta * peak [] ops) + othersOf ops) →
        ∃ s m1 m2, newString E fuel w.m h.a init = .ok (s, m1) ∧
          srun E fuel h.a s m1 ops = .ok m2 ∧ readStr m2 s = .ok (textOf [] ops) ∧
          ∀ x ∈ w.hs.flatMap Hand.blocks ++ w.user, SameBytes w.m m2 x := by
  obtain ⟨w, os, e, h⟩ := reach_inv hE hP (show 33 ≤ fuel by omega) hf
  refine ⟨w, e, ?_⟩
  intro x hx init hi ops hb
  rw [h.hs] at hx
  obtain ⟨o, ho, rfl⟩ := List.mem_map.1 hx
  have hreq : o.hand.asked = o.req := rfl
  rw [hreq] at hb
  have hG := h.good o ho
  obtain ⟨s, m1, o1, z, a1, a2, a3, a4, a5, a6, a7, a8⟩ := newString_run hE hP (init := init) hG h.sep
    (by omega : 33 ≤ fuel) (hb.mono (by omega)) hi
  obtain ⟨m2, o2, z2, b1, b2⟩ := srun_inv hE hP (init := init) hfuel ops (24 + init + o.req)
    (peak [] ops) a2 a3 a4 (by omega) (Or.inl (by omega)) (Nat.le_refl _) (hb.mono (by omega))
  refine ⟨s, m1, m2, a1, by rw [a6] at b1; exact b1, ?_, ?_⟩
  · unfold readStr
    rw [rdStr_some (b2.str.nz b2.good b2.sep) b2.str.ss]
    simp only [Res.ok_bind]
    obtain ⟨b, hbm, hw⟩ := b2.str.area
    obtain ⟨d, hd, hwd⟩ := b2.good.block_live hbm hw
    rw [b2.str.len]
    refine peek_run hd (Within.trans ?_ hwd) b2.str.bytes
    have := b2.str.len
    have := b2.str.le
    simp only [Within]; omega
  · intro y hy
    have hcase : y ∈ o.blocks ∨ ∃ c ∈ w.m.live, Within y c ∧ ∀ d ∈ o.mem, Disj y d := by
      obtain ⟨l, r, hlr⟩ := List.append_of_mem ho
      have h' : WInv w (l ++ o :: r) := by rw [← hlr]; exact h
      rcases List.mem_append.1 hy with hy | hy
      · obtain ⟨u, hu, hyu⟩ := List.mem_flatMap.1 hy
        rw [h.hs, hlr] at hu
        obtain ⟨o', ho', rfl⟩ := List.mem_map.1 hu
        have hom : o' ∈ os := by rw [hlr]; exact ho'
        have : o' = o ∨ o' ∈ l ++ r := by
          simp at ho' ⊢
          rcases ho' with h | h | h
          · exact Or.inr (Or.inl h)
          · exact Or.inl h
          · exact Or.inr (Or.inr h)
        rcases this with rfl | ho2
        · exact Or.inl hyu
        · obtain ⟨c, hc, hw⟩ := (h.good o' hom).block_in hyu
          exact Or.inr ⟨c, h.mem_live hom hc, hw, fun d hd => (h'.apart o' ho2 c hc d hd).sub hw⟩
      · refine Or.inr ⟨y, h.live.mem_iff.2 (List.mem_append_right _ hy), by simp [Within], ?_⟩
        intro d hd
        exact ((List.pairwise_append.1 h.pair).2.2 d (List.mem_flatMap.2 ⟨o, ho, hd⟩) y hy).symm
    obtain ⟨h1, h2⟩ := a8 y hcase
    exact h1.trans (b2.keep y h2).1

end

section
attribute [local instance] Knobs.default Knobs.default_sensible

example : (match run bump 40 World.init [.new, .alloc 0 3] with
    | .ok w => match w.hs with
      | [h] => match newString bump 40 w.m h.a 4 with
        | .ok (s, m) =>
          match srun bump 40 h.a s m [.app [1, 2, 3], .chr 4, .other 9, .app [5, 6, 7, 8, 9, 10], .chr 0] with
          | .ok m => readStr m s
          | _ => .timeout
        | _ => .timeout
      | _ => .timeout
    | _ => .timeout) = .ok [1, 2, 3, 4, 5, 6, 7, 8, 9, 10, 0] := by decide +kernel

/-- Beyond 32 bits: after one character, appending 2^32 - 1 bytes is not noticed as
too long, and the copy runs over the end of the buffer. -/
theorem C41_false {E : Env} (hE : Sound E) (hP : Plenty E) {fuel : Nat} (hfuel : 33 ≤ fuel)
    {src : Bytes} (hsrc : src.length = 4294967295) :
    ∃ a s m0 m1, newAllocator E Mem.init = .ok (a, m0) ∧ newString E fuel m0 a 1024 = .ok (s, m1) ∧
      srun E fuel a s m1 [.chr 1, .app src] = .ub .oob := by
  obtain ⟨p, hp⟩ := Option.isSome_iff_exists.1 (hP Mem.init.calls Mem.init.live 4136)
  obtain ⟨m0, e1, e2, e3, e4, e5, e6⟩ := newAllocator_run hE WInv.init.sep hp
  obtain ⟨s, m1, o1, z, a1, a2, a3, a4, a5, a6, a7, a8⟩ := newString_run hE hP (init := 1024) e5 e3
    (by omega : 33 ≤ fuel) (Room.default (by simp [Own.req, Own.fresh])) (by omega)
  have hr0 : (Own.fresh p).req = 0 := rfl
  obtain ⟨m2, o2, z2, b1, b2, b3, b4, b5⟩ := appendChar_run hE hP (B := 1048) 1 a2 a3 a4 hfuel (by omega)
    (Room.default (by decide))
  refine ⟨p, s, m0, m1, e1, a1, ?_⟩
  simp only [srun, sstep]
  rw [b1]
  simp only [Res.ok_bind]
  have hlen := b2.str.len
  have hpos1 : z2.pos = 1 := by rw [hlen]; rfl
  have hnz := b2.str.nz b2.good b2.sep
  have hw : w32 (z2.pos + src.length) = 0 := by
    rw [hpos1, hsrc]
    rfl
  have hpk : poke m2 (z2.data + z2.pos) src = .ub .oob := by
    unfold poke
    rw [if_neg (by intro h; rw [h] at hsrc; simp at hsrc)]
    rw [if_neg]
    intro hin
    simp only [inLive, List.any_eq_true, Bool.and_eq_true, decide_eq_true_eq] at hin
    obtain ⟨b, hb, h1, h2⟩ := hin
    obtain ⟨ba, hba, hwa⟩ := b2.str.area
    obtain ⟨c, hc, hw⟩ := b2.good.block_in hba
    have hcl := b2.good.live c hc
    -- the only block that contains the address
    have heq : b = c := by
      have key : ∀ l : List Block, l.Pairwise Disj → ∀ b ∈ l, ∀ c ∈ l, b = c ∨ Disj b c := by
        intro l hl
        induction hl with
        | nil => intro b hb; cases hb
        | cons hx _ ih =>
          intro b hb c hc
          rcases List.mem_cons.1 hb with e1 | hb1
          · rcases List.mem_cons.1 hc with e2 | hc1
            · exact Or.inl (e1.trans e2.symm)
            · exact Or.inr (e1 ▸ hx _ hc1)
          · rcases List.mem_cons.1 hc with e2 | hc1
            · exact Or.inr (e2 ▸ (hx _ hb1).symm)
            · exact ih b hb1 c hc1
      rcases key _ b2.sep.pair b hb c hcl with h | h
      · exact h
      · exfalso
        have hwc := hwa.trans hw
        simp only [Within, Disj] at hwc h
        have := b2.str.le
        have := b2.str.pos
        omega
    subst heq
    have hcap : b.2 < 4294967295 := by
      have hheld := b2.good.lay.held
      have hmem : b.2 ≤ (o2.mem.map (·.2)).sum := by
        have : ∀ l : List Block, b ∈ l → b.2 ≤ (l.map (·.2)).sum := by
          intro l
          induction l with
          | nil => intro h; cases h
          | cons x r ih =>
            intro h
            simp only [List.map_cons, List.sum_cons]
            rcases List.mem_cons.1 h with rfl | h
            · omega
            · have := ih h; omega
        exact this _ hc
      simp only [List.length_nil] at b4
      rw [C40_default] at hheld
      have hd : (delta : Nat) = 2 := rfl
      omega
    omega
  have hap : appendStr E fuel m2 s src = .ub .oob := by
    unfold appendStr
    rw [rdStr_some hnz b2.str.ss]
    simp only [Res.ok_bind, hw, if_neg (show ¬ 0 > z2.sizeOf by omega), Res.pure_eq]
    rw [rdStr_some hnz b2.str.ss]
    simp only [Res.ok_bind]
    rw [hpk]
    rfl
  rw [hap]
  rfl

end

section
variable [Knobs]

/-- The capacity computed with 32-bit arithmetic is the one of the abstract model
`Verif/Heap.lean` as long as `delta` times the length fits in 32 bits. -/
theorem C41_growth_agrees {need : Nat} (hn : delta * need ≤ 4294967296) : ∀ (fuel s : Nat),
    growTo fuel s need = growLoop delta fuel s need
  | 0, _ => rfl
  | fuel + 1, s => by
    unfold growTo growLoop
    by_cases h : need > s
    · rw [if_pos h, if_pos h]
      have : w32 (s * delta) = s * delta := by
        rcases Nat.eq_zero_or_pos delta with h0 | h0
        · rw [h0]; rfl
        · have : s * delta < delta * need := by
            rw [Nat.mul_comm]; exact Nat.mul_lt_mul_of_pos_left h h0
          exact Nat.mod_eq_of_lt (by omega)
      rw [this]
      exact C41_growth_agrees hn fuel (s * delta)
    · rw [if_neg h, if_neg h]

end

end ZJ.Alloc
